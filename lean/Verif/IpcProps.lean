import Verif.Ipc
import Verif.ConnProps
namespace Verif.Ipc
open Conn

/-! ## Specification -/

/-- A message: its type and its bytes. -/
structure Msg where
  type : Nat
  body : List Byte
deriving DecidableEq, Repr

/-- Types are u32, and the length written, which counts the type, is a u32. -/
def Msg.Ok (m : Msg) : Prop := m.type < 2 ^ 32 ∧ 4 + m.body.length < 2 ^ 32

/-- What a message looks like on the socket (the comment in lines 507-510). -/
def Msg.frame (m : Msg) : List Byte := le32 (4 + m.body.length) ++ le32 m.type ++ m.body

def frames (ms : List Msg) : List Byte := ms.flatMap Msg.frame

/-- The calls due for messages: the handler of the type, if there is one. -/
def due (tree : Tree) (ms : List Msg) : List Call :=
  ms.flatMap fun m =>
    match find tree m.type with
    | some (some h) => [{ handler := h, type := m.type, body := m.body, len := m.body.length }]
    | _ => []

/-- The outcomes of recv for a wakeup in which these pieces arrive. -/
def arrive (chunks : List (List Byte)) : List (Bool × Rv) :=
  chunks.map (fun c => (true, .data c)) ++ [(true, .eagain)]

/-! ## Numbers -/

theorem ofLe_le32 {n} (h : n < 2 ^ 32) : ofLe (le32 n) = n := by
  simp only [le32, ofLe, BitVec.toNat_ofNat]
  omega

theorem le32_length (n) : (le32 n).length = 4 := rfl

/-! ## The queue as bytes -/

theorem enough_iff (len) : ∀ q size, 0 < len - size →
    (enough len size q = true ↔ len ≤ size + (bytes q).length) := by
  intro q
  induction q with
  | nil => intro size h; simp [enough, bytes]; omega
  | cons a q ih =>
    intro size h
    cases a with
    | none => rw [enough, ih _ h, bytes_none]
    | some b =>
      rw [enough, bytes_some, List.length_append]
      split
      · simp; omega
      · rw [ih _ (by omega)]; omega

theorem takeBuf_spec : ∀ q len, 0 < len → len ≤ (bytes q).length →
    (takeBuf len q).1 = (bytes q).take len ∧ bytes (takeBuf len q).2 = (bytes q).drop len := by
  intro q
  induction q with
  | nil => intro len h h'; simp [bytes] at h'; omega
  | cons a q ih =>
    intro len h h'
    cases a with
    | none => rw [takeBuf, bytes_none]; exact ih _ h (by rwa [bytes_none] at h')
    | some b =>
      rw [bytes_some, List.length_append] at h'
      rw [takeBuf, bytes_some]
      split
      · rw [List.take_append_of_le_length (by omega), List.drop_append_of_le_length (by omega)]
        exact ⟨rfl, rfl⟩
      · split
        · have : len = b.left.length := by omega
          subst this
          simp
        · obtain ⟨h1, h2⟩ := ih (len - b.left.length) (by omega) (by omega)
          dsimp only
          have hb : b.left.length ≤ len := by omega
          rw [h1, h2, List.take_append, List.drop_append, List.take_of_length_le hb,
            List.drop_eq_nil_of_le hb]
          exact ⟨rfl, rfl⟩

/-- Too few bytes: nothing is taken. -/
theorem getBuf_none {len q} (h : 0 < len) (h' : (bytes q).length < len) : getBuf len q = none := by
  rw [getBuf, if_neg]
  rw [enough_iff len q 0 (by omega)]
  omega

theorem getBuf_some {len q} (h : 0 < len) (h' : len ≤ (bytes q).length) :
    ∃ q', getBuf len q = some ((bytes q).take len, q') ∧ bytes q' = (bytes q).drop len := by
  obtain ⟨h1, h2⟩ := takeBuf_spec q len h h'
  refine ⟨_, ?_, h2⟩
  rw [getBuf, if_pos ((enough_iff len q 0 (by omega)).2 (by omega)), ← h1]

/-! ## Messages received -/

/-- What has arrived and is not delivered yet. -/
def pend (s : St) : List Byte := (if s.inLen then le32 s.len else []) ++ bytes s.t.rcv

/-- Between wakeups. -/
structure Inv (s : St) : Prop where
  err : s.err = 0
  len : s.inLen = true → 4 ≤ s.len ∧ s.len < 2 ^ 32
  have_ : s.have_ = true → s.inLen = true
  mems : ∀ b ∈ s.mems, b = true

theorem frame_length (m : Msg) : m.frame.length = 8 + m.body.length := by
  simp [Msg.frame, le32_length]; omega

/-- The state after the length is known. -/
theorem idle_length {s m r} (hi : Inv s) (hm : Msg.Ok m) (h : pend s = m.frame ++ r) :
    ∃ s1, idleState s = some s1 ∧ s1.inLen = true ∧ s1.len = 4 + m.body.length ∧
      bytes s1.t.rcv = le32 m.type ++ m.body ++ r ∧ s1.err = 0 ∧ s1.mems = s.mems ∧ s1.calls = s.calls ∧ s1.t.snd = s.t.snd := by
  obtain ⟨h1, h2⟩ := hm
  unfold pend at h
  by_cases hl : s.inLen = true
  · rw [if_pos hl, Msg.frame, List.append_assoc, List.append_assoc] at h
    obtain ⟨h3, h4⟩ := List.append_inj h rfl
    refine ⟨s, by rw [idleState, if_pos hl], hl, ?_, by simpa using h4, hi.err, rfl, rfl, rfl⟩
    rw [← ofLe_le32 (hi.len hl).2, h3, ofLe_le32 h2]
  · rw [if_neg hl, List.nil_append, Msg.frame, List.append_assoc, List.append_assoc] at h
    obtain ⟨q, h3, h4⟩ := getBuf_some (len := 4) (q := s.t.rcv) (by omega) (by rw [h]; simp [le32_length])
    rw [idleState, if_neg hl, h3]
    refine ⟨_, rfl, rfl, ?_, ?_, hi.err, rfl, rfl, rfl⟩
    · show ofLe _ = _
      rw [h]
      exact ofLe_le32 h2
    · show bytes q = _
      rw [h4, h]
      simp [le32]

theorem memok {s : St} (h : ∀ b ∈ s.mems, b = true) : (s.have_ || s.mems.headD true) = true := by
  cases hm : s.mems with
  | nil => simp
  | cons a l => simp [h a (by rw [hm]; simp)]

theorem memok' {s : St} (h : ∀ b ∈ s.mems, b = true) :
    ∀ b ∈ (if s.have_ then s.mems else s.mems.tail), b = true := by
  intro b hb
  split at hb
  · exact h b hb
  · exact h b (List.mem_of_mem_tail hb)

/-- One whole message is delivered. -/
theorem process_one {tree s m r} (hi : Inv s) (hm : Msg.Ok m) (h : pend s = m.frame ++ r) :
    ∃ s', (∀ n, process tree (n + 1) s = process tree n s') ∧ Inv s' ∧ pend s' = r ∧
      s'.calls = s.calls ++ due tree [m] := by
  obtain ⟨s1, h1, h2, h3, h4, h5, h6, h7, -⟩ := idle_length hi hm h
  obtain ⟨q, h8, h9⟩ := getBuf_some (len := s1.len) (q := s1.t.rcv) (by omega)
    (by rw [h4, h3]; simp [le32_length])
  have e1 : (bytes s1.t.rcv).take s1.len = le32 m.type ++ m.body := by
    rw [h4, h3, List.take_left' (by simp [le32_length])]
  have e2 : bytes q = r := by
    rw [h9, h4, h3, List.drop_left' (by simp [le32_length])]
  have hmem : ∀ b ∈ s1.mems, b = true := by rw [h6]; exact hi.mems
  have e3 : ofLe ((le32 m.type ++ m.body).take 4) = m.type := ofLe_le32 hm.1
  have e4 : (le32 m.type ++ m.body).drop 4 = m.body := rfl
  have key : lengthState tree s1 = .next { s1 with
      t := { s1.t with rcv := q }, mems := if s1.have_ then s1.mems else s1.mems.tail, inLen := false,
      have_ := false, calls := s1.calls ++ due tree [m] } := by
    rw [lengthState]
    dsimp only
    rw [memok hmem, if_neg (by simp), h8]
    dsimp only
    rw [if_neg (by omega), e1, e3, e4]
    congr 3
    rw [due, List.flatMap_singleton, h3]
    simp only [Nat.add_sub_cancel_left]
    cases find tree m.type with
    | none => rfl
    | some o => cases o <;> rfl
  refine ⟨{ s1 with
      t := { s1.t with rcv := q }, mems := if s1.have_ then s1.mems else s1.mems.tail, inLen := false,
      have_ := false, calls := s1.calls ++ due tree [m] }, fun n => ?_, ?_, ?_, ?_⟩
  · rw [process, if_neg (by simp [hi.err]), h1]
    dsimp only
    rw [key]
  · exact ⟨h5, by simp, by simp, memok' hmem⟩
  · simpa [pend] using e2
  · simp [h7]

/-- A part of a message is kept. -/
theorem process_part {tree s m} (hi : Inv s) (hm : Msg.Ok m) (h : pend s <+: m.frame)
    (hl : (pend s).length < m.frame.length) :
    ∃ s', (∀ n, process tree (n + 1) s = .done s') ∧ Inv s' ∧ pend s' = pend s ∧ s'.calls = s.calls := by
  obtain ⟨h1, h2⟩ := hm
  have wait : ∀ s1 : St, s1.inLen = true → s1.len = 4 + m.body.length → bytes s1.t.rcv <+: le32 m.type ++ m.body →
      (bytes s1.t.rcv).length < 4 + m.body.length → (∀ b ∈ s1.mems, b = true) →
      lengthState tree s1 = .wait { s1 with mems := if s1.have_ then s1.mems else s1.mems.tail, have_ := true } := by
    intro s1 _ k2 _ k4 k5
    rw [lengthState]
    dsimp only
    rw [memok k5, if_neg (by simp), getBuf_none (by omega) (by omega)]
  by_cases hn : s.inLen = true
  · have hp : pend s = le32 s.len ++ bytes s.t.rcv := by rw [pend, if_pos hn]
    rw [hp] at h hl
    rw [Msg.frame, List.append_assoc] at h
    obtain ⟨r, hr⟩ := h
    rw [List.append_assoc] at hr
    obtain ⟨h3, h4⟩ := List.append_inj (s₁ := le32 s.len) hr rfl
    have h5 : s.len = 4 + m.body.length := by
      rw [← ofLe_le32 (hi.len hn).2, h3, ofLe_le32 h2]
    have h6 := wait s hn h5 ⟨r, h4⟩ (by
      rw [frame_length, List.length_append, le32_length] at hl; omega) hi.mems
    refine ⟨{ s with mems := if s.have_ then s.mems else s.mems.tail, have_ := true }, fun n => ?_, ?_, ?_, ?_⟩
    · rw [process, if_neg (by simp [hi.err]), idleState, if_pos hn]
      dsimp only
      rw [h6]
    · exact ⟨hi.err, hi.len, fun _ => hn, memok' hi.mems⟩
    · rfl
    · rfl
  · have hp : pend s = bytes s.t.rcv := by rw [pend, if_neg hn, List.nil_append]
    by_cases h4 : (bytes s.t.rcv).length < 4
    · refine ⟨s, fun n => ?_, hi, rfl, rfl⟩
      rw [process, if_neg (by simp [hi.err]), idleState, if_neg hn, getBuf_none (by omega) h4]
      rfl
    · obtain ⟨q, k1, k2⟩ := getBuf_some (len := 4) (q := s.t.rcv) (by omega) (by omega)
      rw [hp] at h
      obtain ⟨r, hr⟩ := h
      have e0 : (bytes s.t.rcv).take 4 = le32 (4 + m.body.length) := by
        have := congrArg (List.take 4) hr
        rw [List.take_append_of_le_length (by omega)] at this
        rw [this]; rfl
      have e1 : bytes s.t.rcv = le32 (4 + m.body.length) ++ bytes q := by
        rw [k2, ← e0, List.take_append_drop]
      rw [e1, List.append_assoc, Msg.frame, List.append_assoc] at hr
      obtain ⟨-, hr⟩ := List.append_inj hr rfl
      let s1 : St := { s with t := { s.t with rcv := q }, len := ofLe ((bytes s.t.rcv).take 4), inLen := true }
      have hs1 : s1.len = 4 + m.body.length := by show ofLe _ = _; rw [e0, ofLe_le32 h2]
      have h6 := wait s1 rfl hs1 ⟨r, hr⟩ (by
        show (bytes q).length < _
        rw [hp, e1, frame_length, List.length_append, le32_length] at hl; omega) hi.mems
      refine ⟨{ s1 with mems := if s1.have_ then s1.mems else s1.mems.tail, have_ := true }, fun n => ?_, ?_, ?_, ?_⟩
      · rw [process, if_neg (by simp [hi.err]), idleState, if_neg hn, k1]
        show (match lengthState tree s1 with
          | .wait s => Out.done s
          | .bad => .bad
          | .next s => process tree n s) = _
        rw [h6]
      · exact ⟨hi.err, fun _ => by show 4 ≤ s1.len ∧ s1.len < _; omega, fun _ => rfl, memok' (s := s1) hi.mems⟩
      · show (if true = true then le32 s1.len else []) ++ bytes q = _
        rw [if_pos rfl, hs1, hp, e1]
      · rfl

/-- Nothing has arrived. -/
theorem process_nil {tree s} (hi : Inv s) (h : pend s = []) : ∀ n, process tree (n + 1) s = .done s := by
  intro n
  unfold pend at h
  have hn : ¬ s.inLen = true := by
    intro hn
    rw [if_pos hn] at h
    cases h
  rw [if_neg hn, List.nil_append] at h
  rw [process, if_neg (by simp [hi.err]), idleState, if_neg hn, getBuf_none (by omega) (by rw [h]; simp)]
  rfl

theorem frames_cons (m ms) : frames (m :: ms) = m.frame ++ frames ms := rfl
theorem due_cons (tree m ms) : due tree (m :: ms) = due tree [m] ++ due tree ms := by simp [due]
theorem due_append (tree ms ns) : due tree (ms ++ ns) = due tree ms ++ due tree ns := by simp [due]

/-- All messages that are there are delivered, in order, and the part of the next one is kept. -/
theorem process_frames (tree) : ∀ ms s, Inv s → (∀ m ∈ ms, Msg.Ok m) → pend s <+: frames ms →
    ∃ s' k, (∀ n, process tree (ms.length + 1 + n) s = .done s') ∧ Inv s' ∧ k ≤ ms.length ∧
      pend s = frames (ms.take k) ++ pend s' ∧ s'.calls = s.calls ++ due tree (ms.take k) ∧
      pend s' <+: frames (ms.drop k) ∧
      (∀ m, (ms.drop k).head? = some m → (pend s').length < m.frame.length) := by
  intro ms
  induction ms with
  | nil =>
    intro s hi _ h
    have h : pend s = [] := List.prefix_nil.1 h
    exact ⟨s, 0, fun n => by rw [show ([] : List Msg).length + 1 + n = n + 1 by simp [Nat.add_comm]]; exact process_nil hi h n,
      hi, Nat.le_refl _, by simp [frames], by simp [due], by simp [h, frames], by simp⟩
  | cons m ms ih =>
    intro s hi hm h
    rw [frames_cons] at h
    by_cases hl : (pend s).length < m.frame.length
    · obtain ⟨s', h1, h2, h3, h4⟩ := process_part (tree := tree) hi (hm m (by simp))
        (List.prefix_of_prefix_length_le h (List.prefix_append _ _) (by omega)) hl
      refine ⟨s', 0, fun n => ?_, h2, by omega, by simp [frames, h3], by simp [due, h4], ?_, ?_⟩
      · rw [show (m :: ms).length + 1 + n = (ms.length + 1 + n) + 1 by simp; omega]; exact h1 _
      · rw [h3]; exact h
      · intro x hx
        cases hx
        rw [h3]; exact hl
    · obtain ⟨r, hr⟩ := List.prefix_of_prefix_length_le (List.prefix_append m.frame (frames ms)) h (by omega)
      obtain ⟨s1, h1, h2, h3, h4⟩ := process_one (tree := tree) (r := r) hi (hm m (by simp)) hr.symm
      rw [← hr, List.prefix_append_right_inj, ← h3] at h
      obtain ⟨s', k, j1, j2, j3, j4, j5, j6, j7⟩ := ih s1 h2 (fun x hx => hm x (by simp [hx])) h
      refine ⟨s', k + 1, fun n => ?_, j2, by simp; omega, ?_, ?_, j6, j7⟩
      · rw [show (m :: ms).length + 1 + n = (ms.length + 1 + n) + 1 by simp; omega, h1, j1]
      · rw [List.take_succ_cons, frames_cons, List.append_assoc, ← j4, h3, hr]
      · rw [List.take_succ_cons, due_cons, ← List.append_assoc, j5, h4]

/-! ## Wakeups -/

theorem recv_arrive : ∀ (chunks : List (List Byte)) (t : Tcp),
    (∀ c ∈ chunks, c ≠ [] ∧ c.length ≤ 1024) →
    ∃ t', recv true false t (arrive chunks) = some (NOTYET, t', []) ∧
      bytes t'.rcv = bytes t.rcv ++ chunks.flatten := by
  intro chunks
  induction chunks with
  | nil => intro t _; exact ⟨t, rfl, by simp⟩
  | cons c cs ih =>
    intro t h
    obtain ⟨h1, h2⟩ := h c (by simp)
    obtain ⟨t', h3, h4⟩ := ih { t with rcv := t.rcv ++ [rcvNode false c] } (fun x hx => h x (by simp [hx]))
    refine ⟨t', ?_, ?_⟩
    · rw [arrive, List.map_cons, List.cons_append, recv, if_neg h1]
      exact h3
    · rw [h4]
      simp [bytes, rcvNode, List.take_of_length_le h2]

/-- Whatever the pieces and the wakeups in which a stream of messages arrives: the handlers are called
for the messages that have arrived as a whole, once each and in order, with their bytes. -/
theorem delivered (tree) : ∀ (ws : List (List (List Byte))) ms s, Inv s → (∀ m ∈ ms, Msg.Ok m) →
    (∀ w ∈ ws, ∀ c ∈ w, c ≠ [] ∧ c.length ≤ 1024) → pend s ++ ws.flatten.flatten <+: frames ms → ws ≠ [] →
    ∃ s' k, (∀ n, wakes tree (ms.length + 1 + n) s (ws.map arrive) = .done s') ∧ Inv s' ∧ k ≤ ms.length ∧
      pend s ++ ws.flatten.flatten = frames (ms.take k) ++ pend s' ∧
      s'.calls = s.calls ++ due tree (ms.take k) ∧
      (∀ m, (ms.drop k).head? = some m → (pend s').length < m.frame.length) := by
  intro ws
  induction ws with
  | nil => intro ms s _ _ _ _ h; exact absurd rfl h
  | cons w ws ih =>
    intro ms s hi hm hc h _
    obtain ⟨t, r1, r2⟩ := recv_arrive w s.t (hc w (by simp))
    let s1 : St := { s with t := t }
    have p1 : pend s1 = pend s ++ w.flatten := by
      show (if s.inLen then le32 s.len else []) ++ bytes t.rcv = _
      rw [r2, pend, List.append_assoc]
    have i1 : Inv s1 := ⟨hi.err, hi.len, hi.have_, hi.mems⟩
    simp only [List.flatten_cons, List.flatten_append, ← List.append_assoc] at h ⊢
    rw [← p1] at h ⊢
    obtain ⟨s2, k, j1, j2, j3, j4, j5, j6, j7⟩ := process_frames tree ms s1 i1 hm
      ((List.prefix_append _ _).trans h)
    have hw : ∀ n, wake tree (ms.length + 1 + n) s (arrive w) = .done s2 := by
      intro n
      rw [wake, r1]
      show (if NOTYET = NOTYET then (match process tree (ms.length + 1 + n) s1 with
        | .done s => Wake.done s
        | .bad => .bad
        | .fuel => .fuel) else _) = _
      rw [if_pos rfl, j1]
    by_cases he : ws = []
    · subst he
      refine ⟨s2, k, fun n => ?_, j2, j3, by simpa using j4, j5, j7⟩
      rw [List.map_cons, wakes, hw]
      rfl
    · have h' : pend s2 ++ ws.flatten.flatten <+: frames (ms.drop k) := by
        have e : frames ms = frames (ms.take k) ++ frames (ms.drop k) := by
          conv => lhs; rw [← List.take_append_drop k ms]
          rw [frames, List.flatMap_append]; rfl
        rw [j4, List.append_assoc, e, List.prefix_append_right_inj] at h
        exact h
      obtain ⟨s3, k', l1, l2, l3, l4, l5, l6⟩ := ih (ms.drop k) s2 j2 (fun m hx => hm m (List.mem_of_mem_drop hx))
        (fun w hw => hc w (by simp [hw])) h' he
      have e : ms.take (k + k') = ms.take k ++ (ms.drop k).take k' := by rw [List.take_add]
      refine ⟨s3, k + k', fun n => ?_, l2, ?_, ?_, ?_, ?_⟩
      · rw [List.map_cons, wakes, hw]
        dsimp only
        have := l1 (n + k)
        rw [List.length_drop] at this
        rw [← this]
        congr 1
        omega
      · rw [List.length_drop] at l3; omega
      · rw [j4, List.append_assoc, l4, e]
        simp [frames]
      · rw [l5, j5, e, due_append, List.append_assoc]
      · rw [List.drop_drop] at l6
        exact l6

/-- From the start: once the last byte has arrived, every message has been delivered. -/
theorem delivered_all (tree) (ws : List (List (List Byte))) (ms : List Msg) (hm : ∀ m ∈ ms, Msg.Ok m)
    (hc : ∀ w ∈ ws, ∀ c ∈ w, c ≠ [] ∧ c.length ≤ 1024) (h : ws.flatten.flatten = frames ms) (hn : ws ≠ []) :
    ∃ s', (∀ n, wakes tree (ms.length + 1 + n) {} (ws.map arrive) = .done s') ∧ s'.calls = due tree ms := by
  have e : pend {} = [] := rfl
  obtain ⟨s', k, h1, h2, h3, h4, h5, h6⟩ := delivered tree ws ms {} ⟨rfl, by simp, by simp, by simp⟩ hm hc
    (by rw [e, h]; exact List.prefix_rfl) hn
  refine ⟨s', h1, ?_⟩
  rw [h5]
  rw [e, h, List.nil_append] at h4
  have e : frames ms = frames (ms.take k) ++ frames (ms.drop k) := by
    conv => lhs; rw [← List.take_append_drop k ms]
    rw [frames, List.flatMap_append]; rfl
  rw [e] at h4
  have h4 := (List.append_cancel_left h4).symm
  cases hd : ms.drop k with
  | nil =>
    have : ms.take k = ms := List.take_of_length_le (List.drop_eq_nil_iff.1 hd)
    rw [this]; rfl
  | cons m l =>
    have := h6 m (by rw [hd]; rfl)
    rw [h4, hd, frames_cons, List.length_append] at this
    omega

/-! ## A message that is gone at once -/

/-- A worker that ends right after sending: whatever arrived in the same wakeup as the end of the
connection is never looked at. -/
theorem lost_at_close (tree fuel) (s : St) : ∀ (chunks : List (List Byte)),
    (∀ c ∈ chunks, c ≠ [] ∧ c.length ≤ 1024) →
    ∃ s', wake tree fuel s (chunks.map (fun c => (true, .data c)) ++ [(true, .closed)]) = .gone s' ∧
      s'.calls = s.calls ∧ bytes s'.t.rcv = bytes s.t.rcv ++ chunks.flatten := by
  have key : ∀ (chunks : List (List Byte)) (t : Tcp), (∀ c ∈ chunks, c ≠ [] ∧ c.length ≤ 1024) →
      ∃ t', recv true false t (chunks.map (fun c => (true, .data c)) ++ [(true, .closed)]) =
        some (CLOSED, t', []) ∧ bytes t'.rcv = bytes t.rcv ++ chunks.flatten := by
    intro chunks
    induction chunks with
    | nil => intro t _; exact ⟨t, rfl, by simp⟩
    | cons c cs ih =>
      intro t h
      obtain ⟨h1, h2⟩ := h c (by simp)
      obtain ⟨t', h3, h4⟩ := ih { t with rcv := t.rcv ++ [rcvNode false c] } (fun x hx => h x (by simp [hx]))
      refine ⟨t', ?_, ?_⟩
      · rw [List.map_cons, List.cons_append, recv, if_neg h1]
        exact h3
      · rw [h4]
        simp [bytes, rcvNode, List.take_of_length_le h2]
  intro chunks h
  obtain ⟨t', h1, h2⟩ := key chunks s.t h
  refine ⟨{ s with t := t' }, ?_, rfl, h2⟩
  rw [wake, h1]
  rfl

/-! ## Without memory -/

theorem discard_all : ∀ q size, 0 < size → size ≤ (bytes q).length →
    (discard size q).1 = 0 ∧ bytes (discard size q).2 = (bytes q).drop size := by
  intro q
  induction q with
  | nil => intro size h h'; simp [bytes] at h'; omega
  | cons a q ih =>
    intro size h h'
    cases a with
    | none => rw [discard, bytes_none]; exact ih _ h (by rwa [bytes_none] at h')
    | some b =>
      rw [bytes_some, List.length_append] at h'
      rw [discard, bytes_some]
      split
      · rw [List.drop_append_of_le_length (by omega)]
        exact ⟨rfl, rfl⟩
      · split
        · have : size = b.left.length := by omega
          subst this
          simp
        · obtain ⟨h1, h2⟩ := ih (size - b.left.length) (by omega) (by omega)
          have hb : b.left.length ≤ size := by omega
          rw [h1, h2, List.drop_append, List.drop_eq_nil_of_le hb]
          exact ⟨rfl, rfl⟩

theorem discard_some : ∀ q size, (bytes q).length < size →
    discard size q = (size - (bytes q).length, []) := by
  intro q
  induction q with
  | nil => intro size _; simp [discard, bytes]
  | cons a q ih =>
    intro size h
    cases a with
    | none => rw [discard, bytes_none]; exact ih _ (by rwa [bytes_none] at h)
    | some b =>
      rw [bytes_some, List.length_append] at h ⊢
      rw [discard, if_neg (by omega), if_neg (by omega), ih _ (by omega)]
      congr 1
      omega

/-- The state at the start of a message. -/
structure Start (s : St) : Prop where
  err : s.err = 0
  inLen : s.inLen = false
  have_ : s.have_ = false

/-- A message for which there is no memory is dropped, if it has arrived as a whole; the messages
after it are delivered all the same. -/
theorem dropped (tree) : ∀ (ms : List (Msg × Bool)) s, Start s → s.mems = ms.map (·.2) →
    (∀ x ∈ ms, Msg.Ok x.1) → bytes s.t.rcv = frames (ms.map (·.1)) →
    ∃ s', (∀ n, process tree (2 * ms.length + 1 + n) s = .done s') ∧ Start s' ∧ bytes s'.t.rcv = [] ∧
      s'.calls = s.calls ++ due tree ((ms.filter (·.2)).map (·.1)) := by
  intro ms
  induction ms with
  | nil =>
    intro s hs hm _ hb
    refine ⟨s, fun n => ?_, hs, by simpa [frames] using hb, by simp [due]⟩
    rw [show 2 * ([] : List (Msg × Bool)).length + 1 + n = n + 1 by simp [Nat.add_comm]]
    exact process_nil ⟨hs.err, by simp [hs.inLen], by simp [hs.have_], by simp [hm]⟩
      (by rw [pend, if_neg (by simp [hs.inLen]), hb]; rfl) n
  | cons x ms ih =>
    intro s hs hm hok hb
    obtain ⟨m, ok⟩ := x
    have mok := hok (m, ok) (by simp)
    have hok' : ∀ x ∈ ms, Msg.Ok x.1 := fun x hx => hok x (by simp [hx])
    obtain ⟨m1, m2⟩ := mok
    have hb' : bytes s.t.rcv = le32 (4 + m.body.length) ++ ((le32 m.type ++ m.body) ++ frames (ms.map (·.1))) := by
      rw [hb, List.map_cons, frames_cons, Msg.frame]; simp
    obtain ⟨q, h3, h4⟩ := getBuf_some (len := 4) (q := s.t.rcv) (by omega) (by rw [hb']; simp [le32_length])
    have e0 : ofLe ((bytes s.t.rcv).take 4) = 4 + m.body.length := by rw [hb']; exact ofLe_le32 m2
    have e1 : bytes q = (le32 m.type ++ m.body) ++ frames (ms.map (·.1)) := by rw [h4, hb']; rfl
    let s1 : St := { s with t := { s.t with rcv := q }, len := ofLe ((bytes s.t.rcv).take 4), inLen := true }
    have hs1 : idleState s = some s1 := by
      rw [idleState, if_neg (by simp [hs.inLen]), h3]; rfl
    have hl1 : s1.len = 4 + m.body.length := e0
    have step : ∀ n, process tree (n + 1) s = (match lengthState tree s1 with
          | .wait s => Out.done s
          | .bad => .bad
          | .next s => process tree n s) := by
      intro n
      rw [process, if_neg (by simp [hs.err]), hs1]
      rfl
    have hmem : s1.mems = ok :: ms.map (·.2) := hm
    have hh : s1.have_ = false := hs.have_
    cases ok with
    | true =>
      obtain ⟨q', g1, g2⟩ := getBuf_some (len := s1.len) (q := q) (by omega) (by rw [e1, hl1]; simp [le32_length])
      have f1 : (bytes q).take s1.len = le32 m.type ++ m.body := by
        rw [e1, hl1, List.take_left' (by simp [le32_length])]
      have f2 : bytes q' = frames (ms.map (·.1)) := by
        rw [g2, e1, hl1, List.drop_left' (by simp [le32_length])]
      let s2 : St := { s1 with t := { s1.t with rcv := q' }, mems := ms.map (·.2), inLen := false,
                               have_ := false, calls := s.calls ++ due tree [m] }
      have key : lengthState tree s1 = .next s2 := by
        rw [lengthState, hmem, hh]
        dsimp only
        rw [if_neg (by simp), show s1.t.rcv = q from rfl, g1]
        dsimp only
        rw [if_neg (by omega), f1]
        simp only [s2]
        congr 3
        rw [show ofLe ((le32 m.type ++ m.body).take 4) = m.type from ofLe_le32 m1,
          show (le32 m.type ++ m.body).drop 4 = m.body from rfl, due, List.flatMap_singleton, hl1]
        simp only [Nat.add_sub_cancel_left]
        cases find tree m.type with
        | none => rfl
        | some o => cases o <;> rfl
      obtain ⟨s', i1, i2, i3, i4⟩ := ih s2 ⟨hs.err, rfl, rfl⟩ rfl hok' f2
      refine ⟨s', fun n => ?_, i2, i3, ?_⟩
      · rw [show 2 * ((m, true) :: ms).length + 1 + n = (2 * ms.length + 1 + (n + 1)) + 1 by simp; omega, step, key]
        exact i1 _
      · rw [i4]
        show (s.calls ++ due tree [m]) ++ _ = _
        rw [List.filter_cons_of_pos (by rfl), List.map_cons, due_cons tree m (List.map _ _), List.append_assoc]
    | false =>
      obtain ⟨g1, g2⟩ := discard_all q s1.len (by omega) (by rw [e1, hl1]; simp [le32_length])
      have f2 : bytes (discard s1.len q).2 = frames (ms.map (·.1)) := by
        rw [g2, e1, hl1, List.drop_left' (by simp [le32_length])]
      let s2 : St := { s1 with mems := ms.map (·.2), err := s1.len, inLen := false, have_ := false }
      have key : lengthState tree s1 = .next s2 := by
        rw [lengthState, hmem, hh]
        rfl
      let s3 : St := { s2 with err := 0, t := { s2.t with rcv := (discard s1.len q).2 } }
      have step2 : ∀ n, process tree (n + 1) s2 = process tree n s3 := by
        intro n
        rw [process, if_pos (by show s1.len ≠ 0; omega)]
        show process tree n { s2 with err := (discard s1.len q).1, t := { s2.t with rcv := (discard s1.len q).2 } } = _
        rw [g1]
      obtain ⟨s', i1, i2, i3, i4⟩ := ih s3 ⟨rfl, rfl, rfl⟩ rfl hok' f2
      refine ⟨s', fun n => ?_, i2, i3, ?_⟩
      · rw [show 2 * ((m, false) :: ms).length + 1 + n = (2 * ms.length + 1 + n) + 1 + 1 by simp; omega, step, key]
        dsimp only
        rw [step2]
        exact i1 _
      · rw [i4]
        rw [List.filter_cons_of_neg (by simp)]

/-- If a part of the message is still to come when there is no memory for it, the loop never ends. -/
theorem hangs {tree s} {len : Nat} {part : List Byte} (hs : Start s) (hm : s.mems.head? = some false)
    (hlen : len < 2 ^ 32) (hb : bytes s.t.rcv = le32 len ++ part) (hp : part.length < len) :
    ∀ n, process tree n s = .fuel := by
  obtain ⟨q, h3, h4⟩ := getBuf_some (len := 4) (q := s.t.rcv) (by omega) (by rw [hb]; simp [le32_length])
  have e0 : ofLe ((bytes s.t.rcv).take 4) = len := by rw [hb]; exact ofLe_le32 hlen
  have e1 : bytes q = part := by rw [h4, hb]; rfl
  have spin : ∀ n (s : St), s.err ≠ 0 → s.t.rcv = [] → process tree n s = .fuel := by
    intro n
    induction n with
    | zero => intro s _ _; rfl
    | succ n ih =>
      intro s h1 h2
      rw [process, if_pos h1, h2]
      exact ih _ h1 rfl
  intro n
  cases n with
  | zero => rfl
  | succ n =>
    rw [process, if_neg (by simp [hs.err]), idleState, if_neg (by simp [hs.inLen]), h3]
    dsimp only [Option.map_some]
    rw [lengthState]
    have hh : (s.have_ || s.mems.headD true) = false := by
      rw [hs.have_]
      cases hx : s.mems with
      | nil => rw [hx] at hm; cases hm
      | cons a l => rw [hx] at hm; cases hm; rfl
    dsimp only
    rw [hh, if_pos (by rfl)]
    dsimp only
    cases n with
    | zero => rfl
    | succ n =>
      rw [process]
      dsimp only
      rw [e0, if_pos (by omega), discard_some q len (by rw [e1]; exact hp), e1]
      exact spin _ _ (by show len - part.length ≠ 0; omega) rfl

/-! ## Lengths below four -/

theorem enough_any {len} : ∀ {q} size, size + (bytes q).length ≥ len → bytes q ≠ [] → enough len size q = true := by
  intro q
  induction q with
  | nil => intro size _ h; exact absurd rfl h
  | cons a q ih =>
    intro size h h'
    cases a with
    | none => rw [enough]; exact ih _ (by rwa [bytes_none] at h) (by rwa [bytes_none] at h')
    | some b =>
      rw [enough]
      split
      · rfl
      · rw [bytes_some, List.length_append] at h
        apply ih
        · omega
        · intro hc; rw [hc] at h; simp at h; omega

/-- A length that does not cover the type is not refused: the type is read past the end of the object
made for the message. -/
theorem short_bad {tree s} {len : Nat} {part : List Byte} {n : Nat} (hs : Start s) (hm : ∀ b ∈ s.mems, b = true)
    (hlen : len < 4) (hb : bytes s.t.rcv = le32 len ++ part) (hp : len ≤ part.length) (h0 : part ≠ []) :
    process tree (n + 1) s = .bad := by
  obtain ⟨q, h3, h4⟩ := getBuf_some (len := 4) (q := s.t.rcv) (by omega) (by rw [hb]; simp [le32_length])
  have e0 : ofLe ((bytes s.t.rcv).take 4) = len := by rw [hb]; exact ofLe_le32 (by omega)
  have e1 : bytes q = part := by rw [h4, hb]; rfl
  rw [process, if_neg (by simp [hs.err]), idleState, if_neg (by simp [hs.inLen]), h3]
  dsimp only [Option.map_some]
  rw [lengthState]
  dsimp only
  rw [memok hm, if_neg (by simp), e0, getBuf, if_pos (enough_any 0 (by rw [e1]; omega) (by rw [e1]; exact h0))]
  dsimp only
  rw [if_pos hlen]

/-- Streams in which every length covers the type. -/
inductive Covers : List Byte → Prop
  | short (bs) : bs.length < 4 → Covers bs
  | part (h rest) : h.length = 4 → 4 ≤ ofLe h → rest.length < ofLe h → Covers (h ++ rest)
  | whole (h body rest) : h.length = 4 → 4 ≤ ofLe h → body.length = ofLe h → Covers rest →
      Covers (h ++ (body ++ rest))

theorem le32_ofLe : ∀ {h : List Byte}, h.length = 4 → le32 (ofLe h) = h ∧ ofLe h < 2 ^ 32
  | [a, b, c, d], _ => by
    have ha := a.isLt
    have hb := b.isLt
    have hc := c.isLt
    have hd := d.isLt
    constructor
    · simp only [le32, ofLe]
      congr 1
      · apply BitVec.eq_of_toNat_eq; simp only [BitVec.toNat_ofNat]; omega
      congr 1
      · apply BitVec.eq_of_toNat_eq; simp only [BitVec.toNat_ofNat]; omega
      congr 1
      · apply BitVec.eq_of_toNat_eq; simp only [BitVec.toNat_ofNat]; omega
      congr 1
      · apply BitVec.eq_of_toNat_eq; simp only [BitVec.toNat_ofNat]; omega
    · simp only [ofLe]; omega

/-- A header and at least as many bytes as it tells are a message. -/
theorem is_frame {h body : List Byte} (h4 : h.length = 4) (hl : 4 ≤ ofLe h) (hb : body.length = ofLe h) :
    ∃ m, Msg.Ok m ∧ m.frame = h ++ body := by
  obtain ⟨e1, e2⟩ := le32_ofLe h4
  have ht : (body.take 4).length = 4 := by rw [List.length_take]; omega
  obtain ⟨e3, e4⟩ := le32_ofLe ht
  have hd : 4 + (body.drop 4).length = ofLe h := by rw [List.length_drop]; omega
  refine ⟨{ type := ofLe (body.take 4), body := body.drop 4 }, ⟨e4, by rw [hd]; exact e2⟩, ?_⟩
  rw [Msg.frame]
  dsimp only
  rw [hd, e1, e3, List.append_assoc, List.take_append_drop]

theorem is_part {h rest : List Byte} (h4 : h.length = 4) (hl : 4 ≤ ofLe h) (hr : rest.length < ofLe h) :
    ∃ m, Msg.Ok m ∧ h ++ rest <+: m.frame := by
  obtain ⟨m, h1, h2⟩ := is_frame (body := rest ++ List.replicate (ofLe h - rest.length) 0) h4 hl (by
    simp; omega)
  exact ⟨m, h1, by rw [h2, ← List.append_assoc]; exact List.prefix_append _ _⟩

theorem covers_frames {bs} (h : Covers bs) : ∃ ms, (∀ m ∈ ms, Msg.Ok m) ∧ bs <+: frames ms := by
  induction h with
  | short bs hb =>
    have key : ∃ e, (bs ++ e).length = 4 ∧ 4 ≤ ofLe (bs ++ e) := by
      refine ⟨List.replicate (3 - bs.length) 0 ++ [255], by simp; omega, ?_⟩
      match bs, hb with
      | [], _ => decide +kernel
      | [a], _ => simp [ofLe]
      | [a, b], _ => simp [ofLe]; omega
      | [a, b, c], _ => simp [ofLe]; omega
    obtain ⟨e, k1, k2⟩ := key
    obtain ⟨m, h1, h2⟩ := is_part (rest := []) k1 k2 (by simp; omega)
    refine ⟨[m], by simpa using h1, ?_⟩
    rw [List.append_nil] at h2
    simpa [frames] using (List.prefix_append bs e).trans h2
  | part h rest h4 hl hr =>
    obtain ⟨m, h1, h2⟩ := is_part h4 hl hr
    exact ⟨[m], by simpa using h1, by simpa [frames] using h2⟩
  | whole h body rest h4 hl hb _ ih =>
    obtain ⟨ms, k1, k2⟩ := ih
    obtain ⟨m, h1, h2⟩ := is_frame h4 hl hb
    refine ⟨m :: ms, by simp; exact ⟨h1, k1⟩, ?_⟩
    rw [frames_cons, h2, ← List.append_assoc, List.prefix_append_right_inj]
    exact k2

/-- As long as every length covers the type, whatever else arrives: nothing is read outside, and the
handler returns. -/
theorem safe_partial (tree) (ws : List (List (List Byte))) (hc : ∀ w ∈ ws, ∀ c ∈ w, c ≠ [] ∧ c.length ≤ 1024)
    (h : Covers ws.flatten.flatten) (hn : ws ≠ []) :
    ∃ N s', ∀ n, N ≤ n → wakes tree n {} (ws.map arrive) = .done s' := by
  obtain ⟨ms, k1, k2⟩ := covers_frames h
  obtain ⟨s', k, h1, -⟩ := delivered tree ws ms {} ⟨rfl, by simp, by simp, by simp⟩ k1 hc
    (by rw [show pend {} = [] from rfl]; exact k2) hn
  refine ⟨ms.length + 1, s', fun n hx => ?_⟩
  have := h1 (n - (ms.length + 1))
  rwa [show ms.length + 1 + (n - (ms.length + 1)) = n by omega] at this

/-! ## Messages sent -/

/-- What is queued is the message as it is to look; and a message that is too long is written past the
end of the buffer. -/
theorem prepare_ok {t : Tcp} {m : Msg} (h : Msg.Ok m) :
    ∃ t', sendPrepare t m.type m.body = some t' ∧ bytes t'.snd = bytes t.snd ++ m.frame ∧
      t'.wire = t.wire ∧ (Good t.snd → Good t'.snd) := by
  obtain ⟨h1, h2⟩ := h
  have e : (4 + m.body.length) % 2 ^ 32 = 4 + m.body.length := Nat.mod_eq_of_lt h2
  refine ⟨append t .send [some { left := le32 (4 + m.body.length) ++ le32 m.type ++ m.body, last := true }],
    ?_, ?_, rfl, ?_⟩
  · rw [sendPrepare, e]
    exact if_neg (by omega)
  · simp [append, put, Conn.get, bytes, Msg.frame]
  · intro hg b hb
    simp only [append, put, Conn.get, List.mem_append, List.mem_singleton] at hb
    rcases hb with hb | hb
    · exact hg b hb
    · cases hb
      exact ⟨rfl, rfl, fun _ => by simp [le32]⟩

theorem too_long {t : Tcp} {type} {msg : List Byte} (h : 2 ^ 32 ≤ 4 + msg.length) :
    sendPrepare t type msg = none := by
  rw [sendPrepare, if_pos]
  have : (4 + msg.length) % 2 ^ 32 < 2 ^ 32 := Nat.mod_lt _ (by omega)
  omega

theorem sendLoop_kept : ∀ n t evs ok t' evs', sendLoop n t evs = some (ok, t', evs') → Good t.snd →
    t'.wire ++ bytes t'.snd = t.wire ++ bytes t.snd ∧ Good t'.snd := by
  intro n
  induction n with
  | zero => intro t evs ok t' evs' h; cases h
  | succ n ih =>
    intro t evs ok t' evs' h hg
    rw [sendLoop] at h
    split at h
    · cases h; exact ⟨rfl, hg⟩
    · obtain ⟨⟨r, t1, e1⟩, h1, h⟩ := Option.bind_eq_some_iff.1 h
      obtain ⟨k1, k2⟩ := send_good_partial h1 hg
      dsimp only at h
      split at h
      · obtain ⟨j1, j2⟩ := ih _ _ _ _ _ h k2
        exact ⟨j1.trans k1, j2⟩
      · split at h
        · cases h; exact ⟨k1, k2⟩
        · split at h
          · cases h; exact ⟨k1, k2⟩
          · cases h

/-- What a process does with the sending side: queue a message, or go on sending when the socket
can take more. -/
inductive Act where
  | queue (m : Msg)
  | write (evs : List Ev)
deriving Repr

/-- A history of the sending side; `none` if something is undefined (or outcomes are missing). -/
def history : Tcp → List Act → Option Tcp
  | t, [] => some t
  | t, .queue m :: r => do history (← sendPrepare t m.type m.body) r
  | t, .write evs :: r => do
    let (_, t, _) ← sendLoop (evs.length + 1) t evs
    history t r

def queued : List Act → List Msg
  | [] => []
  | .queue m :: r => m :: queued r
  | .write _ :: r => queued r

/-- Whatever the socket takes and when: what has gone out is the start of the messages queued, one
after the other, and the rest is still queued. -/
theorem sent : ∀ acts t t', history t acts = some t' → Good t.snd → (∀ m ∈ queued acts, Msg.Ok m) →
    t'.wire ++ bytes t'.snd = t.wire ++ bytes t.snd ++ frames (queued acts) := by
  intro acts
  induction acts with
  | nil => intro t t' h _ _; cases h; simp [queued, frames]
  | cons a acts ih =>
    intro t t' h hg hm
    cases a with
    | queue m =>
      obtain ⟨t1, h1, h2, h3, h4⟩ := prepare_ok (t := t) (hm m (by simp [queued]))
      rw [history, h1] at h
      rw [ih t1 t' h (h4 hg) (fun x hx => hm x (by simp [queued, hx])), h2, h3, queued, frames_cons]
      simp
    | write evs =>
      rw [history] at h
      obtain ⟨⟨ok, t1, e1⟩, h1, h⟩ := Option.bind_eq_some_iff.1 h
      obtain ⟨k1, k2⟩ := sendLoop_kept _ _ _ _ _ _ h1 hg
      rw [ih t1 t' h k2 hm, k1]
      rfl

/-- From one process to the other: if what went out of one arrives, in whatever pieces, at the other,
the handlers there are called for the first `k` messages queued, in order, where `k` counts those that
went out as a whole. -/
theorem end_to_end (tree) {acts t} (h : history {} acts = some t) (hm : ∀ m ∈ queued acts, Msg.Ok m)
    (ws : List (List (List Byte))) (hc : ∀ w ∈ ws, ∀ c ∈ w, c ≠ [] ∧ c.length ≤ 1024)
    (hw : ws.flatten.flatten = t.wire) (hn : ws ≠ []) :
    ∃ s' k, (∀ n, wakes tree ((queued acts).length + 1 + n) {} (ws.map arrive) = .done s') ∧
      s'.calls = due tree ((queued acts).take k) ∧
      frames ((queued acts).take k) <+: t.wire ∧
      (∀ j, frames ((queued acts).take j) <+: t.wire → (queued acts).take j <+: (queued acts).take k) := by
  have hs := sent acts {} t h (fun b hb => by cases hb) hm
  have hp : t.wire <+: frames (queued acts) := ⟨bytes t.snd, by simpa [bytes] using hs⟩
  have e : pend {} = [] := rfl
  obtain ⟨s', k, h1, h2, h3, h4, h5, h6⟩ := delivered tree ws (queued acts) {} ⟨rfl, by simp, by simp, by simp⟩
    hm hc (by rw [e, hw]; exact hp) hn
  rw [e, hw, List.nil_append] at h4
  refine ⟨s', k, h1, h5, ⟨_, h4.symm⟩, fun j hj => ?_⟩
  by_cases hjk : j ≤ k
  · exact List.take_prefix_take_left hjk
  · cases hd : (queued acts).drop k with
    | nil =>
      have hk : (queued acts).take k = queued acts := List.take_of_length_le (List.drop_eq_nil_iff.1 hd)
      rw [hk]
      exact List.take_prefix _ _
    | cons m l =>
      have h7 := h6 m (by rw [hd]; rfl)
      have e : (queued acts).take j = (queued acts).take k ++ m :: l.take (j - k - 1) := by
        rw [show j = k + ((j - k - 1) + 1) by omega, List.take_add, hd, List.take_succ_cons]
        congr 3
        omega
      rw [h4, e] at hj
      have hj := hj.length_le
      rw [frames, List.flatMap_append, List.flatMap_cons, List.length_append, List.length_append,
        List.length_append] at hj
      simp only [frames] at hj
      omega

/-! ## Handlers -/

theorem find_cons (t : Tree) (ty h x) : find ((ty, h) :: t) x = if ty = x then some h else find t x := by
  unfold find
  rw [List.find?_cons]
  by_cases hx : ty = x <;> simp [hx]

theorem find_filter (t : Tree) (ty x) (h : x ≠ ty) : find (t.filter (·.1 ≠ ty)) x = find t x := by
  unfold find
  congr 1
  induction t with
  | nil => rfl
  | cons a t ih =>
    by_cases ha : a.1 = ty
    · rw [List.filter_cons_of_neg (by simp [ha]), ih, List.find?_cons_of_neg (by simp [ha, Ne.symm h])]
    · rw [List.filter_cons_of_pos (by simp [ha]), List.find?_cons, List.find?_cons, ih]

/-- A handler that was set is the one found, and the handlers of other types stay. -/
theorem handlerSet_find {t ty h ih rn t'} (hs : handlerSet t ty h ih rn = (0, t')) (x) :
    find t' x = if ty = x then some h else find t x := by
  unfold handlerSet at hs
  split at hs
  · cases hs
  · dsimp only at hs
    split at hs
    · cases hs
    · cases hs
      rw [find_cons]
      split
      · rfl
      · rename_i hx
        split
        · exact find_filter t ty x (Ne.symm hx)
        · rfl

/-- The handler of the last one registered for a type. -/
def lastFor (f : Cb → Option Nat) (cbs : List Cb) (ty : Nat) (old : Option (Option Nat)) : Option (Option Nat) :=
  cbs.foldl (fun o cb => if cb.type = ty then some (f cb) else o) old

theorem setHandlers_find : ∀ cbs m w a m' w', setHandlers cbs m w a = (0, m', w') → ∀ ty,
    find m' ty = lastFor Cb.master cbs ty (find m ty) ∧ find w' ty = lastFor Cb.worker cbs ty (find w ty) := by
  intro cbs
  induction cbs with
  | nil => intro m w a m' w' h ty; cases h; exact ⟨rfl, rfl⟩
  | cons cb cbs ih =>
    intro m w a m' w' h ty
    have zero : ∀ {t ty h ih rn r t'}, handlerSet t ty h ih rn = (r, t') → ¬ r < 0 → r = 0 := by
      intro t ty h ih rn r t' hs hr
      unfold handlerSet at hs
      split at hs
      · cases hs; exact absurd (by decide) hr
      · dsimp only at hs
        split at hs
        · cases hs; exact absurd (by decide) hr
        · cases hs; rfl
    rw [setHandlers] at h
    cases h1 : handlerSet m cb.type cb.master (a.headD (true, true)).1 (a.headD (true, true)).2 with
    | mk r1 m1 =>
      rw [h1] at h
      dsimp only at h
      split at h
      · cases h
      · rename_i n1
        cases h2 : handlerSet w cb.type cb.worker (a.tail.headD (true, true)).1 (a.tail.headD (true, true)).2 with
        | mk r2 w2 =>
          rw [h2] at h
          dsimp only at h
          split at h
          · cases h
          · rename_i n2
            rw [zero h1 n1] at h1
            rw [zero h2 n2] at h2
            obtain ⟨k1, k2⟩ := ih _ _ _ _ _ h ty
            rw [k1, k2, handlerSet_find h1, handlerSet_find h2]
            exact ⟨rfl, rfl⟩

/-- If there is no memory for the node, the handler that was there before is gone. -/
theorem handler_lost {t ty h old} (hf : find t ty = some old) :
    (handlerSet t ty h true false).1 = -1 ∧ find (handlerSet t ty h true false).2 ty = none := by
  unfold handlerSet
  rw [hf]
  refine ⟨rfl, ?_⟩
  simp [find]

/-- Only if there is no memory for the entry itself does everything stay. -/
theorem handler_kept_partial (t ty h rn) : handlerSet t ty h false rn = (-1, t) := rfl

/-! ## Cases -/

private def tr : Tree := [(7, some 1), (258, some 2), (9, none)]
private def m1 : Msg := { type := 7, body := [1, 2, 3] }
private def m2 : Msg := { type := 258, body := [] }
private def m3 : Msg := { type := 9, body := [4] }

example : m1.frame = [7, 0, 0, 0, 7, 0, 0, 0, 1, 2, 3] := by decide +kernel

/-- Pieces that do not respect the messages, over three wakeups. -/
example : ∃ s, wakes tr 10 {} ([[[7, 0], [0, 0, 7, 0]], [[0, 0, 1, 2, 3, 4, 0, 0, 0, 2]], [[1], [0, 0, 5, 0, 0, 0, 9, 0, 0, 0, 4]]].map arrive) =
      .done s ∧ s.calls = [⟨1, 7, [1, 2, 3], 3⟩, ⟨2, 258, [], 0⟩] :=
  ⟨{ t := {}, len := 5, calls := [⟨1, 7, [1, 2, 3], 3⟩, ⟨2, 258, [], 0⟩] }, by decide +kernel, rfl⟩
example : due tr [m1, m2, m3] = [⟨1, 7, [1, 2, 3], 3⟩, ⟨2, 258, [], 0⟩] := by decide +kernel

/-- The same bytes, and the end in the same wakeup. -/
example : ∃ s, wake tr 10 {} [(true, .data m1.frame), (true, .closed)] = .gone s ∧ s.calls = [] :=
  ⟨{ t := { rcv := [rcvNode false m1.frame] } }, by decide +kernel, rfl⟩

/-- No memory for the first message. -/
example : ∃ s, process tr 10 { t := { rcv := [rcvNode false (m1.frame ++ m2.frame)] }, mems := [false] } = .done s ∧
    s.calls = [⟨2, 258, [], 0⟩] :=
  ⟨{ t := {}, len := 4, calls := [⟨2, 258, [], 0⟩] }, by decide +kernel, rfl⟩
example : process tr 100 { t := { rcv := [rcvNode false (m1.frame.take 10)] }, mems := [false] } = .fuel := by
  decide +kernel

/-- A length of two. -/
example : process tr 5 { t := { rcv := [rcvNode false [2, 0, 0, 0, 7, 0]] } } = .bad := by decide +kernel

/-- A socket that takes a few bytes at a time. -/
example : history {} [.queue m1, .write [.took 5, .eagain], .queue m2, .write [.took 100, .eintr, .took 3, .eagain]] =
    some { snd := [some { left := [0, 2, 1, 0, 0], last := true }], sent := [], wire := m1.frame ++ [4, 0, 0] } := by decide +kernel

example : find (setHandlers [⟨1, some 5, none⟩, ⟨2, none, some 6⟩, ⟨1, some 8, some 9⟩] [] [] []).2.1 1 = some (some 8) := by
  decide +kernel
example : handlerSet tr 7 (some 3) true false = (-1, [(258, some 2), (9, none)]) := by decide +kernel

end Verif.Ipc
