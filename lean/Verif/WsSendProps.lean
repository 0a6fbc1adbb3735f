import Verif.WsSend
import Verif.WebSocketProps
/-!
# Messages of a WebSocket arrive, and its content is freed once
-/
namespace Verif.WsSend
open Verif.WebSocket

/-! ## Specification -/

/-- What a receiver sees of a frame: `fin`, the opcode and the payload. -/
abbrev Frame := Bool × Nat × List Nat

/-- RFC 6455 5.4: a message begins with a frame of its kind, goes on with frames of opcode 0 and ends
with the first one that has `fin`; control frames may stand between. `cur` is the message that is open. -/
def assemble : Option (Nat × List Nat) → List Frame → Option (List (Nat × List Nat))
  | none, [] => some []
  | some _, [] => none
  | cur, (fin, op, c) :: fs =>
    if 8 ≤ op then assemble cur fs
    else
      match cur with
      | none => if op = 0 then none else if fin then (assemble none fs).map ((op, c) :: ·) else assemble (some (op, c)) fs
      | some (k, a) => if op ≠ 0 then none else if fin then (assemble none fs).map ((k, a ++ c) :: ·) else assemble (some (k, a ++ c)) fs

/-- A piece of a message: where it lies, its bytes, the masking key, and the pings and pongs sent behind
it with their keys. -/
structure Piece where
  addr : Nat
  bytes : List Nat
  key : Nat
  controls : List (Bool × Nat)

/-- A message: text or binary, its first piece and the others. -/
structure Msg where
  binary : Bool
  first : Piece
  rest : List Piece

/-- The calls for the pieces of a message: `new` with the first, `fin` with the last. -/
def calls (client binary new : Bool) : Piece → List Piece → List Op
  | x, [] => .data binary (some x.addr) x.bytes.length new true client (!client) x.key ::
      x.controls.map fun c => .control c.1 client (!client) c.2
  | x, y :: r => (.data binary (some x.addr) x.bytes.length new false client (!client) x.key ::
      x.controls.map fun c => .control c.1 client (!client) c.2) ++ calls client binary false y r

/-- The message that is sent. -/
def Msg.whole (m : Msg) : Nat × List Nat := (if m.binary then 2 else 1, (m.first :: m.rest).flatMap Piece.bytes)

/-- The piece lies in the memory `base`; its size and the keys are in their ranges. -/
def Fits (base : Mem) (x : Piece) : Prop :=
  base.lookup x.addr = some x.bytes ∧ x.bytes.length < 65536 ∧ x.key < 4294967296 ∧ ∀ c ∈ x.controls, c.2 < 4294967296

/-! ## Memory -/

/-- The blocks of the caller are untouched, and beside them there is at most the content that the
object is to free. -/
def Inv (base : Mem) (s : S) : Prop :=
  (s.own = false ∧ s.mem = base) ∨ (s.own = true ∧ ∃ a c, s.ptr = some a ∧ a ∉ base.map Prod.fst ∧ s.mem = (a, c) :: base)

/-- The call hands over memory of the caller, and new memory is new. -/
def Proper (sh : Nat → Nat → Nat) (base : Mem) : Op → Prop
  | .data _ p n _ _ _ _ _ | .close p n _ _ _ => ∀ a, p = some a → ∃ b, base.lookup a = some b ∧ n ≤ b.length
  | .control _ _ _ _ | .reset => True
  | .parse a input => a ∉ base.map Prod.fst ∧ ∀ w, WebSocket.parse sh w input ≠ none

theorem drop_inv {base : Mem} {s : S} (h : Inv base s) : ∃ s', drop s = some s' ∧ s'.own = false ∧ s'.mem = base ∧ s'.ws = s.ws := by
  rcases h with ⟨h1, h2⟩ | ⟨h1, a, c, h2, h3, h4⟩
  · exact ⟨s, by simp [drop, h1], h1, h2, rfl⟩
  · refine ⟨{ s with mem := base, own := false }, ?_, rfl, rfl, rfl⟩
    have hf : base.filter (fun x => decide (x.1 ≠ a)) = base := by
      rw [List.filter_eq_self]
      intro x hx
      simp only [decide_eq_true_eq]
      rintro rfl
      exact h3 (List.mem_map_of_mem hx)
    rw [drop, if_pos h1, h2, h4, free, if_neg (by simp), List.filter_cons_of_neg (by simp), hf]
    rfl

theorem maskFrom_len (m i : Nat) (l : List Nat) : (maskFrom m i l).length = l.length := maskFrom_length m l i

/-- Writing a frame stays within its memory. -/
theorem generate_some (w : Ws) (n : Nat) (h : (w.content.getD []).length = n) : ∃ r, generate w n = some r := by
  unfold generate
  split
  · exact ⟨_, rfl⟩
  · dsimp only
    generalize hk : (if w.opcode = 8 then n + 2 else n) = k
    split
    · exact ⟨_, rfl⟩
    · rw [if_pos]
      · exact ⟨_, rfl⟩
      · have hst : (if w.opcode = 8 then [w.status >>> 8 &&& 0xff, w.status &&& 0xff] else []).length + n = k := by
          rw [← hk]; split <;> simp <;> omega
        have hp : ((w.content.getD []).take n).length = n := by simp [h]
        generalize (if w.opcode = 8 then [w.status >>> 8 &&& 0xff, w.status &&& 0xff] else []) = st at hst ⊢
        generalize (w.content.getD []).take n = pc at hp ⊢
        simp only [List.length_append, List.length_cons, List.length_nil]
        by_cases hm : w.maskbit = true <;> simp only [hm, if_true, if_false, Bool.false_eq_true, List.length_append, List.length_cons, List.length_nil, maskFrom_len] <;>
          by_cases h1 : k > 125 <;> simp only [h1, if_true, if_false] <;>
          first
          | (by_cases h2 : k >>> 16 ≠ 0 <;> simp only [h2, if_true, if_false, not_false_eq_true, ne_eq] <;> (simp; omega))
          | (have e1 : k ≠ 126 := by omega
             have e2 : k ≠ 127 := by omega
             simp only [e1, e2, if_false, List.length_nil]; omega)

theorem lookup_take {base : Mem} {a n : Nat} {b : List Nat} (h : base.lookup a = some b) (hn : n ≤ b.length) {s : S} (hm : s.mem = base) (hp : s.ptr = some a) (hl : s.len = n) :
    data s = some (some (b.take n)) := by
  rw [data, hp]
  dsimp only
  rw [hl]
  split
  · rename_i h0; rw [h0]; rfl
  · rw [hm, h]; simp [hn]

theorem emit_inv {base : Mem} {s : S} (h : Inv base s) {p : Option Nat} {n : Nat} (hp : ∀ a, p = some a → ∃ b, base.lookup a = some b ∧ n ≤ b.length) (fin : Bool) (op : Nat) (client : Bool) (key : Nat) :
    ∃ r s', emit s p n fin op client key = some (r, s') ∧ s'.own = false ∧ s'.mem = base ∧ s'.ws.status = s.ws.status := by
  obtain ⟨s1, d1, d2, d3, d4⟩ := drop_inv h
  rw [emit, d1]
  simp only [Option.bind_eq_bind, Option.bind_some]
  cases p with
  | none =>
    rw [data]
    simp only [Option.bind_some]
    by_cases h0 : n = 0
    · subst h0
      obtain ⟨r, hr⟩ := generate_some { s1.ws with fin := fin, rsv1 := false, rsv2 := false, rsv3 := false, opcode := op, maskbit := client, key := if client then key else s1.ws.key, content := none } 0 rfl
      rw [hr]
      exact ⟨_, _, rfl, rfl, d3, by rw [d4]⟩
    · rw [generate, if_pos ⟨rfl, h0⟩]
      exact ⟨_, _, rfl, rfl, d3, by rw [d4]⟩
  | some a =>
    obtain ⟨b, hb, hn⟩ := hp a rfl
    rw [lookup_take hb hn (s := S.mk _ (some a) n false s1.mem) d3 rfl rfl]
    simp only [Option.bind_some]
    obtain ⟨r, hr⟩ := generate_some { s1.ws with fin := fin, rsv1 := false, rsv2 := false, rsv3 := false, opcode := op, maskbit := client, key := if client then key else s1.ws.key, content := some (b.take n) } n (by simp [hn])
    rw [hr]
    exact ⟨_, _, rfl, rfl, d3, by rw [d4]⟩

theorem step_inv {sh : Nat → Nat → Nat} {base : Mem} {s : S} (h : Inv base s) {o : Op} (ho : Proper sh base o) : ∃ r s', step sh s o = some (r, s') ∧ Inv base s' := by
  cases o with
  | data bin p n new fin client server key =>
    rw [step]
    split
    · exact ⟨_, _, rfl, h⟩
    · obtain ⟨r, s', e, h1, h2, _⟩ := emit_inv h ho fin _ client key
      exact ⟨r, s', e, .inl ⟨h1, h2⟩⟩
  | control pong client server key =>
    rw [step]
    split
    · exact ⟨_, _, rfl, h⟩
    · obtain ⟨r, s', e, h1, h2, _⟩ := emit_inv (p := none) (n := 0) h (by simp) true _ client key
      exact ⟨r, s', e, .inl ⟨h1, h2⟩⟩
  | close p n client server key =>
    rw [step]
    split
    · exact ⟨_, _, rfl, h⟩
    · obtain ⟨r, s', e, h1, h2, _⟩ := emit_inv (p := p) (n := if p = none then 0 else n) h (fun a ha => by rw [ha, if_neg (by simp)]; exact ho a ha) true 8 client key
      exact ⟨r, s', e, .inl ⟨h1, h2⟩⟩
  | parse a input =>
    obtain ⟨h1, h2⟩ := ho
    obtain ⟨s1, d1, d2, d3, d4⟩ := drop_inv h
    rw [step]
    cases hp : WebSocket.parse sh s.ws input with
    | none => exact absurd hp (h2 _)
    | some r =>
      cases r with
      | error e => exact ⟨_, _, rfl, h⟩
      | ok x =>
        obtain ⟨w, rest⟩ := x
        simp only [Option.bind_eq_bind, Option.bind_some, d1]
        cases hc : w.content with
        | none => exact ⟨_, _, rfl, .inl ⟨d2, d3⟩⟩
        | some c => exact ⟨_, _, rfl, .inr ⟨rfl, a, c, rfl, h1, by rw [d3]⟩⟩
  | reset =>
    obtain ⟨s1, d1, d2, d3, d4⟩ := drop_inv h
    rw [step, d1]
    exact ⟨_, _, rfl, .inl ⟨d2, d3⟩⟩

/-- **Partial.** Whatever is called, with memory of the caller, no memory is used that is not there and
nothing is freed twice; the caller's memory is untouched; and when the object is destroyed nothing of
what it allocated is left. -/
theorem content_partial {sh : Nat → Nat → Nat} {base : Mem} {os : List Op} : (∀ o ∈ os, Proper sh base o) → ∀ {s}, Inv base s →
    ∃ b s', run sh os s = some (b, s') ∧ Inv base s' ∧ destroy s' = some base := by
  induction os with
  | nil =>
    intro _ s h
    obtain ⟨s1, d1, d2, d3, d4⟩ := drop_inv h
    exact ⟨[], s, rfl, h, by rw [destroy, d1]; simp [d3]⟩
  | cons o os ih =>
    intro ho s h
    obtain ⟨r, s1, e1, h1⟩ := step_inv h (ho o (by simp))
    obtain ⟨b, s2, e2, h2, h3⟩ := ih (fun o hm => ho o (by simp [hm])) h1
    cases r with
    | ok c => exact ⟨c ++ b, s2, by rw [run, e1]; simp only [Option.bind_eq_bind, Option.bind_some, e2], h2, h3⟩
    | error x => exact ⟨[] ++ b, s2, by rw [run, e1]; simp only [Option.bind_eq_bind, Option.bind_some, e2], h2, h3⟩

/-- An object that was just made owns nothing. -/
theorem inv_init (base : Mem) : Inv base (init base) := .inl ⟨rfl, rfl⟩

/-- What was received cannot be sent back: the content the object holds is freed before it is read. -/
theorem echo_refuted {sh : Nat → Nat → Nat} {base : Mem} {s : S} (h : Inv base s) {a : Nat} (ha : s.ptr = some a) (ho : s.own = true) (hn : s.len ≠ 0)
    (bin new fin client server : Bool) (key : Nat) (hc : ¬ (client = true ∧ server = true)) :
    step sh s (.data bin s.ptr s.len new fin client server key) = none := by
  obtain ⟨s1, d1, d2, d3, d4⟩ := drop_inv h
  rcases h with ⟨h1, _⟩ | ⟨_, a', c, h2, h3, _⟩
  · rw [ho] at h1; cases h1
  · rw [ha] at h2; cases h2
    have hl : base.lookup a = none := by
      rw [List.lookup_eq_none_iff]
      intro p hp
      simp only [bne_iff_ne, ne_eq] at *
      rintro rfl
      exact h3 (List.mem_map_of_mem hp)
    rw [step, if_neg hc, emit, d1]
    simp only [Option.bind_eq_bind, Option.bind_some, data, ha]
    rw [if_neg hn, d3, hl]
    rfl

/-! ## Messages -/

/-- What is sent for a call. -/
theorem emit_bytes {base : Mem} {s : S} (h : Inv base s) (hs : s.ws.status < 65536) {p : Option Nat} {b : List Nat}
    (hp : (p = none ∧ b = []) ∨ ∃ a, p = some a ∧ base.lookup a = some b) (hb : b.length < 65536) {fin client : Bool} {op key : Nat} (hk : client = true → key < 4294967296)
    (hk0 : s.ws.key < 4294967296) (hop : op < 8 ∨ (op < 16 ∧ op ≠ 8 ∧ b = [])) :
    ∃ w s', emit s p b.length fin op client key = some (.ok (wire w b), s') ∧ payload w = b ∧ Wf w ∧ w.opcode = op ∧ w.fin = fin ∧ w.content.getD [] = b ∧
      Inv base s' ∧ s'.ws.status = s.ws.status ∧ s'.ws.key < 4294967296 := by
  obtain ⟨s1, d1, d2, d3, d4⟩ := drop_inv h
  obtain ⟨c, hc, hcb⟩ : ∃ c, data { s1 with
      ptr := p, len := b.length, own := false,
      ws := { s1.ws with fin := fin, rsv1 := false, rsv2 := false, rsv3 := false, opcode := op, maskbit := client, key := if client then key else s1.ws.key } } = some c ∧ c.getD [] = b := by
    rcases hp with ⟨rfl, rfl⟩ | ⟨a, rfl, hl⟩
    · exact ⟨none, rfl, rfl⟩
    · exact ⟨some (b.take b.length), lookup_take hl (le_refl _) d3 rfl rfl, by simp⟩
  have hop8 : op ≠ 8 := by omega
  have hkey : (if client then key else s1.ws.key) < 4294967296 := by
    split
    · rename_i hcl; exact hk hcl
    · rw [d4]; exact hk0
  let w : Ws := { s1.ws with fin := fin, rsv1 := false, rsv2 := false, rsv3 := false, opcode := op, maskbit := client, key := if client then key else s1.ws.key, content := c }
  have hpl : payload w = b := by
    show (if op = 8 then _ else c.getD []) = b
    rw [if_neg hop8, hcb]
  have hw : Wf w := ⟨by show op < 16; omega, hkey, by show s1.ws.status < 65536; rw [d4]; exact hs⟩
  refine ⟨w, { s1 with ptr := p, len := b.length, own := false, ws := { s1.ws with fin := fin, rsv1 := false, rsv2 := false, rsv3 := false, opcode := op, maskbit := client, key := if client then key else s1.ws.key } },
    ?_, hpl, hw, rfl, rfl, hcb, .inl ⟨rfl, d3⟩, by rw [d4], hkey⟩
  rw [emit, d1]
  simp only [Option.bind_eq_bind, Option.bind_some]
  rw [hc]
  simp only [Option.bind_some]
  have hg := generate_spec w hw (by rw [hpl]; omega)
  rw [if_neg (by
    rw [hpl]
    rintro ⟨h1, h2⟩
    rcases h1 with h1 | h1 | h1 <;> change op = _ at h1
    · omega
    · rcases hop with ho | ⟨_, _, rfl⟩
      · omega
      · simp at h2
    · rcases hop with ho | ⟨_, _, rfl⟩
      · omega
      · simp at h2), hpl, show (w.content.getD []).length = b.length from congrArg List.length hcb] at hg
  show (generate w b.length).bind _ = _
  rw [hg]
  rfl

/-- What a receiver sees of a frame. -/
def view (w : Ws) : Frame := (w.fin, w.opcode, w.content.getD [])

/-- The frame a call is to send. -/
def Sends (base : Mem) : Op → Frame → Prop
  | .data bin p n new fin client server key, f =>
    ∃ a b, p = some a ∧ base.lookup a = some b ∧ n = b.length ∧ b.length < 65536 ∧ key < 4294967296 ∧ server = !client ∧
      f = (fin, if new then (if bin then 2 else 1) else 0, b)
  | .control pong client server key, f => key < 4294967296 ∧ server = !client ∧ f = (true, if pong then 10 else 9, [])
  | _, _ => False

theorem step_sends {sh : Nat → Nat → Nat} {base : Mem} {s : S} (h : Inv base s) (hs : s.ws.status < 65536) (hk : s.ws.key < 4294967296) {o : Op} {f : Frame} (ho : Sends base o f) :
    ∃ w s', step sh s o = some (.ok (wire w (payload w)), s') ∧ view w = f ∧ (Wf w ∧ w.opcode ≠ 8 ∧ (payload w).length < 65536) ∧
      Inv base s' ∧ s'.ws.status < 65536 ∧ s'.ws.key < 4294967296 := by
  cases o with
  | data bin p n new fin client server key =>
    obtain ⟨a, b, rfl, h1, rfl, h3, h4, rfl, rfl⟩ := ho
    obtain ⟨w, s', e, w1, w2, w3, w4, w5, i1, i2, i3⟩ := emit_bytes (fin := fin) (client := client) (op := if new then (if bin then 2 else 1) else 0) (key := key) h hs
      (.inr ⟨a, rfl, h1⟩) h3 (fun _ => h4) hk (.inl (by split <;> first | omega | (split <;> omega)))
    refine ⟨w, s', ?_, ?_, ⟨w2, ?_, by rw [w1]; exact h3⟩, i1, by rw [i2]; exact hs, i3⟩
    · rw [step, if_neg (by cases client <;> simp), e, w1]
    · rw [view, w3, w4, w5]
    · rw [w3]; split <;> first | omega | (split <;> omega)
  | control pong client server key =>
    obtain ⟨h4, rfl, rfl⟩ := ho
    obtain ⟨w, s', e, w1, w2, w3, w4, w5, i1, i2, i3⟩ := emit_bytes (fin := true) (client := client) (op := if pong then 10 else 9) (key := key) h hs
      (.inl ⟨rfl, rfl⟩) (by simp) (fun _ => h4) hk (.inr (by split <;> simp))
    refine ⟨w, s', ?_, ?_, ⟨w2, ?_, by rw [w1]; simp⟩, i1, by rw [i2]; exact hs, i3⟩
    · rw [step, if_neg (by cases client <;> simp), w1]; exact e
    · rw [view, w3, w4, w5]
    · rw [w3]; split <;> omega
  | close p n client server key => exact ho.elim
  | parse a input => exact ho.elim
  | reset => exact ho.elim

theorem run_sends {sh : Nat → Nat → Nat} {base : Mem} {os : List Op} {fs : List Frame} (hf : List.Forall₂ (Sends base) os fs) :
    ∀ {s : S}, Inv base s → s.ws.status < 65536 → s.ws.key < 4294967296 →
    ∃ (ws : List Ws) (s' : S), run sh os s = some (ws.flatMap fun w => wire w (payload w), s') ∧ ws.map view = fs ∧ (∀ w ∈ ws, Wf w ∧ w.opcode ≠ 8 ∧ (payload w).length < 65536) ∧ Inv base s' := by
  induction hf with
  | nil => intro s h _ _; exact ⟨[], s, rfl, rfl, by simp, h⟩
  | cons ho _ ih =>
    intro s h hs hk
    obtain ⟨w, s1, e1, v1, g1, i1, i2, i3⟩ := step_sends (sh := sh) h hs hk ho
    obtain ⟨ws, s2, e2, v2, g2, i4⟩ := ih i1 i2 i3
    refine ⟨w :: ws, s2, ?_, by simp [v1, v2], by simpa using ⟨g1, g2⟩, i4⟩
    rw [run, e1]
    simp only [Option.bind_eq_bind, Option.bind_some, e2, List.flatMap_cons]

theorem receive_frames (sh : Nat → Nat → Nat) {ws : List Ws} : (∀ w ∈ ws, Wf w ∧ w.opcode ≠ 8 ∧ (payload w).length < 65536) → ∀ w0 : Ws,
    ∃ rs, receive sh ws.length w0 ([ws.flatMap fun w => wire w (payload w)].dropWhile (·.isEmpty)) = some rs ∧ rs.map view = ws.map view := by
  induction ws with
  | nil => intro _ w0; exact ⟨[], rfl, rfl⟩
  | cons w ws ih =>
    intro h w0
    obtain ⟨g1, g2, g3⟩ := h w (by simp)
    obtain ⟨rs, e, v⟩ := ih (fun x hx => h x (by simp [hx])) (received w0 w)
    refine ⟨received w0 w :: rs, ?_, ?_⟩
    · rw [List.flatMap_cons, List.dropWhile_cons_of_neg (by simp [wire]), List.length_cons, receive,
        parse_wire_partial sh w0 w g1 (.inl g3) (by simp [g2]) _ []]
      simp only [e, Option.map_some]
    · rw [List.map_cons, List.map_cons, v]
      congr 1
      simp only [view, received, payload, if_neg g2]
      split
      · rename_i h0; rw [h0]; rfl
      · rfl

/-- The frames of the pieces of a message. -/
def frames (binary new : Bool) : Piece → List Piece → List Frame
  | x, [] => (true, if new then (if binary then 2 else 1) else 0, x.bytes) :: x.controls.map fun c => (true, if c.1 then 10 else 9, [])
  | x, y :: r => ((false, if new then (if binary then 2 else 1) else 0, x.bytes) :: x.controls.map fun c => (true, if c.1 then 10 else 9, [])) ++ frames binary false y r

theorem calls_sends {base : Mem} (client binary : Bool) {r : List Piece} : ∀ (new : Bool) {x : Piece}, (∀ y ∈ x :: r, Fits base y) →
    List.Forall₂ (Sends base) (calls client binary new x r) (frames binary new x r) := by
  have hcs : ∀ {l : List (Bool × Nat)}, (∀ c ∈ l, c.2 < 4294967296) →
      List.Forall₂ (Sends base) (l.map fun c => .control c.1 client (!client) c.2) (l.map fun c => (true, if c.1 then 10 else 9, [])) := by
    intro l hl
    induction l with
    | nil => exact .nil
    | cons c l ih => exact .cons ⟨hl c (by simp), rfl, rfl⟩ (ih fun d hd => hl d (by simp [hd]))
  induction r with
  | nil =>
    intro new x h
    obtain ⟨h1, h2, h3, h4⟩ := h x (by simp)
    exact .cons ⟨_, _, rfl, h1, rfl, h2, h3, rfl, rfl⟩ (hcs h4)
  | cons y r ih =>
    intro new x h
    obtain ⟨h1, h2, h3, h4⟩ := h x (by simp)
    exact List.rel_append (.cons ⟨_, _, rfl, h1, rfl, h2, h3, rfl, rfl⟩ (hcs h4)) (ih false fun z hz => h z (by simp_all))

theorem assemble_controls (cur : Option (Nat × List Nat)) (l : List (Bool × Nat)) (fs : List Frame) :
    assemble cur ((l.map fun c => (true, if c.1 then 10 else 9, [])) ++ fs) = assemble cur fs := by
  induction l with
  | nil => rfl
  | cons c l ih => rw [List.map_cons, List.cons_append, assemble.eq_def]; simp only; rw [if_pos (by split <;> omega), ih]

theorem assemble_rest (binary : Bool) (fs : List Frame) {r : List Piece} : ∀ (x : Piece) (k : Nat) (a : List Nat),
    assemble (some (k, a)) (frames binary false x r ++ fs) = (assemble none fs).map ((k, a ++ (x :: r).flatMap Piece.bytes) :: ·) := by
  induction r with
  | nil =>
    intro x k a
    rw [frames, List.cons_append, assemble.eq_def]
    simp [assemble_controls]
  | cons y r ih =>
    intro x k a
    rw [frames, List.append_assoc, List.cons_append, assemble.eq_def]
    simp [assemble_controls, ih]

theorem assemble_msg (m : Msg) (fs : List Frame) :
    assemble none (frames m.binary true m.first m.rest ++ fs) = (assemble none fs).map (m.whole :: ·) := by
  obtain ⟨bin, x, r⟩ := m
  cases r with
  | nil =>
    show assemble none (frames bin true x [] ++ fs) = _
    rw [frames, List.cons_append, assemble.eq_def]
    cases bin <;> simp [assemble_controls, Msg.whole]
  | cons y r =>
    show assemble none (frames bin true x (y :: r) ++ fs) = _
    rw [frames, List.append_assoc, List.cons_append, assemble.eq_def]
    cases bin <;> simp [assemble_controls, Msg.whole, assemble_rest]

/-- **Partial.** Messages sent in pieces, with pings and pongs between the pieces, arrive: the receiver gets one frame
for each call, and the frames are put together to the messages, each with its kind and all its bytes, in
their order. Pieces of 65536 bytes and more are missing, and frames that arrive in several buffers. -/
theorem messages_partial (sh : Nat → Nat → Nat) (base : Mem) (client : Bool) (ms : List Msg) (h : ∀ m ∈ ms, ∀ x ∈ m.first :: m.rest, Fits base x) :
    ∃ b s, run sh (ms.flatMap fun m => calls client m.binary true m.first m.rest) (init base) = some (b, s) ∧ destroy s = some base ∧
      ∀ w0, ∃ rs, receive sh (ms.flatMap fun m => calls client m.binary true m.first m.rest).length w0 ([b].dropWhile (·.isEmpty)) = some rs ∧
        assemble none (rs.map view) = some (ms.map Msg.whole) := by
  have hf : List.Forall₂ (Sends base) (ms.flatMap fun m => calls client m.binary true m.first m.rest) (ms.flatMap fun m => frames m.binary true m.first m.rest) := by
    induction ms with
    | nil => exact .nil
    | cons m ms ih => exact List.rel_append (calls_sends client m.binary true (h m (by simp))) (ih fun x hx => h x (by simp [hx]))
  obtain ⟨ws, s, e, v, g, i⟩ := run_sends (sh := sh) hf (inv_init base) (show (0 : Nat) < 65536 by decide) (show (0 : Nat) < 4294967296 by decide)
  refine ⟨_, s, e, ?_, fun w0 => ?_⟩
  · obtain ⟨s1, d1, d2, d3, d4⟩ := drop_inv i
    rw [destroy, d1]; simp [d3]
  · obtain ⟨rs, e2, v2⟩ := receive_frames sh g w0
    refine ⟨rs, ?_, ?_⟩
    · rw [hf.length_eq, ← v, List.length_map]; exact e2
    · rw [v2, v]
      clear * -
      induction ms with
      | nil => rfl
      | cons m ms ih => rw [List.flatMap_cons, assemble_msg, ih]; rfl

/-! ## Pongs -/

/-- Whatever ping was received, the pong carries nothing of it: a server always sends the same two bytes
(RFC 6455 5.5.3 asks for the application data of the ping). -/
theorem pong_refuted {sh : Nat → Nat → Nat} {base : Mem} {s : S} (h : Inv base s) (key : Nat) :
    ∃ s', step sh s (.control true false true key) = some (.ok [0x8a, 0], s') := by
  obtain ⟨s1, d1, d2, d3, d4⟩ := drop_inv h
  rw [step, if_neg (by simp), emit, d1]
  simp [data, generate, byte1]

/-- A call that is to be for both sides is refused and changes nothing. -/
theorem both_refused (sh : Nat → Nat → Nat) (s : S) (bin new fin pong : Bool) (p : Option Nat) (n key : Nat) :
    step sh s (.data bin p n new fin true true key) = some (.error .error, s) ∧ step sh s (.control pong true true key) = some (.error .error, s) ∧
      step sh s (.close p n true true key) = some (.error .error, s) := ⟨rfl, rfl, rfl⟩

/-! ## Examples -/

/-- "Hi" as text in two pieces with a ping between, and a binary message. -/
example : (run (fun _ _ => 0) ((⟨false, ⟨1, [72], 0, [(false, 0)]⟩, [⟨2, [105], 0, []⟩]⟩ :: [⟨true, ⟨3, [1, 2, 3], 0, []⟩, []⟩] : List Msg).flatMap fun m => calls false m.binary true m.first m.rest)
    (init [(1, [72]), (2, [105]), (3, [1, 2, 3])])).map Prod.fst = some [1, 1, 72, 0x89, 0, 0x80, 1, 105, 0x82, 3, 1, 2, 3] := by decide +kernel
example : assemble none [(false, 1, [72]), (true, 9, []), (true, 0, [105]), (true, 2, [1, 2, 3])] = some [(1, [72, 105]), (2, [1, 2, 3])] := by decide +kernel
/-- A message that does not end, and a frame that goes on with nothing. -/
example : assemble none [(false, 1, [72])] = none ∧ assemble none [(true, 0, [72])] = none := by decide +kernel
/-- What was received is freed by the next frame; it cannot be sent. -/
example : ((run (fun _ _ => 0) [.parse 7 [[0x82, 2, 5, 6]]] (init [])).map fun r => r.2.mem) = some [(7, [5, 6])] ∧
    ((run (fun _ _ => 0) [.parse 7 [[0x82, 2, 5, 6]], .control true false true 0] (init [])).map fun r => (r.1, r.2.mem)) = some ([0x8a, 0], []) ∧
    (run (fun _ _ => 0) [.parse 7 [[0x82, 2, 5, 6]], .data true (some 7) 2 true true false true 0] (init [])).isNone := by decide +kernel

end Verif.WsSend
