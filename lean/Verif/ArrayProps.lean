import Verif.Array
/-
Property C06.  Specification: a list of elements and the list of destructor calls.
-/
namespace Verif.Array

/-! ### Specification -/

/-- Transition of the abstract array: contents, destructor log. -/
inductive SpecStep : List (List Byte) × List (List Byte) → Op → Out → List (List Byte) × List (List Byte) → Prop where
  | push {l g e} : SpecStep (l, g) (.push e) .ok (l ++ [e], g)
  | pushFail {l g e} : SpecStep (l, g) (.push e) .null (l, g)
  | pushn {l g es} : SpecStep (l, g) (.pushn es) .ok (l ++ es, g)
  | pushnFail {l g es} : SpecStep (l, g) (.pushn es) .null (l, g)
  | pop {l e g} : SpecStep (l ++ [e], g) .pop .ok (l, g ++ [e])
  | popEmpty {g} : SpecStep ([], g) .pop .ok ([], g)
  | reset {l g} : SpecStep (l, g) .reset .ok ([], g ++ l)
  | read {l g i e} : l[i]? = some e → SpecStep (l, g) (.read i) (.elem e) (l, g)

inductive SpecRun : List (List Byte) × List (List Byte) → List Op → List Out →
    List (List Byte) × List (List Byte) → Prop where
  | nil {s} : SpecRun s [] [] s
  | cons {s op o s' ops os s''} : SpecStep s op o s' → SpecRun s' ops os s'' → SpecRun s (op :: ops) (o :: os) s''

/-- Number of elements a call adds. -/
def Op.adds : Op → Nat
  | .push _ => 1
  | .pushn es => es.length
  | _ => 0

/-- The caller writes whole elements. -/
def Op.sized (size : Nat) : Op → Prop
  | .push e => e.length = size
  | .pushn es => ∀ e ∈ es, e.length = size
  | _ => True

/-- Histories of state-changing calls; reads are covered by the final clause of the
theorem, for every state reached. -/
def noReads : Op → Prop
  | .read _ => False
  | _ => True

/-- `malloc` returns as many bytes as asked for. -/
def Exact (A : Malloc) : Prop := ∀ t n b, A t n = some b → b.length = n

/-! ### Invariant -/

structure Rep (m : M) (l : List (List Byte)) : Prop where
  sized : ∀ e ∈ l, e.length = m.arr.size
  nelts : m.arr.nelts = l.length
  pos   : 0 < m.arr.nalloc
  spos  : 0 < m.arr.size
  le    : l.length ≤ m.arr.nalloc
  bytes : m.arr.nalloc * m.arr.size < W
  buf   : ∃ rest, m.arr.elts = l.flatten ++ rest ∧ m.arr.elts.length = m.arr.nalloc * m.arr.size

theorem flatten_length {l : List (List Byte)} {n : Nat} (h : ∀ e ∈ l, e.length = n) :
    l.flatten.length = l.length * n := by
  induction l with
  | nil => simp
  | cons a l ih =>
    simp only [List.flatten_cons, List.length_append, List.length_cons]
    rw [ih (fun e he => h e (by simp [he])), h a (by simp), Nat.add_mul, Nat.one_mul, Nat.add_comm]

theorem growLoop_ok (need : Nat) : ∀ (fuel num : Nat), 0 < num → need * 2 ≤ W → need < num * 2 ^ fuel →
    ∃ r, growLoop need (fuel + 1) num = some r ∧ need ≤ r ∧ num ≤ r ∧ (r = num ∨ r < need * 2) := by
  intro fuel
  induction fuel with
  | zero =>
    intro num hn hw hf
    refine ⟨num, ?_, by omega, Nat.le_refl _, .inl rfl⟩
    simp only [growLoop]; rw [if_neg (by simp at hf; omega)]
  | succ f ih =>
    intro num hn hw hf
    by_cases h : need > num
    · have e : num * 2 % W = num * 2 := Nat.mod_eq_of_lt (by omega)
      obtain ⟨r, h1, h2, h3, h4⟩ := ih (num * 2) (by omega) hw (by rw [Nat.pow_succ] at hf; rw [Nat.mul_assoc, Nat.mul_comm 2]; exact hf)
      refine ⟨r, ?_, h2, by omega, ?_⟩
      · rw [growLoop, if_pos h, e]; exact h1
      · rcases h4 with rfl | h4 <;> omega
    · exact ⟨num, by rw [growLoop, if_neg h], by omega, Nat.le_refl _, .inl rfl⟩

theorem growLoop_ok' (need fuel num : Nat) (hn : 0 < num) (hw : need * 2 ≤ W) (hf : 65 ≤ fuel) :
    ∃ r, growLoop need fuel num = some r ∧ need ≤ r ∧ num ≤ r ∧ (r = num ∨ r < need * 2) := by
  obtain ⟨f, rfl⟩ : ∃ f, fuel = f + 1 := ⟨fuel - 1, by omega⟩
  refine growLoop_ok need f num hn hw ?_
  have : 2 ^ 64 ≤ 2 ^ f := Nat.pow_le_pow_right (by decide) (by omega)
  have h2 : need < 2 ^ f := by unfold W at hw; omega
  exact Nat.lt_of_lt_of_le h2 (Nat.le_mul_of_pos_left _ hn)

/-- A capacity of zero makes every growth loop forever. -/
theorem growLoop_zero (need : Nat) (hn : 0 < need) : ∀ fuel, growLoop need fuel 0 = none := by
  intro fuel
  induction fuel with
  | zero => rfl
  | succ f ih => rw [growLoop, if_pos hn]; simpa using ih

theorem alloc_ok {A : Malloc} (hA : Exact A) {m : M} {l : List (List Byte)} (r : Rep m l) (n fuel : Nat)
    (hf : 65 ≤ fuel) (hfit : (l.length + n) * 2 * m.arr.size < W) :
    alloc A fuel m n = some (-1, { m with clock := m.clock + 1 }) ∨
    ∃ m', alloc A fuel m n = some (0, m') ∧ Rep m' l ∧ l.length + n ≤ m'.arr.nalloc ∧
      m'.arr.size = m.arr.size ∧ m'.log = m.log := by
  have hs := r.spos
  have hlt : (l.length + n) * 2 < W := Nat.lt_of_le_of_lt (Nat.le_mul_of_pos_right _ hs) hfit
  have hneed : (n + m.arr.nelts) % W = l.length + n := by
    rw [r.nelts, Nat.mod_eq_of_lt (by omega), Nat.add_comm]
  obtain ⟨num, h1, h2, h3, h4⟩ := growLoop_ok' (l.length + n) fuel m.arr.nalloc r.pos (by omega) hf
  have hbytes : num * m.arr.size < W := by
    rcases h4 with rfl | h4
    · exact r.bytes
    · refine Nat.lt_of_le_of_lt ?_ hfit
      exact Nat.mul_le_mul_right _ (by omega)
  unfold alloc
  rw [hneed, h1]
  simp only [Option.bind_eq_bind, Option.bind_some, Nat.mod_eq_of_lt hbytes]
  cases hblk : A m.clock (num * m.arr.size) with
  | none => left; rfl
  | some blk =>
    right
    have hlen := hA _ _ _ hblk
    obtain ⟨rest, hb1, hb2⟩ := r.buf
    have hfl := flatten_length r.sized
    have hle : l.length * m.arr.size ≤ m.arr.nalloc * m.arr.size := Nat.mul_le_mul_right _ r.le
    have hle2 : l.length * m.arr.size ≤ num * m.arr.size := Nat.mul_le_mul_right _ (by omega)
    have hb := r.bytes
    have e1 : m.arr.nelts * m.arr.size % W = l.flatten.length := by
      rw [r.nelts, Nat.mod_eq_of_lt (by omega), hfl]
    have e2 : readAt m.arr.elts 0 (m.arr.nelts * m.arr.size % W) = some l.flatten := by
      rw [e1]; unfold readAt
      rw [if_pos (by rw [hb2, hfl]; omega), List.drop_zero, hb1, List.take_left]
    simp only [e2, Option.bind_some]
    have e3 : writeAt blk 0 l.flatten = some (l.flatten ++ blk.drop l.flatten.length) := by
      unfold writeAt
      rw [if_pos (by rw [hlen, hfl]; omega)]
      simp
    simp only [e3, Option.bind_some]
    refine ⟨_, rfl, ⟨r.sized, r.nelts, by show 0 < num; have := r.pos; omega, r.spos,
      by show l.length ≤ num; omega, hbytes, ⟨_, rfl, ?_⟩⟩, by show l.length + n ≤ num; omega, rfl, rfl⟩
    simp only [List.length_append, List.length_drop, hlen, hfl]
    omega

/-- Common part of push and pushn: the slot is exactly behind the last element. -/
theorem grow_store {m : M} {l es : List (List Byte)} (r : Rep m l) (hle : l.length + es.length ≤ m.arr.nalloc)
    (hes : ∀ e ∈ es, e.length = m.arr.size) :
    ∃ m', store (some (m.arr.nelts * m.arr.size % W),
        { m with arr := { m.arr with nelts := (m.arr.nelts + es.length) % W } }) es.flatten = some (.ok, m') ∧
      Rep m' (l ++ es) ∧ m'.arr.size = m.arr.size ∧ m'.log = m.log := by
  obtain ⟨rest, hb1, hb2⟩ := r.buf
  have hfl := flatten_length r.sized
  have hfe := flatten_length hes
  have hb := r.bytes
  have hmul : l.length * m.arr.size + es.length * m.arr.size ≤ m.arr.nalloc * m.arr.size := by
    rw [← Nat.add_mul]; exact Nat.mul_le_mul_right _ hle
  have hnl : m.arr.nalloc ≤ m.arr.nalloc * m.arr.size := Nat.le_mul_of_pos_right _ r.spos
  have e1 : m.arr.nelts * m.arr.size % W = l.flatten.length := by
    rw [r.nelts, Nat.mod_eq_of_lt (by omega), hfl]
  have e2 : (m.arr.nelts + es.length) % W = l.length + es.length := by
    rw [r.nelts, Nat.mod_eq_of_lt (by omega)]
  have hlen : l.flatten.length + es.flatten.length ≤ m.arr.elts.length := by rw [hb2, hfl, hfe]; omega
  have e3 : writeAt m.arr.elts l.flatten.length es.flatten =
      some (l.flatten ++ es.flatten ++ m.arr.elts.drop (l.flatten.length + es.flatten.length)) := by
    unfold writeAt
    rw [if_pos hlen]
    congr 3
    rw [hb1, List.take_left]
  simp only [store, e1, e2, e3, Option.bind_eq_bind, Option.bind_some]
  refine ⟨_, rfl, ⟨?_, by simp, r.pos, r.spos, by simpa using hle, hb, ⟨_, by rw [List.flatten_append], ?_⟩⟩, rfl, rfl⟩
  · intro e he
    rcases List.mem_append.mp he with he | he
    · exact r.sized e he
    · exact hes e he
  · simp only [List.length_append, List.length_drop]
    omega

theorem step_push_ok {A : Malloc} (hA : Exact A) {m : M} {l : List (List Byte)} (r : Rep m l) (e : List Byte) (fuel : Nat)
    (hf : 65 ≤ fuel) (hfit : (l.length + 1) * 2 * m.arr.size < W) (he : e.length = m.arr.size) :
    ∃ o m' l', step A fuel m (.push e) = some (o, m') ∧ SpecStep (l, m.log) (.push e) o (l', m'.log) ∧
      Rep m' l' ∧ m'.arr.size = m.arr.size ∧ l'.length ≤ l.length + 1 := by
  have hes : ∀ m1 : M, Rep m1 l → m1.arr.size = m.arr.size → l.length + 1 ≤ m1.arr.nalloc → m1.log = m.log →
      ∃ m', store (some (m1.arr.nelts * m1.arr.size % W),
        { m1 with arr := { m1.arr with nelts := (m1.arr.nelts + 1) % W } }) e = some (.ok, m') ∧
        Rep m' (l ++ [e]) ∧ m'.arr.size = m.arr.size ∧ m'.log = m.log := by
    intro m1 r1 hs1 hn1 hl1
    obtain ⟨m', h1, h2, h3, h4⟩ := grow_store (es := [e]) r1 (by simpa using hn1) (by simp [he, hs1])
    refine ⟨m', by simpa using h1, h2, by rw [h3, hs1], by rw [h4, hl1]⟩
  by_cases hge : m.arr.nelts ≥ m.arr.nalloc
  · rcases alloc_ok hA r 1 fuel hf hfit with h | ⟨m1, h, r1, hn1, hs1, hl1⟩
    · refine ⟨.null, { m with clock := m.clock + 1 }, l, ?_, .pushFail, ⟨r.sized, r.nelts, r.pos, r.spos, r.le, r.bytes, r.buf⟩, rfl, by omega⟩
      simp [step, push, hge, h, store]
    · obtain ⟨m', h1, h2, h3, h4⟩ := hes m1 r1 hs1 hn1 hl1
      refine ⟨.ok, m', l ++ [e], ?_, by rw [h4]; exact .push, h2, h3, by simp⟩
      simp only [step, push, hge, if_true, h, Option.bind_eq_bind, Option.bind_some]
      rw [if_neg (by decide)]
      simpa using h1
  · have hn := r.nelts
    obtain ⟨m', h1, h2, h3, h4⟩ := hes m r rfl (by omega) rfl
    refine ⟨.ok, m', l ++ [e], ?_, by rw [h4]; exact .push, h2, h3, by simp⟩
    simp only [step, push, hge, if_false, Option.bind_eq_bind, Option.bind_some]
    rw [if_neg (by decide)]
    simpa using h1

theorem step_pushn_ok {A : Malloc} (hA : Exact A) {m : M} {l : List (List Byte)} (r : Rep m l) (es : List (List Byte)) (fuel : Nat)
    (hf : 65 ≤ fuel) (hfit : (l.length + es.length) * 2 * m.arr.size < W) (he : ∀ e ∈ es, e.length = m.arr.size) :
    ∃ o m' l', step A fuel m (.pushn es) = some (o, m') ∧ SpecStep (l, m.log) (.pushn es) o (l', m'.log) ∧
      Rep m' l' ∧ m'.arr.size = m.arr.size ∧ l'.length ≤ l.length + es.length := by
  have hs := r.spos
  have hlt : (l.length + es.length) * 2 < W := Nat.lt_of_le_of_lt (Nat.le_mul_of_pos_right _ hs) hfit
  have hm : (m.arr.nelts + es.length) % W = l.length + es.length := by
    rw [r.nelts, Nat.mod_eq_of_lt (by omega)]
  by_cases hge : (m.arr.nelts + es.length) % W > m.arr.nalloc
  · rcases alloc_ok hA r es.length fuel hf hfit with h | ⟨m1, h, r1, hn1, hs1, hl1⟩
    · refine ⟨.null, { m with clock := m.clock + 1 }, l, ?_, .pushnFail, ⟨r.sized, r.nelts, r.pos, r.spos, r.le, r.bytes, r.buf⟩, rfl, by omega⟩
      simp [step, pushn, hge, h, store]
    · obtain ⟨m', h1, h2, h3, h4⟩ := grow_store (es := es) r1 hn1 (by simpa [hs1] using he)
      refine ⟨.ok, m', l ++ es, ?_, by rw [h4, hl1]; exact .pushn, h2, by rw [h3, hs1], by simp⟩
      simp only [step, pushn, hge, if_true, h, Option.bind_eq_bind, Option.bind_some]
      rw [if_neg (by decide)]
      simpa using h1
  · obtain ⟨m', h1, h2, h3, h4⟩ := grow_store (es := es) r (by omega) he
    refine ⟨.ok, m', l ++ es, ?_, by rw [h4]; exact .pushn, h2, h3, by simp⟩
    simp only [step, pushn, hge, if_false, Option.bind_eq_bind, Option.bind_some]
    rw [if_neg (by decide)]
    simpa using h1

theorem readAt_flatten (pre : List Byte) (e : List Byte) (rest : List Byte) :
    readAt (pre ++ e ++ rest) pre.length e.length = some e := by
  unfold readAt
  rw [if_pos (by simp only [List.length_append]; omega)]
  rw [List.append_assoc, List.drop_left, List.take_left]

theorem rep_read {m : M} {l : List (List Byte)} (r : Rep m l) {i : Nat} (hi : i < l.length) :
    readAt m.arr.elts (i * m.arr.size % W) m.arr.size = some l[i] := by
  obtain ⟨rest, hb1, hb2⟩ := r.buf
  have hsz : ∀ e ∈ l.take i, e.length = m.arr.size := fun e he => r.sized e (List.mem_of_mem_take he)
  have hft := flatten_length hsz
  have hlen : (l.take i).length = i := by simp; omega
  rw [hlen] at hft
  have hb := r.bytes
  have hle : i * m.arr.size ≤ m.arr.nalloc * m.arr.size := Nat.mul_le_mul_right _ (by have := r.le; omega)
  rw [Nat.mod_eq_of_lt (by omega), ← hft]
  have hsplit : l = l.take i ++ l[i] :: l.drop (i + 1) := by
    rw [← List.drop_eq_getElem_cons hi, List.take_append_drop]
  have hel : l[i].length = m.arr.size := r.sized _ (List.getElem_mem hi)
  have : m.arr.elts = (l.take i).flatten ++ l[i] ++ ((l.drop (i + 1)).flatten ++ rest) := by
    have hfl : l.flatten = (l.take i).flatten ++ (l[i] ++ (l.drop (i + 1)).flatten) := by
      rw [← List.flatten_cons, ← List.flatten_append, ← hsplit]
    rw [hb1, hfl]
    simp only [List.append_assoc]
  rw [this, ← hel]
  exact readAt_flatten _ _ _

theorem freeLoop_ok {m : M} {l : List (List Byte)} (r : Rep m l) : ∀ k i, i + k = l.length →
    freeLoop m.arr k (i * m.arr.size) = some (l.drop i) := by
  intro k
  induction k with
  | zero => intro i h; simp [freeLoop]; omega
  | succ k ih =>
    intro i h
    have hi : i < l.length := by omega
    have hb := r.bytes
    have hle : i * m.arr.size ≤ m.arr.nalloc * m.arr.size := Nat.mul_le_mul_right _ (by have := r.le; omega)
    have hr := rep_read r hi
    rw [Nat.mod_eq_of_lt (by omega)] at hr
    have := ih (i + 1) (by omega)
    rw [Nat.add_mul, Nat.one_mul] at this
    simp only [freeLoop, hr, this, Option.bind_eq_bind, Option.bind_some]
    rw [List.drop_eq_getElem_cons hi]

theorem step_pop_ok (A : Malloc) (fuel : Nat) {m : M} {l : List (List Byte)} (r : Rep m l) :
    ∃ m' l', step A fuel m .pop = some (.ok, m') ∧ SpecStep (l, m.log) .pop .ok (l', m'.log) ∧
      Rep m' l' ∧ m'.arr.size = m.arr.size ∧ l'.length ≤ l.length := by
  rcases List.eq_nil_or_concat l with rfl | ⟨l', e, rfl⟩
  · have : m.arr.nelts = 0 := r.nelts
    exact ⟨m, [], by simp [step, pop, this], .popEmpty, r, rfl, by simp⟩
  · simp only [List.concat_eq_append] at *
    have hn : m.arr.nelts = l'.length + 1 := by simpa using r.nelts
    have hr := rep_read r (i := l'.length) (by simp)
    simp only [List.getElem_concat_length] at hr
    refine ⟨{ m with log := m.log ++ [e], arr := { m.arr with nelts := l'.length } }, l', ?_,
      .pop (e := e), ?_, rfl, by simp⟩
    rotate_left
    · obtain ⟨rest, hb1, hb2⟩ := r.buf
      refine ⟨fun e he => r.sized e (by simp [he]), rfl, r.pos, r.spos, ?_, r.bytes, ⟨e ++ rest, ?_, hb2⟩⟩
      · have := r.le; simp at this; show l'.length ≤ m.arr.nalloc; omega
      · rw [hb1]; simp
    · simp only [step, pop, hn]
      rw [if_neg (by omega)]
      simp [hr]

theorem step_reset_ok (A : Malloc) (fuel : Nat) {m : M} {l : List (List Byte)} (r : Rep m l) :
    ∃ m', step A fuel m .reset = some (.ok, m') ∧ SpecStep (l, m.log) .reset .ok ([], m'.log) ∧
      Rep m' [] ∧ m'.arr.size = m.arr.size := by
  have h := freeLoop_ok r l.length 0 (by omega)
  simp only [Nat.zero_mul, List.drop_zero] at h
  refine ⟨{ m with log := m.log ++ l, arr := { m.arr with nelts := 0 } }, ?_, .reset, ?_, rfl⟩
  · simp [step, reset, r.nelts, h]
  · obtain ⟨rest, hb1, hb2⟩ := r.buf
    exact ⟨by simp, rfl, r.pos, r.spos, by simp, r.bytes, ⟨m.arr.elts, by simp, hb2⟩⟩

/-- **C06, partial** (initial capacity > 0, sizes that do not overflow).  For every
allocator behaviour, every element size > 0, every positive initial capacity and every
history of push/pushn/pop/reset whose total size fits in 2^63 bytes: every call returns
(growth loop included), never touches memory outside the storage, a failed push changes
nothing, and contents and destructor calls are those of the abstract list; afterwards
every element is readable at its index.
Missing from C06: initial capacity 0 (the first push never returns, see
`array_zero_capacity_diverges`). -/
theorem array_history_partial (A : Malloc) (hA : Exact A) (size nalloc clock fuel : Nat) (hf : 65 ≤ fuel)
    (hs : 0 < size) (hn : 0 < nalloc) (hb : nalloc * size < W) (ops : List Op)
    (hsz : ∀ op ∈ ops, op.sized size) (hr : ∀ op ∈ ops, noReads op)
    (hfit : (ops.map Op.adds).sum * 2 * size < W) (m0 : M)
    (h0 : init A fuel clock size nalloc = some (0, m0)) :
    ∃ os m' l, run A fuel m0 ops = some (os, m') ∧ SpecRun ([], []) ops os (l, m'.log) ∧
      ∀ i (hi : i < l.length), step A fuel m' (.read i) = some (.elem l[i], m') := by
  have hinit : Rep m0 [] ∧ m0.arr.size = size ∧ m0.log = [] := by
    have hg : growLoop nalloc fuel nalloc = some nalloc := by
      obtain ⟨f, rfl⟩ : ∃ f, fuel = f + 1 := ⟨fuel - 1, by omega⟩
      rw [growLoop, if_neg (by omega)]
    have hnW : nalloc < W := Nat.lt_of_le_of_lt (Nat.le_mul_of_pos_right _ hs) hb
    unfold init alloc at h0
    simp only [Nat.add_zero, Nat.mod_eq_of_lt hnW, hg, Option.bind_eq_bind, Option.bind_some, Nat.mod_eq_of_lt hb] at h0
    cases hblk : A clock (nalloc * size) with
    | none => simp [hblk] at h0
    | some blk =>
      have hlen := hA _ _ _ hblk
      simp [hblk, readAt, writeAt] at h0
      subst h0
      exact ⟨⟨by simp, rfl, hn, hs, by simp, hb, ⟨blk, by simp, hlen⟩⟩, rfl, rfl⟩
  suffices H : ∀ (ops : List Op) (m : M) (l : List (List Byte)), Rep m l → m.arr.size = size →
      (∀ op ∈ ops, op.sized size) → (∀ op ∈ ops, noReads op) →
      (l.length + (ops.map Op.adds).sum) * 2 * size < W →
      ∃ os m' l', run A fuel m ops = some (os, m') ∧ SpecRun (l, m.log) ops os (l', m'.log) ∧ Rep m' l' by
    obtain ⟨os, m', l, h1, h2, h3⟩ := H ops m0 [] hinit.1 hinit.2.1 hsz hr (by simpa using hfit)
    rw [hinit.2.2] at h2
    exact ⟨os, m', l, h1, h2, fun i hi => by simp [step, rep_read h3 hi]⟩
  intro ops
  induction ops with
  | nil => intro m l r _ _ _ _; exact ⟨[], m, l, rfl, .nil, r⟩
  | cons op ops ih =>
    intro m l r hms hsz hr hfit
    simp only [List.map_cons, List.sum_cons] at hfit
    have key : ∃ o m1 l1, step A fuel m op = some (o, m1) ∧ SpecStep (l, m.log) op o (l1, m1.log) ∧
        Rep m1 l1 ∧ m1.arr.size = m.arr.size ∧ l1.length ≤ l.length + op.adds := by
      cases op with
      | push e =>
        refine step_push_ok hA r e fuel hf ?_ ?_
        · refine Nat.lt_of_le_of_lt ?_ hfit
          rw [hms]
          exact Nat.mul_le_mul_right _ (by simp only [Op.adds]; omega)
        · rw [hms]; exact hsz (.push e) (by simp)
      | pushn es =>
        refine step_pushn_ok hA r es fuel hf ?_ ?_
        · refine Nat.lt_of_le_of_lt ?_ hfit
          rw [hms]
          exact Nat.mul_le_mul_right _ (by simp only [Op.adds]; omega)
        · rw [hms]; exact hsz (.pushn es) (by simp)
      | pop =>
        obtain ⟨m1, l1, a, b, c, d, e⟩ := step_pop_ok A fuel r
        exact ⟨_, m1, l1, a, b, c, d, by simpa [Op.adds] using e⟩
      | reset =>
        obtain ⟨m1, a, b, c, d⟩ := step_reset_ok A fuel r
        exact ⟨_, m1, [], a, b, c, d, by simp⟩
      | read i => exact (hr (.read i) (by simp)).elim
    obtain ⟨o, m1, l1, a, b, c, d, e⟩ := key
    obtain ⟨os, m', l', h1, h2, h3⟩ := ih m1 l1 c (by rw [d, hms]) (fun op ho => hsz op (by simp [ho]))
      (fun op ho => hr op (by simp [ho])) (by
        refine Nat.lt_of_le_of_lt ?_ hfit
        exact Nat.mul_le_mul_right _ (by omega))
    exact ⟨o :: os, m', l', by simp [run, a, h1], .cons b h2, h3⟩

/-- Refutation of **C06** for initial capacity 0: whatever the fuel, the first push on
such an array does not return. -/
theorem array_zero_capacity_diverges (A : Malloc) (size clock fuel fuel' : Nat) (m0 : M)
    (h0 : init A fuel clock size 0 = some (0, m0)) : push A fuel' m0 = none := by
  have hg : growLoop 0 fuel 0 = some 0 ∨ growLoop 0 fuel 0 = none := by
    cases fuel <;> simp [growLoop]
  unfold init alloc at h0
  rcases hg with hg | hg
  · simp only [Nat.add_zero, Nat.zero_mod, hg, Option.bind_eq_bind, Option.bind_some,
      Nat.zero_mul, Nat.zero_mod] at h0
    cases hblk : A clock 0 with
    | none => simp [hblk] at h0
    | some blk =>
      simp [hblk, readAt, writeAt] at h0
      subst h0
      simp [push, alloc, growLoop_zero 1 (by decide), W]
  · simp [hg] at h0

/-! ### Non-vacuity -/

def exA : Malloc := fun t n => if t = 2 then none else some (List.replicate n 7)

theorem exA_exact : Exact exA := by
  intro t n b h
  unfold exA at h
  split at h
  · simp at h
  · simp at h; rw [← h]; simp

example : ∃ m0, init exA 65 0 2 1 = some (0, m0) ∧
    (run exA 65 m0 [.push [1,2], .push [3,4], .push [5,6], .pushn [[7,8],[9,10]], .pop, .read 1, .reset]).map
      (fun r => (r.1, r.2.log)) = some ([.ok, .ok, .null, .ok, .ok, .elem [3,4], .ok],
        [[9,10],[1,2],[3,4],[7,8]]) := ⟨_, rfl, by decide⟩

example : ∃ m0, init exA 65 0 2 0 = some (0, m0) := ⟨_, rfl⟩

end Verif.Array
