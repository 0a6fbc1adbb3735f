import Verif.Str
import Mathlib.Data.List.Infix

/-
KMP search and slicing of strings: C20, C21.
-/
namespace Verif.Str

/-! ## Specification of searching -/

/-- `p` occurs in `t` at offset `j`. -/
def Occurs (t p : List Byte) (j : Nat) : Prop := ∃ a b, t = a ++ p ++ b ∧ a.length = j

/-! ## Proof -/

/-- The first `k` bytes of the pattern end `x`. -/
def Ends (p x : List Byte) (k : Nat) : Prop := k ≤ p.length ∧ p.take k <:+ x

/-- `q` is the length of the longest prefix of the pattern that ends `x`. -/
def IsMax (p x : List Byte) (q : Nat) : Prop := Ends p x q ∧ ∀ k, Ends p x k → k ≤ q

/-- Entry `i` of the table is the longest border of the first `i + 1` bytes. -/
def Good (p : List Byte) (shift : List Nat) : Prop :=
  ∀ i q, shift[i]? = some q → IsMax p (p.take (i + 1)).tail q

theorem ends_zero (p x : List Byte) : Ends p x 0 := ⟨Nat.zero_le _, by simp⟩

theorem ends_le {p x : List Byte} {k : Nat} (h : Ends p x k) : k ≤ x.length := by
  have := h.2.length_le
  rw [List.length_take, Nat.min_eq_left h.1] at this
  exact this

theorem ends_snoc (p x : List Byte) (c : Byte) (k : Nat) :
    Ends p (x ++ [c]) (k + 1) ↔ Ends p x k ∧ p[k]? = some c := by
  constructor
  · rintro ⟨hk, hs⟩
    have hk' : k < p.length := hk
    rw [List.take_succ_eq_append_getElem hk'] at hs
    obtain ⟨u, hu⟩ := hs
    rw [← List.append_assoc] at hu
    have := List.append_inj' hu rfl
    refine ⟨⟨by omega, ⟨u, this.1⟩⟩, ?_⟩
    rw [List.getElem?_eq_getElem hk']
    have h2 := this.2
    simp at h2
    rw [h2]
  · rintro ⟨⟨_, ⟨u, hu⟩⟩, hc⟩
    obtain ⟨hk', he⟩ := List.getElem?_eq_some_iff.1 hc
    refine ⟨hk', ⟨u, ?_⟩⟩
    rw [List.take_succ_eq_append_getElem hk', he, ← List.append_assoc, hu]

theorem ends_border {p x : List Byte} {q k : Nat} (hq : Ends p x q) (hk : k < q) :
    Ends p x k ↔ Ends p (p.take q).tail k := by
  have hl : (p.take q).length = q := by rw [List.length_take, Nat.min_eq_left hq.1]
  have ht : (p.take q).tail <:+ x := (List.tail_suffix _).trans hq.2
  constructor
  · rintro ⟨h1, h2⟩
    refine ⟨h1, List.suffix_of_suffix_length_le h2 ht ?_⟩
    rw [List.length_take, List.length_tail, hl]
    omega
  · rintro ⟨h1, h2⟩
    exact ⟨h1, h2.trans ht⟩

theorem fall_spec (p x : List Byte) (c : Byte) (shift : List Nat) (hg : Good p shift) :
    ∀ fuel q, q < fuel → q < p.length → q ≤ shift.length → Ends p x q →
      (∀ k, Ends p x k → q < k → p[k]? ≠ some c) →
      ∃ q', fall p shift c fuel q = some q' ∧ q' < p.length ∧ Ends p x q' ∧ (q' = 0 ∨ p[q']? = some c) ∧
        (∀ k, Ends p x k → q' < k → p[k]? ≠ some c) := by
  intro fuel
  induction fuel with
  | zero => intro q h; omega
  | succ n ih =>
    intro q hf hm hs he hmax
    unfold fall
    by_cases h0 : q = 0
    · rw [if_pos h0]
      exact ⟨0, rfl, by omega, ends_zero _ _, Or.inl rfl, by rw [h0] at hmax; exact hmax⟩
    · rw [if_neg h0, List.getElem?_eq_getElem hm]
      simp only [Option.bind_eq_bind, Option.bind_some]
      by_cases hc : p[q] = c
      · rw [if_neg (by simpa using hc)]
        exact ⟨q, rfl, hm, he, Or.inr (by rw [List.getElem?_eq_getElem hm, hc]), hmax⟩
      · rw [if_pos (by simpa using hc)]
        have hi : q - 1 < shift.length := by omega
        rw [List.getElem?_eq_getElem hi]
        simp only [Option.bind_some]
        have hb := hg (q - 1) _ (List.getElem?_eq_getElem hi)
        rw [show q - 1 + 1 = q by omega] at hb
        generalize shift[q - 1] = r at hb
        have hl : (p.take q).length = q := by rw [List.length_take, Nat.min_eq_left he.1]
        have hr : r < q := by
          have := ends_le hb.1
          rw [List.length_tail, hl] at this
          omega
        refine ih r (by omega) (by omega) (by omega) ((ends_border he hr).2 hb.1) ?_
        intro k hk hrk
        rcases Nat.lt_trichotomy k q with h | h | h
        · have := hb.2 k ((ends_border he h).1 hk)
          omega
        · subst h
          rw [List.getElem?_eq_getElem hm]
          simpa using hc
        · exact hmax k hk h

theorem advance_spec (p x : List Byte) (c : Byte) (shift : List Nat) (hg : Good p shift) (q : Nat)
    (hm : q < p.length) (hs : q ≤ shift.length) (hq : IsMax p x q) :
    ∃ q', advance p shift q c = some q' ∧ IsMax p (x ++ [c]) q' := by
  obtain ⟨r, h1, h2, h3, h4, h5⟩ := fall_spec p x c shift hg (q + 1) q (by omega) hm hs hq.1
    (fun k hk hlt => absurd (hq.2 k hk) (by omega))
  unfold advance
  rw [h1]
  simp only [Option.bind_eq_bind, Option.bind_some]
  rw [List.getElem?_eq_getElem h2]
  simp only [Option.bind_some]
  refine ⟨_, rfl, ?_⟩
  by_cases hc : p[r] = c
  · rw [if_pos hc]
    refine ⟨(ends_snoc _ _ _ _).2 ⟨h3, by rw [List.getElem?_eq_getElem h2, hc]⟩, ?_⟩
    intro k hk
    cases k with
    | zero => omega
    | succ k =>
      have := (ends_snoc _ _ _ _).1 hk
      by_contra hlt
      exact h5 k this.1 (by omega) this.2
  · rw [if_neg hc]
    have hr0 : r = 0 := by
      rcases h4 with h | h
      · exact h
      · rw [List.getElem?_eq_getElem h2] at h
        exact absurd (Option.some.inj h) hc
    subst hr0
    refine ⟨ends_zero _ _, ?_⟩
    intro k hk
    cases k with
    | zero => omega
    | succ k =>
      exfalso
      have := (ends_snoc _ _ _ _).1 hk
      cases k with
      | zero =>
        rw [List.getElem?_eq_getElem h2] at this
        exact hc (Option.some.inj this.2)
      | succ k => exact h5 (k + 1) this.1 (by omega) this.2

theorem good_snoc (p : List Byte) (shift : List Nat) (k : Nat) (hg : Good p shift)
    (hk : IsMax p (p.take (shift.length + 1)).tail k) : Good p (shift ++ [k]) := by
  intro i q hi
  rcases Nat.lt_trichotomy i shift.length with h | h | h
  · rw [List.getElem?_append_left h] at hi
    exact hg i q hi
  · subst h
    simp at hi
    rw [← hi]; exact hk
  · rw [List.getElem?_eq_none (by simp; omega)] at hi
    cases hi

theorem prefixLoop_spec (p : List Byte) :
    ∀ n shift k, shift.length + n = p.length → 1 ≤ shift.length → Good p shift → IsMax p (p.take shift.length).tail k →
      ∃ s, prefixLoop p n shift k = some s ∧ s.length = p.length ∧ Good p s := by
  intro n
  induction n with
  | zero => intro shift k hl _ hg _; exact ⟨shift, rfl, by omega, hg⟩
  | succ n ih =>
    intro shift k hl h1 hg hk
    have hlt : shift.length < p.length := by omega
    unfold prefixLoop
    rw [List.getElem?_eq_getElem hlt]
    simp only [Option.bind_eq_bind, Option.bind_some]
    have hkl : k ≤ shift.length - 1 := by
      have := ends_le hk.1
      rwa [List.length_tail, List.length_take, Nat.min_eq_left (show shift.length ≤ p.length by omega)] at this
    obtain ⟨q, e, hq⟩ := advance_spec p _ p[shift.length] shift hg k (by have := hk.1.1; omega) (by omega) hk
    have ht : (p.take shift.length).tail ++ [p[shift.length]] = (p.take (shift.length + 1)).tail := by
      rw [List.take_succ_eq_append_getElem hlt, List.tail_append_of_ne_nil]
      intro hc
      have := congrArg List.length hc
      rw [List.length_take, Nat.min_eq_left (by omega)] at this
      rw [List.length_nil] at this
      omega
    rw [ht] at hq
    rw [e]
    simp only [Option.bind_some]
    refine ih _ _ (by simp; omega) (by simp) (good_snoc p shift q hg hq) ?_
    simpa using hq

theorem prefixFn_spec (p : List Byte) (hp : p ≠ []) :
    ∃ s, prefixFn p = some s ∧ s.length = p.length ∧ Good p s := by
  cases p with
  | nil => exact absurd rfl hp
  | cons a p =>
    unfold prefixFn
    rw [if_neg (by simp)]
    have h0 : IsMax (a :: p) ((a :: p).take 1).tail 0 := by
      refine ⟨ends_zero _ _, ?_⟩
      intro k hk
      have := ends_le hk
      simpa using this
    refine prefixLoop_spec (a :: p) _ [0] 0 (by simp +arith) (by simp) ?_ h0
    intro i q hi
    cases i with
    | zero => simp at hi; subst hi; exact h0
    | succ i => simp at hi

/-- `r` is the first occurrence of `p` in `t`, or none exists. -/
def First (t p : List Byte) : Option Nat → Prop
  | some j => Occurs t p j ∧ ∀ j', Occurs t p j' → j ≤ j'
  | none => ∀ j, ¬ Occurs t p j

theorem occurs_iff_ends (t p : List Byte) (j : Nat) :
    Occurs t p j ↔ j + p.length ≤ t.length ∧ p <:+ t.take (j + p.length) := by
  constructor
  · rintro ⟨a, b, rfl, rfl⟩
    refine ⟨by simp, ⟨a, ?_⟩⟩
    rw [← List.length_append, List.take_left]
  · rintro ⟨hl, ⟨a, ha⟩⟩
    refine ⟨a, t.drop (j + p.length), ?_, ?_⟩
    · rw [ha, List.take_append_drop]
    · have := congrArg List.length ha
      rw [List.length_append, List.length_take, Nat.min_eq_left hl] at this
      omega

theorem matchLoop_spec (p : List Byte) (hp : p ≠ []) (shift : List Nat) (hl : shift.length = p.length) (hg : Good p shift) :
    ∀ (text pre : List Byte) (q : Nat), q < p.length → IsMax p pre q →
      (∀ y, y <+: pre → ¬ p <:+ y) →
      ∃ r, matchLoop p shift text pre.length q = some r ∧ First (pre ++ text) p r := by
  intro text
  induction text with
  | nil =>
    intro pre q hq hm hno
    refine ⟨none, rfl, ?_⟩
    intro j hj
    rw [List.append_nil] at hj
    exact hno _ (List.take_prefix _ _) ((occurs_iff_ends _ _ _).1 hj).2
  | cons c text ih =>
    intro pre q hq hm hno
    obtain ⟨q', e, hq'⟩ := advance_spec p pre c shift hg q hq (by omega) hm
    unfold matchLoop
    rw [e]
    simp only [Option.bind_eq_bind, Option.bind_some]
    have hsplit : pre ++ c :: text = (pre ++ [c]) ++ text := by simp
    by_cases hfull : q' = p.length
    · rw [if_pos hfull]
      have hs : p <:+ pre ++ [c] := by
        have := hq'.1.2
        rwa [hfull, List.take_length] at this
      have hle := hs.length_le
      rw [List.length_append, List.length_singleton] at hle
      refine ⟨_, rfl, ?_, ?_⟩
      · rw [occurs_iff_ends, show pre.length + 1 - p.length + p.length = pre.length + 1 by omega, hsplit]
        refine ⟨by simp, ?_⟩
        rwa [show pre.length + 1 = (pre ++ [c]).length by simp, List.take_left]
      · intro j hj
        rw [occurs_iff_ends] at hj
        by_contra hlt
        have h1 : j + p.length ≤ pre.length := by omega
        have h2 := hj.2
        rw [List.take_append_of_le_length h1] at h2
        exact hno _ (List.take_prefix _ _) h2
    · rw [if_neg hfull]
      have := ih (pre ++ [c]) q' (by have := hq'.1.1; omega) hq' ?_
      · rw [List.length_append, List.length_singleton] at this
        rw [hsplit]
        exact this
      · intro y hy hps
        rcases List.prefix_concat_iff.1 hy with h | h
        · subst h
          have := hq'.2 p.length ⟨le_refl _, by rwa [List.take_length]⟩
          have := hq'.1.1
          omega
        · exact hno y h hps

/-- C20: for a nonempty pattern the search stays inside both strings and its table, ends, and
returns the offset of the first occurrence, or nothing when there is none. -/
theorem kmp_spec (t p : List Byte) (hp : p ≠ []) :
    ∃ r, kmp false true t p = some r ∧ First t p r := by
  obtain ⟨s, e, hl, hg⟩ := prefixFn_spec p hp
  unfold kmp
  simp only [Bool.false_eq_true, if_false, if_true, e, Option.bind_eq_bind, Option.bind_some]
  have hpos : 0 < p.length := List.length_pos_iff.2 hp
  refine matchLoop_spec p hp s hl hg t [] 0 hpos ⟨ends_zero _ _, ?_⟩ ?_
  · intro k hk; simpa using ends_le hk
  · intro y hy hs
    rw [List.prefix_nil.1 hy] at hs
    exact hp (List.suffix_nil.1 hs)

theorem first_unique {t p : List Byte} {r r' : Option Nat} (h : First t p r) (h' : First t p r') : r = r' := by
  cases r with
  | none =>
    cases r' with
    | none => rfl
    | some j => exact absurd h'.1 (h j)
  | some j =>
    cases r' with
    | none => exact absurd h.1 (h' j)
    | some j' =>
      have := h.2 _ h'.1
      have := h'.2 _ h.1
      congr 1; omega

/-- C20: the search reports `j` exactly when `j` is the first occurrence. -/
theorem kmp_found_iff (t p : List Byte) (hp : p ≠ []) (j : Nat) :
    kmp false true t p = some (some j) ↔ Occurs t p j ∧ ∀ j', Occurs t p j' → j ≤ j' := by
  obtain ⟨r, e, h⟩ := kmp_spec t p hp
  rw [e]
  constructor
  · intro he
    cases he
    exact h
  · intro hf
    rw [first_unique h (r' := some j) hf]

/-- C20: the search reports nothing exactly when the pattern does not occur. -/
theorem kmp_none_iff (t p : List Byte) (hp : p ≠ []) :
    kmp false true t p = some none ↔ ∀ j, ¬ Occurs t p j := by
  obtain ⟨r, e, h⟩ := kmp_spec t p hp
  rw [e]
  constructor
  · intro he
    cases he
    exact h
  · intro hf
    rw [first_unique h (r' := none) hf]

/-- C20: an empty pattern writes outside the zero-sized table. -/
theorem kmp_empty (t : List Byte) : kmp false true t [] = none := rfl

/-- When the table cannot be allocated the answer is "not found", even if it occurs. -/
theorem kmp_alloc_fail (t p : List Byte) : kmp false false t p = some none := rfl

example : kmp false true [1, 2, 1, 2, 1, 3, 9] [1, 2, 1, 3] = some (some 2) := by decide +kernel
example : kmp false true [1, 2, 1, 2, 1, 2, 9] [1, 2, 1, 3] = some none := by decide +kernel
example : kmp false true [1, 1, 1, 2, 1, 1, 1] [1, 1, 2] = some (some 1) := by decide +kernel
example : Occurs [1, 2, 1, 2, 1, 3, 9] [1, 2, 1, 3] 2 := ⟨[1, 2], [9], rfl, rfl⟩

/-! ## Specification of slicing

`Slices sep off s ps`: the pieces of `s` (which starts at offset `off`) are `ps`. -/
inductive Slices (sep : Byte → Prop) : Nat → List Byte → List (Nat × Nat) → Prop
  | done (off : Nat) (gap : List Byte) (hg : ∀ b ∈ gap, sep b) : Slices sep off gap []
  | piece (off : Nat) (gap w rest : List Byte) (ps : List (Nat × Nat)) (hg : ∀ b ∈ gap, sep b)
      (hw : w ≠ []) (hn : ∀ b ∈ w, ¬ sep b) (hr : ∀ b, rest.head? = some b → sep b)
      (h : Slices sep (off + gap.length + w.length) rest ps) :
      Slices sep off (gap ++ w ++ rest) ((off + gap.length, w.length) :: ps)

/-! ## Proof -/

theorem skipSeps_spec (sep : Byte → Bool) (s : List Byte) :
    ∃ gap rest, s = gap ++ rest ∧ gap.length = skipSeps sep s ∧ (∀ b ∈ gap, sep b = true) ∧
      (∀ b, rest.head? = some b → sep b = false) := by
  induction s with
  | nil => exact ⟨[], [], rfl, rfl, by simp, by simp⟩
  | cons a s ih =>
    unfold skipSeps
    by_cases h : sep a = true
    · rw [if_pos h]
      obtain ⟨g, r, e, hl, h1, h2⟩ := ih
      refine ⟨a :: g, r, by rw [e]; rfl, by simp [hl], ?_, h2⟩
      intro b hb
      rcases List.mem_cons.1 hb with rfl | hb
      · exact h
      · exact h1 b hb
    · rw [if_neg h]
      refine ⟨[], a :: s, rfl, rfl, by simp, ?_⟩
      intro b hb
      simp at hb; subst hb
      simpa using h

theorem skipValid_spec (sep : Byte → Bool) (s : List Byte) :
    ∃ w rest, s = w ++ rest ∧ w.length = skipValid sep s ∧ (∀ b ∈ w, sep b = false) ∧
      (∀ b, rest.head? = some b → sep b = true) := by
  induction s with
  | nil => exact ⟨[], [], rfl, rfl, by simp, by simp⟩
  | cons a s ih =>
    unfold skipValid
    by_cases h : sep a = true
    · rw [if_pos h]
      refine ⟨[], a :: s, rfl, rfl, by simp, ?_⟩
      intro b hb
      simp at hb; subst hb
      exact h
    · rw [if_neg h]
      obtain ⟨g, r, e, hl, h1, h2⟩ := ih
      refine ⟨a :: g, r, by rw [e]; rfl, by simp [hl], ?_, h2⟩
      intro b hb
      rcases List.mem_cons.1 hb with rfl | hb
      · simpa using h
      · exact h1 b hb

theorem sliceRec_spec (sep : Byte → Bool) :
    ∀ fuel off s, s.length < fuel →
      ∃ ps, sliceRec sep fuel off s = some (ps ++ [(0, 0)]) ∧ Slices (fun b => sep b = true) off s ps := by
  intro fuel
  induction fuel with
  | zero => intro off s h; omega
  | succ n ih =>
    intro off s hf
    unfold sliceRec
    obtain ⟨gap, r, e, hl, hg, hr⟩ := skipSeps_spec sep s
    simp only
    by_cases hge : skipSeps sep s ≥ s.length
    · rw [if_pos hge]
      refine ⟨[], rfl, ?_⟩
      have : r = [] := by
        have := congrArg List.length e
        rw [List.length_append] at this
        exact List.eq_nil_of_length_eq_zero (by omega)
      subst this
      rw [List.append_nil] at e
      subst e
      exact Slices.done _ _ hg
    · rw [if_neg hge]
      have hd : s.drop (skipSeps sep s) = r := by
        rw [← hl]; conv_lhs => rw [e]
        rw [List.drop_left]
      obtain ⟨w, rest, e2, hl2, hw, hrest⟩ := skipValid_spec sep r
      have hwne : w ≠ [] := by
        rintro rfl
        rw [List.nil_append] at e2
        subst e2
        cases r with
        | nil =>
          rw [List.append_nil] at e
          rw [← e] at hl; omega
        | cons b r =>
          have := hr b rfl
          have := hrest b rfl
          simp_all
      have hd2 : s.drop (skipSeps sep s + skipValid sep r) = rest := by
        rw [← List.drop_drop, hd, ← hl2]
        conv_lhs => rw [e2]
        rw [List.drop_left]
      rw [hd, hd2]
      have hwl := List.length_pos_iff.2 hwne
      have hlen : rest.length < n := by
        have := congrArg List.length e
        have := congrArg List.length e2
        rw [List.length_append] at *
        omega
      obtain ⟨ps, ep, hps⟩ := ih (off + skipSeps sep s + skipValid sep r) rest hlen
      rw [ep]
      refine ⟨(off + skipSeps sep s, skipValid sep r) :: ps, rfl, ?_⟩
      rw [← hl, ← hl2] at hps ⊢
      have he : s = gap ++ w ++ rest := by rw [e, e2, List.append_assoc]
      rw [he]
      exact Slices.piece off gap w rest ps hg hwne (fun b hb => by simp [hw b hb]) hrest hps

/-- C21: slicing ends, and its result is the list of the maximal separator-free pieces in
order, closed by one element of length 0. -/
theorem slice_spec (s seps : List Byte) :
    ∃ ps, slice s seps = some (ps ++ [(0, 0)]) ∧ Slices (· ∈ seps) 0 s ps := by
  obtain ⟨ps, e, h⟩ := sliceRec_spec (sepTab seps) (s.length + 1) 0 s (by omega)
  refine ⟨ps, e, ?_⟩
  have : (fun b => sepTab seps b = true) = (· ∈ seps) := by
    funext b
    simp [sepTab]
  rw [this] at h
  exact h

/-- The bytes of a piece. -/
def bytes (s : List Byte) (off : Nat) (p : Nat × Nat) : List Byte := (s.drop (p.1 - off)).take p.2

theorem slices_len_pos {sep : Byte → Prop} {off : Nat} {s : List Byte} {ps : List (Nat × Nat)}
    (h : Slices sep off s ps) : ∀ p ∈ ps, off ≤ p.1 ∧ 0 < p.2 ∧ p.1 + p.2 ≤ off + s.length := by
  induction h with
  | done => simp
  | piece off gap w rest ps hg hw hn hr h ih =>
    intro p hp
    have := List.length_pos_iff.2 hw
    simp only [List.length_append]
    rcases List.mem_cons.1 hp with rfl | hp
    · simp only; omega
    · have := ih p hp
      omega

/-- C21: every piece lies inside the string and is not empty. -/
theorem slice_bounds (s seps : List Byte) (ps : List (Nat × Nat)) (h : slice s seps = some (ps ++ [(0, 0)])) :
    ∀ p ∈ ps, 0 < p.2 ∧ p.1 + p.2 ≤ s.length := by
  obtain ⟨ps', e, hs⟩ := slice_spec s seps
  rw [h] at e
  have : ps = ps' := List.append_cancel_right (Option.some.inj e)
  subst this
  intro p hp
  have := slices_len_pos hs p hp
  omega

theorem sliceEnd_append (ps : List (Nat × Nat)) (h : ∀ p ∈ ps, 0 < p.2) : sliceEnd (ps ++ [(0, 0)]) = some ps.length := by
  induction ps with
  | nil => rfl
  | cons p ps ih =>
    obtain ⟨o, l⟩ := p
    have hl : 0 < l := h (o, l) (by simp)
    simp only [List.cons_append, sliceEnd]
    rw [if_neg (by omega), ih (fun p hp => h p (by simp [hp]))]
    rfl

/-- C21: the walk of the free function stops at the closing element. -/
theorem slice_free_end (s seps : List Byte) :
    ∃ ps, slice s seps = some (ps ++ [(0, 0)]) ∧ sliceEnd (ps ++ [(0, 0)]) = some ps.length := by
  obtain ⟨ps, e, hs⟩ := slice_spec s seps
  exact ⟨ps, e, sliceEnd_append ps (fun p hp => (slice_bounds s seps ps e p hp).1)⟩

theorem slices_bytes {sep : Byte → Prop} {off : Nat} {s : List Byte} {ps : List (Nat × Nat)}
    (h : Slices sep off s ps) (hd : DecidablePred sep) :
    (ps.map (bytes s off)).flatten = s.filter (fun b => ¬ sep b) ∧ ∀ p ∈ ps, ∀ b ∈ bytes s off p, ¬ sep b := by
  induction h with
  | done off gap hg =>
    constructor
    · rw [List.filter_eq_nil_iff.2 (by simpa using hg)]; rfl
    · simp
  | piece off gap w rest ps hg hw hn hr h ih =>
    have hfst : bytes (gap ++ w ++ rest) off (off + gap.length, w.length) = w := by
      unfold bytes
      simp only [Nat.add_sub_cancel_left]
      rw [List.append_assoc, List.drop_left, List.take_left]
    have hrest : ∀ p ∈ ps, bytes (gap ++ w ++ rest) off p = bytes rest (off + gap.length + w.length) p := by
      intro p hp
      have := slices_len_pos h p hp
      unfold bytes
      rw [show p.1 - off = (gap ++ w).length + (p.1 - (off + gap.length + w.length)) by simp; omega, ← List.drop_drop, List.drop_left]
    constructor
    · rw [List.map_cons, List.flatten_cons, hfst, List.map_congr_left hrest, ih.1, List.filter_append, List.filter_append,
        List.filter_eq_nil_iff.2 (show ∀ a ∈ gap, ¬ _ by simpa using hg), List.filter_eq_self.2 (show ∀ a ∈ w, _ by simpa using hn)]
      simp
    · intro p hp
      rcases List.mem_cons.1 hp with rfl | hp
      · rw [hfst]; exact hn
      · rw [hrest p hp]; exact ih.2 p hp

/-- C21: the pieces joined are the string without its separators, and no piece holds one. -/
theorem slice_content (s seps : List Byte) :
    ∃ ps, slice s seps = some (ps ++ [(0, 0)]) ∧
      (ps.map (fun p => (s.drop p.1).take p.2)).flatten = s.filter (fun b => b ∉ seps) ∧
      ∀ p ∈ ps, ∀ b ∈ (s.drop p.1).take p.2, b ∉ seps := by
  obtain ⟨ps, e, hs⟩ := slice_spec s seps
  refine ⟨ps, e, ?_⟩
  have := slices_bytes hs inferInstance
  exact this

theorem gap_unique {sep : Byte → Prop} :
    ∀ (g g' : List Byte) (r r' : List Byte), g ++ r = g' ++ r' → (∀ b ∈ g, sep b) → (∀ b ∈ g', sep b) →
      (∀ b, r.head? = some b → ¬ sep b) → (∀ b, r'.head? = some b → ¬ sep b) → g = g' ∧ r = r' := by
  intro g
  induction g with
  | nil =>
    intro g' r r' he _ h2 h3 _
    cases g' with
    | nil => exact ⟨rfl, he⟩
    | cons b g' =>
      simp only [List.nil_append, List.cons_append] at he
      exact absurd (h2 b (by simp)) (h3 b (by rw [he]; rfl))
  | cons a g ih =>
    intro g' r r' he h1 h2 h3 h4
    cases g' with
    | nil =>
      simp only [List.nil_append, List.cons_append] at he
      exact absurd (h1 a (by simp)) (h4 a (by rw [← he]; rfl))
    | cons b g' =>
      simp only [List.cons_append, List.cons.injEq] at he
      obtain ⟨rfl, he⟩ := he
      obtain ⟨rfl, rfl⟩ := ih g' r r' he (fun x hx => h1 x (by simp [hx])) (fun x hx => h2 x (by simp [hx])) h3 h4
      exact ⟨rfl, rfl⟩

/-- The specification determines the pieces. -/
theorem slices_unique {sep : Byte → Prop} {off : Nat} {s : List Byte} {ps : List (Nat × Nat)} (h : Slices sep off s ps) :
    ∀ ps', Slices sep off s ps' → ps = ps' := by
  induction h with
  | done off gap hg =>
    intro ps' h'
    cases h' with
    | done => rfl
    | piece _ gap' w rest ps' hg' hw hn hr h =>
      exfalso
      cases w with
      | nil => exact hw rfl
      | cons b w => exact hn b (by simp) (hg b (by simp))
  | piece off gap w rest ps hg hw hn hr h ih =>
    intro ps' h'
    generalize hs : gap ++ w ++ rest = s at h'
    cases h' with
    | done =>
      exfalso
      subst hs
      rename_i hg'
      cases w with
      | nil => exact hw rfl
      | cons b w => exact hn b (by simp) (hg' b (by simp))
    | piece _ gap' w' rest' ps' hg' hw' hn' hr' h' =>
      rw [List.append_assoc, List.append_assoc] at hs
      have hh : ∀ (w rest : List Byte), w ≠ [] → (∀ b ∈ w, ¬ sep b) → ∀ b, (w ++ rest).head? = some b → ¬ sep b := by
        intro w rest hw hn b hb
        cases w with
        | nil => exact absurd rfl hw
        | cons c w => simp at hb; subst hb; exact hn c (by simp)
      obtain ⟨rfl, hs2⟩ := gap_unique gap gap' _ _ hs hg hg' (hh w rest hw hn) (hh w' rest' hw' hn')
      obtain ⟨rfl, rfl⟩ := gap_unique (sep := fun b => ¬ sep b) w w' rest rest' hs2 hn hn'
        (fun b hb => not_not.2 (hr b hb)) (fun b hb => not_not.2 (hr' b hb))
      rw [ih _ h']

example : slice [32, 97, 98, 44, 32, 99] [32, 44] = some [(1, 2), (5, 1), (0, 0)] := by decide +kernel
example : slice [44, 44] [44] = some [(0, 0)] := by decide +kernel
example : slice [] [44] = some [(0, 0)] := by decide +kernel

end Verif.Str
