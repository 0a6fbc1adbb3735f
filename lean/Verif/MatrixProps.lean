import Verif.Matrix
import Mathlib.LinearAlgebra.Matrix.NonsingularInverse
import Mathlib.Algebra.BigOperators.Fin
import Mathlib.Algebra.BigOperators.Field
import Mathlib.Algebra.Order.Ring.Rat
/-
Matrices: the product, the inverse, what becomes of the argument, matrices with small entries.
-/
namespace Verif.Matrix

variable {K : Type} [Field K] [LinearOrder K]

/-! ## Product -/

theorem foldl_mulRow {a b c : Nat} (A : Mat K a b) (B : Mat K b c) (i : Fin a) (j : Fin c) :
    ∀ (l : List (Fin b)) (row : Fin c → K),
      l.foldl (mulRow A B i) row j = row j + (l.map fun k => A i k * B k j).sum
  | [], row => by simp
  | k :: l, row => by
    rw [List.foldl_cons, foldl_mulRow A B i j l]
    simp [mulRow, add_assoc]

/-- mln_matrix_mul gives the product of two matrices whose sizes fit. -/
theorem mul_product {a b c : Nat} (A : Mat K a b) (B : Mat K b c) :
    mul A B = some (fun i j => ∑ k, A i k * B k j) := by
  unfold mul
  rw [dif_pos rfl]
  congr 1
  funext i j
  rw [foldl_mulRow, zero_add, ← List.ofFn_eq_map, List.sum_ofFn]

/-- And NULL for all others. -/
theorem mul_sizes {a b b' c : Nat} (A : Mat K a b) (B : Mat K b' c) (h : b ≠ b') : mul A B = none := dif_neg h

/-! ## Inverse -/

/-- What holds before round `m` for the argument `M`: `A` is `B` times `M` for an invertible `B`, the
first columns are done. -/
structure Inv {n : Nat} (M : Mat K n n) (m : Nat) (A B : Mat K n n) : Prop where
  inj : ∀ v : Fin n → K, (∀ i, ∑ k, B i k * v k = 0) → v = 0
  mul : ∀ i j, ∑ k, B i k * M k j = A i j
  cols : ∀ j : Fin n, j.val < m → ∀ i, A i j = if i = j then 1 else 0

theorem unit_inv {n : Nat} (M : Mat K n n) : Inv M 0 M (fun i j => if i = j then 1 else 0) :=
  ⟨fun v h => funext fun i => by have := h i; simpa using this, fun i j => by simp, fun j hj => by omega⟩

theorem pivot_fold {n : Nat} (A : Mat K n n) (m : Fin n) : ∀ (l : List (Fin n)) (b : Fin n),
    (∀ x ∈ l, m ≤ x) → m ≤ b →
    m ≤ l.foldl (fun best j => if |A j m| > |A best m| then j else best) b
  | [], b, _, h => h
  | x :: l, b, hl, h => by
    rw [List.foldl_cons]
    refine pivot_fold A m l _ (fun y hy => hl y (by simp [hy])) ?_
    split
    · exact hl x (by simp)
    · exact h

theorem pivot_le {n : Nat} (A : Mat K n n) (m : Fin n) : m ≤ pivot A m := by
  refine pivot_fold A m _ m ?_ le_rfl
  intro x hx
  have := (List.mem_filter.mp hx).2
  simp at this
  exact this.le

theorem pivot_fold_max {n : Nat} (A : Mat K n n) (m : Fin n) : ∀ (l : List (Fin n)) (b : Fin n),
    ∀ x, x = b ∨ x ∈ l →
    |A x m| ≤ |A (l.foldl (fun best j => if |A j m| > |A best m| then j else best) b) m|
  | [], b, x, h => by
    rcases h with rfl | h
    · exact le_rfl
    · cases h
  | y :: l, b, x, h => by
    rw [List.foldl_cons]
    have h1 := pivot_fold_max A m l (if |A y m| > |A b m| then y else b) _ (.inl rfl)
    rcases h with rfl | h
    · refine le_trans ?_ h1
      split
      · rename_i h2; exact h2.le
      · exact le_rfl
    · rcases List.mem_cons.mp h with rfl | h
      · refine le_trans ?_ h1
        split
        · exact le_rfl
        · rename_i h2; exact not_lt.mp h2
      · exact pivot_fold_max A m l _ x (.inr h)

/-- The pivot is the largest entry that is left. -/
theorem pivot_max {n : Nat} (A : Mat K n n) (m x : Fin n) (h : m ≤ x) : |A x m| ≤ |A (pivot A m) m| := by
  refine pivot_fold_max A m _ m x ?_
  rcases h.eq_or_lt with e | e
  · exact .inl e.symm
  · exact .inr (List.mem_filter.mpr ⟨List.mem_finRange x, by simpa using e⟩)

theorem swap_inv {n : Nat} {M A B : Mat K n n} {m k : Fin n} (h : Inv M m A B) (hk : m ≤ k) :
    Inv M m (swap A m k) (swap B m k) := by
  constructor
  · intro v hv
    refine h.inj v fun i => ?_
    by_cases h1 : i = k
    · subst h1; have := hv m; rwa [swap, if_pos rfl] at this
    · by_cases h2 : i = m
      · subst h2
        have := hv k
        rwa [swap, if_neg (Ne.symm h1), if_pos rfl] at this
      · have := hv i
        rwa [swap, if_neg h2, if_neg h1] at this
  · intro i j
    unfold swap
    split
    · exact h.mul k j
    · split
      · exact h.mul m j
      · exact h.mul i j
  · intro j hj i
    unfold swap
    have hm : m ≠ j := by rintro rfl; omega
    have hkj : k ≠ j := by rintro rfl; omega
    split
    · rename_i e; subst e
      rw [h.cols j hj, if_neg hkj, if_neg hm]
    · split
      · rename_i e; subst e
        rw [h.cols j hj, if_neg hm, if_neg hkj]
      · exact h.cols j hj i

theorem scale_inv {n : Nat} {M A B : Mat K n n} {m : Fin n} {t : K} (h : Inv M m A B) (ht : t ≠ 0) :
    Inv M m (scale A m t) (scale B m t) := by
  constructor
  · intro v hv
    refine h.inj v fun i => ?_
    have := hv i
    unfold scale at this
    by_cases hi : i = m
    · simp only [hi, if_true, div_mul_eq_mul_div] at this
      rw [← Finset.sum_div, div_eq_zero_iff] at this
      rw [hi]
      exact this.resolve_right ht
    · simpa only [hi, if_false] using this
  · intro i j
    unfold scale
    split
    · rw [← h.mul i j, Finset.sum_div]
      exact Finset.sum_congr rfl fun k _ => by rw [div_mul_eq_mul_div]
    · exact h.mul i j
  · intro j hj i
    unfold scale
    split
    · rename_i e; subst e
      have hm : i ≠ j := by rintro rfl; omega
      rw [h.cols j hj, if_neg hm, zero_div]
    · exact h.cols j hj i

theorem elim_inv {n : Nat} {M A B : Mat K n n} {m : Fin n} (h : Inv M m A B) (h1 : A m m = 1) :
    Inv M (m + 1) (elim (fun r => A r m) A m) (elim (fun r => A r m) B m) := by
  constructor
  · intro v hv
    have hm := hv m
    simp only [elim, if_true] at hm
    refine h.inj v fun i => ?_
    by_cases hi : i = m
    · rw [hi]; exact hm
    · have := hv i
      simp only [elim, hi, if_false, sub_mul, Finset.sum_sub_distrib, mul_right_comm _ (A i m)] at this
      rw [← Finset.sum_mul, hm, zero_mul, sub_zero] at this
      exact this
  · intro i j
    unfold elim
    split
    · exact h.mul i j
    · rw [← h.mul i j, ← h.mul m j, Finset.sum_mul, ← Finset.sum_sub_distrib]
      exact Finset.sum_congr rfl fun k _ => by rw [sub_mul, mul_right_comm]
  · intro j hj i
    unfold elim
    by_cases hjm : j = m
    · subst hjm
      split
      · rename_i e; subst e; exact h1
      · rw [h1, one_mul, sub_self]
    · have hj' : j.val < m.val := by
        have : j.val ≠ m.val := fun e => hjm (Fin.ext e)
        omega
      have hmj : A m j = 0 := by rw [h.cols j hj', if_neg (Ne.symm hjm)]
      split
      · exact h.cols j hj' i
      · rw [hmj, zero_mul, sub_zero]
        exact h.cols j hj' i

variable [IsStrictOrderedRing K]

theorem eps_pos : (0 : K) < eps := by unfold eps; exact div_pos one_pos (by exact_mod_cast (by omega : (0:Nat) < 1000000))

theorem invStep_ok {n : Nat} {M A B A' B' : Mat K n n} {m : Fin n} (h : Inv M m A B)
    (e : invStep A B m = (true, A', B')) : Inv M (m + 1) A' B' := by
  have h2 := swap_inv h (pivot_le A m)
  unfold invStep at e
  dsimp only at e
  split at e
  · cases e
  · rename_i hp
    have h0 : swap A m (pivot A m) m m ≠ 0 := by
      intro h0
      rw [h0, abs_zero] at hp
      exact hp eps_pos
    have h3 := scale_inv (t := swap A m (pivot A m) m m) h2 h0
    have h4 := elim_inv h3 (by unfold scale; rw [if_pos rfl]; exact div_self h0)
    cases e
    exact h4

theorem invLoop_ok {n : Nat} {M : Mat K n n} : ∀ (d m : Nat), m + d = n → ∀ A B A' B', Inv M m A B →
    invLoop ((List.finRange n).drop m) A B = (true, A', B') → Inv M n A' B'
  | 0, m, e, A, B, A', B', h, hl => by
    obtain rfl : m = n := by omega
    rw [List.drop_of_length_le (by simp)] at hl
    cases hl
    exact h
  | d + 1, m, e, A, B, A', B', h, hl => by
    have hm : m < (List.finRange n).length := by simp; omega
    have hget : (List.finRange n)[m] = ⟨m, by simpa using hm⟩ := by simp
    rw [List.drop_eq_getElem_cons hm, hget, invLoop] at hl
    split at hl
    · rename_i A1 B1 e1
      exact invLoop_ok d (m + 1) (by omega) A1 B1 A' B' (invStep_ok (m := ⟨m, by simpa using hm⟩) h e1) hl
    · rename_i r hr
      exact absurd hl (hr A' B')

/-- A result of mln_matrix_inverse is the inverse, from both sides, and the argument has become the
unit matrix. -/
theorem inverse_ok {n : Nat} {M B A : Mat K n n} (h : inverse M = (some B, A)) :
    (∀ i j, ∑ k, B i k * M k j = if i = j then 1 else 0) ∧ (∀ i j, ∑ k, M i k * B k j = if i = j then 1 else 0) ∧
    (∀ i j, A i j = if i = j then 1 else 0) := by
  unfold inverse at h
  rw [dif_pos rfl] at h
  dsimp only at h
  have h0 : Inv M 0 M (fun i j => if i = j then 1 else 0) :=
    unit_inv M
  generalize hx : invLoop (List.finRange n) M (fun i j => if i = j then 1 else 0) = x at h
  obtain ⟨b, A', B'⟩ := x
  cases b with
  | false => simp at h
  | true =>
    have h2 := invLoop_ok n 0 (by omega) M _ A' B' h0 hx
    simp only [if_true, Prod.mk.injEq, Option.some.injEq] at h
    obtain ⟨rfl, rfl⟩ := h
    have h3 : ∀ i j, A' i j = if i = j then 1 else 0 := fun i j => h2.cols j j.isLt i
    have h4 : ∀ i j, ∑ k, B' i k * M k j = if i = j then 1 else 0 := fun i j => by rw [h2.mul, h3]
    have h5 : (Matrix.of B') * (Matrix.of M) = 1 := by
      ext i j
      rw [Matrix.mul_apply, Matrix.one_apply]
      exact h4 i j
    have h6 := mul_eq_one_comm.mp h5
    refine ⟨h4, fun i j => ?_, h3⟩
    have := congrFun (congrFun h6 i) j
    rw [Matrix.mul_apply, Matrix.one_apply] at this
    exact this

/-- A matrix without an inverse gives NULL. -/
theorem inverse_singular {n : Nat} {M : Mat K n n} (h : ¬ ∃ B : Mat K n n, ∀ i j, ∑ k, B i k * M k j = if i = j then 1 else 0) :
    (inverse M).1 = none := by
  cases hB : (inverse M).1 with
  | none => rfl
  | some B => exact absurd ⟨B, (inverse_ok (A := (inverse M).2) (Prod.ext hB rfl)).1⟩ h

theorem invLoop_fails {n : Nat} {M : Mat K n n} : ∀ (d m : Nat), m + d = n → ∀ A B x, Inv M m A B →
    invLoop ((List.finRange n).drop m) A B = (false, x) →
    ∃ (m : Fin n) (A B : Mat K n n), Inv M m A B ∧ ∀ i, m ≤ i → |A i m| < eps
  | 0, m, e, A, B, x, h, hl => by
    rw [List.drop_of_length_le (by simp; omega)] at hl
    cases hl
  | d + 1, m, e, A, B, x, h, hl => by
    have hm : m < (List.finRange n).length := by simp; omega
    have hget : (List.finRange n)[m] = ⟨m, by simpa using hm⟩ := by simp
    rw [List.drop_eq_getElem_cons hm, hget, invLoop] at hl
    split at hl
    · rename_i A1 B1 e1
      exact invLoop_fails d (m + 1) (by omega) A1 B1 x (invStep_ok (m := ⟨m, by simpa using hm⟩) h e1) hl
    · rw [invStep] at hl
      dsimp only at hl
      split at hl
      · rename_i hp
        refine ⟨⟨m, by simpa using hm⟩, A, B, h, fun i hi => lt_of_le_of_lt (pivot_max A _ i hi) ?_⟩
        rwa [swap, if_pos rfl] at hp
      · cases hl

/-- If a square matrix gives NULL, then row operations lead from it to one whose first `m` columns are
those of the unit matrix and whose column `m` has no entry of 1e-6 or more from the diagonal on. -/
theorem inverse_fails {n : Nat} {M : Mat K n n} (h : (inverse M).1 = none) :
    ∃ (m : Fin n) (A B : Mat K n n), Inv M m A B ∧ ∀ i, m ≤ i → |A i m| < eps := by
  unfold inverse at h
  rw [dif_pos rfl] at h
  dsimp only at h
  generalize hx : invLoop (List.finRange n) M (fun i j => if i = j then 1 else 0) = x at h
  obtain ⟨b, x⟩ := x
  cases b with
  | true => simp at h
  | false => exact invLoop_fails n 0 (by omega) M _ x (unit_inv M) hx

/-- A matrix that is not square gives NULL. -/
theorem inverse_sizes {r c : Nat} (M : Mat K r c) (h : r ≠ c) : inverse M = (none, M) := dif_neg h

/-! ## The argument -/

/-- Of every invertible matrix other than the unit matrix for which there is a result the argument is
changed. -/
theorem inverse_destroys {n : Nat} {M B : Mat K n n} (h : (inverse M).1 = some B) (hM : M ≠ fun i j => if i = j then 1 else 0) :
    (inverse M).2 ≠ M := by
  intro e
  have h2 := (inverse_ok (B := B) (A := M) (Prod.ext h e)).2.2
  exact hM (funext fun i => funext fun j => h2 i j)

/-! ## Small entries -/

/-- Without an entry of 1e-6 or more in its first column a matrix gives NULL. -/
theorem inverse_small {n : Nat} {M : Mat K (n + 1) (n + 1)} (h : ∀ i, |M i 0| < eps) : (inverse M).1 = none := by
  unfold inverse
  rw [dif_pos rfl]
  dsimp only
  have e : (List.finRange (n + 1)) = 0 :: (List.finRange n).map Fin.succ := List.finRange_succ
  have h1 : invStep M (fun i j => if i = j then 1 else 0) 0 =
      (false, swap M 0 (pivot M 0), swap (fun i j => if i = j then 1 else 0) 0 (pivot M 0)) := by
    unfold invStep
    dsimp only
    rw [if_pos]
    unfold swap
    rw [if_pos rfl]
    exact h _
  rw [e, invLoop, h1]
  rfl

/-- For every size there are invertible matrices like that. -/
theorem inverse_null (n : Nat) : ∃ M B : Mat K (n + 1) (n + 1),
    (∀ i j, ∑ k, B i k * M k j = if i = j then 1 else 0) ∧ (inverse M).1 = none := by
  have h2 : (eps : K) / 2 ≠ 0 := (half_pos eps_pos).ne'
  refine ⟨fun i j => if i = j then eps / 2 else 0, fun i j => if i = j then (eps / 2)⁻¹ else 0, ?_, ?_⟩
  · intro i j
    simp only [ite_mul, zero_mul, Finset.sum_ite_eq', Finset.mem_univ, if_true, mul_ite, mul_zero]
    rw [inv_mul_cancel₀ h2]
  · refine inverse_small fun i => ?_
    split
    · rw [abs_of_pos (half_pos eps_pos)]; exact half_lt_self eps_pos
    · rw [abs_zero]; exact eps_pos

/-! ## Examples -/

def exM : Mat Rat 2 2 := ![![0, 2], ![4, 1]]

example : (inverse exM).1 = some ![![-1/8, 1/4], ![1/2, 0]] := by decide +kernel
example : (inverse exM).2 = ![![1, 0], ![0, 1]] := by decide +kernel
example : mul exM exM = some ![![8, 2], ![4, 9]] := by decide +kernel

end Verif.Matrix
