import Verif.Rs
import Mathlib.Algebra.Field.Defs
import Mathlib.Logic.Function.Iterate
import Mathlib.Data.Nat.ModEq
import Mathlib.Tactic.Ring
/-
The multiplication and division of mln_rs.c are those of a field with 256 elements.
-/
set_option linter.unusedSimpArgs false

namespace Verif.Rs

/-- Multiplication by x modulo x^8 + x^5 + x^3 + x^2 + 1. -/
def xt (a : U8) : U8 := (a <<< 1) ^^^ (if a.msb then 0x2D else 0)

theorem xt_xor (a b : U8) : xt (a ^^^ b) = xt a ^^^ xt b := by
  simp only [xt, BitVec.shiftLeft_xor_distrib, BitVec.msb_xor]
  generalize a <<< 1 = a'
  generalize b <<< 1 = b'
  apply BitVec.eq_of_getLsbD_eq
  intro i _
  cases a.msb <;> cases b.msb <;> simp <;> cases a'.getLsbD i <;> cases b'.getLsbD i <;> simp

theorem xt_zero : xt 0 = 0 := by decide

theorem xts_xor (n : Nat) (a b : U8) : xt^[n] (a ^^^ b) = xt^[n] a ^^^ xt^[n] b := by
  induction n generalizing a b with
  | zero => rfl
  | succ n ih => rw [Function.iterate_succ_apply, xt_xor, ih]; rfl

theorem xts_zero (n : Nat) : xt^[n] 0 = 0 := by
  induction n with
  | zero => rfl
  | succ n ih => rw [Function.iterate_succ_apply, xt_zero, ih]

theorem ilog_zero : ilog 0 = 1 := by decide +kernel
theorem ilog_succ' : ∀ i : Fin 254, ilog (i.val + 1) = xt (ilog i.val) := by decide +kernel
theorem ilog_wrap : xt (ilog 254) = 1 := by decide +kernel
theorem log_all : ∀ i : Fin 255, log (ilog i.val) = i.val := by decide +kernel
theorem ilog_all : ∀ i : Fin 256, i.val ≠ 0 → log (BitVec.ofNat 8 i.val) < 255 ∧ ilog (log (BitVec.ofNat 8 i.val)) = BitVec.ofNat 8 i.val := by decide +kernel
theorem ilog_ne' : ∀ i : Fin 255, ilog i.val ≠ 0 := by decide +kernel

theorem ilog_log {a : U8} (h : a ≠ 0) : log a < 255 ∧ ilog (log a) = a := by
  have := ilog_all ⟨a.toNat, a.isLt⟩ (by
    intro e
    exact h (BitVec.eq_of_toNat_eq (by simpa using e)))
  simpa using this

theorem log_ilog {i : Nat} (h : i < 255) : log (ilog i) = i := log_all ⟨i, h⟩
theorem ilog_ne {i : Nat} (h : i < 255) : ilog i ≠ 0 := ilog_ne' ⟨i, h⟩

theorem xts_one : ∀ i, i < 255 → xt^[i] 1 = ilog i
  | 0, _ => ilog_zero.symm
  | i + 1, h => by
    rw [Function.iterate_succ_apply', xts_one i (by omega)]
    exact (ilog_succ' ⟨i, by omega⟩).symm

theorem xts_period : xt^[255] 1 = 1 := by
  rw [show 255 = 254 + 1 from rfl, Function.iterate_succ_apply', xts_one 254 (by omega)]
  exact ilog_wrap

theorem xts_mod (i : Nat) : xt^[i] 1 = ilog (i % 255) := by
  induction i using Nat.strongRecOn with
  | ind i ih =>
    by_cases h : i < 255
    · rw [xts_one i h, Nat.mod_eq_of_lt h]
    · have : i = (i - 255) + 255 := by omega
      generalize i - 255 = k at this
      subst this
      rw [Function.iterate_add_apply, xts_period, ih k (by omega), Nat.add_mod_right]

theorem gmul_iter {a b : U8} (ha : a ≠ 0) : gmul a b = xt^[log a] b := by
  by_cases hb : b = 0
  · subst hb; rw [xts_zero]; simp [gmul]
  · rw [gmul, if_neg (not_or.2 ⟨ha, hb⟩), ← xts_mod, Function.iterate_add_apply]
    congr 1
    rw [xts_one _ (ilog_log hb).1, (ilog_log hb).2]

theorem gmul_comm (a b : U8) : gmul a b = gmul b a := by
  simp only [gmul, or_comm, Nat.add_comm]

theorem gmul_zero (a : U8) : gmul a 0 = 0 := by simp [gmul]
theorem zero_gmul (a : U8) : gmul 0 a = 0 := by simp [gmul]

theorem gmul_xor (a b c : U8) : gmul a (b ^^^ c) = gmul a b ^^^ gmul a c := by
  by_cases ha : a = 0
  · subst ha; simp only [zero_gmul]; rfl
  · simp only [gmul_iter ha, xts_xor]

theorem one_gmul (a : U8) : gmul 1 a = a := by
  rw [gmul_iter (by decide), show log 1 = 0 by decide +kernel]; rfl

theorem log_gmul {a b : U8} (ha : a ≠ 0) (hb : b ≠ 0) : gmul a b ≠ 0 ∧ log (gmul a b) = (log a + log b) % 255 := by
  rw [gmul, if_neg (not_or.2 ⟨ha, hb⟩)]
  exact ⟨ilog_ne (Nat.mod_lt _ (by omega)), log_ilog (Nat.mod_lt _ (by omega))⟩

theorem gmul_assoc (a b c : U8) : gmul (gmul a b) c = gmul a (gmul b c) := by
  by_cases ha : a = 0
  · subst ha; simp only [zero_gmul]
  by_cases hb : b = 0
  · subst hb; simp only [zero_gmul, gmul_zero]
  by_cases hc : c = 0
  · subst hc; simp only [zero_gmul, gmul_zero]
  have h1 := log_gmul ha hb
  have h2 := log_gmul hb hc
  have e1 : gmul (gmul a b) c = ilog ((log (gmul a b) + log c) % 255) := if_neg (not_or.2 ⟨h1.1, hc⟩)
  have e2 : gmul a (gmul b c) = ilog ((log a + log (gmul b c)) % 255) := if_neg (not_or.2 ⟨ha, h2.1⟩)
  rw [e1, e2, h1.2, h2.2]
  congr 1
  omega

theorem gmul_gdiv (a : U8) {b : U8} (hb : b ≠ 0) : gmul b (gdiv a b) = a := by
  by_cases ha : a = 0
  · subst ha; rw [show gdiv 0 b = 0 from if_pos (.inl rfl), gmul_zero]
  · have la := ilog_log ha
    have lb := ilog_log hb
    rw [gdiv, if_neg (not_or.2 ⟨ha, hb⟩)]
    have he : (if log a < log b then 255 - (log b - log a) else log a - log b) < 255 := by split <;> omega
    have hs : (log b + (if log a < log b then 255 - (log b - log a) else log a - log b)) % 255 = log a := by
      split
      · rw [show log b + (255 - (log b - log a)) = log a + 255 by omega]; omega
      · rw [show log b + (log a - log b) = log a by omega]; omega
    generalize (if log a < log b then 255 - (log b - log a) else log a - log b) = e at he hs
    rw [gmul, if_neg (not_or.2 ⟨hb, ilog_ne he⟩), log_ilog he, hs, la.2]

/-- The bytes with these operations. -/
structure GF where
  v : U8
deriving DecidableEq

namespace GF
theorem ext : ∀ {a b : GF}, a.v = b.v → a = b
  | ⟨_⟩, ⟨_⟩, rfl => rfl

instance : Add GF := ⟨fun a b => ⟨a.v ^^^ b.v⟩⟩
instance : Zero GF := ⟨⟨0⟩⟩
instance : Neg GF := ⟨fun a => a⟩
instance : Mul GF := ⟨fun a b => ⟨gmul a.v b.v⟩⟩
instance : One GF := ⟨⟨1⟩⟩
instance : Inv GF := ⟨fun a => ⟨gdiv 1 a.v⟩⟩

theorem add_v (a b : GF) : (a + b).v = a.v ^^^ b.v := rfl
theorem mul_v (a b : GF) : (a * b).v = gmul a.v b.v := rfl
theorem zero_v : (0 : GF).v = 0 := rfl
theorem one_v : (1 : GF).v = 1 := rfl
theorem neg_eq (a : GF) : -a = a := rfl
theorem v_ne {a : GF} (h : a ≠ 0) : a.v ≠ 0 := fun e => h (GF.ext e)

instance : Field GF where
  nsmul := nsmulRec
  zsmul := zsmulRec
  add_assoc := fun a b c => GF.ext (BitVec.xor_assoc _ _ _)
  zero_add := fun a => GF.ext (BitVec.zero_xor)
  add_zero := fun a => GF.ext (BitVec.xor_zero)
  add_comm := fun a b => GF.ext (BitVec.xor_comm _ _)
  neg_add_cancel := fun a => GF.ext (BitVec.xor_self)
  mul_assoc := fun a b c => GF.ext (gmul_assoc _ _ _)
  one_mul := fun a => GF.ext (one_gmul _)
  mul_one := fun a => GF.ext (by rw [mul_v, gmul_comm, one_v, one_gmul])
  zero_mul := fun a => GF.ext (zero_gmul a.v)
  mul_zero := fun a => GF.ext (gmul_zero a.v)
  left_distrib := fun a b c => GF.ext (gmul_xor _ _ _)
  right_distrib := fun a b c => GF.ext (by
    rw [mul_v, add_v, gmul_comm, gmul_xor, gmul_comm c.v a.v, gmul_comm c.v b.v]; rfl)
  mul_comm := fun a b => GF.ext (gmul_comm _ _)
  exists_pair_ne := ⟨0, 1, by decide⟩
  mul_inv_cancel := fun a ha => GF.ext (gmul_gdiv 1 (v_ne ha))
  inv_zero := by decide +kernel
  nnqsmul := _
  nnqsmul_def := fun _ _ => rfl
  qsmul := _
  qsmul_def := fun _ _ => rfl

theorem div_v (a : GF) {b : GF} (hb : b ≠ 0) : (a / b).v = gdiv a.v b.v := by
  have : a / b = ⟨gdiv a.v b.v⟩ := by
    rw [div_eq_iff hb, mul_comm]
    exact GF.ext (gmul_gdiv a.v (v_ne hb)).symm
  rw [this]

end GF

theorem testBit_mod (x i : Nat) : x % 2 ^ (i + 1) = (if x.testBit i then 2 ^ i else 0) + x % 2 ^ i := by
  rw [Nat.pow_succ, Nat.mod_mul, Nat.testBit_eq_decide_div_mod_eq]
  have := Nat.mod_two_eq_zero_or_one (x / 2 ^ i)
  rcases this with h | h <;> simp [h] <;> omega

theorem powLoop_eq (save exp : BitVec 64) : ∀ (i : Nat) (base : BitVec 64) (e : Nat), base.toNat = save.toNat ^ e % 2 ^ 64 → (powLoop save exp i base).toNat = save.toNat ^ (e * 2 ^ i + exp.toNat % 2 ^ i) % 2 ^ 64
  | 0, base, e, h => by simp only [powLoop, h, Nat.pow_zero, Nat.mod_one, Nat.mul_one, Nat.add_zero]
  | i + 1, base, e, h => by
    rw [powLoop]
    have hsq : (base * base).toNat = save.toNat ^ (2 * e) % 2 ^ 64 := by
      rw [BitVec.toNat_mul, h, ← Nat.mul_mod, ← Nat.pow_add, Nat.two_mul]
    rw [testBit_mod exp.toNat i]
    have hb : exp.getLsbD i = exp.toNat.testBit i := rfl
    simp only [hb]
    cases exp.toNat.testBit i with
    | true =>
      simp only [if_true]
      rw [powLoop_eq save exp i _ (2 * e + 1) (by
        rw [BitVec.toNat_mul, hsq, Nat.mod_mul_mod, ← Nat.pow_succ])]
      congr 2
      rw [Nat.pow_succ 2 i]
      ring
    | false =>
      simp only [Bool.false_eq_true, if_false]
      rw [powLoop_eq save exp i _ (2 * e) hsq]
      congr 2
      rw [Nat.pow_succ 2 i]
      ring

theorem topBit_some {e : BitVec 64} : ∀ {n i : Nat}, topBit e n = some i → e.getLsbD i = true ∧ ∀ j, i < j → j < n → e.getLsbD j = false
  | 0, i, h => by simp [topBit] at h
  | n + 1, i, h => by
    rw [topBit] at h
    by_cases hb : e.getLsbD n
    · rw [if_pos hb] at h
      cases h
      exact ⟨hb, fun j h1 h2 => by omega⟩
    · rw [if_neg hb] at h
      obtain ⟨h1, h2⟩ := topBit_some h
      refine ⟨h1, fun j h3 h4 => ?_⟩
      by_cases hj : j = n
      · subst hj; simpa using hb
      · exact h2 j h3 (by omega)

theorem topBit_none {e : BitVec 64} : ∀ {n : Nat}, topBit e n = none → ∀ j, j < n → e.getLsbD j = false
  | 0, _, j, hj => by omega
  | n + 1, h, j, hj => by
    rw [topBit] at h
    by_cases hb : e.getLsbD n
    · rw [if_pos hb] at h; cases h
    · rw [if_neg hb] at h
      by_cases hj : j = n
      · subst hj; simpa using hb
      · exact topBit_none h j (by omega)

/-- mln_rs_power_calc computes the power modulo 2^64. -/
theorem powerCalc_eq (base exp : BitVec 64) : (powerCalc base exp).toNat = base.toNat ^ exp.toNat % 2 ^ 64 := by
  unfold powerCalc
  cases h : topBit exp 64 with
  | none =>
    have h0 : exp = 0 := by
      apply BitVec.eq_of_getLsbD_eq
      intro i hi
      simpa using topBit_none h i hi
    subst h0
    simp
  | some i =>
    obtain ⟨h1, h2⟩ := topBit_some h
    simp only []
    rw [powLoop_eq base exp i base 1 (by rw [Nat.pow_one, Nat.mod_eq_of_lt base.isLt])]
    congr 2
    have h3 : exp.toNat < 2 ^ (i + 1) := by
      refine Nat.lt_pow_two_of_testBit _ ?_
      intro j hj
      by_cases hj' : j < 64
      · exact h2 j (by omega) hj'
      · exact BitVec.getLsbD_of_ge exp j (by omega)
    have := testBit_mod exp.toNat i
    rw [Nat.mod_eq_of_lt h3, show exp.toNat.testBit i = true from h1, if_pos rfl] at this
    omega

theorem powRow_eq (n e : Nat) (he : e < 2 ^ 64) (j : Fin n) (hn : j.val + 1 < 2 ^ 64) : powRow n e j = BitVec.ofNat 8 ((j.val + 1) ^ e) := by
  apply BitVec.eq_of_toNat_eq
  rw [powRow, BitVec.truncate_eq_setWidth, BitVec.toNat_setWidth, powerCalc_eq, BitVec.toNat_ofNat, BitVec.toNat_ofNat, BitVec.toNat_ofNat, Nat.mod_eq_of_lt he, Nat.mod_eq_of_lt hn]
  exact Nat.mod_mod_of_dvd _ (by decide)

end Verif.Rs
