import Mathlib.Data.Int.ModEq
import Verif.BnDivProps

/-
Powers of big numbers (property C34).  The specification is the integer power.
-/
set_option maxRecDepth 8000

namespace Verif.Bn

/-! ## Bits -/

theorem nat_testBit : ∀ (l : List Nat), (∀ x ∈ l, x < B) → ∀ i, (nat l).testBit i = match l[i / 32]? with | some x => x.testBit (i % 32) | none => false := by
  intro l
  induction l with
  | nil => intro _ i; simp [nat]
  | cons a l ih =>
    intro h i
    rw [nat_cons, Nat.add_comm, show (4294967296 : Nat) = 2 ^ 32 by norm_num, Nat.testBit_two_pow_mul_add _ (by have := h a (by simp); norm_num; omega)]
    by_cases hi : i < 32
    · rw [if_pos hi, Nat.div_eq_of_lt hi, Nat.mod_eq_of_lt hi]; rfl
    · rw [if_neg hi, ih (fun x hx => h x (by simp [hx]))]
      obtain ⟨j, rfl⟩ : ∃ j, i = j + 32 := ⟨i - 32, by omega⟩
      rw [Nat.add_sub_cancel, Nat.add_div_right _ (by decide), Nat.add_mod_right]
      rfl

theorem bitTest_spec {b : Bn} (h : Wf b) (i : Nat) (hi : i < 8224) : bitTest b i = some ((mag b).testBit i) := by
  have hl : i / 32 < b.data.length := by rw [h.size]; have hsz : size = 257 := rfl; omega
  unfold bitTest mag
  rw [nat_testBit _ h.limbs, List.getElem?_eq_getElem hl]
  rfl

/-- mln_bignum_bit_test, for every index. -/
theorem bitTestApi_spec {b : Bn} (h : Wf b) (i : Nat) : bitTestApi b i = some ((mag b).testBit i) := by
  unfold bitTestApi
  by_cases hi : i ≥ 8224
  · rw [if_pos hi, Nat.testBit_lt_two_pow]
    have h1 := wf_mag_lt h
    have h2 : (2 : Nat) ^ 8224 ≤ 2 ^ i := Nat.pow_le_pow_right (by decide) hi
    have h3 : B ^ 257 = 2 ^ 8224 := by
      rw [show (4294967296 : Nat) = 2 ^ 32 by norm_num, ← pow_mul]
    rw [h3] at h1
    exact lt_of_lt_of_le h1 h2
  · rw [if_neg hi]; exact bitTest_spec h i (by omega)

theorem div_bit (e n : Nat) : e / 2 ^ n = 2 * (e / 2 ^ (n + 1)) + (e.testBit n).toNat := by
  rw [pow_succ, ← Nat.div_div_eq_div_mul]
  have h : (e.testBit n).toNat = e / 2 ^ n % 2 := by
    rw [Nat.testBit, Nat.shiftRight_eq_div_pow, Nat.and_comm, Nat.and_one_is_mod]
    rcases Nat.mod_two_eq_zero_or_one (e / 2 ^ n) with h | h <;> rw [h] <;> rfl
  rw [h]
  omega

theorem topBit_spec {e : Bn} (he : Wf e) : ∀ n, n ≤ 8224 → mag e < 2 ^ n →
    ∃ i, topBit e n = some i ∧ i ≤ n ∧ (i = 0 ↔ mag e = 0) ∧ (i ≠ 0 → mag e / 2 ^ (i - 1) = 1) := by
  intro n
  induction n with
  | zero =>
    intro _ h
    rw [pow_zero] at h
    exact ⟨0, rfl, le_refl _, ⟨fun _ => by omega, fun _ => rfl⟩, fun h => absurd rfl h⟩
  | succ n ih =>
    intro hn h
    unfold topBit
    rw [bitTest_spec he n (by omega), bsome]
    have hd := div_bit (mag e) n
    rw [Nat.div_eq_of_lt h] at hd
    by_cases hb : (mag e).testBit n = true
    · rw [hb]
      rw [hb] at hd
      refine ⟨n + 1, rfl, le_refl _, ⟨fun h => by omega, fun h => ?_⟩, fun _ => hd⟩
      rw [h] at hb; simp at hb
    · have hb : (mag e).testBit n = false := by simpa using hb
      rw [hb]
      rw [hb] at hd
      have h2 : mag e < 2 ^ n := by
        have h0 : mag e / 2 ^ n = 0 := hd
        rcases Nat.div_eq_zero_iff.1 h0 with h0 | h0
        · exact absurd h0 (Nat.pos_iff_ne_zero.1 (Nat.two_pow_pos n))
        · exact h0
      obtain ⟨i, e1, h3, h4, h5⟩ := ih (by omega) h2
      exact ⟨i, e1, by omega, h4, h5⟩

theorem wf_bits {e : Bn} (he : Wf e) : mag e < 2 ^ (e.length * 32) := by
  have h := he.below
  rwa [show (4294967296 : Nat) = 2 ^ 32 by norm_num, ← pow_mul, Nat.mul_comm] at h

/-! ## With a modulus -/

theorem len_le_of_lt {a b : Bn} (ha : Wf a) (hb : Wf b) (h : mag a < mag b) : a.length ≤ b.length := by
  by_contra hc
  have := wf_len_lt hb ha (by omega)
  omega

theorem len_le_of_pow {a : Bn} (ha : Wf a) (n : Nat) (h : mag a < B ^ n) : a.length ≤ n := by
  by_contra hc
  rcases ha.top with h0 | h0
  · omega
  · have : B ^ n ≤ B ^ (a.length - 1) := Nat.pow_le_pow_right (by decide) (by omega)
    omega

theorem reduce_spec {m d : Bn} (hm : Wf m) (hd : Wf d) (hnz : mag m ≠ 0) (hpos : m.neg = false) (hl : d.length ≤ 256) :
    ∃ r, reduce m d = some (some r) ∧ Wf r ∧ mag r < mag m ∧ value r ≡ value d [ZMOD mag m] ∧ (0 ≤ value d → 0 ≤ value r) := by
  unfold reduce
  by_cases h : d.length ≥ m.length
  · rw [if_pos h]
    obtain ⟨r, q, e, hr, hq, hv, hlt, s1, s2⟩ := div_mag hd hm hnz (Or.inl hl)
    obtain ⟨r', q', e', -, -, hv', hlt', hs⟩ := div_spec_partial hd hm hnz (Or.inl hl) (Or.inl hpos)
    rw [e] at e'
    have e2 : (r, q) = (r', q') := by injection e' with e'; injection e'
    injection e2 with e2 e3
    rw [← e2, ← e3] at hv'
    rw [← e2] at hs
    rw [e]
    refine ⟨r, rfl, hr, hlt, ?_, ?_⟩
    · have hm2 : value m = mag m := value_pos hpos
      rw [hm2] at hv'
      rw [hv']
      exact (Int.modEq_iff_dvd.2 ⟨value q, by ring⟩)
    · intro h0
      by_contra hc
      have h1 := hs (by omega)
      by_cases hd0 : value d = 0
      · have hmd : mag d = 0 := by
          rw [value_of] at hd0
          cases hn : d.neg <;> simp [hn] at hd0 <;> exact hd0
        rw [hmd] at hv
        have : mag r = 0 := by omega
        apply hc
        rw [value_of, this]; simp
      · have := h1.2 (by omega)
        omega
  · rw [if_neg h]
    exact ⟨d, rfl, hd, wf_len_lt hd hm (by omega), Int.ModEq.refl _, fun h => h⟩

theorem mul_len {a b : Bn} (ha : Wf a) (hb : Wf b) (h1 : a.length ≤ 128) (h2 : b.length ≤ 128) :
    ∃ r, mul a b = some r ∧ Wf r ∧ value r = value a * value b ∧ r.length ≤ 256 := by
  have l1 : mag a < B ^ 128 := lt_of_lt_of_le ha.below (Nat.pow_le_pow_right (by decide) h1)
  have l2 : mag b < B ^ 128 := lt_of_lt_of_le hb.below (Nat.pow_le_pow_right (by decide) h2)
  have l3 : mag a * mag b < B ^ 256 := by
    rw [show 256 = 128 + 128 by rfl, pow_add]
    exact Nat.mul_lt_mul'' l1 l2
  obtain ⟨r, e, hr, hv, hm, -⟩ := mul_spec a b ha hb (lt_of_lt_of_le l3 (Nat.pow_le_pow_right (by decide) (by decide)))
  exact ⟨r, e, hr, hv, len_le_of_pow hr 256 (by rw [hm]; exact l3)⟩

theorem pwrModLoop_spec {e m x : Bn} (he : Wf e) (hm : Wf m) (hx : Wf x) (hnz : mag m ≠ 0) (hpos : m.neg = false)
    (hxl : x.length ≤ 128) (hml : m.length ≤ 128) : ∀ (n : Nat) (d : Bn), n ≤ 8224 → Wf d → d.length ≤ 128 →
      value d ≡ value x ^ (mag e / 2 ^ n) [ZMOD mag m] → (0 ≤ value x → 0 ≤ value d) →
      ∃ r, pwrModLoop e m x n d = some (some r) ∧ Wf r ∧ value r ≡ value x ^ mag e [ZMOD mag m] ∧ (n ≠ 0 ∨ mag d < mag m → mag r < mag m) ∧
        (0 ≤ value x → 0 ≤ value r) := by
  intro n
  induction n with
  | zero =>
    intro d _ hd _ hv hs
    rw [pow_zero, Nat.div_one] at hv
    exact ⟨d, rfl, hd, hv, fun h => by simpa using h, hs⟩
  | succ n ih =>
    intro d hn hd hdl hv hs
    obtain ⟨d1, e1, w1, v1, l1⟩ := mul_len hd hd hdl hdl
    obtain ⟨d2, e2, w2, lt2, v2, s2⟩ := reduce_spec hm w1 hnz hpos l1
    have l2 : d2.length ≤ 128 := le_trans (len_le_of_lt w2 hm lt2) hml
    have hsq : value d2 ≡ value x ^ (2 * (mag e / 2 ^ (n + 1))) [ZMOD mag m] := by
      refine v2.trans ?_
      rw [v1, Nat.two_mul, pow_add]
      exact hv.mul hv
    have hbit := div_bit (mag e) n
    have hs2 : 0 ≤ value x → 0 ≤ value d2 := fun _ => s2 (by rw [v1]; exact mul_self_nonneg _)
    unfold pwrModLoop
    rw [e1, bsome, e2, bsome]
    simp only
    rw [bitTest_spec he n (by omega), bsome]
    by_cases hb : (mag e).testBit n = true
    · rw [if_pos hb]
      rw [hb] at hbit
      obtain ⟨d3, e3, w3, v3, l3⟩ := mul_len w2 hx l2 hxl
      obtain ⟨d4, e4, w4, lt4, v4, s4⟩ := reduce_spec hm w3 hnz hpos l3
      rw [e3, bsome, e4, bsome]
      simp only
      obtain ⟨r, er, wr, vr, lr, sr⟩ := ih d4 (by omega) w4 (le_trans (len_le_of_lt w4 hm lt4) hml) (by
        refine v4.trans ?_
        rw [v3, hbit, show true.toNat = 1 from rfl, pow_add, pow_one]
        exact hsq.mul (Int.ModEq.refl _)) (fun h => s4 (by rw [v3]; exact mul_nonneg (hs2 h) h))
      exact ⟨r, er, wr, vr, fun _ => lr (Or.inr lt4), sr⟩
    · rw [if_neg hb]
      have hb : (mag e).testBit n = false := by simpa using hb
      rw [hb] at hbit
      obtain ⟨r, er, wr, vr, lr, sr⟩ := ih d2 (by omega) w2 l2 (by
        rw [hbit, show false.toNat = 0 from rfl, Nat.add_zero]; exact hsq) hs2
      exact ⟨r, er, wr, vr, fun _ => lr (Or.inr lt2), sr⟩

/-- **C34.** Modular power: the result is congruent to `x^e` modulo `m`; for exponents of at
least two (or a base already below the modulus) it is also below `m` in magnitude. -/
theorem pwr_mod_partial {e m x : Bn} (he : Wf e) (hm : Wf m) (hx : Wf x) (hen : e.neg = false) (hnz : mag m ≠ 0) (hpos : m.neg = false)
    (hxl : x.length ≤ 128) (hml : m.length ≤ 128) :
    ∃ r, pwr x e (some m) = some (some r) ∧ Wf r ∧ value r ≡ value x ^ mag e [ZMOD mag m] ∧
      (2 ≤ mag e ∨ (mag e = 1 ∧ mag x < mag m) → mag r < mag m) ∧ (0 ≤ value x → 0 ≤ value r) := by
  have hel := wf_length_le he
  obtain ⟨i, ei, hi, h0, h1⟩ := topBit_spec he (e.length * 32) (by omega) (wf_bits he)
  unfold pwr
  rw [hen]
  simp only [Bool.false_eq_true, if_false]
  rw [ei, bsome]
  by_cases hi0 : i = 0
  · rw [if_pos hi0]
    have hw := wf_word 1 (by omega) (by decide)
    have hv : value (word 1) = 1 := by rw [value_pos (b := word 1) rfl, hw.2]; rfl
    refine ⟨word 1, rfl, hw.1, by rw [hv, h0.1 hi0, pow_zero], fun h => ?_, fun _ => by rw [hv]; decide⟩
    have := h0.1 hi0
    omega
  · rw [if_neg hi0]
    obtain ⟨r, er, wr, vr, lr, sr⟩ := pwrModLoop_spec he hm hx hnz hpos hxl hml (i - 1) x (by omega) hx hxl (by rw [h1 hi0, pow_one]) (fun h => h)
    refine ⟨r, er, wr, vr, fun h => lr ?_, sr⟩
    rcases h with h | h
    · left
      intro hc
      have := h1 hi0
      rw [hc, pow_zero, Nat.div_one] at this
      omega
    · exact Or.inr h.2

/-- For a non-negative base and an exponent of at least two the result is exactly `x^e mod m`. -/
theorem pwr_mod_exact_partial {e m x : Bn} (he : Wf e) (hm : Wf m) (hx : Wf x) (hen : e.neg = false) (hnz : mag m ≠ 0) (hpos : m.neg = false)
    (hxl : x.length ≤ 128) (hml : m.length ≤ 128) (hx0 : x.neg = false) (h2 : 2 ≤ mag e ∨ (mag e = 1 ∧ mag x < mag m)) :
    ∃ r, pwr x e (some m) = some (some r) ∧ Wf r ∧ value r = ((mag x ^ mag e % mag m : Nat) : Int) := by
  obtain ⟨r, er, wr, vr, lr, sr⟩ := pwr_mod_partial he hm hx hen hnz hpos hxl hml
  refine ⟨r, er, wr, ?_⟩
  have hvx : value x = mag x := value_pos hx0
  have h3 := sr (by rw [hvx]; omega)
  have h4 : value r < mag m := by
    have := lr h2
    rw [value_of]
    cases r.neg <;> simp <;> omega
  have h5 : value r % mag m = value r := Int.emod_eq_of_lt h3 h4
  rw [← h5, vr, hvx]
  push_cast
  rfl

/-- Code defect: exponent one never reduces. -/
theorem pwr_one {e x : Bn} (m : Bn) (he : Wf e) (hen : e.neg = false) (h1 : mag e = 1) : pwr x e (some m) = some (some x) := by
  have hel := wf_length_le he
  obtain ⟨i, ei, hi, h0, h2⟩ := topBit_spec he (e.length * 32) (by omega) (wf_bits he)
  unfold pwr
  rw [hen]
  simp only [Bool.false_eq_true, if_false]
  rw [ei, bsome]
  have hi0 : i ≠ 0 := fun h => by have := h0.1 h; omega
  have h3 := h2 hi0
  rw [h1] at h3
  have hi1 : i - 1 = 0 := by
    by_contra hc
    have : 2 ^ 1 ≤ 2 ^ (i - 1) := Nat.pow_le_pow_right (by decide) (by omega)
    rw [Nat.div_eq_of_lt (by omega)] at h3
    omega
  rw [if_neg hi0, hi1]
  rfl

/-- Code defect: exponent zero gives one, whatever the modulus (even one). -/
theorem pwr_zero {e : Bn} (x : Bn) (m : Option Bn) (he : Wf e) (hen : e.neg = false) (h1 : mag e = 0) : pwr x e m = some (some (word 1)) := by
  have hel := wf_length_le he
  obtain ⟨i, ei, hi, h0, h2⟩ := topBit_spec he (e.length * 32) (by omega) (wf_bits he)
  unfold pwr
  rw [hen]
  simp only [Bool.false_eq_true, if_false]
  rw [ei, bsome, if_pos (h0.2 h1)]

/-- A negative exponent is refused. -/
theorem pwr_negative {e : Bn} (x : Bn) (m : Option Bn) (hen : e.neg = true) : pwr x e m = some none := by
  unfold pwr; rw [hen]; rfl

/-- A zero modulus is refused, as soon as the loop runs. -/
theorem pwr_mod_zero {e m x : Bn} (he : Wf e) (hm : Wf m) (hx : Wf x) (hen : e.neg = false) (hnz : mag m = 0) (hxl : x.length ≤ 128) (h2 : 2 ≤ mag e) :
    pwr x e (some m) = some none := by
  have hel := wf_length_le he
  obtain ⟨i, ei, hi, h0, h1⟩ := topBit_spec he (e.length * 32) (by omega) (wf_bits he)
  unfold pwr
  rw [hen]
  simp only [Bool.false_eq_true, if_false]
  have hi0 : i ≠ 0 := fun h => by have := h0.1 h; omega
  rw [ei, bsome, if_neg hi0]
  obtain ⟨k, hk⟩ : ∃ k, i - 1 = k + 1 := by
    refine ⟨i - 2, ?_⟩
    have h3 := h1 hi0
    have : i - 1 ≠ 0 := by
      intro hc
      rw [hc, pow_zero, Nat.div_one] at h3
      omega
    omega
  rw [hk]
  obtain ⟨d1, e1, w1, v1, l1⟩ := mul_len hx hx hxl hxl
  unfold pwrModLoop
  rw [e1, bsome]
  have hr : reduce m d1 = some none := by
    unfold reduce
    rw [if_pos (by rw [(wf_zero_iff hm).2 hnz]; omega), div_zero hm hnz]
    rfl
  rw [hr]
  rfl

/-! ## Without a modulus -/

theorem pwrLoop_spec {e x : Bn} (he : Wf e) (hx : Wf x) (hfit : mag x ^ mag e < B ^ 257) (h1 : mag e ≠ 0) : ∀ (n : Nat) (d : Bn), n ≤ 8224 → Wf d →
      value d = value x ^ (mag e / 2 ^ n) → mag d = mag x ^ (mag e / 2 ^ n) → mag e / 2 ^ n ≠ 0 →
      ∃ r, pwrLoop e x n d = some r ∧ Wf r ∧ value r = value x ^ mag e := by
  -- every partial power fits
  have hfits : ∀ k, k ≤ mag e → k ≠ 0 → mag x ^ k < B ^ 257 := by
    intro k hk hk0
    by_cases hx0 : mag x = 0
    · rw [hx0, zero_pow hk0]; exact Bpos 257
    · exact lt_of_le_of_lt (Nat.pow_le_pow_right (by omega) hk) hfit
  intro n
  induction n with
  | zero =>
    intro d _ hd hv _ _
    rw [pow_zero, Nat.div_one] at hv
    exact ⟨d, rfl, hd, hv⟩
  | succ n ih =>
    intro d hn hd hv hm h0
    have hbit := div_bit (mag e) n
    have hle : mag e / 2 ^ n ≤ mag e := Nat.div_le_self _ _
    have hsq : mag d * mag d = mag x ^ (2 * (mag e / 2 ^ (n + 1))) := by rw [hm, Nat.two_mul, pow_add (mag x)]
    obtain ⟨d1, e1, w1, v1, m1, -⟩ := mul_spec d d hd hd (by rw [hsq]; exact hfits _ (by omega) (by omega))
    rw [hsq] at m1
    have v1' : value d1 = value x ^ (2 * (mag e / 2 ^ (n + 1))) := by rw [v1, hv, Nat.two_mul, pow_add (value x)]
    unfold pwrLoop
    rw [e1, bsome, bitTest_spec he n (by omega), bsome]
    by_cases hb : (mag e).testBit n = true
    · rw [if_pos hb]
      rw [hb, show true.toNat = 1 from rfl] at hbit
      have hp : mag d1 * mag x = mag x ^ (mag e / 2 ^ n) := by rw [m1, hbit, pow_succ (mag x)]
      obtain ⟨d2, e2, w2, v2, m2, -⟩ := mul_spec d1 x w1 hx (by rw [hp]; exact hfits _ hle (by omega))
      rw [e2, bsome]
      exact ih d2 (by omega) w2 (by rw [v2, v1', hbit, pow_succ (value x)]) (by rw [m2, hp]) (by omega)
    · rw [if_neg hb]
      have hb : (mag e).testBit n = false := by simpa using hb
      rw [hb, show false.toNat = 0 from rfl, Nat.add_zero] at hbit
      exact ih d1 (by omega) w1 (by rw [v1', hbit]) (by rw [m1, hbit]) (by omega)

/-- Power without a modulus: exact when the result fits. -/
theorem pwr_spec {e x : Bn} (he : Wf e) (hx : Wf x) (hen : e.neg = false) (hfit : mag x ^ mag e < B ^ 257) :
    ∃ r, pwr x e none = some (some r) ∧ Wf r ∧ value r = value x ^ mag e := by
  have hel := wf_length_le he
  obtain ⟨i, ei, hi, h0, h1⟩ := topBit_spec he (e.length * 32) (by omega) (wf_bits he)
  by_cases hi0 : i = 0
  · have hz := h0.1 hi0
    have hw := wf_word 1 (by omega) (by decide)
    exact ⟨word 1, pwr_zero x none he hen hz, hw.1, by rw [hz, pow_zero, value_pos (b := word 1) rfl, hw.2]; rfl⟩
  · unfold pwr
    rw [hen]
    simp only [Bool.false_eq_true, if_false]
    rw [ei, bsome, if_neg hi0]
    have h2 := h1 hi0
    obtain ⟨r, er, wr, vr⟩ := pwrLoop_spec he hx hfit (fun h => hi0 (h0.2 h)) (i - 1) x (by omega) hx (by rw [h2, pow_one]) (by rw [h2, pow_one]) (by omega)
    rw [er, bsome]
    exact ⟨r, rfl, wr, vr⟩

/-! Instances: 3^5 mod 7 = 5, 10^1 mod 7 stays 10, 10^0 mod 1 = 1, (−2)^3 = −8. -/
example : (pwr (small false 3) (small false 5) (some (small false 7))).map (·.map value) = some (some 5) := by decide +kernel
example : (pwr (small false 10) (small false 1) (some (small false 7))).map (·.map value) = some (some 10) := by decide +kernel
example : (pwr (small false 10) zero (some (small false 1))).map (·.map value) = some (some 1) := by decide +kernel
example : (pwr (small true 2) (small false 3) none).map (·.map value) = some (some (-8)) := by decide +kernel

end Verif.Bn
