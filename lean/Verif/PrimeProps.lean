import Verif.Prime
import Mathlib.Data.Nat.Prime.Basic
import Mathlib.FieldTheory.Finite.Basic
import Mathlib.Tactic.NormNum.Prime
import Mathlib.Tactic.Ring

/-
The prime generator never skips a prime (property C40).
-/

namespace Verif.Prime

/-- Whatever rand() returns, the base drawn is neither 0 nor out of range. -/
theorem randScope_spec (low high : Nat) (hh : 0 < high) (rs : List Nat) (r : Nat) (rest : List Nat) (h : randScope low high rs = some (r, rest)) : 0 < r ∧ r < high := by
  induction rs with
  | nil => cases h
  | cons x xs ih =>
    unfold randScope at h
    simp only at h
    split at h
    · next hne => cases h; exact ⟨Nat.pos_of_ne_zero hne, Nat.mod_lt _ hh⟩
    · exact ih h

theorem seperate_spec : ∀ (fuel num pwr : Nat), 0 < num → num < 2 ^ fuel → ∃ k odd, seperate fuel num pwr = some (pwr + k, odd) ∧ num = odd * 2 ^ k ∧ odd % 2 = 1 := by
  intro fuel
  induction fuel with
  | zero => intro num pwr h0 h; simp at h; omega
  | succ fuel ih =>
    intro num pwr h0 h
    unfold seperate
    by_cases he : num % 2 = 0
    · rw [if_pos he]
      obtain ⟨k, odd, e, h1, h2⟩ := ih (num / 2) (pwr + 1) (by omega) (by rw [pow_succ] at h; omega)
      refine ⟨k + 1, odd, by rw [e]; congr 2; omega, ?_, h2⟩
      rw [pow_succ, ← Nat.mul_assoc, ← h1]; omega
    · rw [if_neg he]
      exact ⟨0, num, rfl, by simp, by omega⟩

theorem modExp_spec (base pwr n : Nat) (hn : 0 < n) (hb : base < 4294967296) (hn2 : n ≤ 4294967296) : ∀ (i d : Nat), d < n →
    modExp base pwr n i d % n = d ^ (2 ^ i) * base ^ (pwr % 2 ^ i) % n ∧ (modExp base pwr n i d < n) := by
  intro i
  induction i with
  | zero => intro d hd; simp [modExp, Nat.mod_one, hd]
  | succ i ih =>
    intro d hd
    have hm : ∀ x y, x < 4294967296 → y < 4294967296 → x * y < 18446744073709551616 := by
      intro x y hx hy
      calc x * y ≤ 4294967295 * 4294967295 := Nat.mul_le_mul (by omega) (by omega)
        _ < 18446744073709551616 := by decide
    unfold modExp
    simp only
    rw [Nat.mod_eq_of_lt (hm d d (by omega) (by omega))]
    have hd1 : d * d % n < n := Nat.mod_lt _ hn
    rw [Nat.mod_eq_of_lt (hm (d * d % n) base (by omega) hb)]
    have hp : pwr % 2 ^ (i + 1) = pwr % 2 ^ i + 2 ^ i * (if pwr.testBit i then 1 else 0) := by
      have h := Nat.mod_pow_succ (b := 2) (k := i) (x := pwr)
      rw [h]
      congr 2
      rw [Nat.testBit_eq_decide_div_mod_eq]
      by_cases h1 : pwr / 2 ^ i % 2 = 1
      · simp [h1]
      · have : pwr / 2 ^ i % 2 = 0 := by omega
        simp [this]
    by_cases ht : pwr.testBit i
    · rw [if_pos ht]
      obtain ⟨h1, h2⟩ := ih (d * d % n * base % n) (Nat.mod_lt _ hn)
      refine ⟨?_, h2⟩
      rw [h1, hp, if_pos ht, Nat.mul_one]
      have e : (d * d % n * base % n) ≡ d * d * base [MOD n] := ((Nat.mod_modEq _ _).trans ((Nat.mod_modEq (d * d) n).mul_right base))
      have e2 := ((e.pow (2 ^ i)).mul_right (base ^ (pwr % 2 ^ i)))
      have e3 : (d * d * base) ^ 2 ^ i * base ^ (pwr % 2 ^ i) = d ^ 2 ^ (i + 1) * base ^ (pwr % 2 ^ i + 2 ^ i) := by
        rw [mul_pow, ← pow_two, ← pow_mul, pow_succ' 2 i]; ring
      rw [e3] at e2
      exact e2
    · rw [if_neg ht]
      obtain ⟨h1, h2⟩ := ih (d * d % n) hd1
      refine ⟨?_, h2⟩
      rw [h1, hp, if_neg ht, Nat.mul_zero, Nat.add_zero]
      have e := (((Nat.mod_modEq (d * d) n).pow (2 ^ i)).mul_right (base ^ (pwr % 2 ^ i)))
      have e3 : (d * d) ^ 2 ^ i = d ^ 2 ^ (i + 1) := by rw [← pow_two, ← pow_mul, pow_succ 2 i, Nat.mul_comm]
      rw [e3] at e
      exact e

theorem modExp_eq (base pwr n : Nat) (hn : 1 < n) (hb : base < 4294967296) (hn2 : n ≤ 4294967296) (hp : pwr < 2 ^ 32) : modExp base pwr n 32 1 = base ^ pwr % n := by
  obtain ⟨h1, h2⟩ := modExp_spec base pwr n (by omega) hb hn2 32 1 hn
  rw [Nat.mod_eq_of_lt h2, one_pow, Nat.one_mul, Nat.mod_eq_of_lt hp] at h1
  exact h1

/-- The squarings: they end with `x^(2^k)`, unless a non-trivial root of 1 appears. -/
theorem squares_spec (p : Nat) (hp : 1 < p) (hp2 : p ≤ 4294967296) : ∀ (k x y : Nat), x < p →
    (squares p k x y = none ∧ ∃ z, z < p ∧ z * z % p = 1 ∧ z ≠ 1 ∧ z ≠ p - 1) ∨ squares p k x y = some (if k = 0 then y else x ^ 2 ^ k % p) := by
  intro k
  induction k with
  | zero => intro x y _; right; rfl
  | succ k ih =>
    intro x y hx
    have hm : x * x < 18446744073709551616 := by
      calc x * x ≤ 4294967295 * 4294967295 := Nat.mul_le_mul (by omega) (by omega)
        _ < 18446744073709551616 := by decide
    unfold squares
    simp only
    rw [Nat.mod_eq_of_lt hm]
    by_cases hc : x * x % p = 1 ∧ x ≠ 1 ∧ x ≠ p - 1
    · rw [if_pos hc]; left; exact ⟨rfl, x, hx, hc⟩
    · rw [if_neg hc]
      rcases ih (x * x % p) (x * x % p) (Nat.mod_lt _ (by omega)) with h | h
      · left; exact h
      · right
        rw [h, if_neg (Nat.succ_ne_zero k)]
        congr 1
        by_cases hk : k = 0
        · rw [if_pos hk, hk]; congr 1; ring
        · rw [if_neg hk]
          have e := (Nat.mod_modEq (x * x) p).pow (2 ^ k)
          have e3 : (x * x) ^ 2 ^ k = x ^ 2 ^ (k + 1) := by rw [← pow_two, ← pow_mul, pow_succ 2 k, Nat.mul_comm]
          rw [e3] at e
          exact e

/-- A witness is a proof of compositeness: either Fermat's congruence fails or 1 has a
non-trivial square root; without a witness Fermat's congruence holds. -/
theorem witness_spec (a p : Nat) (hp : 2 < p) (hodd : p % 2 = 1) (hp2 : p ≤ 4294967296) (ha : a < 4294967296) :
    (witness a p = some true ∧ (a ^ (p - 1) % p ≠ 1 ∨ ∃ z, z < p ∧ z * z % p = 1 ∧ z ≠ 1 ∧ z ≠ p - 1)) ∨
    (witness a p = some false ∧ a ^ (p - 1) % p = 1) := by
  obtain ⟨k, odd, e, h1, h2⟩ := seperate_spec 32 (p - 1) 0 (by omega) (by norm_num; omega)
  have hk : k ≠ 0 := by
    intro h; rw [h] at h1; omega
  have hoddlt : odd < 2 ^ 32 := by
    have : odd * 1 ≤ odd * 2 ^ k := Nat.mul_le_mul_left _ Nat.one_le_two_pow
    norm_num; omega
  have hx := modExp_eq a odd p (by omega) ha hp2 hoddlt
  have hxlt : a ^ odd % p < p := Nat.mod_lt _ (by omega)
  have hfin : (a ^ odd % p) ^ 2 ^ k % p = a ^ (p - 1) % p := by
    have e := (Nat.mod_modEq (a ^ odd) p).pow (2 ^ k)
    rw [← pow_mul, ← h1] at e
    exact e
  unfold witness
  rw [e]
  simp only [Option.bind_eq_bind, Option.bind_some, Nat.zero_add, hx]
  rcases squares_spec p (by omega) hp2 k (a ^ odd % p) 0 hxlt with ⟨h, hz⟩ | h
  · left; rw [h]; exact ⟨rfl, Or.inr hz⟩
  · rw [h, if_neg hk, hfin]
    by_cases h1 : a ^ (p - 1) % p = 1
    · right; simp [h1]
    · left; simp [h1]

/-- No base in range is a witness against a prime. -/
theorem witness_prime (a p : Nat) (hp : p.Prime) (h2 : 2 < p) (hp2 : p ≤ 4294967296) (ha0 : 0 < a) (ha : a < p) : witness a p = some false := by
  have hodd : p % 2 = 1 := by
    rcases hp.eq_two_or_odd with h | h
    · omega
    · exact h
  rcases witness_spec a p h2 hodd hp2 (by omega) with ⟨_, h⟩ | ⟨h, _⟩
  · exfalso
    have := Fact.mk hp
    rcases h with h | ⟨z, hz, h1, h3, h4⟩
    · apply h
      have hne : (a : ZMod p) ≠ 0 := by
        intro h0
        rw [ZMod.natCast_eq_zero_iff] at h0
        exact absurd (Nat.le_of_dvd ha0 h0) (by omega)
      have hf := ZMod.pow_card_sub_one_eq_one hne
      have hf' : ((a ^ (p - 1) : Nat) : ZMod p) = ((1 : Nat) : ZMod p) := by push_cast; exact hf
      rw [ZMod.natCast_eq_natCast_iff'] at hf'
      rw [hf', Nat.mod_eq_of_lt (by omega)]
    · have hz0 : 0 < z := by
        rcases Nat.eq_zero_or_pos z with h | h
        · rw [h] at h1; simp at h1
        · exact h
      have hdvd : p ∣ (z - 1) * (z + 1) := by
        have e : (z - 1) * (z + 1) = z * z - 1 := by
          obtain ⟨y, rfl⟩ : ∃ y, z = y + 1 := ⟨z - 1, by omega⟩
          simp only [Nat.add_sub_cancel]
          have : (y + 1) * (y + 1) = y * (y + 1 + 1) + 1 := by ring
          omega
        rw [e]
        exact (Nat.modEq_iff_dvd' (by nlinarith)).1 (by
          show 1 % p = z * z % p
          rw [h1, Nat.mod_eq_of_lt (by omega)])
      rcases (Nat.Prime.dvd_mul hp).1 hdvd with h | h
      · rcases Nat.eq_zero_or_pos (z - 1) with h0 | h0
        · omega
        · have := Nat.le_of_dvd h0 h; omega
      · have := Nat.le_of_dvd (by omega) h; omega
  · exact h

theorem trials_prime (pick : Nat → Nat) (p : Nat) (hp : p.Prime) (h2 : 2 < p) (hp2 : p ≤ 4294967296) (hpick : ∀ s, 0 < pick s ∧ pick s < p) :
    ∀ s, trials pick p s = some true := by
  intro s
  induction s with
  | zero => rfl
  | succ s ih =>
    unfold trials
    rw [witness_prime (pick s) p hp h2 hp2 (hpick s).1 (hpick s).2]
    exact ih

theorem trials_total (pick : Nat → Nat) (p : Nat) (h2 : 2 < p) (hodd : p % 2 = 1) (hp2 : p ≤ 4294967296) (hpick : ∀ s, 0 < pick s ∧ pick s < p) :
    ∀ s, ∃ b, trials pick p s = some b ∧ (b = true → ∀ i < s, pick i ^ (p - 1) % p = 1) := by
  intro s
  induction s with
  | zero => exact ⟨true, rfl, fun _ i hi => by omega⟩
  | succ s ih =>
    unfold trials
    obtain ⟨b, e, hb⟩ := ih
    rcases witness_spec (pick s) p h2 hodd hp2 (by have := (hpick s).2; omega) with ⟨h, _⟩ | ⟨h, h1⟩
    · rw [h]; exact ⟨false, rfl, fun h => by cases h⟩
    · rw [h]
      refine ⟨b, e, fun hbt i hi => ?_⟩
      by_cases his : i = s
      · rw [his]; exact h1
      · exact hb hbt i (by omega)

/-- The search ends at or before any prime it runs into. -/
theorem search_spec (pick : Nat → Nat → Nat) (hpick : ∀ p s, 2 < p → 0 < pick p s ∧ pick p s < p) (q : Nat) (hq : q.Prime) (hqodd : q % 2 = 1) (hqb : q < 4294967290) :
    ∀ (fuel p : Nat), 2 < p → p % 2 = 1 → p ≤ q → q - p < 2 * fuel →
      ∃ r, search pick fuel p = some r ∧ p ≤ r ∧ r ≤ q ∧ r % 2 = 1 ∧ (∀ s ≤ (if r ≤ 4 then 1 else (r - 1) / 4), pick r s ^ (r - 1) % r = 1) := by
  intro fuel
  induction fuel with
  | zero => intro p _ _ _ h; omega
  | succ fuel ih =>
    intro p h2 hodd hpq hf
    unfold search
    obtain ⟨b, e, hb⟩ := trials_total (pick p) p h2 hodd (by omega) (fun s => hpick p s h2) ((if p ≤ 4 then 1 else (p - 1) / 4) + 1)
    simp only [e, Option.bind_eq_bind, Option.bind_some]
    cases b with
    | true => exact ⟨p, rfl, le_refl _, hpq, hodd, fun s hs => hb rfl s (by omega)⟩
    | false =>
      have hne : p ≠ q := by
        intro h
        rw [h] at e
        rw [trials_prime (pick q) q hq (by omega) (by omega) (fun s => hpick q s (by omega))] at e
        cases e
      rw [Nat.mod_eq_of_lt (by omega)]
      obtain ⟨r, e', h1, h3, h4, h5⟩ := ih (p + 2) (by omega) (by omega) (by omega) (by omega)
      exact ⟨r, e', by omega, h3, h4, h5⟩

/-- A trial division over the odd numbers `d`, `d + 2`, …, in a form the kernel evaluates. -/
def noDivisor (p : Nat) : Nat → Nat → Bool
  | 0, _ => true
  | k + 1, d => p % d != 0 && noDivisor p k (d + 2)

theorem noDivisor_spec (p : Nat) : ∀ (k d : Nat), noDivisor p k d = true → ∀ i < k, ¬ (d + 2 * i) ∣ p := by
  intro k
  induction k with
  | zero => intro d _ i hi; omega
  | succ k ih =>
    intro d h i hi
    unfold noDivisor at h
    rw [Bool.and_eq_true] at h
    cases i with
    | zero =>
      intro hd
      have := Nat.mod_eq_zero_of_dvd hd
      simp at h this
      omega
    | succ i =>
      have := ih (d + 2) h.2 i (by omega)
      rwa [show d + 2 + 2 * i = d + 2 * (i + 1) by ring] at this

theorem limit_prime : Nat.Prime 1073741827 := by
  have hno : ∀ j < 64, noDivisor 1073741827 256 (3 + 512 * j) = true := by decide +kernel
  rw [Nat.prime_def_minFac]
  refine ⟨by norm_num, ?_⟩
  by_contra hne
  have hp : (Nat.minFac 1073741827).Prime := Nat.minFac_prime (by norm_num)
  have hd := Nat.minFac_dvd 1073741827
  have hsq : Nat.minFac 1073741827 ^ 2 ≤ 1073741827 := Nat.minFac_sq_le_self (by norm_num) (by
    intro h
    exact hne ((Nat.prime_def_minFac.1 h).2))
  generalize Nat.minFac 1073741827 = m at *
  have hm : m < 32769 := by nlinarith
  have hodd : m % 2 = 1 := by
    rcases hp.eq_two_or_odd with h | h
    · rw [h] at hd; omega
    · exact h
  have h2 := hp.two_le
  have := noDivisor_spec 1073741827 256 (3 + 512 * ((m - 3) / 512)) (hno _ (by omega)) ((m - 3) % 512 / 2) (by omega)
  apply this
  have e : 3 + 512 * ((m - 3) / 512) + 2 * ((m - 3) % 512 / 2) = m := by omega
  rw [e]; exact hd

/-- Spec: the least prime that is not below `n`. -/
def LeastPrime (n q : Nat) : Prop := q.Prime ∧ n ≤ q ∧ ∀ r, r.Prime → n ≤ r → q ≤ r

/-- **C40.** For 2 < n ≤ 2^30 and any bases drawn (they lie between 1 and the candidate, see
`randScope_spec`) the search terminates with an odd number that is not below `n` and not above
the least prime from `n` on; it passed Fermat's test for every base drawn. -/
theorem generate_spec (pick : Nat → Nat → Nat) (hpick : ∀ p s, 2 < p → 0 < pick p s ∧ pick p s < p) (n : Nat) (h2 : 2 < n) (hn : n ≤ 1073741824) (q : Nat) (hq : LeastPrime n q)
    (fuel : Nat) (hf : q < fuel) :
    ∃ r, generate pick fuel n = some r ∧ n ≤ r ∧ r ≤ q ∧ r % 2 = 1 ∧
      (n < 1073741824 → ∀ s ≤ (if r ≤ 4 then 1 else (r - 1) / 4), pick r s ^ (r - 1) % r = 1) := by
  obtain ⟨hqp, hnq, hmin⟩ := hq
  have hqb : q ≤ 1073741827 := hmin _ limit_prime (by omega)
  have hqodd : q % 2 = 1 := by
    rcases hqp.eq_two_or_odd with h | h
    · omega
    · exact h
  unfold generate
  rw [if_neg (by omega)]
  by_cases hl : n ≥ 1073741824
  · rw [if_pos hl]
    have h1 : q ≠ 1073741825 := by
      intro h; rw [h] at hqp
      exact absurd hqp (by norm_num)
    exact ⟨_, rfl, by omega, by omega, rfl, fun h => by omega⟩
  · rw [if_neg hl]
    obtain ⟨r, e, h3, h4, h5, h6⟩ := search_spec pick hpick q hqp hqodd (by omega) fuel (if n % 2 ≠ 0 then n else n + 1) (by split <;> omega) (by split <;> omega) (by split <;> omega) (by omega)
    refine ⟨r, e, ?_, h4, h5, fun _ => h6⟩
    split at h3 <;> omega

/-- If the result is prime it is the least prime from `n` on. -/
theorem generate_least (pick : Nat → Nat → Nat) (hpick : ∀ p s, 2 < p → 0 < pick p s ∧ pick p s < p) (n : Nat) (h2 : 2 < n) (hn : n ≤ 1073741824) (fuel r : Nat) (hf : 1073741827 < fuel)
    (h : generate pick fuel n = some r) (hr : r.Prime) : LeastPrime n r := by
  obtain ⟨q, hq⟩ : ∃ q, LeastPrime n q := by
    classical
    have hex : ∃ q, q.Prime ∧ n ≤ q := ⟨1073741827, limit_prime, by omega⟩
    exact ⟨Nat.find hex, (Nat.find_spec hex).1, (Nat.find_spec hex).2, fun r h1 h2 => Nat.find_min' hex ⟨h1, h2⟩⟩
  have hqb : q ≤ 1073741827 := hq.2.2 _ limit_prime (by omega)
  obtain ⟨r', e, h3, h4, _⟩ := generate_spec pick hpick n h2 hn q hq fuel (by omega)
  rw [h] at e
  cases e
  have : q = r := Nat.le_antisymm (hq.2.2 r hr h3) h4
  rw [← this]; exact hq

/-- Small arguments give 2; arguments from 2^30 on give the fixed prime 1073741827, which is
below every larger argument: there the result is not at least `n`. -/
theorem generate_ends (pick : Nat → Nat → Nat) (fuel n : Nat) : (n ≤ 2 → generate pick fuel n = some 2) ∧ (1073741824 ≤ n → generate pick fuel n = some 1073741827) := by
  unfold generate
  constructor
  · intro h; rw [if_pos h]
  · intro h; rw [if_neg (by omega), if_pos h]

/-! Instances: 15 is skipped with base 2, and the strong liar 1 lets it through. -/
example : generate (fun _ _ => 2) 100 14 = some 17 := by decide +kernel
example : generate (fun _ _ => 1) 100 14 = some 15 := by decide +kernel
example : witness 7 25 = some false ∧ witness 2 25 = some true := by decide +kernel

end Verif.Prime
