import Verif.RsaKey
import Verif.RsaProps
import Verif.BnPrimeProps
import Mathlib.Tactic.NormNum.Prime
import Mathlib.Tactic.FinCases

/-
Keys from mln_rsa_key_generate (property C92).
-/
set_option maxRecDepth 8000

namespace Verif.Rsa
open Verif.Bn

theorem val_num {b : Bn} {v : Nat} (h : Val b v) (hv : v ≠ 0) : Num b v := ⟨h.wf, h.pos hv, h.mag⟩
theorem num_val {b : Bn} {v : Nat} (h : Num b v) : Val b v := ⟨h.wf, by rw [value_pos h.pos, h.val]⟩

/-- If the exponent divides the totient, the coefficient is 1. -/
theorem euclid_divides {e phi : Bn} {E F : Nat} (he : Num e E) (hf : Num phi F) (h0 : E ≠ 0) (hlt : E < F) (hd : E ∣ F) (hl : phi.length ≤ 256) (fuel : Nat) (hfu : 2 ≤ fuel) :
    ∃ x y, extendEuclid fuel e phi = some (some (x, y)) ∧ Wf x ∧ value x = 1 := by
  have hel : e.length ≤ 256 := le_trans (num_len he hf (by omega)) hl
  obtain ⟨r, q, e1, hr, hq, hm, hrlt, s1, s2⟩ := div_mag he.wf hf.wf (by rw [hf.val]; omega) (Or.inl hel)
  rw [he.val, hf.val] at hm
  rw [hf.val] at hrlt
  have hq0 : mag q = 0 := by
    by_contra hc
    have : 1 * F ≤ mag q * F := Nat.mul_le_mul_right _ (by omega)
    omega
  rw [hq0, Nat.zero_mul, Nat.zero_add] at hm
  have hrn : Num r E := ⟨hr, by
    have h := s1 (by omega)
    rwa [he.pos, hf.pos] at h, hm.symm⟩
  obtain ⟨f, rfl⟩ : ∃ f, fuel = f + 2 := ⟨fuel - 2, by omega⟩
  have hw1 := word_val 1 (by decide) (by decide)
  have hz : Wf zero ∧ mag zero = 0 := ⟨wf_zero, mag_zero⟩
  have hzv : value zero = 0 := by rw [← Int.natAbs_eq_zero, value_natAbs, hz.2]
  have hmulz : ∀ b : Bn, Wf b → ∃ t, mul q b = some t ∧ Wf t ∧ value t = 0 := by
    intro b hb
    obtain ⟨t, et, ht, hv, hmt, -⟩ := mul_spec q b hq hb (by rw [hq0, Nat.zero_mul]; exact Nat.pow_pos (by decide))
    refine ⟨t, et, ht, ?_⟩
    rw [← Int.natAbs_eq_zero, value_natAbs, hmt, hq0, Nat.zero_mul]
  obtain ⟨t1, et1, ht1, hv1⟩ := hmulz zero hz.1
  obtain ⟨t2, et2, ht2, hv2⟩ := hmulz (word 1) hw1.wf
  have hB : 1 < B ^ 257 := Nat.one_lt_pow (by decide) (by decide)
  obtain ⟨dx, edx, hdx, hvx⟩ := sub_spec_partial (word 1) t1 hw1.wf ht1 (by rw [hw1.val, hv1]; exact hB) (by rw [hw1.pos (by decide)]; simp)
  obtain ⟨dy, edy, hdy, hvy⟩ := sub_spec_partial zero t2 hz.1 ht2 (by rw [hzv, hv2]; exact lt_trans Nat.zero_lt_one hB) (by rw [show zero.neg = false from rfl]; simp)
  obtain ⟨r', q', e2, hr', hq', hm2, hlt2, -, -⟩ := div_mag hf.wf hrn.wf (by rw [hrn.val]; exact h0) (Or.inl hl)
  rw [hf.val, hrn.val] at hm2
  rw [hrn.val] at hlt2
  have hr0 : mag r' = 0 := by
    obtain ⟨c, rfl⟩ := hd
    have : E ∣ mag r' := (Nat.dvd_add_right (Dvd.intro_left _ rfl)).1 (hm2 ▸ Dvd.intro c rfl)
    exact Nat.eq_zero_of_dvd_of_lt this hlt2
  obtain ⟨c1, ec1, -, -, hc1⟩ := compare_spec_partial r zero hr hz.1 (by rw [hrn.pos]; simp)
  have hc1' : c1 > 0 := hc1.2 (by rw [hzv, value_pos hrn.pos, hrn.val]; omega)
  have hrv : value r' = 0 := by rw [← Int.natAbs_eq_zero, value_natAbs, hr0]
  obtain ⟨c2, ec2, hc2, -, -⟩ := compare_spec_partial r' zero hr' hz.1 (by rw [show zero.neg = false from rfl]; simp)
  have hc2' : c2 = 0 := hc2.2 (by rw [hzv, hrv])
  refine ⟨dx, dy, ?_, hdx, by rw [hvx, hw1.val, hv1]; rfl⟩
  unfold extendEuclid
  rw [e1, bsome]
  simp only
  rw [euclidLoop, ec1, bsome, if_pos hc1', et1, bsome, edx, bsome]
  simp only
  rw [et2, bsome, edy, bsome]
  simp only
  rw [e2, bsome]
  simp only
  rw [euclidLoop, ec2, bsome, if_neg (by omega)]

theorem must_eq {α : Type} {o : Option (Option α)} {r : α} (h : must o = some r) : o = some (some r) := by
  cases o with
  | none => cases h
  | some o => cases o with
    | none => cases h
    | some x => cases h; rfl

theorem div_num' {a b d q : Bn} {u v : Nat} (ha : Num a u) (hb : Num b v) (hv : v ≠ 0) (hl : a.length ≤ 256) (h : must (div a b) = some (d, q)) : Num d (u % v) := by
  obtain ⟨d', q', e, hd⟩ := div_num ha hb hv hl
  have := must_eq h
  rw [e] at this
  cases this
  exact hd

theorem inverse_two {E D P : Nat} (h : E * D % P = 1) (h2 : 2 ≤ E) (hP : E < P) : 2 ≤ D % P := by
  have h1 : E * (D % P) % P = 1 := by rw [Nat.mul_mod, Nat.mod_mod, ← Nat.mul_mod, h]
  by_contra hc
  rcases (show D % P = 0 ∨ D % P = 1 by omega) with h0 | h0
  · rw [h0] at h1; simp at h1
  · rw [h0, Nat.mul_one, Nat.mod_eq_of_lt hP] at h1; omega

theorem mod_of_bezout {E D M K : Nat} {y : Int} (hM : 1 < M) (h : (E : Int) * D + (M * K : Nat) * y = 1) : E * D % M = 1 := by
  have h1 : ((E * D : Nat) : Int) % M = 1 := by
    have : ((E * D : Nat) : Int) = 1 + M * (-(K * y)) := by push_cast at h ⊢; linarith
    rw [this, Int.add_mul_emod_self_left]
    exact Int.emod_eq_of_lt (by decide) (by exact_mod_cast hM)
  exact_mod_cast h1

theorem prime_65537 : Nat.Prime 65537 := by norm_num

/-- Keys accepted by mln_rsa_key_generate satisfy the RSA equations, if the numbers drawn are
prime. -/
theorem keyTry_spec {fuel bits : Nat} {p q : Bn} {P Q : Nat} (hp : Num p P) (hq : Num q Q) (pr : Primes P Q)
    (hsize : (P * Q).testBit (bits - 1) = true → P * Q < B ^ 128) (hfit : p.length + q.length ≤ 256) (hfu : P * Q < fuel)
    {pub pri : Key} (h : keyTry fuel bits p q = some (some (pub, pri))) :
    ∃ D, PubKey pub P Q 65537 ∧ PriKey pri P Q D ∧ Match P Q 65537 D ∧ (P * Q).testBit (bits - 1) = true := by
  have hP0 := pr.pp.pos
  have hQ0 := pr.qq.pos
  have hPb := pr.pbig
  have hQb := pr.qbig
  have hPle : P ≤ P * Q := Nat.le_mul_of_pos_right _ hQ0
  have hQle : Q ≤ P * Q := Nat.le_mul_of_pos_left _ hP0
  have hw1 := word_val 1 (by decide) (by decide)
  have hE : Num (word 0x10001) 65537 := val_num (word_val 65537 (by decide) (by decide)) (by decide)
  obtain ⟨n, en, hn, hnl⟩ := mul_num hp hq (by omega)
  unfold keyTry at h
  rw [en, bsome, bitTestApi_spec hn.wf, bsome, hn.val] at h
  cases hbt : (P * Q).testBit (bits - 1) with
  | false =>
    rw [hbt] at h
    simp at h
  | true =>
    rw [hbt] at h
    simp only [not_true_eq_false, if_false] at h
    have hN := hsize hbt
    have hnlen : n.length ≤ 128 := len_le_of_pow hn.wf 128 (by rw [hn.val]; exact hN)
    have lp := num_len hp hn hPle
    have lq := num_len hq hn hQle
    -- the inverse of q
    obtain ⟨x, y, ex, hx, hy, hb, hxb, -⟩ := extendEuclid_partial hq.wf hp.wf (by rw [value_pos hq.pos, hq.val]; omega) (by rw [value_pos hp.pos, hp.val]; omega) (by omega) (Or.inl (by omega)) fuel (by rw [hp.val]; omega)
    rw [value_pos hq.pos, value_pos hp.pos, hq.val, hp.val] at hb
    rw [value_natAbs, value_natAbs, hp.val] at hxb
    have hg : Int.gcd (Q : Int) (P : Int) = 1 := by
      rw [Int.gcd_natCast_natCast]
      exact (Nat.coprime_primes pr.qq pr.pp).2 (fun h => pr.ne h.symm)
    rw [hg] at hb
    rw [ex, bsome] at h
    simp only at h
    obtain ⟨c, ec, -, hc1, -⟩ := compare_spec_partial x (word 1) hx hw1.wf (by rw [hw1.pos (by decide)]; simp)
    rw [ec, bsome] at h
    by_cases hc : c < 0
    · rw [if_pos hc] at h; cases h
    rw [if_neg hc] at h
    rw [hc1, hw1.val] at hc
    have hx1 : 1 ≤ value x := by push_cast at hc; omega
    have hxn : Num x (mag x) := ⟨hx, by
      by_contra hneg
      have := value_neg (b := x) (by simpa using hneg)
      omega, rfl⟩
    rw [value_pos hxn.pos] at hx1 hb
    have hinv : Q * mag x % P = 1 := mod_of_bezout (K := 1) (y := value y) pr.pp.one_lt (by rw [Nat.mul_one]; exact_mod_cast hb)
    have hxlt : mag x < P := by
      rcases Nat.lt_or_eq_of_le hxb with h1 | h1
      · exact h1
      · rw [h1, Nat.mul_mod_left] at hinv; omega
    -- the totient
    obtain ⟨p1, ep1, hp1⟩ := sub_one_val (num_val hp) (by omega)
    obtain ⟨q1, eq1, hq1⟩ := sub_one_val (num_val hq) (by omega)
    have hp1 := val_num hp1 (by omega)
    have hq1 := val_num hq1 (by omega)
    have lp1 := num_len hp1 hp (by omega)
    have lq1 := num_len hq1 hq (by omega)
    rw [ep1, bsome] at h
    simp only at h
    rw [eq1, bsome] at h
    simp only at h
    obtain ⟨phi, ephi, hphi, lphi⟩ := mul_num hp1 hq1 (by omega)
    rw [ephi, bsome] at h
    have hphib : (P - 1) * (Q - 1) ≤ P * Q := Nat.mul_le_mul (by omega) (by omega)
    have hphil : 65537 < (P - 1) * (Q - 1) := by
      have : 4294967295 * 1 ≤ (P - 1) * (Q - 1) := Nat.mul_le_mul (by omega) (by omega)
      omega
    have lphi' : phi.length ≤ 128 := le_trans (num_len hphi hn hphib) hnlen
    by_cases hdv : 65537 ∣ (P - 1) * (Q - 1)
    · obtain ⟨d, y2, ed, hd, hd1⟩ := euclid_divides hE hphi (by decide) hphil hdv (by omega) fuel (by omega)
      rw [ed, bsome] at h
      simp only at h
      obtain ⟨c, ec, hc1, hc2, hc3⟩ := compare_spec_partial d (word 0x10001) hd hE.wf (by rw [hE.pos]; simp)
      rw [ec, bsome, if_pos (by rw [hd1, value_pos hE.pos, hE.val] at hc2; have := hc2.2 (by norm_num); omega)] at h
      cases h
    · obtain ⟨d, y2, ed, hd, hy2, hb2, hdb, -⟩ := extendEuclid_partial hE.wf hphi.wf (by rw [value_pos hE.pos, hE.val]; norm_num) (by rw [value_pos hphi.pos, hphi.val]; omega) (by omega)
        (Or.inl (by rw [show (word 0x10001).length = 1 from rfl]; omega)) fuel (by rw [hphi.val]; omega)
      rw [value_pos hE.pos, value_pos hphi.pos, hE.val, hphi.val] at hb2
      have hg2 : Int.gcd ((65537 : Nat) : Int) (((P - 1) * (Q - 1) : Nat) : Int) = 1 := by
        rw [Int.gcd_natCast_natCast]
        exact (Nat.Prime.coprime_iff_not_dvd prime_65537).2 hdv
      rw [hg2] at hb2
      rw [value_natAbs, value_natAbs, hphi.val] at hdb
      rw [ed, bsome] at h
      simp only at h
      obtain ⟨c, ec, hc1, hc2, hc3⟩ := compare_spec_partial d (word 0x10001) hd hE.wf (by rw [hE.pos]; simp)
      rw [ec, bsome] at h
      by_cases hc : c ≤ 0
      · rw [if_pos hc] at h; cases h
      rw [if_neg hc] at h
      have hdE := hc3.1 (by omega)
      rw [value_pos hE.pos, hE.val] at hdE
      have hdn : Num d (mag d) := ⟨hd, by
        by_contra hneg
        have := value_neg (b := d) (by simpa using hneg)
        omega, rfl⟩
      rw [value_pos hdn.pos] at hdE hb2
      have hD : 65537 < mag d := by exact_mod_cast hdE
      have ld : d.length ≤ 128 := le_trans (num_len hdn hphi hdb) lphi'
      have m1 : 65537 * mag d % (P - 1) = 1 := mod_of_bezout (K := Q - 1) (y := value y2) (by omega) (by exact_mod_cast hb2)
      have m2 : 65537 * mag d % (Q - 1) = 1 := mod_of_bezout (K := P - 1) (y := value y2) (by omega) (by rw [Nat.mul_comm (Q - 1)]; exact_mod_cast hb2)
      obtain ⟨⟨ea, ea'⟩, h1, h⟩ := Option.bind_eq_some_iff.1 h
      obtain ⟨⟨eb, eb'⟩, h2, h⟩ := Option.bind_eq_some_iff.1 h
      obtain ⟨⟨da, da'⟩, h3, h⟩ := Option.bind_eq_some_iff.1 h
      obtain ⟨⟨db, db'⟩, h4, h⟩ := Option.bind_eq_some_iff.1 h
      have hda := div_num' hdn hp1 (by omega) (by omega) h3
      have hdb' := div_num' hdn hq1 (by omega) (by omega) h4
      simp only [Option.some.injEq, Prod.mk.injEq] at h
      obtain ⟨rfl, rfl⟩ := h
      exact ⟨mag d, ⟨hn, hE, hp, by omega, by decide, hnlen⟩,
        ⟨hn, hdn, hp, hq, hda, hdb', ⟨mag x, hxn, hinv, hxlt⟩, by omega, inverse_two m1 (by decide) (by omega), inverse_two m2 (by decide) (by omega), hnlen⟩, ⟨m1, m2⟩, rfl⟩

theorem keyTry_parts {fuel bits : Nat} {p q : Bn} {pub pri : Key} (h : keyTry fuel bits p q = some (some (pub, pri))) : pub.p = p ∧ pub.q = q := by
  unfold keyTry at h
  obtain ⟨n, -, h⟩ := Option.bind_eq_some_iff.1 h
  obtain ⟨b, -, h⟩ := Option.bind_eq_some_iff.1 h
  split at h
  · cases h
  obtain ⟨o, -, h⟩ := Option.bind_eq_some_iff.1 h
  split at h
  · cases h
  obtain ⟨c, -, h⟩ := Option.bind_eq_some_iff.1 h
  split at h
  · cases h
  obtain ⟨⟨p1, o1⟩, -, h⟩ := Option.bind_eq_some_iff.1 h
  obtain ⟨⟨q1, o2⟩, -, h⟩ := Option.bind_eq_some_iff.1 h
  obtain ⟨phi, -, h⟩ := Option.bind_eq_some_iff.1 h
  obtain ⟨o, -, h⟩ := Option.bind_eq_some_iff.1 h
  split at h
  · cases h
  obtain ⟨c, -, h⟩ := Option.bind_eq_some_iff.1 h
  split at h
  · cases h
  obtain ⟨⟨ea, ea'⟩, -, h⟩ := Option.bind_eq_some_iff.1 h
  obtain ⟨⟨eb, eb'⟩, -, h⟩ := Option.bind_eq_some_iff.1 h
  obtain ⟨⟨da, da'⟩, -, h⟩ := Option.bind_eq_some_iff.1 h
  obtain ⟨⟨db, db'⟩, -, h⟩ := Option.bind_eq_some_iff.1 h
  simp only [Option.some.injEq, Prod.mk.injEq] at h
  obtain ⟨rfl, -⟩ := h
  exact ⟨rfl, rfl⟩

theorem keyLoop_spec (rand : Nat → Nat) (hr : ∀ s, rand s < 2147483648) (euclid bits : Nat) (h1 : 88 < bits) (h2 : bits ≤ 4096) : ∀ (fuel : Nat) (clock : List Nat) (pub pri : Key),
    keyLoop rand euclid bits fuel clock = some (some (pub, pri)) → ∃ p q, Num p (mag p) ∧ Num q (mag q) ∧ mag p ≠ mag q ∧ 2 ^ (bits / 2) ≤ mag p ∧ mag p < 2 ^ (bits / 2 + 1) ∧
      (bits / 2 % 32 = 0 → mag p < 3 * 2 ^ (bits / 2 - 1)) ∧ 2 ^ (bits / 2 - 1) ≤ mag q ∧ mag q < 2 ^ (bits / 2) ∧ keyTry euclid bits p q = some (some (pub, pri)) := by
  intro fuel
  induction fuel with
  | zero => intro clock pub pri h; cases h
  | succ fuel ih =>
    intro clock pub pri h
    unfold keyLoop at h
    obtain ⟨o, e1, h⟩ := Option.bind_eq_some_iff.1 h
    match o with
    | none => cases h
    | some (p, c1) =>
      simp only at h
      obtain ⟨o, e2, h⟩ := Option.bind_eq_some_iff.1 h
      match o with
      | none => cases h
      | some (q, c2) =>
        simp only at h
        obtain ⟨c, e3, h⟩ := Option.bind_eq_some_iff.1 h
        obtain ⟨wp, np, -, lop, hip, xp, -⟩ := prime_partial rand hr _ (by omega) clock p c1 e1
        obtain ⟨wq, nq, -, loq, hiq, -, -⟩ := prime_partial rand hr _ (by omega) c1 q c2 e2
        split at h
        · exact ih c2 pub pri h
        · rename_i hne
          obtain ⟨c', ec', hc', -, -⟩ := compare_spec_partial p q wp wq (by rw [np]; simp)
          rw [e3] at ec'
          cases ec'
          rw [value_pos np, value_pos nq] at hc'
          obtain ⟨o, e4, h⟩ := Option.bind_eq_some_iff.1 h
          match o with
          | none => exact ih c2 pub pri h
          | some r =>
            cases h
            exact ⟨p, q, ⟨wp, np, rfl⟩, ⟨wq, nq, rfl⟩, fun h => hne (hc'.2 (by exact_mod_cast h)), by simpa using lop, hip, fun h => by
              have := xp (by omega)
              rwa [show bits / 2 + 1 - 2 = bits / 2 - 1 by omega] at this, loq, hiq, e4⟩

theorem one_bit {x k : Nat} (h : x < 3 * 2 ^ k) (hb : x.testBit k = true) : x < 2 ^ (k + 1) := by
  have h1 : x / 2 ^ k < 3 := Nat.div_lt_of_lt_mul (by rw [Nat.mul_comm]; exact h)
  rw [Nat.testBit_eq_decide_div_mod_eq] at hb
  have h2 : x / 2 ^ k % 2 = 1 := by simpa using hb
  have h3 : x / 2 ^ k < 2 := by omega
  rw [pow_succ]
  exact (Nat.div_lt_iff_lt_mul (Nat.two_pow_pos k)).1 h3 |>.trans_eq (Nat.mul_comm _ _)

/-- A key pair from mln_rsa_key_generate, for a number of bits up to 4096: if the two numbers it
drew are prime, the keys satisfy the RSA equations and the modulus has `bits` or `bits + 1` bits. -/
theorem keyGenerate_spec (rand : Nat → Nat) (hr : ∀ s, rand s < 2147483648) (euclid bits : Nat) (h2 : bits ≤ 4096) (hf : 2 ^ 4098 ≤ euclid) (clock : List Nat) (pub pri : Key)
    (h : keyGenerate rand euclid bits clock = some (some (pub, pri))) (hp : (mag pub.p).Prime) (hq : (mag pub.q).Prime) :
    88 < bits ∧ ∃ P Q D, P = mag pub.p ∧ Q = mag pub.q ∧ Primes P Q ∧ PubKey pub P Q 65537 ∧ PriKey pri P Q D ∧ Match P Q 65537 D ∧
      2 ^ (bits - 1) ≤ P * Q ∧ P * Q < 2 ^ (2 * (bits / 2) + 1) ∧ (bits % 64 = 0 → P * Q < 2 ^ bits) := by
  unfold keyGenerate at h
  split at h
  · cases h
  rename_i hb
  have h1 : 88 < bits := by omega
  refine ⟨h1, ?_⟩
  obtain ⟨p, q, np, nq, hne, lop, hip, xp, loq, hiq, ht⟩ := keyLoop_spec rand hr euclid bits h1 h2 _ clock pub pri h
  obtain ⟨rfl, rfl⟩ := keyTry_parts ht
  have hup : mag pub.p * mag pub.q < 2 ^ (2 * (bits / 2) + 1) := by
    have : mag pub.p * mag pub.q < 2 ^ (bits / 2 + 1) * 2 ^ (bits / 2) := Nat.mul_lt_mul'' hip hiq
    rwa [← pow_add, show bits / 2 + 1 + bits / 2 = 2 * (bits / 2) + 1 by omega] at this
  have h64 : bits % 64 = 0 → (mag pub.p * mag pub.q).testBit (bits - 1) = true → mag pub.p * mag pub.q < 2 ^ bits := by
    intro hm hbit
    have h3 : mag pub.p * mag pub.q < 3 * 2 ^ (bits / 2 - 1) * 2 ^ (bits / 2) := Nat.mul_lt_mul'' (xp (by omega)) hiq
    rw [Nat.mul_assoc, ← pow_add, show bits / 2 - 1 + bits / 2 = bits - 1 by omega] at h3
    have := one_bit h3 hbit
    rwa [show bits - 1 + 1 = bits by omega] at this
  have hlen : ∀ b : Bn, Wf b → mag b < 2 ^ (bits / 2 + 1) → b.length ≤ 128 := by
    intro b hb hlt
    apply len_le_of_pow hb
    rw [pow_B]
    exact lt_of_lt_of_le hlt (Nat.pow_le_pow_right (by decide) (by omega))
  have l1 := hlen _ np.wf hip
  have l2 := hlen _ nq.wf (lt_trans hiq (Nat.pow_lt_pow_right (by decide) (by omega)))
  have hbig : ∀ k, 32 ≤ k → 4294967296 ≤ 2 ^ k := by
    intro k hk
    calc 4294967296 = 2 ^ 32 := by norm_num
      _ ≤ 2 ^ k := Nat.pow_le_pow_right (by decide) hk
  have pr : Primes (mag pub.p) (mag pub.q) := ⟨hp, hq, hne, le_trans (hbig _ (by omega)) lop, le_trans (hbig _ (by omega)) loq⟩
  obtain ⟨D, k1, k2, k3, k4⟩ := keyTry_spec np nq pr (fun hbit => by
      rw [pow_B]
      by_cases h4 : bits = 4096
      · have := h64 (by omega) hbit
        rwa [h4] at this
      · exact lt_of_lt_of_le hup (Nat.pow_le_pow_right (by decide) (by omega)))
    (by omega) (lt_of_lt_of_le (lt_of_lt_of_le hup (Nat.pow_le_pow_right (by decide) (by omega))) hf) ht
  exact ⟨_, _, D, rfl, rfl, pr, k1, k2, k3, Nat.ge_two_pow_of_testBit k4, hup, fun hm => h64 hm k4⟩

theorem pow256 (k : Nat) (hk : 1 ≤ k) : 256 ^ (k * 4 - 2) = 2 ^ (32 * k - 16) := by
  rw [show (256 : Nat) = 2 ^ 8 by norm_num, ← pow_mul]
  congr 1
  omega

/-- **C92.** Keys generated for `bits` of 19 to 31 modulo 32, or with a modulus of exactly
`bits` bits for multiples of 32 (always so for multiples of 64), decrypt what they encrypt. -/
theorem generated_round_trip_partial (rand : Nat → Nat) (hr : ∀ s, rand s < 2147483648) (euclid bits : Nat) (h2 : bits ≤ 4096) (hf : 2 ^ 4098 ≤ euclid) (clock : List Nat) (pub pri : Key)
    (h : keyGenerate rand euclid bits clock = some (some (pub, pri))) (hp : (mag pub.p).Prime) (hq : (mag pub.q).Prime)
    (hbits : 19 ≤ bits % 32 ∨ bits % 64 = 0 ∨ (bits % 32 = 0 ∧ mag pub.p * mag pub.q < 2 ^ bits))
    (rand' : Nat → Nat) (clk : Nat → Nat × List Nat) (text : List Nat) (ht : ∀ x ∈ text, x < 256) (h0 : text ≠ []) (hlen : text.length + 11 ≤ pub.n.length * 4)
    (b : List Nat) (hpad : pubBlock rand' (clk 0).1 (clk 0).2 text (pub.n.length * 4) = some b) :
    ∃ c, publicEncrypt pub rand' clk text = some (some c) ∧ ∀ after, ∃ buf, privateDecrypt pri c after = some (some text, buf) := by
  obtain ⟨h1, P, Q, D, rfl, rfl, pr, k1, k2, k3, lo, hi, h64⟩ := keyGenerate_spec rand hr euclid bits h2 hf clock pub pri h hp hq
  have hl1 : 1 ≤ pub.n.length := by
    have := num_two k1.n (le_trans pr.pbig (Nat.le_mul_of_pos_right _ pr.qq.pos))
    omega
  have hbig : 3 * 256 ^ (pub.n.length * 4 - 2) ≤ mag pub.p * mag pub.q := by
    rw [pow256 _ hl1]
    refine le_trans ?_ lo
    have key : 32 * pub.n.length - 16 + 2 ≤ bits - 1 → 3 * 2 ^ (32 * pub.n.length - 16) ≤ 2 ^ (bits - 1) := by
      intro hk
      calc 3 * 2 ^ (32 * pub.n.length - 16) ≤ 2 ^ (32 * pub.n.length - 16) * 2 ^ 2 := by omega
        _ = 2 ^ (32 * pub.n.length - 16 + 2) := (pow_add _ _ _).symm
        _ ≤ 2 ^ (bits - 1) := Nat.pow_le_pow_right (by decide) hk
    apply key
    by_cases hr0 : 19 ≤ bits % 32
    · have : pub.n.length ≤ bits / 32 + 1 := by
        apply len_le_of_pow k1.n.wf
        rw [k1.n.val, pow_B]
        exact lt_of_lt_of_le hi (Nat.pow_le_pow_right (by decide) (by omega))
      omega
    · have hlt : mag pub.p * mag pub.q < 2 ^ bits := by
        rcases hbits with hb | hb | hb
        · exact absurd hb hr0
        · exact h64 hb
        · exact hb.2
      have h32 : bits % 32 = 0 := by omega
      have : pub.n.length ≤ bits / 32 := by
        apply len_le_of_pow k1.n.wf
        rw [k1.n.val, pow_B]
        exact lt_of_lt_of_le hlt (Nat.pow_le_pow_right (by decide) (by omega))
      omega
  obtain ⟨c, e1, -, -, e2⟩ := public_private_partial pr k1 k2 k3 hbig rand' clk text ht h0 hlen b hpad
  exact ⟨c, e1, fun after => ⟨b, e2 after⟩⟩

/-- **C92, refuted.** Keys generated for `bits` of 1 to 17 modulo 32, and those for multiples of
32 whose modulus has a bit more, decrypt nothing at all. -/
theorem generated_useless (rand : Nat → Nat) (hr : ∀ s, rand s < 2147483648) (euclid bits : Nat) (h2 : bits ≤ 4096) (hf : 2 ^ 4098 ≤ euclid) (clock : List Nat) (pub pri : Key)
    (h : keyGenerate rand euclid bits clock = some (some (pub, pri))) (hp : (mag pub.p).Prime) (hq : (mag pub.q).Prime)
    (hbits : (1 ≤ bits % 32 ∧ bits % 32 ≤ 17) ∨ (bits % 32 = 0 ∧ 2 ^ bits ≤ mag pub.p * mag pub.q)) (c after : List Nat) (hc : ∀ x ∈ c, x < 256) :
    ∃ buf, privateDecrypt pri c after = some (none, buf) := by
  obtain ⟨h1, P, Q, D, rfl, rfl, pr, k1, k2, k3, lo, hi, h64⟩ := keyGenerate_spec rand hr euclid bits h2 hf clock pub pri h hp hq
  have hlb : ∀ m, 2 ^ (32 * m) ≤ mag pub.p * mag pub.q → m < pri.n.length := by
    intro m hm
    by_contra hcc
    have := k2.n.wf.below
    rw [k2.n.val, pow_B] at this
    have h5 : 2 ^ (32 * pri.n.length) ≤ 2 ^ (32 * m) := Nat.pow_le_pow_right (by decide) (by omega)
    omega
  have hl : bits / 32 < pri.n.length := by
    rcases hbits with hb | hb
    · exact hlb _ (le_trans (Nat.pow_le_pow_right (by decide) (by omega)) lo)
    · exact hlb _ (le_trans (Nat.pow_le_pow_right (by decide) (by omega)) hb.2)
  refine short_modulus_useless pr k2 ?_ c after hc
  rw [pow256 _ (by omega), ← pow_succ']
  exact le_trans (le_of_lt hi) (Nat.pow_le_pow_right (by decide) (by omega))

theorem keyGenerate_refused (rand : Nat → Nat) (euclid bits : Nat) (clock : List Nat) (h : bits ≤ 88 ∨ 8224 ≤ bits) : keyGenerate rand euclid bits clock = some none := by
  unfold keyGenerate
  by_cases h2 : bits ≤ 88 ∨ bits > 8224
  · rw [if_pos h2]
  · rw [if_neg h2, keyLoop, prime_refused _ _ _ (Or.inr (by omega))]
    rfl

/-! ## An instance: an 89-bit key pair -/

theorem prime_factor {q : Nat} (hq : q.Prime) : ∀ l : List Nat, (∀ x ∈ l, x.Prime) → q ∣ l.prod → q ∈ l := by
  intro l
  induction l with
  | nil => intro _ h; rw [List.prod_nil] at h; exact absurd (Nat.dvd_one.1 h) hq.one_lt.ne'
  | cons a l ih =>
    intro ha h
    rw [List.prod_cons] at h
    rcases hq.dvd_mul.1 h with h | h
    · rw [(Nat.prime_dvd_prime_iff_eq hq (ha a (by simp))).1 h]; simp
    · exact List.mem_cons_of_mem _ (ih (fun x hx => ha x (by simp [hx])) h)

theorem keyP_prime : Nat.Prime 28666570616869 := by
  refine prime_of_pow _ 6 (by rw [← mpow_eq _ 64 _ _ (by norm_num)]; decide +kernel) ?_
  intro q hq hd
  have hm := prime_factor hq [2, 2, 3, 19, 23, 59, 79, 97, 107, 113] (by intro x hx; fin_cases hx <;> norm_num) (by norm_num at hd ⊢; exact hd)
  fin_cases hm <;> (rw [← mpow_eq _ 64 _ _ (by norm_num)]; decide +kernel)

theorem keyQ_prime : Nat.Prime 17580029973481 := by
  refine prime_of_pow _ 7 (by rw [← mpow_eq _ 64 _ _ (by norm_num)]; decide +kernel) ?_
  intro q hq hd
  have hm := prime_factor hq [2, 2, 2, 3, 3, 3, 3, 3, 5, 13, 29, 31, 43, 59, 61] (by intro x hx; fin_cases hx <;> norm_num) (by norm_num at hd ⊢; exact hd)
  fin_cases hm <;> (rw [← mpow_eq _ 64 _ _ (by norm_num)]; decide +kernel)

def keyClock : List Nat := [236572, 0, 22, 1, 0, 22, 1, 0, 22, 1, 0, 22, 1, 0, 162059, 0, 22, 1, 0, 22, 1, 0, 22, 1, 0, 22, 1, 0]

theorem key_example : (keyGenerate Verif.Bn.exRand (2 ^ 4098) 89 keyClock).map (·.map (fun k => (mag k.1.p, mag k.1.q, k.1.n.length, mag k.2.ed))) =
    some (some (28666570616869, 17580029973481, 3, 15117929254614533619020993)) := by decide +kernel

/-! The keys of this run decrypt what they encrypt, for example the text "k". -/
example : ∃ pub pri, keyGenerate Verif.Bn.exRand (2 ^ 4098) 89 keyClock = some (some (pub, pri)) ∧
    ∃ c, publicEncrypt pub exRand (fun _ => (1, [])) [107] = some (some c) ∧ ∀ after, ∃ buf, privateDecrypt pri c after = some (some [107], buf) := by
  match h : keyGenerate Verif.Bn.exRand (2 ^ 4098) 89 keyClock, key_example with
  | some (some (pub, pri)), hk =>
    simp only [Option.map_some, Option.some.injEq, Prod.mk.injEq] at hk
    obtain ⟨h1, h2, h3, -⟩ := hk
    exact ⟨pub, pri, rfl, generated_round_trip_partial Verif.Bn.exRand (fun s => Nat.mod_lt _ (by decide)) (2 ^ 4098) 89 (by decide) (le_refl _) keyClock pub pri h
      (by rw [h1]; exact keyP_prime) (by rw [h2]; exact keyQ_prime) (Or.inl (by decide)) exRand (fun _ => (1, [])) [107] (by decide) (by decide) (by rw [h3]; decide) [0, 2, 12, 67, 86, 181, 144, 215, 58, 41, 0, 107] (by rw [h3]; decide +kernel)⟩

end Verif.Rsa
