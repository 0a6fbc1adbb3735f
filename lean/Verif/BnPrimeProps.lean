import Verif.BnPrime
import Verif.BnWeakProps
import Verif.BnEuclidProps
import Mathlib.Tactic.Ring
import Mathlib.FieldTheory.Finite.Basic

/-
The prime generator of the bignum module.  The specification is primality and the size of the
number; rand_r is an arbitrary function with results below 2^31 (glibc's RAND_MAX is 2^31 - 1).
-/
set_option maxRecDepth 8000

namespace Verif.Bn

/-! ## Candidates -/

theorem randLimbs_spec (rand : Nat → Nat) (hr : ∀ s, rand s < 2147483648) : ∀ (n val : Nat),
    (randLimbs rand n val).1.length = n ∧ ∀ x ∈ (randLimbs rand n val).1, x < 2147483648 := by
  intro n
  induction n with
  | zero => intro val; exact ⟨rfl, by simp [randLimbs]⟩
  | succ n ih =>
    intro val
    obtain ⟨h1, h2⟩ := ih (rand val % 4294967296)
    simp only [randLimbs]
    refine ⟨by simp [h1], ?_⟩
    intro x hx
    rcases List.mem_cons.1 hx with rfl | hx
    · have := hr val; omega
    · exact h2 x hx

theorem or_one (x : Nat) : x ||| 1 = x + (1 - x % 2) := by
  have h : x ||| 1 = 2 * (x / 2) + 1 := by
    have h1 : x = 2 * (x / 2) + x % 2 := by omega
    apply Nat.eq_of_testBit_eq
    intro i
    rw [Nat.testBit_or]
    cases i with
    | zero => simp
    | succ i => rw [Nat.testBit_succ, Nat.testBit_succ, Nat.testBit_succ, show (2 * (x / 2) + 1) / 2 = x / 2 by omega]; simp
  omega

theorem odd0_spec (l : List Nat) (hne : l ≠ []) (hl : ∀ x ∈ l, x < B) :
    (odd0 l).length = l.length ∧ (∀ x ∈ odd0 l, x < B) ∧ nat (odd0 l) % 2 = 1 ∧ nat l ≤ nat (odd0 l) ∧ nat (odd0 l) ≤ nat l + 1 := by
  cases l with
  | nil => exact absurd rfl hne
  | cons x l =>
    have hx := hl x (by simp)
    simp only [odd0, nat_cons, or_one]
    refine ⟨rfl, ?_, by omega, by omega, by omega⟩
    intro y hy
    rcases List.mem_cons.1 hy with rfl | hy
    · omega
    · exact hl y (by simp [hy])

theorem pow_B (n : Nat) : B ^ n = 2 ^ (32 * n) := by
  rw [show (4294967296 : Nat) = 2 ^ 32 by norm_num, ← pow_mul]

theorem two_split (a b : Nat) : 2 ^ (a + b) = 2 ^ a * 2 ^ b := pow_add 2 a b

/-- A number made of limbs `l` and a top limb with a given highest bit. -/
theorem candidate (l : List Nat) (top off : Nat) (hl : ∀ x ∈ l, x < B) (h1 : 1 ≤ off) (h2 : off ≤ 32) (hlo : 2 ^ (off - 1) ≤ top) (hhi : top < 2 ^ off)
    (hlen : l.length + 1 ≤ 257) :
    ∃ b : Bn, b = ⟨false, l.length + 1, odd0 (l ++ [top]) ++ List.replicate (size - (odd0 (l ++ [top])).length) 0⟩ ∧ Wf b ∧ mag b % 2 = 1 ∧
      2 ^ (32 * l.length + off - 1) ≤ mag b ∧ (2 ≤ 32 * l.length + off → mag b < 2 ^ (32 * l.length + off)) ∧ mag b ≤ nat l + B ^ l.length * top + 1 ∧ (odd0 (l ++ [top])).length = l.length + 1 := by
  have hsz : size = 257 := rfl
  have htB : top < B := lt_of_lt_of_le hhi (by
    have : 2 ^ off ≤ 2 ^ 32 := Nat.pow_le_pow_right (by decide) h2
    norm_num at this ⊢; exact this)
  have hall : ∀ x ∈ l ++ [top], x < B := limbs_append hl (by intro x hx; rw [List.mem_singleton.1 hx]; exact htB)
  obtain ⟨o1, o2, o3, o4, o5⟩ := odd0_spec (l ++ [top]) (by simp) hall
  have hnat : nat (l ++ [top]) = nat l + B ^ l.length * top := by rw [nat_append]; simp [nat]
  have hlt := nat_lt l hl
  have hl1 : (l ++ [top]).length = l.length + 1 := by simp
  rw [hl1] at o1
  have hup : nat l + B ^ l.length * top < 2 ^ (32 * l.length + off) := by
    have : B ^ l.length * (top + 1) ≤ B ^ l.length * 2 ^ off := Nat.mul_le_mul_left _ hhi
    rw [Nat.mul_add, Nat.mul_one, pow_B, ← two_split, ← pow_B] at this
    omega
  have hlow : 2 ^ (32 * l.length + off - 1) ≤ nat l + B ^ l.length * top := by
    have : B ^ l.length * 2 ^ (off - 1) ≤ B ^ l.length * top := Nat.mul_le_mul_left _ hlo
    rw [pow_B, ← two_split, ← pow_B, show 32 * l.length + (off - 1) = 32 * l.length + off - 1 by omega] at this
    omega
  have hBlen := nat_lt _ o2
  rw [o1] at hBlen
  have hw := wf_mk false (l.length + 1) (size - (l.length + 1)) (odd0 (l ++ [top])) (by omega) o2 hBlen (by
    right
    rw [Nat.add_sub_cancel]
    have : B ^ l.length * 1 ≤ B ^ l.length * top := Nat.mul_le_mul_left _ (le_trans (Nat.one_le_two_pow) hlo)
    omega)
  rw [o1]
  refine ⟨_, rfl, hw.1, by rw [hw.2]; exact o3, by rw [hw.2]; omega, fun h => ?_, by rw [hw.2]; omega, rfl⟩
  rw [hw.2]
  have heven : 2 ^ (32 * l.length + off) % 2 = 0 := by
    obtain ⟨m, hm⟩ : ∃ m, 32 * l.length + off = m + 1 := ⟨32 * l.length + off - 1, by omega⟩
    rw [hm, pow_succ]; omega
  omega

/-- Candidates have exactly the requested width and are odd; just above a multiple of 32 bits
they stay below three halves of the lower bound. -/
theorem randomPrime_spec (rand : Nat → Nat) (hr : ∀ s, rand s < 2147483648) (t t' bw : Nat) (h2 : 2 ≤ bw) (hb : bw ≤ 8224) :
    ∃ b, randomPrime rand t t' bw = some b ∧ Wf b ∧ b.neg = false ∧ mag b % 2 = 1 ∧ 2 ^ (bw - 1) ≤ mag b ∧ mag b < 2 ^ bw ∧
      (bw % 32 = 1 → mag b < 3 * 2 ^ (bw - 2)) := by
  have hsz : size = 257 := rfl
  obtain ⟨l1, l2⟩ := randLimbs_spec rand hr (bw / 32) (t % 4294967296)
  unfold randomPrime
  simp only
  generalize hgen : randLimbs rand (bw / 32) (t % 4294967296) = g at *
  obtain ⟨l, val⟩ := g
  simp only at l1 l2 ⊢
  by_cases hoff : bw % 32 ≠ 0
  · rw [if_pos hoff]
    set y := w (rand val % 4294967296 * 0xfdfd) &&& 0xffffffff
    have hlo : 2 ^ (bw % 32 - 1) ≤ (y ||| (1 <<< (bw % 32 - 1))) % 2 ^ (bw % 32) := by
      apply Nat.ge_two_pow_of_testBit
      rw [Nat.testBit_mod_two_pow, Nat.testBit_or, Nat.one_shiftLeft, Nat.testBit_two_pow_self]
      simp; omega
    have hhi : (y ||| (1 <<< (bw % 32 - 1))) % 2 ^ (bw % 32) < 2 ^ (bw % 32) := Nat.mod_lt _ (Nat.two_pow_pos _)
    obtain ⟨b, eb, hw, hodd, g1, g2, g3, g4⟩ := candidate l _ (bw % 32) (fun x hx => lt_trans (l2 x hx) (by decide)) (by omega) (by omega) hlo hhi (by omega)
    rw [l1] at g1 g2 eb g3 g4
    rw [show 32 * (bw / 32) + bw % 32 = bw by omega] at g1 g2
    rw [if_neg (by rw [g4]; omega)]
    refine ⟨b, by rw [eb], hw, by rw [eb], hodd, g1, g2 h2, ?_⟩
    intro h1
    rw [h1] at g3 hhi hlo
    have htop : (y ||| (1 <<< (1 - 1))) % 2 ^ 1 = 1 := by omega
    rw [htop, Nat.mul_one] at g3
    have hne : l ≠ [] := by
      intro hc
      rw [hc] at l1
      simp at l1
      omega
    have hlb : nat l < 2 ^ (bw - 2) := by
      have e := nat_take_succ_top l (l.length - 1) _ (List.getElem?_eq_getElem (show l.length - 1 < l.length by have := List.length_pos_iff.2 hne; omega))
      rw [List.take_of_length_le (by omega)] at e
      have ht := l2 _ (List.getElem_mem (show l.length - 1 < l.length by have := List.length_pos_iff.2 hne; omega))
      have hlow := nat_lt (l.take (l.length - 1)) (limbs_take (fun x hx => lt_trans (l2 x hx) (by decide)))
      rw [List.length_take, Nat.min_eq_left (by omega)] at hlow
      generalize l[l.length - 1]'_ = z at e ht
      have h3 : B ^ (l.length - 1) * (z + 1) ≤ B ^ (l.length - 1) * 2147483648 := Nat.mul_le_mul_left _ ht
      rw [Nat.mul_add, Nat.mul_one, show (2147483648 : Nat) = 2 ^ 31 by norm_num, pow_B, ← two_split, ← pow_B, l1,
        show 32 * (bw / 32 - 1) + 31 = bw - 2 by omega, ← l1] at h3
      omega
    have h4 : B ^ (bw / 32) = 2 * 2 ^ (bw - 2) := by
      rw [pow_B, ← pow_succ', show bw - 2 + 1 = 32 * (bw / 32) by omega]
    have heven : 2 ^ (bw - 2) % 2 = 0 := by
      obtain ⟨m, hm⟩ : ∃ m, bw - 2 = m + 1 := ⟨bw - 3, by omega⟩
      rw [hm, pow_succ]; omega
    omega
  · rw [if_neg hoff, if_neg (by omega)]
    set x := if l[bw / 32 - 1]?.getD 0 = 0 then rand (t' % 4294967296) % 4294967296 else l[bw / 32 - 1]?.getD 0
    have hx : x < 2147483648 := by
      show (if l[bw / 32 - 1]?.getD 0 = 0 then rand (t' % 4294967296) % 4294967296 else l[bw / 32 - 1]?.getD 0) < _
      split
      · have := hr (t' % 4294967296); omega
      · cases h : l[bw / 32 - 1]? with
        | none => simp
        | some z => exact l2 z (List.mem_of_getElem? h)
    have hor : x ||| 0x80000000 = 2147483648 + x := by
      rw [Nat.or_comm]
      have := Nat.two_pow_add_eq_or_of_lt (i := 31) (b := x) (by norm_num; omega) 1
      norm_num at this
      rw [← this]
    rw [hor]
    have htl : (l.take (bw / 32 - 1)).length = bw / 32 - 1 := by rw [List.length_take]; omega
    obtain ⟨b, eb, hw, hodd, g1, g2, g3, g4⟩ := candidate (l.take (bw / 32 - 1)) (2147483648 + x) 32
      (fun x hx => lt_trans (l2 x (List.mem_of_mem_take hx)) (by decide)) (by omega) (by omega) (by norm_num) (by norm_num; omega) (by omega)
    rw [htl] at g1 g2 eb g3 g4
    rw [show 32 * (bw / 32 - 1) + 32 = bw by omega] at g1 g2
    rw [show bw / 32 - 1 + 1 = bw / 32 by omega] at eb g4
    rw [if_neg (by rw [g4]; omega)]
    exact ⟨b, by rw [eb], hw, by rw [eb], hodd, g1, g2 h2, fun h => by omega⟩

/-! ## The test -/

/-- A well-formed number with the value `v`. -/
structure Val (b : Bn) (v : Nat) : Prop where
  wf : Wf b
  val : value b = (v : Int)

theorem Val.mag {b : Bn} {v : Nat} (h : Val b v) : Verif.Bn.mag b = v := by
  rw [← value_natAbs, h.val, Int.natAbs_natCast]

theorem Val.pos {b : Bn} {v : Nat} (h : Val b v) (hv : v ≠ 0) : b.neg = false := by
  by_contra hc
  have h1 := h.val
  rw [value_neg (by simpa using hc), h.mag] at h1
  omega

theorem val_of {b : Bn} (hw : Wf b) (hn : b.neg = false) : Val b (mag b) := ⟨hw, value_pos hn⟩

theorem word_val (x : Nat) (h0 : x ≠ 0) (hx : x < B) : Val (word x) x := by
  have h := wf_mk false 1 256 [x] rfl (by simpa using hx) (by simpa [nat] using hx) (Or.inr (by simp [nat]; omega))
  refine ⟨h.1, ?_⟩
  rw [value_pos rfl]
  exact_mod_cast (h.2.trans (by simp [nat]))

theorem cmp_val {a b : Bn} {u v : Nat} (ha : Val a u) (hb : Val b v) : ∃ c, absCompare a b = some c ∧ (c = 0 ↔ u = v) := by
  obtain ⟨c, e, h, -, -⟩ := absCompare_spec a b ha.wf hb.wf
  exact ⟨c, e, by rw [h, ha.mag, hb.mag]⟩

theorem sub_one_val {a : Bn} {u : Nat} (ha : Val a u) (h1 : 1 ≤ u) : ∃ r, sub a (word 1) = some (r, word 1) ∧ Val r (u - 1) := by
  have hlt := wf_mag_lt ha.wf
  rw [ha.mag] at hlt
  have hw := word_val 1 (by decide) (by decide)
  obtain ⟨r, e, hr, hv⟩ := sub_spec_partial a (word 1) ha.wf hw.wf (by rw [ha.val, hw.val]; omega) (by rw [ha.pos (by omega)]; simp)
  exact ⟨r, e, hr, by rw [hv, ha.val, hw.val]; omega⟩

theorem half_val {a : Bn} {u : Nat} (ha : Val a u) : ∃ m q, div a (word 2) = some (some (m, q)) ∧ (m.length ≠ 0 ↔ u % 2 = 1) ∧ Val q (u / 2) := by
  have hw := word_val 2 (by decide) (by decide)
  obtain ⟨d, q, e, hd, hq, hv, hlt, s1, s2⟩ := div_mag ha.wf hw.wf (by rw [hw.mag]; decide) (Or.inr (by
    rw [hw.mag]
    show 2 < 2147483648 * B ^ 0
    decide))
  rw [ha.mag, hw.mag] at hv
  rw [hw.mag] at hlt
  refine ⟨d, q, e, ?_, hq, ?_⟩
  · rw [Ne, wf_zero_iff hd]; omega
  · by_cases h0 : mag q = 0
    · have : value q = 0 := by rw [← Int.natAbs_eq_zero, value_natAbs, h0]
      rw [this]; omega
    · have h := s2 h0
      rw [ha.pos (by omega), hw.pos (by decide)] at h
      rw [value_pos h]; omega

theorem pwr_val {x e m : Bn} {u v n : Nat} (hx : Val x u) (he : Val e v) (hm : Val m n) (hxl : x.length ≤ 128) (hml : m.length ≤ 128) (hn : n ≠ 0)
    (h2 : 2 ≤ v ∨ (v = 1 ∧ u < n)) : ∃ r, pwr x e (some m) = some (some r) ∧ Val r (u ^ v % n) := by
  obtain ⟨r, er, wr, vr, lr, sr⟩ := pwr_mod_partial he.wf hm.wf hx.wf (he.pos (by omega)) (by rw [hm.mag]; exact hn) (hm.pos hn) hxl hml
  refine ⟨r, er, wr, ?_⟩
  rw [he.mag, hm.mag, hx.mag] at lr
  rw [hx.val] at vr sr
  rw [he.mag, hm.mag] at vr
  have h1 := lr h2
  have h3 := sr (by omega)
  have hlt : value r < n := by rw [← Int.natAbs_of_nonneg h3, value_natAbs]; omega
  have := vr
  unfold Int.ModEq at this
  rw [Int.emod_eq_of_lt h3 hlt] at this
  rw [this]
  push_cast
  rfl

theorem len_of_lt {a m : Bn} {u v : Nat} (ha : Val a u) (hm : Val m v) (h : u < v) : a.length ≤ m.length :=
  len_le_of_lt ha.wf hm.wf (by rw [ha.mag, hm.mag]; exact h)

theorem seperate_spec : ∀ (fuel k : Nat) (b : Bn) (u : Nat), Val b u → u ≠ 0 → u < 2 ^ fuel → ∃ j o ob, seperate fuel k b = some (k + j, ob) ∧ Val ob o ∧ u = 2 ^ j * o ∧ o % 2 = 1 := by
  intro fuel
  induction fuel with
  | zero => intro k b u _ h0 hf; rw [pow_zero] at hf; omega
  | succ fuel ih =>
    intro k b u hb h0 hf
    obtain ⟨m, q, e, hm, hq⟩ := half_val hb
    simp only [seperate, e, bsome]
    by_cases hodd : u % 2 = 1
    · rw [if_pos (hm.2 hodd)]
      exact ⟨0, u, b, rfl, hb, by rw [pow_zero, Nat.one_mul], hodd⟩
    · rw [if_neg (fun h => hodd (hm.1 h))]
      rw [pow_succ] at hf
      obtain ⟨j, o, ob, e', ho, hu, h1⟩ := ih (k + 1) q (u / 2) hq (by omega) (by omega)
      refine ⟨j + 1, o, ob, by rw [e']; congr 2; omega, ho, ?_, h1⟩
      rw [pow_succ, Nat.mul_right_comm, ← hu]
      omega

/-- Specification: `a` does not show that `p` is composite — Fermat's equation holds, and on the
way to it by squaring 1 is reached only from 1 or -1. -/
structure Strong (p a : Nat) : Prop where
  fermat : a ^ (p - 1) % p = 1
  roots : ∀ i, 2 ^ (i + 1) ∣ p - 1 → a ^ ((p - 1) / 2 ^ i) % p = 1 → a ^ ((p - 1) / 2 ^ (i + 1)) % p = 1 ∨ a ^ ((p - 1) / 2 ^ (i + 1)) % p = p - 1

/-- Primes pass for every base they do not divide. -/
theorem strong_of_prime {p a : Nat} (hp : p.Prime) (ha : ¬ p ∣ a) : Strong p a := by
  have := Fact.mk hp
  refine ⟨?_, ?_⟩
  · have h : ((a : ZMod p)) ^ (p - 1) = 1 := ZMod.pow_card_sub_one_eq_one (by rw [Ne, ZMod.natCast_eq_zero_iff]; exact ha)
    have h2 : ((a ^ (p - 1) : Nat) : ZMod p) = ((1 : Nat) : ZMod p) := by simpa using h
    have := (ZMod.natCast_eq_natCast_iff' _ _ _).1 h2
    rwa [Nat.mod_eq_of_lt hp.one_lt] at this
  · intro i hi h
    obtain ⟨m, hm⟩ := hi
    have e1 : (p - 1) / 2 ^ (i + 1) = m := by rw [hm, Nat.mul_div_cancel_left _ (Nat.two_pow_pos _)]
    have e2 : (p - 1) / 2 ^ i = m * 2 := by
      rw [hm, pow_succ, Nat.mul_assoc, Nat.mul_div_cancel_left _ (Nat.two_pow_pos _), Nat.mul_comm]
    rw [e1]
    rw [e2, pow_mul] at h
    have h2 : ((a ^ m : Nat) : ZMod p) * ((a ^ m : Nat) : ZMod p) = 1 := by
      rw [← pow_two]
      have := (ZMod.natCast_eq_natCast_iff' ((a ^ m) ^ 2) 1 p).2 (by rw [h, Nat.mod_eq_of_lt hp.one_lt])
      simpa using this
    rcases mul_self_eq_one_iff.1 h2 with h3 | h3
    · left
      have h4 : ((a ^ m : Nat) : ZMod p) = ((1 : Nat) : ZMod p) := by rw [h3]; simp
      have := (ZMod.natCast_eq_natCast_iff' _ _ _).1 h4
      rwa [Nat.mod_eq_of_lt hp.one_lt] at this
    · right
      have h4 : ((a ^ m : Nat) : ZMod p) = ((p - 1 : Nat) : ZMod p) := by
        rw [h3, Nat.cast_sub hp.one_le]; simp
      have := (ZMod.natCast_eq_natCast_iff' _ _ _).1 h4
      rwa [Nat.mod_eq_of_lt (show p - 1 < p by have := hp.pos; omega)] at this

/-- The squarings: the loop stops at the first root of 1 other than 1 and -1. -/
theorem witnessLoop_spec {prim : Bn} {p : Nat} (hp : Val prim p) (hl : prim.length ≤ 128) (h3 : 3 ≤ p) : ∀ (n : Nat) (x y : Bn) (v : Nat), Val x v → v < p →
    ((∃ i < n, v ^ 2 ^ (i + 1) % p = 1 ∧ v ^ 2 ^ i % p ≠ 1 ∧ v ^ 2 ^ i % p ≠ p - 1) ∧ witnessLoop prim n x y = some none) ∨
      ((∀ i < n, v ^ 2 ^ (i + 1) % p = 1 → v ^ 2 ^ i % p = 1 ∨ v ^ 2 ^ i % p = p - 1) ∧ ∃ r, witnessLoop prim n x y = some (some r) ∧ (n ≠ 0 → Val r (v ^ 2 ^ n % p)) ∧ (n = 0 → r = y)) := by
  intro n
  induction n with
  | zero => intro x y v hx hv; right; exact ⟨by omega, y, rfl, by omega, fun _ => rfl⟩
  | succ n ih =>
    intro x y v hx hv
    have w1 := word_val 1 (by decide) (by decide)
    obtain ⟨nx, e1, hnx⟩ := pwr_val hx (word_val 2 (by decide) (by decide)) hp (le_trans (len_of_lt hx hp hv) hl) hl (by omega) (Or.inl (le_refl _))
    obtain ⟨t, e2, ht⟩ := sub_one_val hp (by omega)
    obtain ⟨c1, f1, g1⟩ := cmp_val hnx w1
    obtain ⟨c2, f2, g2⟩ := cmp_val hx w1
    obtain ⟨c3, f3, g3⟩ := cmp_val hx ht
    have hv0 : v ^ 2 ^ 0 % p = v := by rw [pow_zero, pow_one, Nat.mod_eq_of_lt hv]
    have hsh : ∀ i, (v ^ 2 % p) ^ 2 ^ i % p = v ^ 2 ^ (i + 1) % p := by
      intro i
      rw [← Nat.pow_mod, ← pow_mul, pow_succ' 2 i]
    simp only [witnessLoop, e1, e2, f1, f2, f3, bsome, ne_eq, g1, g2, g3]
    by_cases hc : v ^ 2 % p = 1 ∧ v ≠ 1 ∧ v ≠ p - 1
    · rw [if_pos hc]
      left
      exact ⟨⟨0, by omega, by simpa using hc.1, by rw [hv0]; exact hc.2.1, by rw [hv0]; exact hc.2.2⟩, rfl⟩
    · rw [if_neg hc]
      rcases ih nx nx _ hnx (Nat.mod_lt _ (by omega)) with ⟨⟨i, hi, a1, a2, a3⟩, hr⟩ | ⟨hall, r, hr, hr1, hr2⟩
      · left
        rw [hsh] at a1 a2 a3
        exact ⟨⟨i + 1, by omega, a1, a2, a3⟩, hr⟩
      · right
        refine ⟨?_, r, hr, fun _ => ?_, fun h => by omega⟩
        · intro i hi h1
          cases i with
          | zero =>
            rw [hv0]
            rw [zero_add, pow_one] at h1
            by_contra hcc
            exact hc ⟨h1, fun h => hcc (Or.inl h), fun h => hcc (Or.inr h)⟩
          | succ i =>
            have := hall i (by omega)
            rw [hsh, hsh] at this
            exact this h1
        · by_cases hn : n = 0
          · rw [hr2 hn, hn]
            simpa using hnx
          · have := hr1 hn
            rwa [hsh] at this

/-- mln_bignum_witness decides `Strong`. -/
theorem witness_spec {prim base : Bn} {p a : Nat} (hp : Val prim p) (hb : Val base a) (hl : prim.length ≤ 128) (h3 : 3 ≤ p) (hodd : p % 2 = 1) (ha : a < p)
    (fuel : Nat) (hf : p ≤ 2 ^ fuel) : ∃ c, witness fuel base prim = some c ∧ (c = false ↔ Strong p a) := by
  obtain ⟨r1, e1, h1⟩ := sub_one_val hp (by omega)
  obtain ⟨j, o, ob, e2, h2, hu, ho⟩ := seperate_spec fuel 0 r1 (p - 1) h1 (by omega) (by omega)
  have hj : j ≠ 0 := by
    intro hj
    rw [hj, pow_zero, Nat.one_mul] at hu
    omega
  have hoe : o ≠ 1 → 2 ≤ o := by omega
  obtain ⟨x, e3, hx⟩ := pwr_val hb h2 hp (le_trans (len_of_lt hb hp ha) hl) hl (by omega) (by
    by_cases h : o = 1
    · exact Or.inr ⟨h, ha⟩
    · exact Or.inl (hoe h))
  have hpw : ∀ i, (a ^ o % p) ^ 2 ^ i % p = a ^ (o * 2 ^ i) % p := by
    intro i; rw [← Nat.pow_mod, ← pow_mul]
  have hdiv : ∀ i, i ≤ j → (p - 1) / 2 ^ i = o * 2 ^ (j - i) := by
    intro i hi
    rw [hu]
    have : 2 ^ j = 2 ^ i * 2 ^ (j - i) := by rw [← pow_add]; congr 1; omega
    rw [this, Nat.mul_assoc, Nat.mul_div_cancel_left _ (Nat.two_pow_pos _), Nat.mul_comm]
  unfold witness
  rw [e1, bsome]
  simp only
  rw [e2, bsome]
  simp only [Nat.zero_add]
  rw [e3, bsome]
  simp only
  rcases witnessLoop_spec hp hl h3 j x zero _ hx (Nat.mod_lt _ (by omega)) with ⟨⟨i, hi, a1, a2, a3⟩, hr⟩ | ⟨hall, r, hr, hr1, -⟩
  · rw [hr, bsome]
    refine ⟨true, rfl, by simp, ?_⟩
    intro hs
    rw [hpw] at a1 a2 a3
    have := hs.roots (j - (i + 1)) (by rw [hu, show j - (i + 1) + 1 = j - i by omega]; exact Dvd.dvd.mul_right (Nat.pow_dvd_pow 2 (by omega)) _)
    rw [hdiv _ (by omega), hdiv _ (by omega), show j - (j - (i + 1)) = i + 1 by omega, show j - (j - (i + 1) + 1) = i by omega] at this
    rcases this a1 with h | h
    · exact absurd h a2
    · exact absurd h a3
  · rw [hr, bsome]
    simp only
    have hv := hr1 hj
    rw [hpw, Nat.mul_comm o, ← hu] at hv
    obtain ⟨c, f, g⟩ := cmp_val hv (word_val 1 (by decide) (by decide))
    rw [f, bsome]
    refine ⟨_, rfl, ?_⟩
    rw [show (decide (c ≠ 0) = false ↔ c = 0) by simp, g]
    constructor
    · intro h
      refine ⟨h, ?_⟩
      intro i hi h4
      have hij : i + 1 ≤ j := by
        by_contra hc
        have hd : 2 ^ (j + 1) ∣ p - 1 := dvd_trans (Nat.pow_dvd_pow 2 (by omega)) hi
        rw [hu, pow_succ] at hd
        have := Nat.dvd_of_mul_dvd_mul_left (Nat.two_pow_pos j) hd
        omega
      have := hall (j - (i + 1)) (by omega)
      rw [hpw, hpw, show j - (i + 1) + 1 = j - i by omega] at this
      rw [hdiv _ (by omega)] at h4 ⊢
      exact this h4
    · intro h
      exact h.fermat

/-! ## The generator -/

theorem scopeWidth_spec (rand : Nat → Nat) (bw : Nat) (h : 0 < bw) : ∀ (clock : List Nat) (wd : Nat) (c : List Nat), scopeWidth rand bw clock = some (wd, c) → 2 ≤ wd ∧ wd < bw := by
  intro clock
  induction clock with
  | nil => intro wd c e; cases e
  | cons t clock ih =>
    intro wd c e
    simp only [scopeWidth] at e
    split at e
    · exact ih wd c e
    · cases e
      exact ⟨by omega, Nat.mod_lt _ h⟩

theorem randomScope_spec (rand : Nat → Nat) (hr : ∀ s, rand s < 2147483648) (bw : Nat) (h : 0 < bw) (hb : bw ≤ 8224) (clock : List Nat) (b : Bn) (c : List Nat)
    (e : randomScope rand bw clock = some (b, c)) : ∃ a, Val b a ∧ 3 ≤ a ∧ a < 2 ^ (bw - 1) := by
  unfold randomScope at e
  obtain ⟨⟨wd, c1⟩, e1, e⟩ := Option.bind_eq_some_iff.1 e
  obtain ⟨h2, h3⟩ := scopeWidth_spec rand bw h clock wd c1 e1
  split at e
  · rename_i wd' t t' c' heq
    cases heq
    obtain ⟨b', e2, e⟩ := Option.bind_eq_some_iff.1 e
    cases e
    obtain ⟨b'', e3, hw, hn, ho, hlo, hhi, -⟩ := randomPrime_spec rand hr t t' wd h2 (by omega)
    rw [e2] at e3
    cases e3
    have hp2 : 2 ≤ 2 ^ (wd - 1) := by
      obtain ⟨m, hm⟩ : ∃ m, wd - 1 = m + 1 := ⟨wd - 2, by omega⟩
      rw [hm, pow_succ]
      have := Nat.two_pow_pos m
      omega
    refine ⟨mag b, val_of hw hn, by omega, lt_of_lt_of_le hhi (Nat.pow_le_pow_right (by decide) (by omega))⟩
  · cases e

theorem rounds_spec (rand : Nat → Nat) (hr : ∀ s, rand s < 2147483648) (bw : Nat) (h3 : 3 ≤ bw) (hb : bw ≤ 4096) {prim : Bn} {p : Nat} (hp : Val prim p)
    (hodd : p % 2 = 1) (hlo : 2 ^ (bw - 1) ≤ p) (hhi : p < 2 ^ bw) : ∀ (n : Nat) (clock : List Nat) (ok : Bool) (c : List Nat),
    rounds rand bw prim n clock = some (ok, c) →
      (ok = true → ∃ bases : List Nat, bases.length = n ∧ ∀ a ∈ bases, 3 ≤ a ∧ a < p ∧ Strong p a) ∧
      (ok = false → ∃ a, 3 ≤ a ∧ a < p ∧ ¬ Strong p a) := by
  intro n
  have hp4 : 4 ≤ 2 ^ (bw - 1) := by
    have := Nat.pow_le_pow_right (show 0 < 2 by decide) (show 2 ≤ bw - 1 by omega)
    simpa using this
  have hl : prim.length ≤ 128 := by
    apply len_le_of_pow hp.wf
    rw [hp.mag, pow_B]
    exact lt_of_lt_of_le hhi (Nat.pow_le_pow_right (by decide) (by omega))
  induction n with
  | zero => intro clock ok c e; cases e; exact ⟨fun _ => ⟨[], rfl, by simp⟩, fun h => by cases h⟩
  | succ n ih =>
    intro clock ok c e
    unfold rounds at e
    obtain ⟨⟨base, c1⟩, e1, e⟩ := Option.bind_eq_some_iff.1 e
    obtain ⟨a, ha, ha3, halt⟩ := randomScope_spec rand hr bw (by omega) (by omega) clock base c1 e1
    simp only at e
    obtain ⟨r, e2, hr2⟩ := witness_spec hp ha hl (by omega) hodd (by omega) 8225 (le_trans (le_of_lt hhi) (Nat.pow_le_pow_right (by decide) (by omega)))
    rw [e2, bsome] at e
    cases r with
    | true =>
      simp only [if_true] at e
      cases e
      exact ⟨fun h => (by cases h), fun _ => ⟨a, ha3, by omega, fun hs => by have := hr2.2 hs; cases this⟩⟩
    | false =>
      simp only [Bool.false_eq_true, if_false] at e
      obtain ⟨i1, i2⟩ := ih c1 ok c e
      refine ⟨fun hok => ?_, i2⟩
      obtain ⟨bases, hl1, hall⟩ := i1 hok
      refine ⟨a :: bases, by simp [hl1], ?_⟩
      intro x hx
      rcases List.mem_cons.1 hx with rfl | hx
      · exact ⟨ha3, by omega, hr2.1 rfl⟩
      · exact hall x hx

/-- **C95** (primes are kept).  No round rejects a prime: whatever bases are drawn, the number
passes all of them. -/
theorem rounds_prime (rand : Nat → Nat) (hr : ∀ s, rand s < 2147483648) (bw : Nat) (h3 : 3 ≤ bw) (hb : bw ≤ 4096) {prim : Bn} {p : Nat} (hp : Val prim p)
    (hprime : p.Prime) (hlo : 2 ^ (bw - 1) ≤ p) (hhi : p < 2 ^ bw) (n : Nat) (clock : List Nat) (ok : Bool) (c : List Nat)
    (e : rounds rand bw prim n clock = some (ok, c)) : ok = true := by
  have hp4 : 4 ≤ 2 ^ (bw - 1) := by
    have := Nat.pow_le_pow_right (show 0 < 2 by decide) (show 2 ≤ bw - 1 by omega)
    simpa using this
  by_contra hc
  obtain ⟨a, h1, h2, h4⟩ := (rounds_spec rand hr bw h3 hb hp (by rcases hprime.eq_two_or_odd with h | h <;> omega) hlo hhi n clock ok c e).2 (by simpa using hc)
  exact h4 (strong_of_prime hprime (fun hd => by have := Nat.le_of_dvd (by omega) hd; omega))

theorem primeLoop_spec (rand : Nat → Nat) (hr : ∀ s, rand s < 2147483648) (bw : Nat) (h3 : 3 ≤ bw) (hb : bw ≤ 4096) : ∀ (fuel : Nat) (clock : List Nat) (b : Bn) (c : List Nat),
    primeLoop rand bw fuel clock = some (b, c) → Wf b ∧ b.neg = false ∧ mag b % 2 = 1 ∧ 2 ^ (bw - 1) ≤ mag b ∧ mag b < 2 ^ bw ∧ (bw % 32 = 1 → mag b < 3 * 2 ^ (bw - 2)) ∧
      ∃ bases : List Nat, bases.length = (if bw ≤ 512 then 4 else bw >>> 9) ∧ ∀ a ∈ bases, 3 ≤ a ∧ a < mag b ∧ Strong (mag b) a := by
  intro fuel
  induction fuel with
  | zero => intro clock b c e; simp [primeLoop] at e
  | succ fuel ih =>
    intro clock b c e
    match clock with
    | [] => simp [primeLoop] at e
    | [_] => simp [primeLoop] at e
    | t :: t' :: clock =>
      obtain ⟨b', eb, hw, hn, ho, hlo, hhi, hx⟩ := randomPrime_spec rand hr t t' bw (by omega) (by omega)
      simp only [primeLoop, eb, bsome] at e
      obtain ⟨cc, -, e⟩ := Option.bind_eq_some_iff.1 e
      split at e
      · exact ih clock b c e
      · obtain ⟨⟨ok, c1⟩, e1, e⟩ := Option.bind_eq_some_iff.1 e
        simp only at e
        cases ok with
        | false =>
          simp only [Bool.false_eq_true, if_false] at e
          exact ih c1 b c e
        | true =>
          simp only [if_true] at e
          cases e
          obtain ⟨bases, q1, q2⟩ := (rounds_spec rand hr bw h3 hb (val_of hw hn) ho hlo hhi _ clock true c e1).1 rfl
          exact ⟨hw, hn, ho, hlo, hhi, hx, bases, q1, q2⟩

/-- **C95.** A number from mln_bignum_prime is odd, has exactly the requested width, and passed
the strong test for the stated number of bases; for widths up to 4096 bits. -/
theorem prime_partial (rand : Nat → Nat) (hr : ∀ s, rand s < 2147483648) (bw : Nat) (hb : bw ≤ 4096) (clock : List Nat) (b : Bn) (c : List Nat)
    (e : prime rand bw clock = some (some (b, c))) : Wf b ∧ b.neg = false ∧ mag b % 2 = 1 ∧ 2 ^ (bw - 1) ≤ mag b ∧ mag b < 2 ^ bw ∧ (bw % 32 = 1 → mag b < 3 * 2 ^ (bw - 2)) ∧
      ∃ bases : List Nat, bases.length = (if bw ≤ 512 then 4 else bw >>> 9) ∧ ∀ a ∈ bases, 3 ≤ a ∧ a < mag b ∧ Strong (mag b) a := by
  unfold prime at e
  split at e
  · cases e
  · obtain ⟨r, e1, e⟩ := Option.bind_eq_some_iff.1 e
    cases e
    exact primeLoop_spec rand hr bw (by omega) hb _ clock b c e1

theorem prime_refused (rand : Nat → Nat) (bw : Nat) (clock : List Nat) (h : bw < 3 ∨ 4112 < bw) : prime rand bw clock = some none := by
  unfold prime
  rw [if_pos (by omega)]

/-- A stand-in for rand_r. -/
def liarRand (s : Nat) : Nat := if s = 0 then 13 else 3

/-- **C97, refuted.** With this rand_r and clock mln_bignum_prime gives 25: the bases drawn are
all 7, and 7 * 7 = -1 modulo 25. -/
theorem prime_composite : (∀ s, liarRand s < 2147483648) ∧ ∃ b c, prime liarRand 5 ([0, 0] ++ List.replicate 12 1) = some (some (b, c)) ∧ mag b = 25 ∧ ¬ (mag b).Prime := by
  refine ⟨fun s => by unfold liarRand; split <;> decide, ?_⟩
  have h : (prime liarRand 5 ([0, 0] ++ List.replicate 12 1)).map (·.map (fun r => mag r.1)) = some (some 25) := by decide +kernel
  match hp : prime liarRand 5 ([0, 0] ++ List.replicate 12 1), h with
  | some (some (b, c)), h =>
    have hb : mag b = 25 := by simpa using h
    exact ⟨b, c, rfl, hb, by rw [hb]; decide⟩

/-- **C96, refuted.** Whatever rand_r is, the candidates for a width that is no multiple of 32
bits number at most 2^32. -/
theorem candidates_few (rand : Nat → Nat) (bw : Nat) (h : bw % 32 ≠ 0) : ∃ l : List (Option Bn), l.length = 2 ^ 32 ∧ ∀ t t', randomPrime rand t t' bw ∈ l := by
  refine ⟨(List.range (2 ^ 32)).map (fun t => randomPrime rand t 0 bw), by rw [List.length_map, List.length_range], ?_⟩
  intro t t'
  rw [List.mem_map]
  refine ⟨t % 4294967296, List.mem_range.2 (by norm_num; exact Nat.mod_lt _ (by decide)), ?_⟩
  unfold randomPrime
  simp only [Nat.mod_mod, if_pos h]

/-! Instances. -/

def exRand (s : Nat) : Nat := (s * 1103515245 + 12345) % 2147483648

example : (prime exRand 13 (List.range 30)).map (·.map (fun r => mag r.1)) = some (some 6287) := by decide +kernel
example : Strong 25 7 := ⟨by decide, by
  intro i hi h
  match i with
  | 0 => decide
  | 1 => decide
  | 2 => revert h; decide
  | i + 3 => exact absurd (dvd_trans (Nat.pow_dvd_pow 2 (show 4 ≤ i + 3 + 1 by omega)) hi) (by decide)⟩
example : ¬ Strong 25 3 := fun h => absurd h.fermat (by decide)
example : Strong 13 5 := strong_of_prime (by decide) (by decide)

end Verif.Bn
