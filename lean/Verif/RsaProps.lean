import Verif.Rsa
import Verif.BnWeakProps
import Mathlib.FieldTheory.Finite.Basic
import Mathlib.Data.Nat.ChineseRemainder
import Mathlib.NumberTheory.LucasPrimality

/-
RSA (property C63 and its companions).  The specification is arithmetic: two primes, exponents
that are inverse modulo each prime less one, and octet strings.
-/
set_option maxRecDepth 8000

namespace Verif.Rsa
open Verif.Bn

/-! ## Arithmetic -/

theorem pow_pred (P D x : Nat) (hP : P.Prime) (h0 : D % (P - 1) ≠ 0) : x ^ (D % (P - 1)) % P = x ^ D % P := by
  have : Fact P.Prime := ⟨hP⟩
  have h : ((x ^ (D % (P - 1)) : Nat) : ZMod P) = ((x ^ D : Nat) : ZMod P) := by
    push_cast
    conv_rhs => rw [← Nat.div_add_mod D (P - 1)]
    by_cases hx : (x : ZMod P) = 0
    · rw [hx, zero_pow h0, zero_pow (by omega)]
    · rw [pow_add, pow_mul, ZMod.pow_card_sub_one_eq_one hx, one_pow, one_mul]
  exact (ZMod.natCast_eq_natCast_iff' _ _ _).1 h

theorem pow_inverse (P E D x : Nat) (hP : P.Prime) (h : E * D % (P - 1) = 1) : (x ^ E) ^ D % P = x % P := by
  rw [← pow_mul, ← pow_pred P (E * D) x hP (by omega), h, pow_one]

theorem eq_of_mods {P Q a b : Nat} (hP : P.Prime) (hQ : Q.Prime) (hne : P ≠ Q) (h1 : a % P = b % P) (h2 : a % Q = b % Q) :
    a % (P * Q) = b % (P * Q) :=
  (Nat.modEq_and_modEq_iff_modEq_mul ((Nat.coprime_primes hP hQ).2 hne)).1 ⟨h1, h2⟩

/-- The equation behind RSA. -/
theorem rsa_equation {P Q E D x : Nat} (hP : P.Prime) (hQ : Q.Prime) (hne : P ≠ Q) (h1 : E * D % (P - 1) = 1) (h2 : E * D % (Q - 1) = 1)
    (hx : x < P * Q) : (x ^ E % (P * Q)) ^ D % (P * Q) = x := by
  rw [← Nat.pow_mod, eq_of_mods hP hQ hne (pow_inverse P E D x hP h1) (pow_inverse Q E D x hQ h2), Nat.mod_eq_of_lt hx]

/-- Garner's formula, as computed by the code. -/
theorem garner {P Q I m1 m2 z : Nat} (hP : P.Prime) (hQ : Q.Prime) (hne : P ≠ Q) (hI : Q * I % P = 1)
    (e1 : m1 % P = z % P) (e2 : m2 = z % Q) (hle : m2 ≤ m1) :
    (m1 - m2) * I % P * Q + m2 = z % (P * Q) := by
  have hP0 := hP.pos
  have hQ0 := hQ.pos
  have hm2 : m2 < Q := by rw [e2]; exact Nat.mod_lt _ hQ0
  have hlt : (m1 - m2) * I % P * Q + m2 < P * Q := by
    have h1 : (m1 - m2) * I % P ≤ P - 1 := by have := Nat.mod_lt ((m1 - m2) * I) hP0; omega
    have h2 : (m1 - m2) * I % P * Q ≤ (P - 1) * Q := Nat.mul_le_mul_right _ h1
    have h3 : (P - 1) * Q + Q = P * Q := by
      rw [← Nat.succ_mul, Nat.succ_eq_add_one, Nat.sub_add_cancel hP0]
    omega
  rw [← Nat.mod_eq_of_lt hlt]
  refine eq_of_mods hP hQ hne ?_ ?_
  · have h : (m1 - m2) * I % P * Q + m2 ≡ m1 [MOD P] := by
      have h1 : (m1 - m2) * I % P * Q ≡ (m1 - m2) * (Q * I) [MOD P] := by
        refine ((Nat.mod_modEq _ _).mul_right Q).trans ?_
        rw [Nat.mul_assoc, Nat.mul_comm I Q]
      have h2 : (m1 - m2) * (Q * I) ≡ (m1 - m2) * 1 [MOD P] := Nat.ModEq.mul_left _ (by
        show _ % _ = _ % _
        rw [hI, Nat.mod_eq_of_lt hP.one_lt])
      have h3 := (h1.trans h2).add_right m2
      rw [Nat.mul_one, Nat.sub_add_cancel hle] at h3
      exact h3
    exact h.trans e1
  · rw [Nat.mul_comm _ Q, Nat.mul_add_mod, e2, Nat.mod_mod]

/-! ## Keys -/

/-- A bignum that holds the number `v`. -/
structure Num (b : Bn) (v : Nat) : Prop where
  wf : Wf b
  pos : b.neg = false
  val : mag b = v

/-- Two different primes of more than one limb each. -/
structure Primes (P Q : Nat) : Prop where
  pp : P.Prime
  qq : Q.Prime
  ne : P ≠ Q
  pbig : 4294967296 ≤ P
  qbig : 4294967296 ≤ Q

/-- A public key with modulus `P * Q` and exponent `E`; the size is what the modular power can
handle. -/
structure PubKey (k : Key) (P Q E : Nat) : Prop where
  n : Num k.n (P * Q)
  ed : Num k.ed E
  p : Num k.p P
  small : E ≤ P
  two : 2 ≤ E
  size : k.n.length ≤ 128

/-- A private key: modulus, exponent, and the values for the Chinese remainder theorem. -/
structure PriKey (k : Key) (P Q D : Nat) : Prop where
  n : Num k.n (P * Q)
  ed : Num k.ed D
  p : Num k.p P
  q : Num k.q Q
  dp : Num k.dp (D % (P - 1))
  dq : Num k.dq (D % (Q - 1))
  qinv : ∃ I, Num k.qinv I ∧ Q * I % P = 1 ∧ I < P
  two : 2 ≤ D
  dp2 : 2 ≤ D % (P - 1)
  dq2 : 2 ≤ D % (Q - 1)
  size : k.n.length ≤ 128

theorem num_two {b : Bn} {v : Nat} (h : Num b v) (hv : 4294967296 ≤ v) : 2 ≤ b.length := by
  by_contra hc
  have h1 := h.wf.below
  have h2 : B ^ b.length ≤ B ^ 1 := Nat.pow_le_pow_right (by decide) (by omega)
  rw [h.val] at h1
  rw [pow_one] at h2
  omega

theorem num_shorter {a n : Bn} {v u : Nat} (ha : Num a v) (hn : Num n (v * u)) (hv : 0 < v) (hu : 4294967296 ≤ u) : a.length < n.length := by
  by_contra hc
  have h1 := hn.wf.below
  rw [hn.val] at h1
  have h2 : B ^ n.length ≤ B ^ a.length := Nat.pow_le_pow_right (by decide) (by omega)
  rcases ha.wf.top with h | h
  · have := ha.wf.below
    rw [h, pow_zero, ha.val] at this
    omega
  · rw [ha.val] at h
    by_cases h0 : a.length = 0
    · have := ha.wf.below
      rw [h0, pow_zero, ha.val] at this
      omega
    · have h3 : B ^ (a.length - 1) * B ≤ v * u := Nat.mul_le_mul h hu
      rw [← pow_succ, show a.length - 1 + 1 = a.length by omega] at h3
      omega

/-! ## The exponentiation -/

theorem plain_spec {k : Key} {N E : Nat} (hn : Num k.n N) (he : Num k.ed E) (h2 : 2 ≤ E) (hN : 4294967296 ≤ N) (hs : k.n.length ≤ 128)
    {x : Bn} (hx : Ok x) (hxn : x.neg = false) (hxl : x.length ≤ 128) :
    ∃ r, pwr x k.ed (some k.n) = some (some r) ∧ Ok r ∧ r.neg = false ∧ mag r = mag x ^ E % N ∧ r.length ≤ k.n.length := by
  obtain ⟨r, e, h1, h3, h4, h5, -⟩ := pwr_ok he.wf hn.wf hx he.pos (by rw [he.val]; exact h2) (num_two hn hN) hn.pos hxn hxl hs
  rw [he.val, hn.val] at h4
  exact ⟨r, e, h1, h3, h4, h5⟩

theorem div_neg {a b d q : Bn} (h : div a b = some (some (d, q))) (ha : a.neg = false) (hb : b.neg = false) : d.neg = false := by
  have ht : xor a.neg b.neg = false := by rw [ha, hb]; rfl
  unfold div at h
  simp only [ht] at h
  split at h
  · cases h
  split at h
  · cases hx : b.data[0]? with
    | none => rw [hx] at h; cases h
    | some x =>
      rw [hx] at h
      simp only [Option.bind_eq_bind, Option.bind_some] at h
      cases hd : divWord a x with
      | none => rw [hd] at h; cases h
      | some v =>
        rw [hd] at h
        cases v with
        | none => cases h
        | some v =>
          obtain ⟨d', q'⟩ := v
          simp only [Option.bind_some, Option.some.injEq, Prod.mk.injEq] at h
          rw [← h.1]
  · cases hc : absCompare a b with
    | none => rw [hc] at h; cases h
    | some c =>
      rw [hc] at h
      simp only [Option.bind_eq_bind, Option.bind_some] at h
      split at h
      · simp only [Option.some.injEq, Prod.mk.injEq] at h
        rw [← h.1]; rfl
      split at h
      · simp only [Option.some.injEq, Prod.mk.injEq] at h
        rw [← h.1]
      · simp only [Option.bind_eq_some_iff] at h
        obtain ⟨_, _, _, _, _, _, ⟨_, _⟩, _, _, _, ⟨_, _⟩, _, h⟩ := h
        simp only [Option.some.injEq, Prod.mk.injEq] at h
        rw [← h.1]

theorem div_num {a b : Bn} {u v : Nat} (ha : Num a u) (hb : Num b v) (hv : v ≠ 0) (hl : a.length ≤ 256) :
    ∃ d q, div a b = some (some (d, q)) ∧ Num d (u % v) := by
  obtain ⟨d, q, e, hd, hq, hm, hlt, -, -⟩ := div_mag ha.wf hb.wf (by rw [hb.val]; exact hv) (Or.inl hl)
  refine ⟨d, q, e, hd, div_neg e ha.pos hb.pos, ?_⟩
  rw [ha.val, hb.val] at hm
  rw [hb.val] at hlt
  rw [hm, Nat.mul_comm, Nat.mul_add_mod, Nat.mod_eq_of_lt hlt]

theorem mul_num {a b : Bn} {u v : Nat} (ha : Num a u) (hb : Num b v) (hl : a.length + b.length ≤ 257) :
    ∃ r, mul a b = some r ∧ Num r (u * v) ∧ r.length ≤ a.length + b.length := by
  obtain ⟨r, e, h1, h2, h3, h4, -⟩ := mul_ok (wf_ok ha.wf) (wf_ok hb.wf) hl ha.pos hb.pos
  exact ⟨r, e, ⟨wf_mul ha.wf hb.wf hl e, h3, by rw [h2, ha.val, hb.val]⟩, h4⟩

theorem add_num {a b : Bn} {u v : Nat} (ha : Num a u) (hb : Num b v) (hl : u + v < B ^ 257) : ∃ r, add a b = some (r, b) ∧ Num r (u + v) := by
  obtain ⟨r, e, h1, h2, h3⟩ := addSame_spec a b ha.wf hb.wf (by rw [ha.val, hb.val]; exact hl)
  refine ⟨r, ?_, h1, by rw [h2]; exact ha.pos, by rw [h3, ha.val, hb.val]⟩
  unfold add
  rw [if_neg (by rw [ha.pos, hb.pos]; simp), e]
  rfl

theorem num_len {a m : Bn} {u v : Nat} (ha : Num a u) (hm : Num m v) (h : u ≤ v) : a.length ≤ m.length := by
  by_contra hc
  have := wf_len_lt hm.wf ha.wf (by omega)
  rw [ha.val, hm.val] at this
  omega

theorem crt_spec {k : Key} {P Q D : Nat} (pr : Primes P Q) (hk : PriKey k P Q D) {x : Bn} (hx : Ok x) (hxn : x.neg = false) (hxl : x.length = k.n.length) :
    crt k x = some none ∨ ∃ r, crt k x = some (some r) ∧ Num r (mag x ^ D % (P * Q)) := by
  obtain ⟨I, hI, hI1, hI2⟩ := hk.qinv
  have hsz := hk.size
  have hP0 := pr.pp.pos
  have hQ0 := pr.qq.pos
  have lp := num_shorter hk.p hk.n hP0 pr.qbig
  have lq := num_shorter hk.q (by have := hk.n; rwa [Nat.mul_comm] at this) hQ0 pr.pbig
  have hN : 4294967296 ≤ P * Q := le_trans pr.pbig (Nat.le_mul_of_pos_right _ hQ0)
  obtain ⟨m1, e1, o1, n1, v1, l1, c1⟩ := pwr_ok hk.dp.wf hk.p.wf hx hk.dp.pos (by rw [hk.dp.val]; exact hk.dp2) (num_two hk.p pr.pbig) hk.p.pos hxn (by omega) (by omega)
  obtain ⟨m2, e2, o2, n2, v2, l2, c2⟩ := pwr_ok hk.dq.wf hk.q.wf hx hk.dq.pos (by rw [hk.dq.val]; exact hk.dq2) (num_two hk.q pr.qbig) hk.q.pos hxn (by omega) (by omega)
  have w1 := c1 (Or.inr (by omega))
  have w2 := c2 (Or.inr (by omega))
  rw [hk.dp.val, hk.p.val, pow_pred P D _ pr.pp (by have := hk.dp2; omega)] at v1
  rw [hk.dq.val, hk.q.val, pow_pred Q D _ pr.qq (by have := hk.dq2; omega)] at v2
  have hm1 : mag m1 < P := by rw [v1]; exact Nat.mod_lt _ hP0
  have hm2 : mag m2 < Q := by rw [v2]; exact Nat.mod_lt _ hQ0
  have hnlt : P * Q < B ^ 257 := by
    have := wf_mag_lt hk.n.wf
    rwa [hk.n.val] at this
  have hPN : P ≤ P * Q := Nat.le_mul_of_pos_right _ hQ0
  have hQN : Q ≤ P * Q := Nat.le_mul_of_pos_left _ hP0
  obtain ⟨s, es, ws, vs⟩ := sub_spec_partial m1 m2 w1 w2 (by rw [value_pos n1, value_pos n2]; omega) (by rw [n1]; simp)
  rw [value_pos n1, value_pos n2] at vs
  unfold crt
  rw [e1, e2]
  simp only [must, bsome, es]
  by_cases hneg : s.neg = true
  · left; rw [if_pos hneg]
  · right
    rw [if_neg hneg]
    have hneg : s.neg = false := by simpa using hneg
    have hs : (mag s : Int) = mag m1 - mag m2 := by rw [← value_pos hneg, vs]
    have hle : mag m2 ≤ mag m1 := by omega
    have ns : Num s (mag m1 - mag m2) := ⟨ws, hneg, by omega⟩
    have ls := num_len ns hk.p (by omega)
    have lI := num_len hI hk.p (by omega)
    obtain ⟨a, ea, na, la⟩ := mul_num ns hI (by omega)
    obtain ⟨b, q1, eb, nb⟩ := div_num na hk.p (by omega) (by omega)
    have hbP := Nat.mod_lt ((mag m1 - mag m2) * I) hP0
    have lb := num_len nb hk.p (by omega)
    obtain ⟨c, ec, nc, lc⟩ := mul_num nb hk.q (by omega)
    have hcN : (mag m1 - mag m2) * I % P * Q + mag m2 < P * Q := by
      have h1 : ((mag m1 - mag m2) * I % P + 1) * Q ≤ P * Q := Nat.mul_le_mul_right _ (by omega)
      rw [Nat.add_mul, Nat.one_mul] at h1
      omega
    obtain ⟨d, ed, nd⟩ := add_num nc (⟨w2, n2, rfl⟩ : Num m2 (mag m2)) (by omega)
    have ld := num_len nd hk.n (by omega)
    obtain ⟨f, q2, ef, nf⟩ := div_num nd hk.n (by omega) (by omega)
    rw [ea, bsome, eb]
    simp only [bsome, ec, ed, ef]
    refine ⟨f, rfl, ?_⟩
    rw [Nat.mod_eq_of_lt hcN, garner pr.pp pr.qq pr.ne hI1 (by rw [v1, Nat.mod_mod]) v2 hle] at nf
    exact nf

/-- The private operation computes `x ^ D mod n` on every path. -/
theorem rsaep_pri {k : Key} {P Q D : Nat} (pr : Primes P Q) (hk : PriKey k P Q D) {x : Bn} (hx : Ok x) (hxn : x.neg = false) (hxl : x.length = k.n.length) :
    ∃ r, rsaep k x = some (some r) ∧ Ok r ∧ r.neg = false ∧ mag r = mag x ^ D % (P * Q) ∧ r.length ≤ k.n.length := by
  have hsz := hk.size
  have hQ0 := pr.qq.pos
  have hP0 := pr.pp.pos
  have hN : 4294967296 ≤ P * Q := le_trans pr.pbig (Nat.le_mul_of_pos_right _ hQ0)
  obtain ⟨r, e, h1, h2, h3, h4⟩ := plain_spec hk.n hk.ed hk.two hN hsz hx hxn (by omega)
  unfold rsaep
  by_cases hp : k.pwr = true
  · rw [if_pos hp]; exact ⟨r, e, h1, h2, h3, h4⟩
  · rw [if_neg hp]
    obtain ⟨c, ec, -⟩ := absCompare_spec k.ed k.p hk.ed.wf hk.p.wf
    rw [ec, bsome]
    by_cases hc : c ≤ 0
    · rw [if_pos hc]; exact ⟨r, e, h1, h2, h3, h4⟩
    · rw [if_neg hc]
      rcases crt_spec pr hk hx hxn hxl with h | ⟨r', e', nr⟩
      · rw [h, bsome]; exact ⟨r, e, h1, h2, h3, h4⟩
      · rw [e', bsome]
        refine ⟨r', rfl, wf_ok nr.wf, nr.pos, nr.val, num_len nr hk.n (Nat.le_of_lt (Nat.mod_lt _ (by omega)))⟩

/-- The public operation computes `x ^ E mod n`. -/
theorem rsaep_pub {k : Key} {P Q E : Nat} (pr : Primes P Q) (hk : PubKey k P Q E) {x : Bn} (hx : Ok x) (hxn : x.neg = false) (hxl : x.length = k.n.length) :
    ∃ r, rsaep k x = some (some r) ∧ Ok r ∧ r.neg = false ∧ mag r = mag x ^ E % (P * Q) ∧ r.length ≤ k.n.length := by
  have hsz := hk.size
  have hQ0 := pr.qq.pos
  have hN : 4294967296 ≤ P * Q := le_trans pr.pbig (Nat.le_mul_of_pos_right _ hQ0)
  obtain ⟨r, e, h1, h2, h3, h4⟩ := plain_spec hk.n hk.ed hk.two hN hsz hx hxn (by omega)
  unfold rsaep
  by_cases hp : k.pwr = true
  · rw [if_pos hp]; exact ⟨r, e, h1, h2, h3, h4⟩
  · rw [if_neg hp]
    obtain ⟨c, ec, c0, c1, c2⟩ := absCompare_spec k.ed k.p hk.ed.wf hk.p.wf
    rw [ec, bsome, if_pos]
    · exact ⟨r, e, h1, h2, h3, h4⟩
    · rw [hk.ed.val, hk.p.val] at c2
      have := hk.small
      by_contra hc
      have := c2.1 (by omega)
      omega

/-! ## Octet strings -/

theorem octets_cons (a : Nat) (l : List Nat) : octets (a :: l) = a * 256 ^ l.length + octets l := by
  rw [octets_eq, octets_eq, List.reverse_cons, le_append, List.length_reverse]
  simp only [le]
  ring

theorem octets_nil : octets [] = 0 := rfl

theorem octets_lt (l : List Nat) (h : ∀ x ∈ l, x < 256) : octets l < 256 ^ l.length := by
  induction l with
  | nil => simp [octets_nil]
  | cons a l ih =>
    have h1 := ih (fun x hx => h x (by simp [hx]))
    have h2 : (a + 1) * 256 ^ l.length ≤ 256 * 256 ^ l.length := Nat.mul_le_mul_right _ (h a (by simp))
    rw [octets_cons, List.length_cons, pow_succ, Nat.mul_comm (256 ^ l.length)]
    rw [Nat.add_mul, Nat.one_mul] at h2
    omega

theorem octets_inj : ∀ (l m : List Nat), l.length = m.length → (∀ x ∈ l, x < 256) → (∀ x ∈ m, x < 256) → octets l = octets m → l = m := by
  intro l
  induction l with
  | nil => intro m h _ _ _; exact (List.eq_nil_of_length_eq_zero h.symm).symm
  | cons a l ih =>
    intro m h hl hm he
    cases m with
    | nil => simp at h
    | cons b m =>
      have h' : l.length = m.length := by simpa using h
      rw [octets_cons, octets_cons, h'] at he
      have h1 := octets_lt l (fun x hx => hl x (by simp [hx]))
      have h2 := octets_lt m (fun x hx => hm x (by simp [hx]))
      rw [h'] at h1
      have hp : 0 < 256 ^ m.length := Nat.pow_pos (by decide)
      have ha : (a * 256 ^ m.length + octets l) / 256 ^ m.length = a := by
        rw [Nat.mul_comm, Nat.mul_add_div hp, Nat.div_eq_of_lt h1, Nat.add_zero]
      have hb : (b * 256 ^ m.length + octets m) / 256 ^ m.length = b := by
        rw [Nat.mul_comm, Nat.mul_add_div hp, Nat.div_eq_of_lt h2, Nat.add_zero]
      have hab : a = b := by rw [← ha, ← hb, he]
      subst hab
      rw [ih m h' (fun x hx => hl x (by simp [hx])) (fun x hx => hm x (by simp [hx])) (by omega)]

/-! ## Padding -/

theorem draw_spec (rand : Nat → Nat) : ∀ (clock : List Nat) (val b : Nat) (rest : List Nat), draw rand val clock = some (b, rest) → b ≠ 0 ∧ b < 256 := by
  intro clock
  induction clock with
  | nil =>
    intro val b rest h
    unfold draw at h
    split at h
    · next hn =>
      simp only [Option.some.injEq, Prod.mk.injEq] at h
      rw [← h.1]; exact ⟨hn, Nat.mod_lt _ (by decide)⟩
    · cases h
  | cons t clock ih =>
    intro val b rest h
    unfold draw at h
    split at h
    · next hn =>
      simp only [Option.some.injEq, Prod.mk.injEq] at h
      rw [← h.1]; exact ⟨hn, Nat.mod_lt _ (by decide)⟩
    · exact ih _ b rest h

theorem padLoop_spec (rand : Nat → Nat) : ∀ (j val : Nat) (clock pad : List Nat), padLoop rand j val clock = some pad →
    pad.length = j ∧ ∀ x ∈ pad, x ≠ 0 ∧ x < 256 := by
  intro j
  induction j with
  | zero =>
    intro val clock pad h
    simp only [padLoop, Option.some.injEq] at h
    rw [← h]; exact ⟨rfl, by simp⟩
  | succ j ih =>
    intro val clock pad h
    simp only [padLoop, Option.bind_eq_bind, Option.bind_eq_some_iff, Option.some.injEq] at h
    obtain ⟨⟨b, rest⟩, h1, pad', h2, h3⟩ := h
    obtain ⟨i1, i2⟩ := ih b rest pad' h2
    rw [← h3]
    refine ⟨by simp [i1], ?_⟩
    intro x hx
    rcases List.mem_cons.1 hx with rfl | hx
    · exact draw_spec rand clock val _ rest h1
    · exact i2 x hx

/-- Spec: PKCS #1 v1.5 blocks of type 2 (RFC 8017, 7.2.1) and type 1 (9.2). -/
def Block2 (text : List Nat) (len : Nat) (b : List Nat) : Prop :=
  ∃ pad, b = [0, 2] ++ pad ++ [0] ++ text ∧ b.length = len ∧ ∀ x ∈ pad, x ≠ 0 ∧ x < 256

def Block1 (text : List Nat) (len : Nat) (b : List Nat) : Prop :=
  ∃ n, b = [0, 1] ++ List.replicate n 255 ++ [0] ++ text ∧ b.length = len

theorem pubBlock_spec {rand : Nat → Nat} {val : Nat} {clock text : List Nat} {len : Nat} {b : List Nat} (h : pubBlock rand val clock text len = some b) :
    Block2 text len b := by
  unfold pubBlock at h
  split at h
  · cases h
  · simp only [Option.bind_eq_bind, Option.bind_eq_some_iff, Option.some.injEq] at h
    obtain ⟨pad, h1, h2⟩ := h
    obtain ⟨h3, h4⟩ := padLoop_spec _ _ _ _ _ h1
    refine ⟨pad, by rw [← h2]; simp, ?_, h4⟩
    rw [← h2]; simp [h3]; omega

theorem priBlock_spec (text : List Nat) (len : Nat) (h : text.length + 3 ≤ len) : ∃ b, priBlock text len = some b ∧ Block1 text len b := by
  unfold priBlock
  rw [if_neg (by omega)]
  refine ⟨_, rfl, len - text.length - 3, by simp, ?_⟩
  simp; omega

theorem skip_spec (go : Nat → Bool) (z : Nat) (hz : go z = false) (rest : List Nat) : ∀ (pad : List Nat) (r pos : Nat), (∀ x ∈ pad, go x = true) → pad.length ≤ r →
    skip go (pad ++ z :: rest) r pos = some (pos + pad.length) := by
  intro pad
  induction pad with
  | nil => intro r pos _ _; simp [skip, hz]
  | cons a pad ih =>
    intro r pos h hl
    simp only [List.length_cons] at hl
    obtain ⟨r, rfl⟩ : ∃ s, r = s + 1 := ⟨r - 1, by omega⟩
    simp only [List.cons_append, skip, h a (by simp), if_true]
    rw [ih r (pos + 1) (fun x hx => h x (by simp [hx])) (by omega)]
    simp only [List.length_cons, Option.some.injEq]
    omega

theorem antiPublic_block {text b : List Nat} {len : Nat} (h : Block2 text len b) (h0 : text ≠ []) (tail : List Nat) :
    antiPublic (b ++ tail) len = some (some (len - text.length)) := by
  obtain ⟨pad, hb, hl, hp⟩ := h
  have h0 : 0 < text.length := List.length_pos_iff.2 h0
  have hlen : len = pad.length + text.length + 3 := by rw [← hl, hb]; simp; omega
  unfold antiPublic
  rw [hb]
  simp only [List.append_assoc, List.cons_append, List.nil_append, List.getElem?_cons_zero, Option.bind_eq_bind, Option.bind_some, ne_eq, not_true_eq_false, if_false,
    List.getElem?_cons_succ, List.drop_succ_cons, List.drop_zero]
  rw [skip_spec _ 0 (by decide) (text ++ tail) pad _ 2 (by intro x hx; simpa using (hp x hx).1) (by omega)]
  simp only [Option.bind_some]
  rw [if_neg (by omega), show 2 + pad.length = pad.length + 1 + 1 by omega, List.getElem?_cons_succ, List.getElem?_cons_succ,
    List.getElem?_append_right (Nat.le_refl _), Nat.sub_self]
  simp only [List.getElem?_cons_zero, Option.bind_some, not_true_eq_false, if_false, Option.some.injEq]
  omega

theorem antiPrivate_block {text b : List Nat} {len : Nat} (h : Block1 text len b) (h0 : text ≠ []) (tail : List Nat) :
    antiPrivate (b ++ tail) len = some (some (len - text.length)) := by
  obtain ⟨n, hb, hl⟩ := h
  have h0 : 0 < text.length := List.length_pos_iff.2 h0
  have hlen : len = n + text.length + 3 := by rw [← hl, hb]; simp; omega
  unfold antiPrivate
  rw [hb]
  simp only [List.append_assoc, List.cons_append, List.nil_append, List.getElem?_cons_zero, Option.bind_eq_bind, Option.bind_some, ne_eq, not_true_eq_false, if_false,
    List.getElem?_cons_succ, List.drop_succ_cons, List.drop_zero, Nat.one_ne_zero, if_true]
  rw [skip_spec _ 0 (by decide) (text ++ tail) (List.replicate n 255) _ 2 (by intro x hx; rw [(List.mem_replicate.1 hx).2]; decide) (by rw [List.length_replicate]; omega)]
  simp only [Option.bind_some, List.length_replicate]
  rw [if_neg (by omega), show 2 + n = n + 1 + 1 by omega, List.getElem?_cons_succ, List.getElem?_cons_succ,
    List.getElem?_append_right (by rw [List.length_replicate]), List.length_replicate, Nat.sub_self]
  simp only [List.getElem?_cons_zero, Option.bind_some, not_true_eq_false, if_false, Option.some.injEq]
  omega

/-! ## One block -/

/-- The key's operation is `f` on numbers. -/
def Op (k : Key) (f : Nat → Nat) : Prop :=
  ∀ x : Bn, Ok x → x.neg = false → x.length = k.n.length →
    ∃ r, rsaep k x = some (some r) ∧ Ok r ∧ r.neg = false ∧ mag r = f (mag x) ∧ r.length ≤ k.n.length

theorem block_op {k : Key} {f : Nat → Nat} (hop : Op k f) (hs : k.n.length ≤ 128) (bs : List Nat) (hl : bs.length = k.n.length * 4) (hb : ∀ x ∈ bs, x < 256) :
    ∃ x r out, os2ip bs = some x ∧ rsaep k x = some (some r) ∧ i2osp r (k.n.length * 4) = some (some out) ∧ out.length = k.n.length * 4 ∧
      (∀ y ∈ out, y < 256) ∧ octets out = f (octets bs) := by
  obtain ⟨x, ex, h1, h2, h3, h4, h5, h6⟩ := (os2ip_spec bs hb).1 (by omega)
  obtain ⟨r, er, o, hn, hv, hrl⟩ := hop x ⟨h2, h3, h6, by omega⟩ h1 (by omega)
  obtain ⟨out, eo, g1, g2, g3⟩ := i2osp_ok o (k.n.length * 4) hn (by omega)
  exact ⟨x, r, out, ex, er, eo, g1, g2, by rw [g3, hv, h5]⟩

theorem encrypt_one {k : Key} {f : Nat → Nat} (hop : Op k f) (hs : k.n.length ≤ 128) (blk : Nat → List Nat → Nat → Option (List Nat)) (text b : List Nat)
    (h0 : text ≠ []) (hlen : text.length + 11 ≤ k.n.length * 4) (hblk : blk 0 text (k.n.length * 4) = some b) (hbl : b.length = k.n.length * 4) (hbb : ∀ x ∈ b, x < 256) :
    ∃ c, encrypt k blk text = some (some c) ∧ c.length = k.n.length * 4 ∧ (∀ y ∈ c, y < 256) ∧ octets c = f (octets b) := by
  have h0' : 0 < text.length := List.length_pos_iff.2 h0
  obtain ⟨x, r, out, e1, e2, e3, e4, e5, e6⟩ := block_op hop hs b hbl hbb
  have hstep : w (18446744073709551616 + k.n.length * 4 - 11) = k.n.length * 4 - 11 := by
    unfold w; omega
  refine ⟨out, ?_, e4, e5, e6⟩
  unfold encrypt
  simp only [hstep]
  rw [if_neg (by omega)]
  have hsum : w (w (text.length / (k.n.length * 4 - 11) * (k.n.length * 4)) + text.length % (k.n.length * 4 - 11)) ≠ 0 := by
    by_cases heq : text.length = k.n.length * 4 - 11
    · rw [← heq, Nat.div_self h0', Nat.mod_self, Nat.one_mul]
      rw [w_of_lt (show k.n.length * 4 < 18446744073709551616 by omega), w_of_lt (by omega)]
      omega
    · rw [Nat.div_eq_of_lt (by omega), Nat.mod_eq_of_lt (by omega), Nat.zero_mul]
      show w (0 + text.length) ≠ 0
      rw [w_of_lt (by omega)]
      omega
  rw [if_pos hsum]
  obtain ⟨m, hm⟩ : ∃ m, text.length = m + 1 := ⟨text.length - 1, by omega⟩
  have hif : (if text.length > k.n.length * 4 - 11 then k.n.length * 4 - 11 else text.length) = text.length := by rw [if_neg (by omega)]
  have hend : encLoop k blk (k.n.length * 4) (k.n.length * 4 - 11) text.length (0 + 1) (k.n.length * 4 - k.n.length * 4) [] = some (some []) := by
    rw [hm]; rfl
  rw [encLoop]
  simp only [hif, List.take_length, List.drop_length]
  rw [if_neg (by omega), if_neg (by omega), hblk, bsome]
  simp only [e1, e2, bsome, e3, hend, List.append_nil]

theorem decLoop_one {k : Key} {f : Nat → Nat} (hop : Op k f) (hs : k.n.length ≤ 128) (anti : List Nat → Nat → Option (Option Nat)) (c b after : List Nat)
    (hc : c.length = k.n.length * 4) (hcb : ∀ x ∈ c, x < 256) (h12 : 12 ≤ k.n.length * 4) (hb : b.length = k.n.length * 4) (hbb : ∀ x ∈ b, x < 256)
    (hf : f (octets c) = octets b) (pos : Nat) (ha : anti (b ++ after) (k.n.length * 4) = some (some pos)) :
    decrypt k anti c after = some (some (b.drop pos), b) := by
  obtain ⟨x, r, out, e1, e2, e3, e4, e5, e6⟩ := block_op hop hs c hc hcb
  have hout : out = b := octets_inj out b (by omega) e5 hbb (by rw [e6, hf])
  rw [hout] at e3
  unfold decrypt
  simp only
  rw [if_neg (by omega), if_neg (by omega), if_neg (by rw [hc, Nat.mod_self]; simp), decLoop, if_neg (by omega)]
  rw [List.take_of_length_le (by omega), List.drop_of_length_le (by omega), e1]
  simp only [e2, bsome, e3, List.append_nil, ha]
  have hend : decLoop k anti (k.n.length * 4) after c.length [] = some (some [], []) := by
    obtain ⟨m, hm⟩ : ∃ m, c.length = m + 1 := ⟨c.length - 1, by omega⟩
    rw [hm]; rfl
  rw [hend, bsome]
  simp

/-! ## Round trips -/

/-- The two exponents belong together. -/
structure Match (P Q E D : Nat) : Prop where
  p : E * D % (P - 1) = 1
  q : E * D % (Q - 1) = 1

theorem block2_range {text b : List Nat} {len : Nat} (h : Block2 text len b) (ht : ∀ x ∈ text, x < 256) :
    (∀ x ∈ b, x < 256) ∧ b.length = len ∧ 2 * 256 ^ (len - 2) ≤ octets b ∧ octets b < 3 * 256 ^ (len - 2) := by
  obtain ⟨pad, hb, hl, hp⟩ := h
  have hby : ∀ x ∈ pad ++ [0] ++ text, x < 256 := by
    intro x hx
    simp only [List.mem_append, List.mem_singleton] at hx
    rcases hx with (hx | rfl) | hx
    · exact (hp x hx).2
    · decide
    · exact ht x hx
  have hb' : b = 0 :: 2 :: (pad ++ [0] ++ text) := by rw [hb]; simp
  have hlen : (pad ++ [0] ++ text).length = len - 2 := by rw [← hl, hb']; simp
  have hlt := octets_lt _ hby
  have ho : octets b = 2 * 256 ^ (len - 2) + octets (pad ++ [0] ++ text) := by
    rw [hb', octets_cons, octets_cons, hlen]; omega
  rw [hlen] at hlt
  refine ⟨?_, hl, by omega, by omega⟩
  rw [hb']
  intro x hx
  rcases List.mem_cons.1 hx with rfl | hx
  · decide
  rcases List.mem_cons.1 hx with rfl | hx
  · decide
  · exact hby x hx

theorem block1_range {text b : List Nat} {len : Nat} (h : Block1 text len b) (ht : ∀ x ∈ text, x < 256) :
    (∀ x ∈ b, x < 256) ∧ b.length = len ∧ octets b < 2 * 256 ^ (len - 2) := by
  obtain ⟨n, hb, hl⟩ := h
  have hby : ∀ x ∈ List.replicate n 255 ++ [0] ++ text, x < 256 := by
    intro x hx
    simp only [List.mem_append, List.mem_singleton] at hx
    rcases hx with (hx | rfl) | hx
    · rw [(List.mem_replicate.1 hx).2]; decide
    · decide
    · exact ht x hx
  have hb' : b = 0 :: 1 :: (List.replicate n 255 ++ [0] ++ text) := by rw [hb]; simp
  have hlen : (List.replicate n 255 ++ [0] ++ text).length = len - 2 := by rw [← hl, hb']; simp
  have hlt := octets_lt _ hby
  have ho : octets b = 1 * 256 ^ (len - 2) + octets (List.replicate n 255 ++ [0] ++ text) := by
    rw [hb', octets_cons, octets_cons, hlen]; omega
  rw [hlen] at hlt
  refine ⟨?_, hl, by omega⟩
  rw [hb']
  intro x hx
  rcases List.mem_cons.1 hx with rfl | hx
  · decide
  rcases List.mem_cons.1 hx with rfl | hx
  · decide
  · exact hby x hx

theorem block2_drop {text b : List Nat} {len : Nat} (h : Block2 text len b) : b.drop (len - text.length) = text := by
  obtain ⟨pad, hb, hl, -⟩ := h
  rw [hb] at hl ⊢
  exact List.drop_left' (by rw [← hl, List.length_append (bs := text)]; omega)

theorem block1_drop {text b : List Nat} {len : Nat} (h : Block1 text len b) : b.drop (len - text.length) = text := by
  obtain ⟨n, hb, hl⟩ := h
  rw [hb] at hl ⊢
  exact List.drop_left' (by rw [← hl, List.length_append (bs := text)]; omega)

theorem num_eq_len {a b : Bn} {v : Nat} (ha : Num a v) (hb : Num b v) : a.length = b.length :=
  Nat.le_antisymm (num_len ha hb (Nat.le_refl _)) (num_len hb ha (Nat.le_refl _))

/-- **C63, public to private.**  For matching keys whose modulus is at least `3 * 256^(nlen-2)`,
every text of 1 to `nlen - 11` octets that the padding loop can pad is encrypted to `nlen` octets,
and decrypting these gives the text back, whatever memory follows the cipher and whichever path
the private exponentiation takes.  The caller's buffer holds the padded plaintext afterwards. -/
theorem public_private_partial {pub pri : Key} {P Q E D : Nat} (pr : Primes P Q) (hpub : PubKey pub P Q E) (hpri : PriKey pri P Q D) (hm : Match P Q E D)
    (hbig : 3 * 256 ^ (pub.n.length * 4 - 2) ≤ P * Q) (rand : Nat → Nat) (clk : Nat → Nat × List Nat) (text : List Nat) (ht : ∀ x ∈ text, x < 256)
    (h0 : text ≠ []) (hlen : text.length + 11 ≤ pub.n.length * 4) (b : List Nat)
    (hpad : pubBlock rand (clk 0).1 (clk 0).2 text (pub.n.length * 4) = some b) :
    ∃ c, publicEncrypt pub rand clk text = some (some c) ∧ c.length = pub.n.length * 4 ∧ (∀ x ∈ c, x < 256) ∧
      ∀ after, privateDecrypt pri c after = some (some text, b) := by
  have hblk := pubBlock_spec hpad
  obtain ⟨r1, r2, r3, r4⟩ := block2_range hblk ht
  have hnl : pri.n.length = pub.n.length := num_eq_len hpri.n hpub.n
  have h0' : 0 < text.length := List.length_pos_iff.2 h0
  obtain ⟨c, e1, e2, e3, e4⟩ := encrypt_one (f := fun x => x ^ E % (P * Q)) (fun x a b c => rsaep_pub pr hpub a b c) hpub.size
    (fun i => pubBlock rand (clk i).1 (clk i).2) text b h0 hlen hpad r2 r1
  refine ⟨c, e1, e2, e3, fun after => ?_⟩
  have := decLoop_one (f := fun x => x ^ D % (P * Q)) (fun x a b c => rsaep_pri pr hpri a b c) hpri.size antiPublic c b after
    (by rw [hnl]; exact e2) e3 (by rw [hnl]; omega) (by rw [hnl]; exact r2) r1
    (by simp only [e4]; exact rsa_equation pr.pp pr.qq pr.ne hm.p hm.q (by omega))
    (pub.n.length * 4 - text.length) (by rw [hnl]; exact antiPublic_block hblk h0 after)
  rw [block2_drop hblk] at this
  exact this

/-- **C63, private to public.** -/
theorem private_public_partial {pub pri : Key} {P Q E D : Nat} (pr : Primes P Q) (hpub : PubKey pub P Q E) (hpri : PriKey pri P Q D) (hm : Match P Q E D)
    (hbig : 2 * 256 ^ (pub.n.length * 4 - 2) ≤ P * Q) (text : List Nat) (ht : ∀ x ∈ text, x < 256)
    (h0 : text ≠ []) (hlen : text.length + 11 ≤ pub.n.length * 4) :
    ∃ c b, privateEncrypt pri text = some (some c) ∧ c.length = pub.n.length * 4 ∧ (∀ x ∈ c, x < 256) ∧
      ∀ after, publicDecrypt pub c after = some (some text, b) := by
  have hnl : pri.n.length = pub.n.length := num_eq_len hpri.n hpub.n
  have h0' : 0 < text.length := List.length_pos_iff.2 h0
  obtain ⟨b, hb, hblk⟩ := priBlock_spec text (pub.n.length * 4) (by omega)
  obtain ⟨r1, r2, r3⟩ := block1_range hblk ht
  obtain ⟨c, e1, e2, e3, e4⟩ := encrypt_one (f := fun x => x ^ D % (P * Q)) (fun x a b c => rsaep_pri pr hpri a b c) hpri.size
    (fun _ => priBlock) text b h0 (by rw [hnl]; exact hlen) (by rw [hnl]; exact hb) (by rw [hnl]; exact r2) r1
  refine ⟨c, b, e1, by rw [← hnl]; exact e2, e3, fun after => ?_⟩
  have := decLoop_one (f := fun x => x ^ E % (P * Q)) (fun x a b c => rsaep_pub pr hpub a b c) hpub.size antiPrivate c b after
    (by rw [← hnl]; exact e2) e3 (by omega) r2 r1
    (by simp only [e4]; exact rsa_equation pr.pp pr.qq pr.ne (by rw [Nat.mul_comm]; exact hm.p) (by rw [Nat.mul_comm]; exact hm.q) (by omega))
    (pub.n.length * 4 - text.length) (antiPrivate_block hblk h0 after)
  rw [block1_drop hblk] at this
  exact this

/-! ## What fails -/

theorem antiPublic_small (b tail : List Nat) (len : Nat) (hl : b.length = len) (h2 : 2 ≤ len) (hs : octets b < 2 * 256 ^ (len - 2)) :
    antiPublic (b ++ tail) len = some none := by
  match b, hl with
  | [], hl => simp at hl; omega
  | [a], hl => simp at hl; omega
  | a :: a' :: b, hl =>
    have hbl : b.length = len - 2 := by simp at hl; omega
    have hpos : 0 < 256 ^ (len - 2) := Nat.pow_pos (by decide)
    rw [octets_cons, octets_cons, List.length_cons, hbl, pow_succ] at hs
    unfold antiPublic
    simp only [List.cons_append, List.getElem?_cons_zero, Option.bind_eq_bind, Option.bind_some, List.getElem?_cons_succ]
    by_cases ha : a = 0
    · rw [if_neg (by simpa using ha), if_pos]
      intro h
      rw [ha, h] at hs
      omega
    · rw [if_pos ha]

/-- **C92 refuted**: with a modulus of at most `2 * 256^(nlen-2)` (bit length 1 to 17 above a
multiple of 32) nothing can ever be decrypted with the private key. -/
theorem short_modulus_useless {pri : Key} {P Q D : Nat} (pr : Primes P Q) (hpri : PriKey pri P Q D)
    (hsmall : P * Q ≤ 2 * 256 ^ (pri.n.length * 4 - 2)) (c after : List Nat) (hc : ∀ x ∈ c, x < 256) :
    ∃ buf, privateDecrypt pri c after = some (none, buf) := by
  have hP0 := pr.pp.pos
  have hQ0 := pr.qq.pos
  have l2 : 2 ≤ pri.n.length := num_two hpri.n (le_trans pr.pbig (Nat.le_mul_of_pos_right _ hQ0))
  have hs := hpri.size
  unfold privateDecrypt decrypt
  simp only
  by_cases h1 : c.length < 11
  · rw [if_pos h1]; exact ⟨_, rfl⟩
  · rw [if_neg h1, if_neg (by omega)]
    by_cases h2 : c.length % (pri.n.length * 4) ≠ 0
    · rw [if_pos h2]; exact ⟨_, rfl⟩
    · rw [if_neg h2, decLoop, if_neg (by omega)]
      have hle : pri.n.length * 4 ≤ c.length := Nat.le_of_dvd (by omega) (Nat.dvd_of_mod_eq_zero (by simpa using h2))
      obtain ⟨x, r, out, e1, e2, e3, e4, e5, e6⟩ := block_op (f := fun x => x ^ D % (P * Q)) (fun x a b c => rsaep_pri pr hpri a b c) hs
        (c.take (pri.n.length * 4)) (by rw [List.length_take]; omega) (fun x hx => hc x (List.mem_of_mem_take hx))
      have hlt : octets out < 2 * 256 ^ (pri.n.length * 4 - 2) := by
        rw [e6]; exact lt_of_lt_of_le (Nat.mod_lt _ (Nat.mul_pos hP0 hQ0)) hsmall
      rw [e1]
      simp only [e2, bsome, e3]
      rw [List.append_assoc, antiPublic_small out _ _ e4 (by omega) hlt, bsome]
      exact ⟨_, rfl⟩

/-- A text longer than `nlen - 11` octets is refused. -/
theorem long_text_refused (k : Key) (blk : Nat → List Nat → Nat → Option (List Nat)) (text : List Nat) (h3 : 3 ≤ k.n.length) (hs : k.n.length ≤ 257)
    (hlen : k.n.length * 4 < text.length + 11) : encrypt k blk text = some none := by
  have hstep : w (18446744073709551616 + k.n.length * 4 - 11) = k.n.length * 4 - 11 := by
    unfold w; omega
  unfold encrypt
  simp only [hstep]
  rw [if_pos (by omega)]

/-- **C63 refuted for the empty text**: it encrypts to the empty cipher, which is refused. -/
theorem empty_text (pub pri : Key) (blk : Nat → List Nat → Nat → Option (List Nat)) (after : List Nat) :
    encrypt pub blk [] = some (some []) ∧ privateDecrypt pri [] after = some (none, []) ∧ publicDecrypt pri [] after = some (none, []) := by
  refine ⟨?_, rfl, rfl⟩
  unfold encrypt
  simp only
  rw [if_neg (by simp), List.length_nil, encLoop]
  rfl

theorem i2osp_length {n : Bn} {len : Nat} {bs : List Nat} (h : i2osp n len = some (some bs)) : bs.length = len := by
  unfold i2osp at h
  split at h
  · simp at h
  · next h1 =>
    split at h
    · simp at h
    · next h2 =>
      simp only [Option.some.injEq] at h
      subst h
      rw [not_or] at h1
      simp only [List.length_append, List.length_replicate, List.length_flatMap]
      have : ∀ l : List Nat, (l.map (fun p => [(p >>> 24) &&& 0xff, (p >>> 16) &&& 0xff, (p >>> 8) &&& 0xff, p &&& 0xff].length)).sum = l.length * 4 := by
        intro l
        induction l with
        | nil => rfl
        | cons x l ih => simp only [List.map_cons, List.sum_cons, List.length_cons, List.length_nil] at ih ⊢; omega
      rw [this, List.length_reverse, List.length_take]
      omega

/-- Both ways of removing the padding leave at least one octet. -/
theorem anti_room {mem : List Nat} {len p : Nat} : (antiPublic mem len = some (some p) → p < len) ∧ (antiPrivate mem len = some (some p) → p < len) := by
  constructor <;> intro h
  · unfold antiPublic at h
    obtain ⟨b0, _, h⟩ := Option.bind_eq_some_iff.1 h
    split at h
    · simp at h
    obtain ⟨b1, _, h⟩ := Option.bind_eq_some_iff.1 h
    split at h
    · simp at h
    obtain ⟨q, _, h⟩ := Option.bind_eq_some_iff.1 h
    split at h
    · simp at h
    obtain ⟨x, _, h⟩ := Option.bind_eq_some_iff.1 h
    split at h
    · simp at h
    · simp only [Option.some.injEq] at h; omega
  · unfold antiPrivate at h
    obtain ⟨b0, _, h⟩ := Option.bind_eq_some_iff.1 h
    split at h
    · simp at h
    obtain ⟨b1, _, h⟩ := Option.bind_eq_some_iff.1 h
    split at h
    · obtain ⟨q, _, h⟩ := Option.bind_eq_some_iff.1 h
      split at h
      · simp at h
      · simp only [Option.some.injEq] at h; omega
    split at h
    · obtain ⟨q, _, h⟩ := Option.bind_eq_some_iff.1 h
      split at h
      · simp at h
      obtain ⟨x, _, h⟩ := Option.bind_eq_some_iff.1 h
      split at h
      · simp at h
      · simp only [Option.some.injEq] at h; omega
    · simp at h

theorem decLoop_room (k : Key) (anti : List Nat → Nat → Option (Option Nat)) (nlen : Nat) (h0 : 0 < nlen) (after : List Nat)
    (ha : ∀ mem p, anti mem nlen = some (some p) → p < nlen) : ∀ (fuel : Nat) (c t b : List Nat), c.length % nlen = 0 →
      decLoop k anti nlen after fuel c = some (some t, b) → c.length / nlen ≤ t.length := by
  intro fuel
  induction fuel with
  | zero => intro c t b _ h; simp [decLoop] at h
  | succ fuel ih =>
    intro c t b hm h
    rw [decLoop] at h
    split at h
    · next hc => rw [hc]; simp
    next hc =>
    split at h
    · simp at h
    obtain ⟨num, _, h⟩ := Option.bind_eq_some_iff.1 h
    split at h
    · simp at h
    obtain ⟨o, ho, h⟩ := Option.bind_eq_some_iff.1 h
    split at h
    · simp at h
    next bs =>
    obtain ⟨a, hanti, h⟩ := Option.bind_eq_some_iff.1 h
    split at h
    · simp at h
    next pos =>
    obtain ⟨⟨r, rest⟩, hr, h⟩ := Option.bind_eq_some_iff.1 h
    simp only [Option.some.injEq, Prod.mk.injEq] at h
    obtain ⟨h, -⟩ := h
    cases r with
    | none => simp at h
    | some r =>
      simp only [Option.map_some, Option.some.injEq] at h
      subst h
      have hlen := i2osp_length ho
      have hp := ha _ _ hanti
      have hge : nlen ≤ c.length := Nat.le_of_dvd (by omega) (Nat.dvd_of_mod_eq_zero hm)
      have := ih (c.drop nlen) r rest (by rw [List.length_drop]; exact (Nat.mod_eq_sub_mod hge).symm.trans hm) hr
      rw [List.length_drop] at this
      rw [List.length_append, List.length_drop, hlen, Nat.div_eq_sub_div h0 hge]
      omega

/-- A text that either decryption returns has at least one octet for every block, for every key
and every cipher text: an empty padded text is refused. -/
theorem decrypted_nonempty (k : Key) (c after t b : List Nat)
    (h : publicDecrypt k c after = some (some t, b) ∨ privateDecrypt k c after = some (some t, b)) :
    0 < t.length ∧ c.length / (k.n.length * 4) ≤ t.length := by
  have key : ∀ anti : List Nat → Nat → Option (Option Nat), (∀ mem len p, anti mem len = some (some p) → p < len) →
      decrypt k anti c after = some (some t, b) → 0 < t.length ∧ c.length / (k.n.length * 4) ≤ t.length := by
    intro anti ha h
    unfold decrypt at h
    simp only at h
    split at h
    · simp at h
    split at h
    · simp at h
    split at h
    · simp at h
    next h1 h2 h3 =>
    have hm : c.length % (k.n.length * 4) = 0 := by omega
    have := decLoop_room k anti _ (by omega) after (fun mem p => ha mem _ p) _ c t b hm h
    have hge : k.n.length * 4 ≤ c.length := Nat.le_of_dvd (by omega) (Nat.dvd_of_mod_eq_zero hm)
    have := Nat.div_pos hge (by omega)
    omega
  rcases h with h | h
  · exact key antiPrivate (fun mem len p => anti_room.2) h
  · exact key antiPublic (fun mem len p => anti_room.1) h

/-- **C93 refuted**: as long as no zero octet is drawn, the random padding is determined by its
first octet. -/
theorem padding_from_first (rand : Nat → Nat) : ∀ (j : Nat) (v1 v2 b : Nat) (p1 p2 : List Nat), padLoop rand j v1 [] = some (b :: p1) →
    padLoop rand j v2 [] = some (b :: p2) → p1 = p2 := by
  intro j
  cases j with
  | zero => intro v1 v2 b p1 p2 h; cases h
  | succ j =>
    intro v1 v2 b p1 p2 h1 h2
    simp only [padLoop, Option.bind_eq_bind, Option.bind_eq_some_iff, Option.some.injEq] at h1 h2
    obtain ⟨⟨b1, c1⟩, d1, q1, r1, s1⟩ := h1
    obtain ⟨⟨b2, c2⟩, d2, q2, r2, s2⟩ := h2
    have n1 : c1 = [] := by
      unfold draw at d1; split at d1
      · simp only [Option.some.injEq, Prod.mk.injEq] at d1; exact d1.2.symm
      · cases d1
    have n2 : c2 = [] := by
      unfold draw at d2; split at d2
      · simp only [Option.some.injEq, Prod.mk.injEq] at d2; exact d2.2.symm
      · cases d2
    have e1 := List.cons.inj s1
    have e2 := List.cons.inj s2
    simp only at r1 r2 e1 e2
    rw [n1, e1.1] at r1
    rw [n2, e2.1, r1] at r2
    rw [← e1.2, ← e2.2]
    exact Option.some.inj r2

/-! ## An instance -/

/-- A literal number. -/
def lit (l : List Nat) : Bn := ⟨false, l.length, l ++ List.replicate (257 - l.length) 0⟩

theorem lit_num (l : List Nat) (v : Nat) (hl : l.length ≤ 257) (hb : ∀ x ∈ l, x < 4294967296) (hv : nat l = v) (ht : 4294967296 ^ (l.length - 1) ≤ v) : Num (lit l) v := by
  have h := wf_mk false l.length (257 - l.length) l (by omega) hb (nat_lt l hb) (Or.inr (by rw [hv]; exact ht))
  exact ⟨h.1, rfl, by rw [← hv]; exact h.2⟩

def exP : Nat := 206158430208001
def exQ : Nat := 139156940390401

/-- Powers by repeated squaring, to check the two primes. -/
def mpow (m : Nat) : Nat → Nat → Nat → Nat
  | 0, _, _ => 1 % m
  | f + 1, a, e => if e % 2 = 0 then mpow m f (a * a % m) (e / 2) else a * mpow m f (a * a % m) (e / 2) % m

theorem mpow_eq (m : Nat) : ∀ (f a e : Nat), e < 2 ^ f → mpow m f a e = a ^ e % m := by
  intro f
  induction f with
  | zero => intro a e h; rw [pow_zero] at h; rw [show e = 0 by omega]; rfl
  | succ f ih =>
    intro a e h
    rw [pow_succ] at h
    unfold mpow
    rw [ih _ _ (by omega), ← Nat.pow_mod, ← pow_two, ← pow_mul]
    split
    · rw [show 2 * (e / 2) = e by omega]
    · rw [Nat.mul_mod, Nat.mod_mod, ← Nat.mul_mod, ← pow_succ', show 2 * (e / 2) + 1 = e by omega]

theorem prime_of_pow (p a : Nat) (h1 : a ^ (p - 1) % p = 1 % p) (hd : ∀ q : Nat, q.Prime → q ∣ p - 1 → a ^ ((p - 1) / q) % p ≠ 1 % p) : p.Prime := by
  refine lucas_primality p (a : ZMod p) ?_ ?_
  · have := (ZMod.natCast_eq_natCast_iff' (a ^ (p - 1)) 1 p).2 h1
    simpa using this
  · intro q hq hdv h
    refine hd q hq hdv ?_
    have : ((a ^ ((p - 1) / q) : Nat) : ZMod p) = ((1 : Nat) : ZMod p) := by simpa using h
    exact (ZMod.natCast_eq_natCast_iff' _ _ _).1 this

theorem smooth_primes (a b c q : Nat) (hq : q.Prime) (h : q ∣ 2 ^ a * 3 ^ b * 5 ^ c) : q = 2 ∨ q = 3 ∨ q = 5 := by
  rcases hq.dvd_mul.1 h with h | h
  · rcases hq.dvd_mul.1 h with h | h
    · exact Or.inl ((Nat.prime_dvd_prime_iff_eq hq Nat.prime_two).1 (hq.dvd_of_dvd_pow h))
    · exact Or.inr (Or.inl ((Nat.prime_dvd_prime_iff_eq hq Nat.prime_three).1 (hq.dvd_of_dvd_pow h)))
  · exact Or.inr (Or.inr ((Nat.prime_dvd_prime_iff_eq hq Nat.prime_five).1 (hq.dvd_of_dvd_pow h)))

theorem exP_prime : exP.Prime := by
  unfold exP
  refine prime_of_pow _ 7 (by rw [← mpow_eq _ 64 _ _ (by norm_num)]; decide +kernel) ?_
  intro q hq hd
  rcases smooth_primes 39 1 3 q hq (by norm_num at hd ⊢; exact hd) with rfl | rfl | rfl <;> (rw [← mpow_eq _ 64 _ _ (by norm_num)]; decide +kernel)

theorem exQ_prime : exQ.Prime := by
  unfold exQ
  refine prime_of_pow _ 13 (by rw [← mpow_eq _ 64 _ _ (by norm_num)]; decide +kernel) ?_
  intro q hq hd
  rcases smooth_primes 36 4 2 q hq (by norm_num at hd ⊢; exact hd) with rfl | rfl | rfl <;> (rw [← mpow_eq _ 64 _ _ (by norm_num)]; decide +kernel)

/-- A 95-bit key pair. -/
def exPub : Key := ⟨lit [1, 80400, 1555200000], lit [65537], lit [1, 48000], zero, zero, zero, zero, false⟩
def exPri : Key := ⟨lit [1, 80400, 1555200000], lit [4294901761, 4294901760, 912873472], lit [1, 48000], lit [1, 32400], lit [4294901761, 9472], lit [4294901761, 3472], lit [660764203, 25846], false⟩

theorem ex_primes : Primes exP exQ := ⟨exP_prime, exQ_prime, by decide, by decide, by decide⟩

theorem ex_pub : PubKey exPub exP exQ 65537 :=
  ⟨lit_num _ _ (by decide) (by decide) (by decide +kernel) (by decide +kernel), lit_num _ _ (by decide) (by decide) (by decide +kernel) (by decide +kernel),
    lit_num _ _ (by decide) (by decide) (by decide +kernel) (by decide +kernel), by decide, by decide, by decide⟩

theorem ex_pri : PriKey exPri exP exQ 16839543328109124906288873473 :=
  ⟨lit_num _ _ (by decide) (by decide) (by decide +kernel) (by decide +kernel), lit_num _ _ (by decide) (by decide) (by decide +kernel) (by decide +kernel),
    lit_num _ _ (by decide) (by decide) (by decide +kernel) (by decide +kernel), lit_num _ _ (by decide) (by decide) (by decide +kernel) (by decide +kernel),
    lit_num _ _ (by decide) (by decide) (by decide +kernel) (by decide +kernel), lit_num _ _ (by decide) (by decide) (by decide +kernel) (by decide +kernel),
    ⟨111008385496619, lit_num _ _ (by decide) (by decide) (by decide +kernel) (by decide +kernel), by decide +kernel, by decide +kernel⟩, by decide, by decide +kernel, by decide +kernel, by decide⟩

theorem ex_match : Match exP exQ 65537 16839543328109124906288873473 := ⟨by decide +kernel, by decide +kernel⟩

/-- A stand-in for rand_r. -/
def exRand (s : Nat) : Nat := s * 5 + 7

/-! The hypotheses of the round trip hold for these keys and the text "k". -/
example : ∃ c, publicEncrypt exPub exRand (fun _ => (1, [])) [107] = some (some c) ∧ c.length = 12 ∧ (∀ x ∈ c, x < 256) ∧
    ∀ after, privateDecrypt exPri c after = some (some [107], [0, 2, 12, 67, 86, 181, 144, 215, 58, 41, 0, 107]) :=
  public_private_partial ex_primes ex_pub ex_pri ex_match (by decide +kernel) exRand (fun _ => (1, [])) [107] (by decide) (by decide) (by decide) _ (by decide +kernel)

example : ∃ c b, privateEncrypt exPri [107] = some (some c) ∧ c.length = 12 ∧ (∀ x ∈ c, x < 256) ∧ ∀ after, publicDecrypt exPub c after = some (some [107], b) :=
  private_public_partial ex_primes ex_pub ex_pri ex_match (by decide +kernel) [107] (by decide) (by decide) (by decide)

example : encrypt exPub (fun _ => priBlock) [1, 2] = some none := long_text_refused _ _ _ (by decide) (by decide) (by decide)

/-! A key of 3 limbs whose modulus is too small for its octet length: no cipher decrypts. -/
def badP : Nat := 14929920001
def badQ : Nat := 11943936001

theorem badP_prime : badP.Prime := by
  unfold badP
  refine prime_of_pow _ 11 (by rw [← mpow_eq _ 64 _ _ (by norm_num)]; decide +kernel) ?_
  intro q hq hd
  rcases smooth_primes 15 6 4 q hq (by norm_num at hd ⊢; exact hd) with rfl | rfl | rfl
  · rw [← mpow_eq _ 64 _ _ (by norm_num)]; decide +kernel
  · rw [← mpow_eq _ 64 _ _ (by norm_num)]; decide +kernel
  · rw [← mpow_eq _ 64 _ _ (by norm_num)]; decide +kernel

theorem badQ_prime : badQ.Prime := by
  unfold badQ
  refine prime_of_pow _ 11 (by rw [← mpow_eq _ 64 _ _ (by norm_num)]; decide +kernel) ?_
  intro q hq hd
  rcases smooth_primes 17 6 3 q hq (by norm_num at hd ⊢; exact hd) with rfl | rfl | rfl
  · rw [← mpow_eq _ 64 _ _ (by norm_num)]; decide +kernel
  · rw [← mpow_eq _ 64 _ _ (by norm_num)]; decide +kernel
  · rw [← mpow_eq _ 64 _ _ (by norm_num)]; decide +kernel

def badPri : Key := ⟨lit [1104052225, 2864122467, 9], lit [4294901761, 4130460755, 2], lit [2045018113, 3], lit [3354001409, 2], lit [158531585, 3], lit [1099497473], lit [5], false⟩

theorem bad_pri : PriKey badPri badP badQ 54633682011850473473 :=
  ⟨lit_num _ _ (by decide) (by decide) (by decide +kernel) (by decide +kernel), lit_num _ _ (by decide) (by decide) (by decide +kernel) (by decide +kernel),
    lit_num _ _ (by decide) (by decide) (by decide +kernel) (by decide +kernel), lit_num _ _ (by decide) (by decide) (by decide +kernel) (by decide +kernel),
    lit_num _ _ (by decide) (by decide) (by decide +kernel) (by decide +kernel), lit_num _ _ (by decide) (by decide) (by decide +kernel) (by decide +kernel),
    ⟨5, lit_num _ _ (by decide) (by decide) (by decide +kernel) (by decide +kernel), by decide +kernel, by decide +kernel⟩, by decide, by decide +kernel, by decide +kernel, by decide⟩

example (c : List Nat) (hc : ∀ x ∈ c, x < 256) : ∃ buf, privateDecrypt badPri c [] = some (none, buf) :=
  short_modulus_useless ⟨badP_prime, badQ_prime, by decide, by decide, by decide⟩ bad_pri (by decide +kernel) c [] hc

/-! Padding: one clock reading decides everything. -/
example : padLoop exRand 4 1 [] = some [12, 67, 86, 181] ∧ padLoop exRand 4 257 [] = some [12, 67, 86, 181] := by decide +kernel

end Verif.Rsa
