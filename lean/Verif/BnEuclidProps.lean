import Verif.BnPwrProps

/-
The extended Euclidean algorithm on big numbers (property C39).
-/
set_option maxRecDepth 8000

namespace Verif.Bn

theorem value_natAbs (b : Bn) : (value b).natAbs = mag b := by
  unfold value; cases b.neg <;> simp

/-- The two coefficients of one column never have the same strict sign. -/
def Alt (x y : Int) : Prop := (0 ≤ x ∧ y ≤ 0) ∨ (x ≤ 0 ∧ 0 ≤ y)

/-- One update `x0 - q * x1` of a coefficient column. -/
theorem coef_step {x0 x1 q : Bn} (h0 : Wf x0) (h1 : Wf x1) (hq : Wf q) (hqs : mag q ≠ 0 → q.neg = false) (halt : Alt (value x0) (value x1))
    (hnz : mag x0 ≠ 0 ∨ mag x1 ≠ 0) (hok : mag q ≠ 0 ∨ x0.neg = false) (hfit : mag x0 + mag q * mag x1 < B ^ 257) :
    ∃ t d, mul q x1 = some t ∧ sub x0 t = some (d, t) ∧ Wf d ∧ value d = value x0 - mag q * value x1 ∧ mag d = mag x0 + mag q * mag x1 := by
  obtain ⟨t, et, ht, hv, hm, hs⟩ := mul_spec q x1 hq h1 (lt_of_le_of_lt (Nat.le_add_left _ _) hfit)
  have hvq : value q = mag q := by
    by_cases h : mag q = 0
    · unfold value; rw [h]; cases q.neg <;> rfl
    · exact value_pos (hqs h)
  rw [hvq] at hv
  have hax : (value x0 - value t).natAbs = mag x0 + mag t := by
    have hqn : (0 : Int) ≤ mag q := Int.natCast_nonneg _
    have e0 := value_natAbs x0
    have e1 := value_natAbs t
    rcases halt with ⟨p, n⟩ | ⟨p, n⟩
    · have : value t ≤ 0 := by rw [hv]; exact Int.mul_nonpos_of_nonneg_of_nonpos hqn n
      omega
    · have : 0 ≤ value t := by rw [hv]; exact Int.mul_nonneg hqn n
      omega
  have hx : ¬ (x0.neg = true ∧ t.neg = true ∧ x0.length = t.length) := by
    rintro ⟨n0, nt, hl⟩
    by_cases hz : mag x0 = 0
    · have : mag t = 0 := (wf_zero_iff ht).1 (by rw [← hl]; exact (wf_zero_iff h0).2 hz)
      rw [hm] at this
      rcases hok with h | h
      · rcases hnz with h' | h'
        · exact h' hz
        · exact absurd this (Nat.mul_ne_zero h h')
      · rw [h] at n0; cases n0
    · have htz : mag t ≠ 0 := fun h => hz ((wf_zero_iff h0).1 (by rw [hl]; exact (wf_zero_iff ht).2 h))
      have a1 := value_neg n0
      have a2 := value_neg nt
      have hqn : (0 : Int) ≤ mag q := Int.natCast_nonneg _
      rcases halt with ⟨p, n⟩ | ⟨p, n⟩
      · omega
      · have : 0 ≤ value t := by rw [hv]; exact Int.mul_nonneg hqn n
        omega
  obtain ⟨d, ed, hd, hvd⟩ := sub_spec_partial x0 t h0 ht (by rw [hax, hm]; exact hfit) hx
  refine ⟨t, d, et, ed, hd, by rw [hvd, hv], ?_⟩
  rw [← value_natAbs, hvd, hax, hm]

theorem alt_step {x0 x1 : Int} {q : Nat} (h : Alt x0 x1) : Alt x1 (x0 - q * x1) := by
  have hqn : (0 : Int) ≤ q := Int.natCast_nonneg _
  rcases h with ⟨p, n⟩ | ⟨p, n⟩
  · right
    have := Int.mul_nonpos_of_nonneg_of_nonpos hqn n
    exact ⟨n, by omega⟩
  · left
    have := Int.mul_nonneg hqn n
    exact ⟨n, by omega⟩

theorem coef_bound {x0 x1 n M q r S : Nat} (hn : n ≠ 0) (hM : M = q * n + r) (h : x0 * n + x1 * M = S) : x0 + q * x1 ≤ S ∧ x1 * r + (x0 + q * x1) * n = S := by
  have e : x1 * r + (x0 + q * x1) * n = S := by rw [← h, hM]; ring
  refine ⟨?_, e⟩
  have : (x0 + q * x1) * 1 ≤ (x0 + q * x1) * n := Nat.mul_le_mul_left _ (by omega)
  omega

theorem euclidLoop_spec (A C G : Nat) (hA : A < B ^ 257) (hC : C < B ^ 257) : ∀ (fuel : Nat) (n r q x0 y0 x1 y1 : Bn) (M : Nat),
    Wf n → Wf r → Wf q → Wf x0 → Wf y0 → Wf x1 → Wf y1 → n.neg = false → mag n ≠ 0 → n.length ≤ 256 → (mag r ≠ 0 → r.neg = false) → mag r < mag n → mag r < fuel →
    (mag q ≠ 0 → q.neg = false) → M = mag q * mag n + mag r → M ≠ 0 → mag x0 * mag n + mag x1 * M = C → mag y0 * mag n + mag y1 * M = A →
    Alt (value x0) (value x1) → Alt (value y0) (value y1) → (mag x0 ≠ 0 ∨ mag x1 ≠ 0) → (mag y0 ≠ 0 ∨ mag y1 ≠ 0) →
    (mag q ≠ 0 ∨ (x0.neg = false ∧ y0.neg = false)) → (A : Int) * value x0 + C * value y0 = M → (A : Int) * value x1 + C * value y1 = mag n →
    Nat.gcd (mag n) (mag r) = G →
    ∃ x y, euclidLoop fuel n r q x0 y0 x1 y1 = some (some (x, y)) ∧ Wf x ∧ Wf y ∧ (A : Int) * value x + C * value y = G ∧ mag x ≤ C ∧ mag y ≤ A := by
  intro fuel
  induction fuel with
  | zero => intro n r q x0 y0 x1 y1 M _ _ _ _ _ _ _ _ _ _ _ _ hf; omega
  | succ fuel ih =>
    intro n r q x0 y0 x1 y1 M wn wr wq wx0 wy0 wx1 wy1 hnn hn0 hnl hrn hlt hf hqn hM hM0 hx hy ax ay nx ny hok em en hg
    unfold euclidLoop
    obtain ⟨c, ec, c1, c2, c3⟩ := compare_spec_partial r zero wr wf_zero (fun h => by cases h.2.1)
    rw [ec, bsome]
    by_cases hr : mag r = 0
    · have hv : value r = 0 := by unfold value; rw [hr]; cases r.neg <;> rfl
      have hc0 : c = 0 := c1.2 (by rw [hv, value_zero])
      rw [if_neg (by omega)]
      refine ⟨x1, y1, rfl, wx1, wy1, ?_, ?_, ?_⟩
      · rw [en, ← hg, hr, Nat.gcd_zero_right]
      · have : mag x1 * 1 ≤ mag x1 * M := Nat.mul_le_mul_left _ (by omega)
        omega
      · have : mag y1 * 1 ≤ mag y1 * M := Nat.mul_le_mul_left _ (by omega)
        omega
    · have hv : value r = mag r := value_pos (hrn hr)
      have hc0 : 0 < c := c3.2 (by rw [hv, value_zero]; omega)
      rw [if_pos hc0]
      obtain ⟨bx1, bx2⟩ := coef_bound hn0 hM hx
      obtain ⟨by1, by2⟩ := coef_bound hn0 hM hy
      obtain ⟨tx, dx, e1, e2, wdx, vdx, mdx⟩ := coef_step wx0 wx1 wq hqn ax nx (hok.imp id (fun h => h.1)) (lt_of_le_of_lt bx1 hC)
      obtain ⟨ty, dy, e3, e4, wdy, vdy, mdy⟩ := coef_step wy0 wy1 wq hqn ay ny (hok.imp id (fun h => h.2)) (lt_of_le_of_lt by1 hA)
      obtain ⟨r', q', e5, wr', wq', hd1, hd2, hd3, hd4⟩ := div_mag wn wr hr (Or.inl hnl)
      rw [e1, bsome, e2, bsome]
      simp only
      rw [e3, bsome, e4, bsome]
      simp only
      rw [e5, bsome]
      have hrneg := hrn hr
      have hrl : r.length ≤ 256 := by
        by_contra h
        have := wf_len_lt wn wr (by omega)
        omega
      have hq' : mag q' ≠ 0 := by
        intro h; rw [h, Nat.zero_mul] at hd1; omega
      have hrM : ((mag r : Nat) : Int) = M - mag q * mag n := by rw [hM]; push_cast; ring
      refine ih r r' q' x1 y1 dx dy (mag n) wr wr' wq' wx1 wy1 wdx wdy hrneg hr hrl ?_ hd2 (by omega) ?_ hd1 hn0 ?_ ?_ ?_ ?_ ?_ ?_ (Or.inl hq') en ?_ ?_
      · intro h; rw [hd3 h, hnn, hrneg]; rfl
      · intro h; rw [hd4 h, hnn, hrneg]; rfl
      · rw [mdx]; exact bx2
      · rw [mdy]; exact by2
      · rw [vdx]; exact alt_step ax
      · rw [vdy]; exact alt_step ay
      · rw [mdx]
        rcases nx with h | h
        · right; omega
        · left; exact h
      · rw [mdy]
        rcases ny with h | h
        · right; omega
        · left; exact h
      · rw [vdx, vdy, hrM, ← em, ← en]; ring
      · rw [← hg, hd1, Nat.gcd_comm _ (mag r), Nat.add_comm, Nat.gcd_add_mul_right_right]

/-- **C39.** For positive operands (the second one not of full width, the first one readable by
the division) the algorithm terminates with coefficients for which `a*x + b*y` is the greatest
common divisor; they are bounded by the other operand.  `fuel` bounds the number of rounds, and
any number above `b` suffices. -/
theorem extendEuclid_partial {a b : Bn} (ha : Wf a) (hb : Wf b) (hpa : 0 < value a) (hpb : 0 < value b) (hbl : b.length ≤ 256) (hread : Readable a b)
    (fuel : Nat) (hf : mag b < fuel) :
    ∃ x y, extendEuclid fuel a b = some (some (x, y)) ∧ Wf x ∧ Wf y ∧
      value a * value x + value b * value y = Int.gcd (value a) (value b) ∧ (value x).natAbs ≤ (value b).natAbs ∧ (value y).natAbs ≤ (value a).natAbs := by
  have hna : a.neg = false := by
    cases h : a.neg
    · rfl
    · rw [value_neg h] at hpa; omega
  have hnb : b.neg = false := by
    cases h : b.neg
    · rfl
    · rw [value_neg h] at hpb; omega
  have va := value_pos hna
  have vb := value_pos hnb
  have ha0 : mag a ≠ 0 := by omega
  have hb0 : mag b ≠ 0 := by omega
  obtain ⟨r, q, e, wr, wq, d1, d2, d3, d4⟩ := div_mag ha hb hb0 hread
  obtain ⟨w1, m1⟩ := wf_word 1 (by decide) (by decide)
  have v1 : value (word 1) = 1 := by rw [value_pos rfl, m1]; rfl
  unfold extendEuclid
  rw [e, bsome]
  obtain ⟨x, y, hxy, hx, hy, h1, h2, h3⟩ := euclidLoop_spec (mag a) (mag b) (Nat.gcd (mag a) (mag b)) (wf_mag_lt ha) (wf_mag_lt hb) fuel b r q (word 1) zero zero (word 1) (mag a)
    hb wr wq w1 wf_zero wf_zero w1 hnb hb0 hbl (fun h => by rw [d3 h, hna, hnb]; rfl) d2 (by omega) (fun h => by rw [d4 h, hna, hnb]; rfl) d1 ha0
    (by rw [m1, mag_zero]; omega) (by rw [m1, mag_zero]; omega) (by rw [v1, value_zero]; left; omega) (by rw [v1, value_zero]; right; omega)
    (by left; rw [m1]; decide) (by right; rw [m1]; decide) (Or.inr ⟨rfl, rfl⟩) (by rw [v1, value_zero]; ring) (by rw [v1, value_zero]; ring)
    (by rw [Nat.gcd_comm (mag a), d1, Nat.add_comm, Nat.gcd_add_mul_right_right])
  refine ⟨x, y, hxy, hx, hy, ?_, ?_, ?_⟩
  · rw [va, vb, h1]; rfl
  · rw [value_natAbs, value_natAbs]; exact h2
  · rw [value_natAbs, value_natAbs]; exact h3

/-- Division by zero is reported. -/
theorem extendEuclid_zero {a b : Bn} (hb : Wf b) (hz : mag b = 0) (fuel : Nat) : extendEuclid fuel a b = some none := by
  unfold extendEuclid
  rw [div_zero hb hz, bsome]

/-! Instance: the usual use, an RSA private exponent. -/
example : (extendEuclid 200 (small false 17) (small false 3120)).map (Option.map (fun r => (value r.1, value r.2))) = some (some (-367, 2)) := by decide +kernel
example : (extendEuclid 200 (small false 12) (small false 18)).map (Option.map (fun r => (value r.1, value r.2))) = some (some (-1, 1)) := by decide +kernel

end Verif.Bn
