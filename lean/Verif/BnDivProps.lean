import Verif.BnDivBase

/-
Division of big numbers (property C33).  Quotient and remainder are specified by the defining
equation of Euclidean division on integers, which determines both.
-/
set_option maxRecDepth 8000

namespace Verif.Bn

/-! ## Canonical forms -/

theorem wf_mk (neg : Bool) (n m : Nat) (q : List Nat) (hl : q.length + m = 257) (hq : ∀ x ∈ q, x < B) (h1 : nat q < B ^ n)
    (h2 : n = 0 ∨ B ^ (n - 1) ≤ nat q) : Wf ⟨neg, n, q ++ List.replicate m 0⟩ ∧ mag ⟨neg, n, q ++ List.replicate m 0⟩ = nat q := by
  have hm : mag ⟨neg, n, q ++ List.replicate m 0⟩ = nat q := by
    show nat (q ++ List.replicate m 0) = nat q
    rw [nat_append, nat_replicate]; simp
  refine ⟨⟨?_, ?_, ?_, ?_⟩, hm⟩
  · show (q ++ List.replicate m 0).length = 257
    rw [List.length_append, List.length_replicate]; exact hl
  · exact limbs_append hq (limbs_replicate _)
  · rw [hm]; exact h1
  · rw [hm]; exact h2

theorem top_limb {b : Bn} (h : Wf b) (hl : b.length ≠ 0) : ∃ t, b.data[b.length - 1]? = some t ∧ 1 ≤ t ∧ t < B ∧
    t * B ^ (b.length - 1) ≤ mag b ∧ mag b < (t + 1) * B ^ (b.length - 1) := by
  have hle := wf_length_le h
  have hk : b.length - 1 < b.data.length := by rw [h.size]; have hsz : size = 257 := rfl; omega
  have ht : b.data[b.length - 1]? = some b.data[b.length - 1] := List.getElem?_eq_getElem hk
  have hB : b.data[b.length - 1] < B := h.limbs _ (List.getElem_mem _)
  have e := nat_take_succ_top b.data (b.length - 1) _ ht
  rw [show b.length - 1 + 1 = b.length by omega, nat_take_of_lt b.data b.length h.below] at e
  have hlow := nat_lt (b.data.take (b.length - 1)) (limbs_take h.limbs)
  rw [List.length_take, Nat.min_eq_left (by omega)] at hlow
  have e : mag b = nat (b.data.take (b.length - 1)) + B ^ (b.length - 1) * b.data[b.length - 1] := e
  generalize b.data[b.length - 1] = t at *
  have hup : mag b < (t + 1) * B ^ (b.length - 1) := by
    rw [e, Nat.add_mul, Nat.one_mul, Nat.mul_comm t]; omega
  refine ⟨t, ht, ?_, hB, by rw [e, Nat.mul_comm t]; omega, hup⟩
  by_contra hc
  have h0 : t = 0 := by omega
  rcases h.top with ht' | ht'
  · exact hl ht'
  · rw [h0] at hup; omega

/-! ## Division by a limb -/

theorem quot_len {m x Q R n : Nat} (hx : x ≤ B) (h : m = Q * x + R) (hR : R < x) (hm : B ^ n ≤ m) (hn : n ≠ 0) : B ^ (n - 1) ≤ Q := by
  by_contra hc
  have h1 : (Q + 1) * x ≤ B ^ (n - 1) * B := Nat.mul_le_mul (by omega) hx
  rw [← pow_succ, show n - 1 + 1 = n by omega, Nat.add_mul, Nat.one_mul] at h1
  omega

theorem divWord_spec {a : Bn} (ha : Wf a) (x : Nat) (hx0 : 0 < x) (hx : x < B) :
    ∃ d q, divWord a x = some (some (d, q)) ∧ Wf d ∧ Wf q ∧ mag a = mag q * x + mag d ∧ mag d < x ∧
      (mag d ≠ 0 → d.neg = a.neg) ∧ (mag q ≠ 0 → q.neg = a.neg) := by
  have hsz : size = 257 := rfl
  unfold divWord
  rw [if_neg (show ¬ x = 0 by omega), Nat.mod_eq_of_lt hx]
  simp only
  by_cases h1 : x = 1
  · rw [if_pos h1]
    refine ⟨zero, a, rfl, wf_zero, ha, by rw [mag_zero, h1]; omega, by rw [mag_zero]; omega, fun h => absurd mag_zero h, fun _ => rfl⟩
  · rw [if_neg h1]
    by_cases h2 : a.length = 0
    · rw [if_pos h2]
      have hm := (wf_zero_iff ha).1 h2
      refine ⟨a, zero, rfl, ha, wf_zero, by rw [mag_zero, hm]; omega, by rw [hm]; omega, fun _ => rfl, fun h => absurd mag_zero h⟩
    · rw [if_neg h2]
      obtain ⟨t, ht, ht1, htB, htl, htu⟩ := top_limb ha h2
      have hal := wf_length_le ha
      have hlow : B ^ (a.length - 1) ≤ mag a := by
        rcases ha.top with h | h
        · exact absurd h h2
        · exact h
      rw [ht]
      simp only [Option.bind_eq_bind, Option.bind_some]
      have key : ∃ q r n, (match (if t < x then (a.length - 1, w (t * B)) else (a.length, 0)) with
          | (n, tmp) => (divDown a.data x n tmp).bind fun y => match y with
            | (q, tmp) => some (some ((⟨a.neg, if tmp ≠ 0 then 1 else 0, (List.replicate a.length 0 ++ a.data.drop a.length).set 0 (tmp / B)⟩ : Bn),
              (⟨a.neg, n, q ++ List.replicate (size - n) 0⟩ : Bn)))) =
          some (some (⟨a.neg, if r * B ≠ 0 then 1 else 0, (List.replicate a.length 0 ++ a.data.drop a.length).set 0 (r * B / B)⟩, ⟨a.neg, n, q ++ List.replicate (size - n) 0⟩)) ∧
          r < x ∧ q.length = n ∧ n ≤ 257 ∧ (∀ y ∈ q, y < B) ∧ nat q * x + r = mag a ∧ (n = 0 ∨ B ^ (n - 1) ≤ nat q) := by
        by_cases hlt : t < x
        · rw [if_pos hlt, w_of_lt (show t * B < 18446744073709551616 by omega)]
          obtain ⟨q, r, e, hr, hql, hqb, hv⟩ := divDown_spec a.data x hx hx0 ha.limbs (a.length - 1) t (by rw [ha.size]; omega) hlt
          have e2 := nat_take_succ_top a.data (a.length - 1) t ht
          rw [show a.length - 1 + 1 = a.length by omega, nat_take_of_lt a.data a.length ha.below] at e2
          refine ⟨q, r, a.length - 1, by simp only [e, Option.bind_some], hr, hql, by omega, hqb, by rw [hv, ← e2]; rfl, ?_⟩
          by_cases hn : a.length - 1 = 0
          · exact Or.inl hn
          · right
            exact quot_len (le_of_lt hx) (show mag a = nat q * x + r by rw [hv, ← e2]; rfl) hr hlow hn
        · rw [if_neg hlt]
          obtain ⟨q, r, e, hr, hql, hqb, hv⟩ := divDown_spec a.data x hx hx0 ha.limbs a.length 0 (by rw [ha.size]; omega) hx0
          rw [Nat.zero_mul] at e
          rw [nat_take_of_lt a.data a.length ha.below, Nat.mul_zero, Nat.add_zero] at hv
          refine ⟨q, r, a.length, by simp only [e, Option.bind_some], hr, hql, by omega, hqb, hv, Or.inr ?_⟩
          by_contra hc
          have h3 : (nat q + 1) * x ≤ B ^ (a.length - 1) * x := Nat.mul_le_mul_right _ (by omega)
          have h4 : B ^ (a.length - 1) * x ≤ t * B ^ (a.length - 1) := by
            rw [Nat.mul_comm t]; exact Nat.mul_le_mul_left _ (by omega)
          rw [Nat.add_mul, Nat.one_mul] at h3
          have hv : nat q * x + r = mag a := hv
          omega
      obtain ⟨q, r, n, e, hr, hql, hn, hqb, hv, hcan⟩ := key
      rw [Nat.mul_div_cancel _ (by decide)] at e
      have hdrop : a.data.drop a.length = List.replicate (257 - a.length) 0 := by
        rw [nat_drop_replicate a.data a.length ha.below, ha.size]
      have hset : (List.replicate a.length 0 ++ a.data.drop a.length).set 0 r = [r] ++ List.replicate 256 0 := by
        rw [hdrop, List.replicate_append_replicate, show a.length + (257 - a.length) = 256 + 1 by omega, List.replicate_succ]; rfl
      rw [hset] at e
      have hqB : nat q < B ^ n := by rw [← hql]; exact nat_lt q hqb
      have w1 := wf_mk a.neg (if r * B ≠ 0 then 1 else 0) 256 [r] rfl (by intro y hy; rw [List.mem_singleton.1 hy]; omega)
        (by
          show r + B * 0 < _
          split
          · rw [pow_one]; omega
          · rw [pow_zero]; omega)
        (by
          show _ ∨ _ ≤ r + B * 0
          split
          · right; show B ^ 0 ≤ _; rw [pow_zero]; omega
          · left; rfl)
      have w2 := wf_mk a.neg n (size - n) q (by omega) hqb hqB hcan
      have hmr : nat [r] = r := by show r + B * 0 = r; omega
      rw [hmr] at w1
      refine ⟨_, _, e, w1.1, w2.1, ?_, ?_, fun _ => rfl, fun _ => rfl⟩
      · rw [w1.2, w2.2, hv]
      · rw [w1.2]; exact hr

/-! ## Division by longer numbers -/

/-- The code reads one limb past the array when it copies a full-width dividend unscaled. -/
def Readable (a b : Bn) : Prop := a.length ≤ 256 ∨ mag b < 2147483648 * B ^ (b.length - 1)

theorem ndiv_spec (l : List Nat) (d n R : Nat) (hd0 : 0 < d) (hdB : d < B) (hl : ∀ x ∈ l, x < B) (hn : n ≤ l.length) (hv : nat l = d * R) (hb : nat l < B ^ n) :
    ∃ r k, ndiv l d n = some (r, k) ∧ r.length = n ∧ (∀ x ∈ r, x < B) ∧ nat r = R ∧ R < B ^ k ∧ (k = 0 ∨ B ^ (k - 1) ≤ R) ∧ k ≤ n := by
  unfold ndiv
  rw [Nat.mod_eq_of_lt hdB]
  simp only
  rw [if_neg (show ¬ d = 0 by omega)]
  have ht := nat_take_of_lt l n hb
  by_cases h1 : d = 1
  · rw [if_pos h1, if_pos hn]
    rw [h1, Nat.one_mul] at hv
    have hlen : (l.take n).length = n := by rw [List.length_take]; omega
    obtain ⟨k, e, hk, h2, h3⟩ := scan_canon (l.take n) n (by rw [hlen]) (limbs_take hl) (by rw [ht]; exact hb)
    rw [ht, hv] at h2 h3
    rw [e]
    exact ⟨_, k, rfl, hlen, limbs_take hl, by rw [ht, hv], h2, h3, hk⟩
  · rw [if_neg h1]
    obtain ⟨r, t, e, htlt, hrl, hrb, hr⟩ := divDown_spec l d hdB hd0 hl n 0 hn hd0
    rw [Nat.zero_mul] at e
    rw [ht, hv, Nat.mul_zero, Nat.add_zero] at hr
    have hR : nat r = R := by
      have h2 : (nat r * d + t) / d = nat r := by
        rw [Nat.mul_comm, Nat.mul_add_div hd0, Nat.div_eq_of_lt htlt, Nat.add_zero]
      rw [hr, Nat.mul_div_cancel_left _ hd0] at h2
      exact h2.symm
    have hrB := nat_lt r hrb
    rw [hrl] at hrB
    obtain ⟨k, e2, hk, h2, h3⟩ := scan_canon r n (by rw [hrl]) hrb hrB
    rw [hR] at h2 h3
    rw [e]
    simp only [Option.bind_eq_bind, Option.bind_some]
    rw [e2]
    exact ⟨r, k, rfl, hrl, hrb, hR, h2, h3, hk⟩

/-- The long path: quotient digits and remainder limbs. -/
theorem long_spec {a b : Bn} (ha : Wf a) (hb : Wf b) (k : Nat) (hk : b.length = k + 2) (hgt : mag b < mag a) (hread : Readable a b)
    (t : Nat) (ht : b.data[b.length - 1]? = some t) :
    ∃ pd ps pd' qs qtop r rlen, nmul a.data (B / w (t + 1)) (a.length + 1) a.length = some pd ∧
      nmul b.data (B / w (t + 1)) b.length b.length = some ps ∧
      divLoop (ps ++ [0]) b.length (a.length - b.length + 1) pd = some (pd', qs) ∧ qs[a.length - b.length]? = some qtop ∧
      ndiv pd' (B / w (t + 1)) b.length = some (r, rlen) ∧
      qs.length = a.length - b.length + 1 ∧ (∀ x ∈ qs, x < B) ∧ r.length = b.length ∧ (∀ x ∈ r, x < B) ∧
      mag a = nat qs * mag b + nat r ∧ nat r < mag b ∧ nat r < B ^ rlen ∧ (rlen = 0 ∨ B ^ (rlen - 1) ≤ nat r) ∧
      b.length ≤ a.length ∧ nat qs < B ^ (if qtop ≠ 0 then a.length - b.length + 1 else a.length - b.length) ∧
      ((if qtop ≠ 0 then a.length - b.length + 1 else a.length - b.length) = 0 ∨
        B ^ ((if qtop ≠ 0 then a.length - b.length + 1 else a.length - b.length) - 1) ≤ nat qs) := by
  have hsz : size = 257 := rfl
  have hal := wf_length_le ha
  have hbl := wf_length_le hb
  have hle : b.length ≤ a.length := by
    by_contra hc
    have := wf_len_lt ha hb (by omega)
    omega
  obtain ⟨t', ht', ht1, htB, htl, htu⟩ := top_limb hb (by omega)
  rw [ht] at ht'
  have htt : t = t' := Option.some.inj ht'
  rw [← htt] at ht1 htB htl htu
  rw [w_of_lt (show t + 1 < 18446744073709551616 by omega)]
  obtain ⟨hd1, hdB, hdn, hdm⟩ := normalise t ht1 htB
  -- the reading condition excludes d = 1 for full-width dividends
  have hone : B / (t + 1) = 1 → a.length + 1 ≤ 257 := by
    intro h
    rcases hread with h' | h'
    · omega
    · exfalso
      have h2 : t < 2147483648 := by
        by_contra hc
        have : 2147483648 * B ^ (b.length - 1) ≤ t * B ^ (b.length - 1) := Nat.mul_le_mul_right _ (by omega)
        omega
      have : 2 ≤ B / (t + 1) := by
        rw [Nat.le_div_iff_mul_le (by omega)]; omega
      omega
  generalize B / (t + 1) = d at *
  -- scaled dividend
  obtain ⟨pd, epd, hpdl, hpdb, kp, hpd⟩ := nmul_spec a.data d (a.length + 1) a.length hdB ha.limbs (by rw [ha.size]; omega) (by omega)
    (fun h => ⟨by rw [ha.size]; exact hone h, by
      rw [nat_take_of_lt a.data a.length ha.below, nat_take_of_lt a.data (a.length + 1)]
      exact lt_of_lt_of_le ha.below (Nat.pow_le_pow_right (by decide) (by omega))⟩)
  rw [nat_take_of_lt a.data a.length ha.below] at hpd
  have hpd : nat pd + kp * B ^ (a.length + 1) = d * mag a := hpd
  have hda : d * mag a < B ^ (a.length + 1) := by
    rw [pow_succ, Nat.mul_comm (B ^ a.length)]
    exact Nat.mul_lt_mul'' hdB ha.below
  have hkp : kp = 0 := by
    by_contra hne
    have : 1 * B ^ (a.length + 1) ≤ kp * B ^ (a.length + 1) := Nat.mul_le_mul_right _ (by omega)
    omega
  rw [hkp, Nat.zero_mul, Nat.add_zero] at hpd
  -- scaled divisor
  obtain ⟨ps, eps, hpsl, hpsb, kq, hps⟩ := nmul_spec b.data d b.length b.length hdB hb.limbs (by rw [hb.size]; omega) (le_refl _)
    (fun _ => ⟨by rw [hb.size]; omega, rfl⟩)
  rw [nat_take_of_lt b.data b.length hb.below] at hps
  have hps : nat ps + kq * B ^ b.length = d * mag b := hps
  have hdb : d * mag b < B ^ b.length := by
    have h1 : d * mag b < d * ((t + 1) * B ^ (b.length - 1)) := Nat.mul_lt_mul_of_pos_left htu hd1
    have h2 : d * ((t + 1) * B ^ (b.length - 1)) ≤ B * B ^ (b.length - 1) := by
      rw [← Nat.mul_assoc]; exact Nat.mul_le_mul_right _ hdm
    have h3 : B * B ^ (b.length - 1) = B ^ b.length := by
      rw [Nat.mul_comm, ← pow_succ]; congr 1; omega
    rw [h3] at h2
    exact lt_of_lt_of_le h1 h2
  have hkq : kq = 0 := by
    by_contra hne
    have : 1 * B ^ b.length ≤ kq * B ^ b.length := Nat.mul_le_mul_right _ (by omega)
    omega
  rw [hkq, Nat.zero_mul, Nat.add_zero] at hps
  -- its top limb
  have hpsl' : ps.length = k + 2 := by rw [hpsl, hk]
  obtain ⟨v1, ev1⟩ : ∃ x, ps[k + 1]? = some x := ⟨_, List.getElem?_eq_getElem (by omega)⟩
  have hv1 : 2147483648 ≤ v1 := by
    have e1 := nat_take_succ_top ps (k + 1) v1 ev1
    rw [List.take_of_length_le (by omega), hps] at e1
    have hlow := nat_lt (ps.take (k + 1)) (limbs_take hpsb)
    rw [List.length_take, Nat.min_eq_left (by omega)] at hlow
    by_contra hc
    have h1 : B ^ (k + 1) * (v1 + 1) ≤ B ^ (k + 1) * 2147483648 := Nat.mul_le_mul_left _ (by omega)
    have h2 : d * (t * B ^ (b.length - 1)) ≤ d * mag b := Nat.mul_le_mul_left _ htl
    rw [show b.length - 1 = k + 1 by omega, ← Nat.mul_assoc] at h2
    have h3 : 2147483648 * B ^ (k + 1) ≤ d * t * B ^ (k + 1) := Nat.mul_le_mul_right _ hdn
    rw [Nat.mul_add, Nat.mul_one] at h1
    generalize B ^ (k + 1) * v1 = y at *
    generalize d * t * B ^ (k + 1) = z at *
    generalize d * mag b = s at *
    generalize B ^ (k + 1) = X at *
    omega
  have hmagb : B ^ (b.length - 1) ≤ mag b := by
    rcases hb.top with h | h
    · omega
    · exact h
  have hmaga : B ^ (a.length - 1) ≤ mag a := by
    rcases ha.top with h | h
    · omega
    · exact h
  -- the invariant at the start
  have hinv : nat (pd.drop (a.length - b.length + 1)) < nat ps := by
    have e1 := nat_take_drop pd (a.length - b.length + 1) (by omega)
    rw [hpd] at e1
    rw [hps]
    by_contra hc
    have h1 : B ^ (a.length - b.length + 1) * (d * mag b) ≤ B ^ (a.length - b.length + 1) * nat (pd.drop (a.length - b.length + 1)) :=
      Nat.mul_le_mul_left _ (by omega)
    have h2 : d * (B ^ (a.length - b.length + 1) * B ^ (b.length - 1)) ≤ d * (B ^ (a.length - b.length + 1) * mag b) :=
      Nat.mul_le_mul_left _ (Nat.mul_le_mul_left _ hmagb)
    rw [← pow_add, show a.length - b.length + 1 + (b.length - 1) = a.length by omega] at h2
    have h3 : d * mag a < d * B ^ a.length := Nat.mul_lt_mul_of_pos_left ha.below hd1
    have h4 : B ^ (a.length - b.length + 1) * (d * mag b) = d * (B ^ (a.length - b.length + 1) * mag b) := by ring
    rw [h4] at h1
    exact absurd (lt_of_lt_of_le h3 h2) (by
      have : d * (B ^ (a.length - b.length + 1) * mag b) ≤ d * mag a := by
        rw [e1]; exact le_trans h1 (Nat.le_add_left _ _)
      exact not_lt.2 this)
  obtain ⟨pd', qs, eloop, hpl', hpb', hql, hqb, hv, hrem⟩ := divLoop_spec ps k hpsl' hpsb v1 ev1 hv1 (a.length - b.length + 1) pd hpdb (by omega) hinv
  rw [hpd, hps] at hv
  rw [hps] at hrem
  -- the remainder
  have hdvd : nat qs * (d * mag b) = d * (nat qs * mag b) := by ring
  rw [hdvd] at hv
  have hqle : nat qs * mag b ≤ mag a := by
    by_contra hc
    have : d * mag a < d * (nat qs * mag b) := Nat.mul_lt_mul_of_pos_left (by omega) hd1
    omega
  have hR : nat pd' = d * (mag a - nat qs * mag b) := by rw [Nat.mul_sub]; omega
  obtain ⟨r, rlen, er, hrl, hrb, hr, hr1, hr2, hr3⟩ := ndiv_spec pd' d b.length (mag a - nat qs * mag b) hd1 hdB hpb' (by omega) hR (lt_trans hrem hdb)
  have hrlt : mag a - nat qs * mag b < mag b := by
    rw [hR] at hrem
    exact Nat.lt_of_mul_lt_mul_left hrem
  -- the digits
  obtain ⟨qtop, eqt⟩ : ∃ x, qs[a.length - b.length]? = some x := ⟨_, List.getElem?_eq_getElem (by omega)⟩
  have hsum : mag a = nat qs * mag b + nat r := by rw [hr]; omega
  have hQ := nat_take_succ_top qs (a.length - b.length) qtop eqt
  rw [List.take_of_length_le (by omega)] at hQ
  have hqlow := nat_lt (qs.take (a.length - b.length)) (limbs_take hqb)
  rw [List.length_take, Nat.min_eq_left (by omega)] at hqlow
  have hqlt := nat_lt qs hqb
  rw [hql] at hqlt
  refine ⟨pd, ps, pd', qs, qtop, r, rlen, epd, eps, ?_, eqt, er, hql, hqb, hrl, hrb, hsum, by rw [hr]; exact hrlt, by rw [hr]; exact hr1, by rw [hr]; exact hr2, hle, ?_, ?_⟩
  · rw [← hk] at eloop; exact eloop
  · by_cases hz : qtop = 0
    · rw [if_neg (by simpa using hz)]
      rw [hz, Nat.mul_zero, Nat.add_zero] at hQ
      rw [hQ]; exact hqlow
    · rw [if_pos hz]; exact hqlt
  · by_cases hz : qtop = 0
    · rw [if_neg (by simpa using hz)]
      by_cases hj : a.length - b.length = 0
      · exact Or.inl hj
      · right
        by_contra hc
        have h1 : (nat qs + 1) * B ^ b.length ≤ B ^ (a.length - b.length - 1) * B ^ b.length := Nat.mul_le_mul_right _ (by omega)
        rw [← pow_add, show a.length - b.length - 1 + b.length = a.length - 1 by omega] at h1
        have h2 : (nat qs + 1) * mag b ≤ (nat qs + 1) * B ^ b.length := Nat.mul_le_mul_left _ (le_of_lt hb.below)
        rw [Nat.add_mul (nat qs) 1 (mag b), Nat.one_mul] at h2
        rw [← hr] at hrlt
        have h3 := le_trans h2 h1
        have h4 := le_trans h3 hmaga
        rw [hsum] at h4
        exact absurd (Nat.le_of_add_le_add_left h4) (not_le.2 hrlt)
    · rw [if_pos hz]
      right
      rw [Nat.add_sub_cancel, hQ]
      have : B ^ (a.length - b.length) * 1 ≤ B ^ (a.length - b.length) * qtop := Nat.mul_le_mul_left _ (by omega)
      rw [Nat.mul_one] at this
      exact le_trans this (Nat.le_add_left _ _)

/-- Magnitudes and signs of the results of a division. -/
theorem div_mag {a b : Bn} (ha : Wf a) (hb : Wf b) (hnz : mag b ≠ 0) (hread : Readable a b) :
    ∃ d q, div a b = some (some (d, q)) ∧ Wf d ∧ Wf q ∧ mag a = mag q * mag b + mag d ∧ mag d < mag b ∧
      (mag d ≠ 0 → d.neg = xor a.neg b.neg) ∧ (mag q ≠ 0 → q.neg = xor a.neg b.neg) := by
  have hsz : size = 257 := rfl
  have hbl := wf_length_le hb
  have hal := wf_length_le ha
  have hb0 : b.length ≠ 0 := fun h => hnz ((wf_zero_iff hb).1 h)
  unfold div
  simp only
  rw [if_neg hb0]
  by_cases h1 : b.length = 1
  · rw [if_pos h1]
    obtain ⟨t, ht, ht1, htB, htl, htu⟩ := top_limb hb hb0
    rw [h1] at ht htl htu
    simp only [Nat.sub_self, pow_zero, Nat.mul_one] at ht htl htu
    have hmb : mag b = t := by omega
    obtain ⟨d, q, e, hd, hq, hv, hlt, hs1, hs2⟩ := divWord_spec ha t (by omega) htB
    rw [ht]
    simp only [Option.bind_eq_bind, Option.bind_some]
    rw [e]
    simp only [Option.bind_some]
    exact ⟨_, _, rfl, wf_neg hd _, wf_neg hq _, by rw [hmb]; exact hv, by rw [hmb]; exact hlt, fun _ => rfl, fun _ => rfl⟩
  · rw [if_neg h1]
    obtain ⟨c, ec, c1, c2, c3⟩ := absCompare_spec a b ha hb
    rw [ec]
    simp only [Option.bind_eq_bind, Option.bind_some]
    by_cases hc0 : c = 0
    · rw [if_pos hc0]
      have hm := c1.1 hc0
      have hw := (wf_word 1 (by omega) (by decide))
      have hw1 : Wf ⟨xor a.neg b.neg, 1, 1 :: List.replicate (size - 1) 0⟩ := wf_neg hw.1 _
      have hw2 : mag ⟨xor a.neg b.neg, 1, 1 :: List.replicate (size - 1) 0⟩ = 1 := hw.2
      refine ⟨zero, _, rfl, wf_zero, hw1, by rw [hw2, mag_zero]; omega, by rw [mag_zero]; omega, fun h => absurd mag_zero h, fun _ => rfl⟩
    · rw [if_neg hc0]
      by_cases hcn : c < 0
      · rw [if_pos hcn]
        have hm := c2.1 hcn
        exact ⟨_, zero, rfl, wf_neg ha _, wf_zero, by rw [mag_zero, Nat.zero_mul, Nat.zero_add]; rfl, hm, fun _ => rfl, fun h => absurd mag_zero h⟩
      · rw [if_neg hcn]
        have hm := c3.1 (by omega)
        obtain ⟨t, ht, -⟩ := top_limb hb hb0
        obtain ⟨pd, ps, pd', qs, qtop, r, rlen, e1, e2, e3, e4, e5, hql, hqb, hrl, hrb, hsum, hlt, hr1, hr2, hle, hq1, hq2⟩ :=
          long_spec ha hb (b.length - 2) (by omega) hm hread t ht
        rw [ht, Option.bind_some, e1, Option.bind_some, e2, Option.bind_some, e3, Option.bind_some]
        simp only
        rw [e4, Option.bind_some, e5, Option.bind_some]
        have w1 := wf_mk (xor a.neg b.neg) rlen (size - b.length) r (by omega) hrb hr1 hr2
        have w2 := wf_mk (xor a.neg b.neg) _ (size - (a.length - b.length + 1)) qs (by omega) hqb hq1 hq2
        exact ⟨_, _, rfl, w1.1, w2.1, by rw [w1.2, w2.2]; exact hsum, by rw [w1.2]; exact hlt, fun _ => rfl, fun _ => rfl⟩

theorem value_of (b : Bn) : value b = (if b.neg then -1 else 1) * (mag b : Int) := by
  unfold value; cases b.neg <;> simp

/-- **C33.** For a positive divisor (or an exact division) the results satisfy the division
equation, and the remainder is smaller than the divisor and has the sign of the dividend. -/
theorem div_spec_partial {a b : Bn} (ha : Wf a) (hb : Wf b) (hnz : mag b ≠ 0) (hread : Readable a b)
    (hpos : b.neg = false ∨ mag b ∣ mag a) :
    ∃ d q, div a b = some (some (d, q)) ∧ Wf d ∧ Wf q ∧ value a = value q * value b + value d ∧ (value d).natAbs < (value b).natAbs ∧
      (value d ≠ 0 → (0 < value d ↔ 0 < value a)) := by
  obtain ⟨d, q, e, hd, hq, hv, hlt, s1, s2⟩ := div_mag ha hb hnz hread
  have hz : b.neg = false ∨ mag d = 0 := by
    rcases hpos with h | ⟨c, h⟩
    · exact Or.inl h
    · right
      rw [h] at hv
      have h1 : mag b * c % mag b = (mag d + mag b * mag q) % mag b := by congr 1; rw [hv]; ring
      rw [Nat.mul_mod_right, Nat.add_mul_mod_self_left, Nat.mod_eq_of_lt hlt] at h1
      exact h1.symm
  refine ⟨d, q, e, hd, hq, ?_, ?_, ?_⟩
  · rw [value_of, value_of q, value_of b, value_of d, hv]
    push_cast
    by_cases hd0 : mag d = 0 <;> by_cases hq0 : mag q = 0
    · simp [hd0, hq0]
    · rw [s2 hq0]
      cases a.neg <;> cases b.neg <;> simp [hd0]
    · rw [s1 hd0]
      have hbn := hz.resolve_right hd0
      cases h : a.neg <;> simp [hbn, hq0]
    · rw [s1 hd0, s2 hq0]
      have hbn := hz.resolve_right hd0
      cases a.neg <;> simp [hbn] <;> ring
  · have : ∀ x : Bn, (value x).natAbs = mag x := by
      intro x
      rw [value_of]; cases x.neg <;> simp
    rw [this, this]; exact hlt
  · intro hne
    have hd0 : mag d ≠ 0 := by
      intro h; apply hne; rw [value_of, h]; simp
    have hbn := hz.resolve_right hd0
    have ha0 : mag a ≠ 0 := by omega
    rw [value_of, value_of a, s1 hd0, hbn]
    cases a.neg
    · simp only [Bool.xor_false, Bool.false_eq_true, if_false, one_mul]
      omega
    · simp only [Bool.xor_false, if_true]
      omega

/-- Code defect: with a negative divisor that does not divide, the division equation fails;
the remainder has the wrong sign. -/
theorem div_negative {a b : Bn} (ha : Wf a) (hb : Wf b) (hread : Readable a b) (hneg : b.neg = true) (hnd : ¬ mag b ∣ mag a) (hnz : mag b ≠ 0) :
    ∃ d q, div a b = some (some (d, q)) ∧ value a = value q * value b - value d ∧ value a ≠ value q * value b + value d := by
  obtain ⟨d, q, e, hd, hq, hv, hlt, s1, s2⟩ := div_mag ha hb hnz hread
  have hd0 : mag d ≠ 0 := by
    intro h
    apply hnd
    rw [hv, h]
    exact ⟨mag q, by ring⟩
  have h1 : value a = value q * value b - value d := by
    rw [value_of, value_of q, value_of b, value_of d, hv, s1 hd0, hneg]
    push_cast
    by_cases hq0 : mag q = 0
    · rw [hq0]; cases a.neg <;> simp
    · rw [s2 hq0, hneg]
      cases a.neg <;> simp
      ring
  refine ⟨d, q, e, h1, ?_⟩
  intro h2
  have h3 : value d = 0 := by omega
  rw [value_of] at h3
  cases hn : d.neg <;> simp [hn] at h3 <;> omega

/-- Division by zero is refused. -/
theorem div_zero {a b : Bn} (hb : Wf b) (hz : mag b = 0) : div a b = some none := by
  unfold div
  simp only
  rw [if_pos ((wf_zero_iff hb).2 hz)]

/-- Code defect: a full-width dividend and a divisor with the top bit of its top limb set make
the code read one limb past the array. -/
theorem div_oob {a b : Bn} (ha : Wf a) (hb : Wf b) (hal : a.length = 257) (hbl : 2 ≤ b.length) (hgt : mag b < mag a)
    (hbig : 2147483648 * B ^ (b.length - 1) ≤ mag b) : div a b = none := by
  have hsz : size = 257 := rfl
  obtain ⟨t, ht, ht1, htB, htl, htu⟩ := top_limb hb (by omega)
  have ht2 : 2147483648 ≤ t := by
    by_contra hc
    have : (t + 1) * B ^ (b.length - 1) ≤ 2147483648 * B ^ (b.length - 1) := Nat.mul_le_mul_right _ (by omega)
    omega
  unfold div
  simp only
  rw [if_neg (by omega), if_neg (by omega)]
  obtain ⟨c, ec, c1, c2, c3⟩ := absCompare_spec a b ha hb
  rw [ec]
  simp only [Option.bind_eq_bind, Option.bind_some]
  rw [if_neg (by intro h; have := c1.1 h; omega), if_neg (by intro h; have := c2.1 h; omega), ht, Option.bind_some]
  have hd : B / w (t + 1) = 1 := by
    rw [w_of_lt (show t + 1 < 18446744073709551616 by omega)]
    apply le_antisymm
    · have : B / (t + 1) < 2 := by rw [Nat.div_lt_iff_lt_mul (by omega)]; omega
      omega
    · rw [Nat.le_div_iff_mul_le (by omega)]; omega
  have hn : nmul a.data 1 (a.length + 1) a.length = none := by
    unfold nmul
    rw [show 1 % B = 1 by decide]
    simp only
    rw [if_neg (by decide), if_pos trivial, if_neg (by rw [ha.size, hal]; decide)]
  rw [hd, hn]
  rfl

/-- Quotient and remainder are the unique ones. -/
theorem div_unique {a b : Bn} (ha : Wf a) (hb : Wf b) (hnz : mag b ≠ 0) (hread : Readable a b) :
    ∃ d q, div a b = some (some (d, q)) ∧ mag q = mag a / mag b ∧ mag d = mag a % mag b := by
  obtain ⟨d, q, e, hd, hq, hv, hlt, s1, s2⟩ := div_mag ha hb hnz hread
  refine ⟨d, q, e, ?_, ?_⟩
  · rw [hv, Nat.mul_comm, Nat.mul_add_div (by omega), Nat.div_eq_of_lt hlt, Nat.add_zero]
  · rw [hv, Nat.mul_comm, Nat.mul_add_mod, Nat.mod_eq_of_lt hlt]

/-! Non-trivial instances: 7 = 2·3 + 1, −7 = −2·3 − 1, and 7 divided by −3; a long division with
an added-back digit. -/
example : (div (small false 7) (small false 3)).map (·.map fun p => (value p.2, value p.1)) = some (some (2, 1)) := by decide +kernel
example : (div (small true 7) (small false 3)).map (·.map fun p => (value p.2, value p.1)) = some (some (-2, -1)) := by decide +kernel
example : (div (small false 7) (small true 3)).map (·.map fun p => (value p.2, value p.1)) = some (some (-2, -1)) := by decide +kernel
example : (div ⟨false, 3, [3, 0, 2147483648] ++ List.replicate 254 0⟩ ⟨false, 3, [1, 0, 536870912] ++ List.replicate 254 0⟩).map
    (·.map fun p => (p.2.data.take 2, p.1.data.take 3)) = some (some ([3, 0], [0, 0, 536870912])) := by decide +kernel

end Verif.Bn
