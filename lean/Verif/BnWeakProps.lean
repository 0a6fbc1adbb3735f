import Verif.BnPwrProps
import Verif.BnOctetProps

/-
Numbers that may have leading zero limbs.  mln_bignum_os2ip produces such numbers; this file
shows that multiplication, division by a canonical number of at least two limbs, modular power
and mln_bignum_i2osp still compute the right values on them.
-/
set_option maxRecDepth 8000

namespace Verif.Bn

/-- A number whose limbs beyond `length` are zero; the top limb may be zero as well. -/
structure Ok (b : Bn) : Prop where
  size : b.data.length = size
  limbs : ∀ x ∈ b.data, x < B
  below : mag b < B ^ b.length
  len : b.length ≤ 257

theorem wf_ok {b : Bn} (h : Wf b) : Ok b := ⟨h.size, h.limbs, h.below, wf_length_le h⟩

/-! ## Multiplication -/

theorem mulWord_ok {a : Bn} (ha : Ok a) (hl : a.length ≤ 256) (x : Nat) (hx : x < B) :
    ∃ r, mulWord a x = some r ∧ Ok r ∧ mag r = mag a * x ∧ a.length ≤ r.length ∧ r.length ≤ a.length + 1 := by
  have hda : a.data.length = 257 := ha.size
  have htl : (a.data.take a.length).length = a.length := by rw [List.length_take, hda]; omega
  obtain ⟨r, c, e, hrl, hrb, hc, hv⟩ := mulWordLoop_spec x hx (a.data.take a.length) 0 (limbs_take ha.limbs) (by decide)
  rw [htl, nat_take_of_lt a.data a.length ha.below, Nat.add_zero] at hv
  rw [htl] at hrl
  have hv : nat r + B ^ a.length * c = mag a * x := hv
  have hrlt := nat_lt r hrb
  rw [hrl] at hrlt
  unfold mulWord
  simp only [Nat.mod_eq_of_lt hx, e]
  have hdrop := nat_drop_replicate a.data a.length ha.below
  rw [hda] at hdrop
  rw [hdrop, show 257 - a.length = (256 - a.length) + 1 by omega, List.replicate_succ]
  simp only
  by_cases hc0 : c = 0
  · subst hc0
    rw [Nat.mul_zero, Nat.add_zero] at hv
    have hcl : carryLoop 4 0 a.length 0 = some (0, a.length) := rfl
    rw [hcl]
    simp only [Option.bind_eq_bind, Option.bind_some]
    have hm : nat (r ++ 0 :: List.replicate (256 - a.length) 0) = mag a * x := by
      rw [nat_append, nat_cons, nat_replicate, hv]; simp
    refine ⟨_, rfl, ⟨?_, ?_, ?_, ?_⟩, hm, Nat.le_refl _, Nat.le_succ _⟩
    · show (r ++ 0 :: List.replicate (256 - a.length) 0).length = 257
      rw [List.length_append, List.length_cons, List.length_replicate, hrl]; omega
    · exact limbs_append hrb (by rw [← List.replicate_succ]; exact limbs_replicate _)
    · show nat (r ++ 0 :: List.replicate (256 - a.length) 0) < B ^ a.length
      rw [hm]; omega
    · show a.length ≤ 257
      omega
  · have hcl : carryLoop 4 0 a.length c = some (c, a.length + 1) := by
      simp only [carryLoop, Nat.zero_add]
      rw [if_pos hc0, w_of_lt (show c < 18446744073709551616 by omega), Nat.mod_eq_of_lt hc, Nat.div_eq_of_lt hc]
      simp
    rw [hcl]
    simp only [Option.bind_eq_bind, Option.bind_some]
    have hm : nat (r ++ c :: List.replicate (256 - a.length) 0) = mag a * x := by
      rw [nat_append, nat_cons, nat_replicate, Nat.mul_zero, Nat.add_zero, hrl, hv]
    refine ⟨_, rfl, ⟨?_, ?_, ?_, ?_⟩, hm, Nat.le_succ _, Nat.le_refl _⟩
    · show (r ++ c :: List.replicate (256 - a.length) 0).length = 257
      rw [List.length_append, List.length_cons, List.length_replicate, hrl]; omega
    · refine limbs_append hrb ?_
      intro y hy
      rcases List.mem_cons.1 hy with h | hy
      · rw [h]; exact hc
      · exact limbs_replicate _ y hy
    · show nat (r ++ c :: List.replicate (256 - a.length) 0) < B ^ (a.length + 1)
      rw [hm, ← hv, pow_succ]
      have : B ^ a.length * c ≤ B ^ a.length * 4294967295 := Nat.mul_le_mul_left _ (by omega)
      omega
    · show a.length + 1 ≤ 257
      omega

theorem len_one_ok {b : Bn} (hb : Ok b) (h1 : b.length = 1) : ∃ x, b.data[0]? = some x ∧ x = mag b ∧ x < B := by
  have hsz : b.data.length = 257 := hb.size
  refine ⟨b.data[0], List.getElem?_eq_getElem (by omega), ?_⟩
  have h := nat_take_of_lt b.data 1 (by have := hb.below; rw [h1] at this; exact this)
  have h2 := nat_take_succ_top b.data 0 _ (List.getElem?_eq_getElem (show 0 < b.data.length by omega))
  rw [Nat.zero_add, h] at h2
  simp [nat] at h2
  have h3 : mag b = b.data[0] := h2
  exact ⟨h3.symm, hb.limbs _ (List.getElem_mem _)⟩

theorem absCompare_zero {a : Bn} : ∃ c, absCompare a zero = some c ∧ (c = 0 ↔ a.length = 0) := by
  unfold absCompare
  by_cases h : a.length = 0
  · exact ⟨0, by rw [if_neg (by rw [h]; decide), if_pos h], by simp [h]⟩
  · have hz : zero.length = 0 := rfl
    rw [if_pos (by rw [hz]; omega), if_pos (by rw [hz]; omega)]
    exact ⟨1, rfl, by simp [h]⟩

theorem mul_ok {a b : Bn} (ha : Ok a) (hb : Ok b) (hsum : a.length + b.length ≤ 257) (na : a.neg = false) (nb : b.neg = false) :
    ∃ r, mul a b = some r ∧ Ok r ∧ mag r = mag a * mag b ∧ r.neg = false ∧ r.length ≤ a.length + b.length ∧
      (a.length ≠ 0 → b.length ≠ 0 → a.length + b.length ≤ r.length + 1) ∧ (a.length = 0 → b.length ≠ 1 → r = zero) := by
  unfold mul
  simp only
  by_cases hb1 : b.length = 1
  · rw [if_pos hb1]
    obtain ⟨x, ex, hx, hxB⟩ := len_one_ok hb hb1
    obtain ⟨r, er, h1, h2, h3, h4⟩ := mulWord_ok ha (by omega) x hxB
    simp only [ex, er, Option.bind_eq_bind, Option.bind_some]
    rw [hx] at h2
    refine ⟨_, rfl, ⟨h1.size, h1.limbs, h1.below, h1.len⟩, h2, by show xor a.neg b.neg = false; rw [na, nb]; rfl, ?_, fun _ _ => ?_, fun _ h => absurd hb1 h⟩
    · show r.length ≤ _
      omega
    · show _ ≤ r.length + 1
      omega
  · rw [if_neg hb1]
    by_cases ha1 : a.length = 1
    · rw [if_pos ha1]
      obtain ⟨x, ex, hx, hxB⟩ := len_one_ok ha ha1
      obtain ⟨r, er, h1, h2, h3, h4⟩ := mulWord_ok hb (by omega) x hxB
      simp only [ex, er, Option.bind_eq_bind, Option.bind_some]
      rw [hx, Nat.mul_comm] at h2
      refine ⟨_, rfl, ⟨h1.size, h1.limbs, h1.below, h1.len⟩, h2, by show xor a.neg b.neg = false; rw [na, nb]; rfl, ?_, fun _ _ => ?_, fun h _ => by omega⟩
      · show r.length ≤ _
        omega
      · show _ ≤ r.length + 1
        omega
    · rw [if_neg ha1]
      obtain ⟨c1, e1, z1⟩ := absCompare_zero (a := a)
      obtain ⟨c2, e2, z2⟩ := absCompare_zero (a := b)
      simp only [e1, e2, Option.bind_eq_bind, Option.bind_some]
      have z0 : ∀ {c : Bn}, Ok c → c.length = 0 → mag c = 0 := fun hc h => by
        have := hc.below; rw [h, pow_zero] at this; omega
      by_cases hz : c1 = 0 ∨ c2 = 0
      · rw [if_pos hz]
        refine ⟨zero, rfl, wf_ok wf_zero, ?_, rfl, Nat.zero_le _, fun h1 h2 => ?_, fun _ _ => rfl⟩
        · rw [mag_zero]
          rcases hz with h | h
          · rw [z0 ha (z1.1 h), Nat.zero_mul]
          · rw [z0 hb (z2.1 h), Nat.mul_zero]
        · rcases hz with h | h
          · exact absurd (z1.1 h) h1
          · exact absurd (z2.1 h) h2
      · rw [if_neg hz]
        have ha0 : a.length ≠ 0 := fun h => hz (Or.inl (z1.2 h))
        have hb0 : b.length ≠ 0 := fun h => hz (Or.inr (z2.2 h))
        have la := ha.len
        have lb := hb.len
        have hda : a.data.length = 257 := ha.size
        have hdb : b.data.length = 257 := hb.size
        have hbl : (b.data.take b.length).length = b.length := by rw [List.length_take, hdb]; omega
        have hz0 : ∀ x ∈ zero.data, x = 0 := fun x hx => (List.mem_replicate.1 hx).2
        obtain ⟨⟨k, hk⟩, hl, hlim⟩ := mulRows_spec (b.data.take b.length) (limbs_take hb.limbs)
          (by intro hc; rw [hc] at hbl; simp at hbl; omega) (a.data.take a.length) zero.data (limbs_take ha.limbs)
          ⟨fun x hx => by rw [hz0 x (List.mem_of_mem_take hx)]; decide, fun x hx => hz0 x (List.mem_of_mem_drop hx)⟩
        have hz257 : zero.data.length = 257 := List.length_replicate
        rw [nat_take_of_lt a.data a.length ha.below, nat_take_of_lt b.data b.length hb.below, hz257,
          show nat zero.data = 0 from nat_replicate _, Nat.zero_add] at hk
        have hk : nat _ + k * B ^ 257 = mag a * mag b := hk
        have hup : mag a * mag b < B ^ (a.length + b.length) := by
          rw [pow_add]
          exact Nat.mul_lt_mul'' ha.below hb.below
        have hfit : mag a * mag b < B ^ 257 := lt_of_lt_of_le hup (Nat.pow_le_pow_right (by decide) hsum)
        have hk0 : k = 0 := by
          by_contra hne
          have : 1 * B ^ 257 ≤ k * B ^ 257 := Nat.mul_le_mul_right _ (by omega)
          omega
        rw [hk0, Nat.zero_mul, Nat.add_zero] at hk
        rw [hz257] at hl
        generalize mulRows (b.data.take b.length) (a.data.take a.length) zero.data = res at hk hl hlim
        have hpos : (if a.length - 1 + b.length < size then a.length - 1 + b.length else size) = a.length - 1 + b.length := by
          have hsz : size = 257 := rfl
          split
          · rfl
          · omega
        rw [hpos]
        have hneg : xor a.neg b.neg = false := by rw [na, nb]; rfl
        set p := a.length - 1 + b.length with hp
        have hp257 : p < 257 := by omega
        rw [show a.length + b.length = p + 1 by omega] at hup
        by_cases htop : p < size ∧ res[p]?.getD 0 ≠ 0
        · rw [if_pos htop]
          refine ⟨_, rfl, ⟨hl, hlim, ?_, ?_⟩, hk, hneg, ?_, fun _ _ => ?_, fun h => absurd h ha0⟩
          · show nat res < B ^ (p + 1)
            rw [hk]; exact hup
          · show p + 1 ≤ 257
            omega
          · show p + 1 ≤ _
            omega
          · show _ ≤ p + 1 + 1
            omega
        · rw [if_neg htop]
          refine ⟨_, rfl, ⟨hl, hlim, ?_, ?_⟩, hk, hneg, ?_, fun _ _ => ?_, fun h => absurd h ha0⟩
          · show nat res < B ^ p
            have hget : res[p]? = some res[p] := List.getElem?_eq_getElem (by omega)
            have h0 : res[p] = 0 := by
              by_contra hne
              exact htop ⟨by show p < 257; omega, by rw [hget]; exact hne⟩
            rw [← hk] at hup
            rw [← nat_take_of_lt res (p + 1) hup, nat_take_succ_top res p _ hget, h0, Nat.mul_zero, Nat.add_zero]
            have := nat_lt (res.take p) (limbs_take hlim)
            rwa [List.length_take, Nat.min_eq_left (by omega)] at this
          · show p ≤ 257
            omega
          · show p ≤ _
            omega
          · show _ ≤ p + 1
            omega

/-! ## Division -/

theorem long_ok {a b : Bn} (ha : Ok a) (hb : Wf b) (k : Nat) (hk : b.length = k + 2) (hle : b.length ≤ a.length) (hal : a.length ≤ 256)
    (t : Nat) (ht : b.data[b.length - 1]? = some t) :
    ∃ pd ps pd' qs qtop r rlen, nmul a.data (B / w (t + 1)) (a.length + 1) a.length = some pd ∧
      nmul b.data (B / w (t + 1)) b.length b.length = some ps ∧
      divLoop (ps ++ [0]) b.length (a.length - b.length + 1) pd = some (pd', qs) ∧ qs[a.length - b.length]? = some qtop ∧
      ndiv pd' (B / w (t + 1)) b.length = some (r, rlen) ∧
      r.length = b.length ∧ (∀ x ∈ r, x < B) ∧
      mag a = nat qs * mag b + nat r ∧ nat r < mag b ∧ nat r < B ^ rlen ∧ (rlen = 0 ∨ B ^ (rlen - 1) ≤ nat r) ∧ rlen ≤ b.length := by
  have hsz : size = 257 := rfl
  have hbl := wf_length_le hb
  obtain ⟨t', ht', ht1, htB, htl, htu⟩ := top_limb hb (by omega)
  rw [ht] at ht'
  have htt : t = t' := Option.some.inj ht'
  rw [← htt] at ht1 htB htl htu
  rw [w_of_lt (show t + 1 < 18446744073709551616 by omega)]
  obtain ⟨hd1, hdB, hdn, hdm⟩ := normalise t ht1 htB
  generalize B / (t + 1) = d at *
  obtain ⟨pd, epd, hpdl, hpdb, kp, hpd⟩ := nmul_spec a.data d (a.length + 1) a.length hdB ha.limbs (by rw [ha.size]; omega) (by omega)
    (fun h => ⟨by rw [ha.size]; omega, by
      rw [nat_take_of_lt a.data a.length ha.below, nat_take_of_lt a.data (a.length + 1)]
      exact lt_of_lt_of_le ha.below (Nat.pow_le_pow_right (by decide) (by omega))⟩)
  rw [nat_take_of_lt a.data a.length ha.below] at hpd
  have hpd : nat pd + kp * B ^ (a.length + 1) = d * mag a := hpd
  have hda : d * mag a < B ^ (a.length + 1) := by
    rw [pow_succ, Nat.mul_comm (B ^ a.length)]
    exact Nat.mul_lt_mul'' hdB ha.below
  have hkp : kp = 0 := by
    by_contra hne
    have : 1 * B ^ (a.length + 1) ≤ kp * B ^ (a.length + 1) := Nat.mul_le_mul_right _ (by omega)
    omega
  rw [hkp, Nat.zero_mul, Nat.add_zero] at hpd
  obtain ⟨ps, eps, hpsl, hpsb, kq, hps⟩ := nmul_spec b.data d b.length b.length hdB hb.limbs (by rw [hb.size]; omega) (le_refl _)
    (fun _ => ⟨by rw [hb.size]; omega, rfl⟩)
  rw [nat_take_of_lt b.data b.length hb.below] at hps
  have hps : nat ps + kq * B ^ b.length = d * mag b := hps
  have hdb : d * mag b < B ^ b.length := by
    have h1 : d * mag b < d * ((t + 1) * B ^ (b.length - 1)) := Nat.mul_lt_mul_of_pos_left htu hd1
    have h2 : d * ((t + 1) * B ^ (b.length - 1)) ≤ B * B ^ (b.length - 1) := by
      rw [← Nat.mul_assoc]; exact Nat.mul_le_mul_right _ hdm
    have h3 : B * B ^ (b.length - 1) = B ^ b.length := by
      rw [Nat.mul_comm, ← pow_succ]; congr 1; omega
    rw [h3] at h2
    exact lt_of_lt_of_le h1 h2
  have hkq : kq = 0 := by
    by_contra hne
    have : 1 * B ^ b.length ≤ kq * B ^ b.length := Nat.mul_le_mul_right _ (by omega)
    omega
  rw [hkq, Nat.zero_mul, Nat.add_zero] at hps
  have hpsl' : ps.length = k + 2 := by rw [hpsl, hk]
  obtain ⟨v1, ev1⟩ : ∃ x, ps[k + 1]? = some x := ⟨_, List.getElem?_eq_getElem (by omega)⟩
  have hv1 : 2147483648 ≤ v1 := by
    have e1 := nat_take_succ_top ps (k + 1) v1 ev1
    rw [List.take_of_length_le (by omega), hps] at e1
    have hlow := nat_lt (ps.take (k + 1)) (limbs_take hpsb)
    rw [List.length_take, Nat.min_eq_left (by omega)] at hlow
    by_contra hc
    have h1 : B ^ (k + 1) * (v1 + 1) ≤ B ^ (k + 1) * 2147483648 := Nat.mul_le_mul_left _ (by omega)
    have h2 : d * (t * B ^ (b.length - 1)) ≤ d * mag b := Nat.mul_le_mul_left _ htl
    rw [show b.length - 1 = k + 1 by omega, ← Nat.mul_assoc] at h2
    have h3 : 2147483648 * B ^ (k + 1) ≤ d * t * B ^ (k + 1) := Nat.mul_le_mul_right _ hdn
    rw [Nat.mul_add, Nat.mul_one] at h1
    generalize B ^ (k + 1) * v1 = y at *
    generalize d * t * B ^ (k + 1) = z at *
    generalize d * mag b = s at *
    generalize B ^ (k + 1) = X at *
    omega
  have hmagb : B ^ (b.length - 1) ≤ mag b := by
    rcases hb.top with h | h
    · omega
    · exact h
  have hinv : nat (pd.drop (a.length - b.length + 1)) < nat ps := by
    have e1 := nat_take_drop pd (a.length - b.length + 1) (by omega)
    rw [hpd] at e1
    rw [hps]
    by_contra hc
    have h1 : B ^ (a.length - b.length + 1) * (d * mag b) ≤ B ^ (a.length - b.length + 1) * nat (pd.drop (a.length - b.length + 1)) :=
      Nat.mul_le_mul_left _ (by omega)
    have h2 : d * (B ^ (a.length - b.length + 1) * B ^ (b.length - 1)) ≤ d * (B ^ (a.length - b.length + 1) * mag b) :=
      Nat.mul_le_mul_left _ (Nat.mul_le_mul_left _ hmagb)
    rw [← pow_add, show a.length - b.length + 1 + (b.length - 1) = a.length by omega] at h2
    have h3 : d * mag a < d * B ^ a.length := Nat.mul_lt_mul_of_pos_left ha.below hd1
    have h4 : B ^ (a.length - b.length + 1) * (d * mag b) = d * (B ^ (a.length - b.length + 1) * mag b) := by ring
    rw [h4] at h1
    exact absurd (lt_of_lt_of_le h3 h2) (by
      have : d * (B ^ (a.length - b.length + 1) * mag b) ≤ d * mag a := by
        rw [e1]; exact le_trans h1 (Nat.le_add_left _ _)
      exact not_lt.2 this)
  obtain ⟨pd', qs, eloop, hpl', hpb', hql, hqb, hv, hrem⟩ := divLoop_spec ps k hpsl' hpsb v1 ev1 hv1 (a.length - b.length + 1) pd hpdb (by omega) hinv
  rw [hpd, hps] at hv
  rw [hps] at hrem
  have hdvd : nat qs * (d * mag b) = d * (nat qs * mag b) := by ring
  rw [hdvd] at hv
  have hqle : nat qs * mag b ≤ mag a := by
    by_contra hc
    have : d * mag a < d * (nat qs * mag b) := Nat.mul_lt_mul_of_pos_left (by omega) hd1
    omega
  have hR : nat pd' = d * (mag a - nat qs * mag b) := by rw [Nat.mul_sub]; omega
  obtain ⟨r, rlen, er, hrl, hrb, hr, hr1, hr2, hr3⟩ := ndiv_spec pd' d b.length (mag a - nat qs * mag b) hd1 hdB hpb' (by omega) hR (lt_trans hrem hdb)
  have hrlt : mag a - nat qs * mag b < mag b := by
    rw [hR] at hrem
    exact Nat.lt_of_mul_lt_mul_left hrem
  obtain ⟨qtop, eqt⟩ : ∃ x, qs[a.length - b.length]? = some x := ⟨_, List.getElem?_eq_getElem (by omega)⟩
  have hsum : mag a = nat qs * mag b + nat r := by rw [hr]; omega
  exact ⟨pd, ps, pd', qs, qtop, r, rlen, epd, eps, by rw [← hk] at eloop; exact eloop, eqt, er, hrl, hrb, hsum, by rw [hr]; exact hrlt,
    by rw [hr]; exact hr1, by rw [hr]; exact hr2, hr3⟩

theorem reduce_ok {m d : Bn} (hm : Wf m) (hd : Ok d) (h2 : 2 ≤ m.length) (hpos : m.neg = false) (hdn : d.neg = false) (hl : d.length ≤ 256) :
    ∃ r, reduce m d = some (some r) ∧ Ok r ∧ mag r = mag d % mag m ∧ r.neg = false ∧ r.length ≤ m.length ∧
      (m.length < d.length ∨ Wf d → Wf r) := by
  have hsz : size = 257 := rfl
  have hml := wf_length_le hm
  have hmt : B ^ (m.length - 1) ≤ mag m := hm.top.resolve_left (by omega)
  unfold reduce
  by_cases h : d.length ≥ m.length
  · rw [if_pos h]
    unfold div
    simp only
    rw [if_neg (by omega), if_neg (by omega)]
    have long : ∃ r, (match (do
        let dlen := d.length
        let slen := m.length
        let top ← m.data[slen - 1]?
        let d1 := B / (w (top + 1))
        let pd ← nmul d.data d1 (dlen + 1) dlen
        let ps ← nmul m.data d1 slen slen
        let (pd, qs) ← divLoop (ps ++ [0]) slen (dlen - slen + 1) pd
        let qtop ← qs[dlen - slen]?
        let (r, rlen) ← ndiv pd d1 slen
        some (some ((⟨xor d.neg m.neg, rlen, r ++ List.replicate (size - slen) 0⟩ : Bn),
          (⟨xor d.neg m.neg, if qtop ≠ 0 then dlen - slen + 1 else dlen - slen, qs ++ List.replicate (size - (dlen - slen + 1)) 0⟩ : Bn)))
          : Option (Option (Bn × Bn))) with
        | none => none
        | some none => some none
        | some (some (d, _)) => some (some d)) = some (some r) ∧ Wf r ∧ mag r = mag d % mag m ∧ r.neg = false ∧ r.length ≤ m.length := by
      obtain ⟨t, ht, -⟩ := top_limb hm (by omega)
      obtain ⟨pd, ps, pd', qs, qtop, r, rlen, e1, e2, e3, e4, e5, hrl, hrb, hsum, hlt, hr1, hr2, hr3⟩ :=
        long_ok hd hm (m.length - 2) (by omega) h hl t ht
      have w1 := wf_mk (xor d.neg m.neg) rlen (size - m.length) r (by omega) hrb hr1 hr2
      simp only [Option.bind_eq_bind, ht, Option.bind_some, e1, e2, e3, e4, e5]
      refine ⟨_, rfl, w1.1, ?_, by show xor d.neg m.neg = false; rw [hdn, hpos]; rfl, hr3⟩
      rw [w1.2, hsum, Nat.mul_comm, Nat.mul_add_mod, Nat.mod_eq_of_lt hlt]
    obtain ⟨r, er, wr, vr, nr, lr⟩ := long
    by_cases hgt : d.length > m.length
    · have hc : absCompare d m = some 1 := by
        unfold absCompare
        rw [if_pos (by omega), if_pos hgt]
      refine ⟨r, ?_, wf_ok wr, vr, nr, lr, fun _ => wr⟩
      rw [hc]
      simp only [Option.bind_eq_bind, Option.bind_some] at er ⊢
      rw [if_neg (by decide), if_neg (by decide)]
      revert er
      generalize (m.data[m.length - 1]?.bind _ : Option (Option (Bn × Bn))) = v
      rcases v with _ | _ | ⟨a, b⟩ <;> intro er <;> simpa using er
    · have heq : d.length = m.length := by omega
      obtain ⟨c, ec, c1, c2, c3⟩ := cmpLoop_spec d.data m.data hd.limbs hm.limbs d.length (by rw [hd.size]; omega) (by rw [hm.size]; omega)
      rw [nat_take_of_lt d.data d.length hd.below, nat_take_of_lt m.data d.length (by rw [heq]; exact hm.below)] at c1 c2 c3
      have hc : absCompare d m = some c := by
        unfold absCompare
        rw [if_neg (by omega), if_neg (by omega)]
        exact ec
      rw [hc]
      simp only [Option.bind_eq_bind, Option.bind_some]
      by_cases hc0 : c = 0
      · rw [if_pos hc0]
        refine ⟨zero, rfl, wf_ok wf_zero, ?_, rfl, Nat.zero_le _, fun _ => wf_zero⟩
        have : mag d = mag m := c1.1 hc0
        rw [mag_zero, this, Nat.mod_self]
      · rw [if_neg hc0]
        by_cases hcn : c < 0
        · rw [if_pos hcn]
          have hlt : mag d < mag m := c2.1 hcn
          refine ⟨_, rfl, ⟨hd.size, hd.limbs, hd.below, hd.len⟩, ?_, by show xor d.neg m.neg = false; rw [hdn, hpos]; rfl, by show d.length ≤ _; omega, ?_⟩
          · rw [Nat.mod_eq_of_lt hlt]; rfl
          · rintro (h | h)
            · omega
            · exact wf_neg h _
        · rw [if_neg hcn]
          refine ⟨r, ?_, wf_ok wr, vr, nr, lr, fun _ => wr⟩
          simp only [Option.bind_eq_bind] at er
          revert er
          generalize (m.data[m.length - 1]?.bind _ : Option (Option (Bn × Bn))) = v
          rcases v with _ | _ | ⟨a, b⟩ <;> intro er <;> simpa using er
  · rw [if_neg h]
    have hlt : mag d < mag m := lt_of_lt_of_le (lt_of_lt_of_le hd.below (Nat.pow_le_pow_right (by decide) (by omega))) hmt
    refine ⟨d, rfl, hd, (Nat.mod_eq_of_lt hlt).symm, hdn, by omega, ?_⟩
    rintro (h | h)
    · omega
    · exact h

/-! ## Modular power -/

/-- Reduced results: below the modulus, and canonical if `G`. -/
structure Red (m : Bn) (G : Prop) (d : Bn) : Prop where
  lt : mag d < mag m
  len : d.length ≤ m.length
  canon : G → Wf d

theorem wf_mul {a b : Bn} (ha : Wf a) (hb : Wf b) (hs : a.length + b.length ≤ 257) {r : Bn} (e : mul a b = some r) : Wf r := by
  have hup : mag a * mag b < B ^ (a.length + b.length) := by
    rw [pow_add]
    exact Nat.mul_lt_mul'' ha.below hb.below
  obtain ⟨r', e', hr, -⟩ := mul_spec a b ha hb (lt_of_lt_of_le hup (Nat.pow_le_pow_right (by decide) hs))
  rw [e] at e'
  rw [Option.some.inj e']
  exact hr

theorem mod_pos {m : Bn} (hm : Wf m) (h2 : 2 ≤ m.length) : 0 < mag m :=
  lt_of_lt_of_le (Nat.pow_pos (by decide)) (hm.top.resolve_left (by omega))

theorem pwrModLoop_ok {e m x : Bn} (he : Wf e) (hm : Wf m) (hx : Ok x) (h2 : 2 ≤ m.length) (hpos : m.neg = false) (hxn : x.neg = false)
    (hxl : x.length ≤ 128) (hml : m.length ≤ 128) : ∀ (n : Nat) (d : Bn), n ≤ 8224 → Ok d → d.neg = false → d.length ≤ 128 →
      (d = x ∨ Red m (Wf x ∨ m.length < x.length) d) → mag d % mag m = mag x ^ (mag e / 2 ^ n) % mag m →
      ∃ r, pwrModLoop e m x n d = some (some r) ∧ Ok r ∧ r.neg = false ∧ mag r % mag m = mag x ^ mag e % mag m ∧
        (n ≠ 0 ∨ Red m (Wf x ∨ m.length < x.length) d → Red m (Wf x ∨ m.length < x.length) r) := by
  have hmp := mod_pos hm h2
  intro n
  induction n with
  | zero =>
    intro d _ hd hdn _ _ hv
    rw [pow_zero, Nat.div_one] at hv
    exact ⟨d, rfl, hd, hdn, hv, fun h => by simpa using h⟩
  | succ n ih =>
    intro d hn hd hdn hdl hst hv
    obtain ⟨d1, e1, w1, v1, n1, l1, u1, -⟩ := mul_ok hd hd (by omega) hdn hdn
    obtain ⟨d2, e2, w2, v2, n2, l2, c2⟩ := reduce_ok hm w1 h2 hpos n1 (by omega)
    have r2 : Red m (Wf x ∨ m.length < x.length) d2 := by
      refine ⟨by rw [v2]; exact Nat.mod_lt _ hmp, l2, fun G => c2 ?_⟩
      rcases hst with rfl | hst
      · rcases G with G | G
        · exact Or.inr (wf_mul G G (by omega) e1)
        · left
          have := u1 (by omega) (by omega)
          omega
      · exact Or.inr (wf_mul (hst.canon G) (hst.canon G) (by omega) e1)
    have hsq : mag d2 % mag m = mag x ^ (2 * (mag e / 2 ^ (n + 1))) % mag m := by
      rw [v2, Nat.mod_mod, v1, Nat.mul_mod, hv, ← Nat.mul_mod, ← pow_add, Nat.two_mul]
    have hbit := div_bit (mag e) n
    unfold pwrModLoop
    rw [e1, bsome, e2, bsome]
    simp only
    rw [bitTest_spec he n (by omega), bsome]
    by_cases hb : (mag e).testBit n = true
    · rw [if_pos hb]
      rw [hb] at hbit
      obtain ⟨d3, e3, w3, v3, n3, l3, u3, z3⟩ := mul_ok w2 hx (by omega) n2 hxn
      obtain ⟨d4, e4, w4, v4, n4, l4, c4⟩ := reduce_ok hm w3 h2 hpos n3 (by omega)
      have r4 : Red m (Wf x ∨ m.length < x.length) d4 := by
        refine ⟨by rw [v4]; exact Nat.mod_lt _ hmp, l4, fun G => c4 ?_⟩
        rcases G with G | G
        · exact Or.inr (wf_mul (r2.canon (Or.inl G)) G (by omega) e3)
        · by_cases h0 : d2.length = 0
          · right
            rw [z3 h0 (by omega)]; exact wf_zero
          · left
            have := u3 h0 (by omega)
            omega
      rw [e3, bsome, e4, bsome]
      simp only
      obtain ⟨r, er, wr, nr, vr, cr⟩ := ih d4 (by omega) w4 n4 (by omega) (Or.inr r4) (by
        rw [v4, Nat.mod_mod, v3, Nat.mul_mod, hsq, ← Nat.mul_mod, hbit, show true.toNat = 1 from rfl, pow_succ (mag x)])
      exact ⟨r, er, wr, nr, vr, fun _ => cr (Or.inr r4)⟩
    · rw [if_neg hb]
      have hb : (mag e).testBit n = false := by simpa using hb
      rw [hb] at hbit
      obtain ⟨r, er, wr, nr, vr, cr⟩ := ih d2 (by omega) w2 n2 (by omega) (Or.inr r2) (by
        rw [hbit, show false.toNat = 0 from rfl, Nat.add_zero]; exact hsq)
      exact ⟨r, er, wr, nr, vr, fun _ => cr (Or.inr r2)⟩

/-- Modular power with an exponent of at least two, for a base that may have leading zeros. -/
theorem pwr_ok {e m x : Bn} (he : Wf e) (hm : Wf m) (hx : Ok x) (hen : e.neg = false) (he2 : 2 ≤ mag e) (h2 : 2 ≤ m.length) (hpos : m.neg = false)
    (hxn : x.neg = false) (hxl : x.length ≤ 128) (hml : m.length ≤ 128) :
    ∃ r, pwr x e (some m) = some (some r) ∧ Ok r ∧ r.neg = false ∧ mag r = mag x ^ mag e % mag m ∧ r.length ≤ m.length ∧
      (Wf x ∨ m.length < x.length → Wf r) := by
  have hel := wf_length_le he
  obtain ⟨i, ei, hi, h0, h1⟩ := topBit_spec he (e.length * 32) (by omega) (wf_bits he)
  have hi0 : i ≠ 0 := fun h => by have := h0.1 h; omega
  unfold pwr
  rw [hen]
  simp only [Bool.false_eq_true, if_false]
  rw [ei, bsome, if_neg hi0]
  obtain ⟨r, er, wr, nr, vr, cr⟩ := pwrModLoop_ok he hm hx h2 hpos hxn hxl hml (i - 1) x (by omega) hx hxn hxl (Or.inl rfl)
    (by rw [h1 hi0, pow_one])
  have red := cr (Or.inl (fun hc => by
    have := h1 hi0
    rw [hc, pow_zero, Nat.div_one] at this
    omega))
  refine ⟨r, er, wr, nr, ?_, red.len, red.canon⟩
  rw [← vr, Nat.mod_eq_of_lt red.lt]

/-! ## Octets -/

theorem i2osp_ok {n : Bn} (hn : Ok n) (len : Nat) (h1 : n.neg = false) (h2 : n.length * 4 ≤ len) :
    ∃ bs, i2osp n len = some (some bs) ∧ bs.length = len ∧ (∀ x ∈ bs, x < 256) ∧ octets bs = mag n := by
  have hl := hn.len
  have hsz : size = 257 := rfl
  unfold i2osp
  rw [if_neg (by rw [h1]; simp; omega), if_neg (by rw [hn.size]; omega)]
  obtain ⟨i1, i2, i3⟩ := le_limbs (n.data.take n.length) (limbs_take hn.limbs)
  refine ⟨_, rfl, ?_, ?_, ?_⟩
  · rw [List.length_append, List.length_replicate, i3, List.length_take, hn.size]; omega
  · intro x hx
    rcases List.mem_append.1 hx with h | h
    · rw [(List.mem_replicate.1 h).2]; decide
    · exact i2 x h
  · rw [octets_eq, List.reverse_append, le_append, i1, List.reverse_replicate, le_replicate, Nat.mul_zero, Nat.add_zero]
    exact nat_take_of_lt _ _ hn.below

end Verif.Bn
