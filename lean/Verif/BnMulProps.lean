import Verif.BnAddProps

/-
Multiplication of bignums: C32.
-/
namespace Verif.Bn

/-! ## By one limb -/

theorem mulWordLoop_spec (x : Nat) (hx : x < B) : ∀ (ds : List Nat) (c : Nat), (∀ y ∈ ds, y < B) → c < B →
    ∃ r c', mulWordLoop x ds c = (r, c') ∧ r.length = ds.length ∧ (∀ y ∈ r, y < B) ∧ c' < B ∧
      nat r + B ^ ds.length * c' = nat ds * x + c := by
  intro ds
  induction ds with
  | nil => intro c _ hc; exact ⟨[], c, rfl, rfl, by simp, hc, by simp [nat]⟩
  | cons d ds ih =>
    intro c h hc
    have hd := h d (by simp)
    have hle : d * x ≤ 4294967295 * 4294967295 := Nat.mul_le_mul (by omega) (by omega)
    simp only [mulWordLoop]
    rw [w_of_lt (show d * x < 18446744073709551616 by omega), w_of_lt (show d * x + c < 18446744073709551616 by omega)]
    obtain ⟨r, c', e, hl, hr, hc', hv⟩ := ih ((d * x + c) / B) (fun y hy => h y (by simp [hy])) (by omega)
    rw [e]
    refine ⟨_, c', rfl, by simp [hl], ?_, hc', ?_⟩
    · intro y hy
      rcases List.mem_cons.1 hy with h | hy
      · rw [h]; exact Nat.mod_lt _ (by decide)
      · exact hr y hy
    · simp only [nat_cons, List.length_cons, pow_succ]
      have e1 : B ^ ds.length * B * c' = B * (B ^ ds.length * c') := by ring
      have e2 : (d + B * nat ds) * x = d * x + B * (nat ds * x) := by ring
      rw [e1, e2]
      generalize B ^ ds.length * c' = z at hv
      generalize nat ds * x = y at hv
      have := Nat.div_add_mod (d * x + c) B
      generalize d * x = t at *
      omega

/-- Multiplication by one non-zero limb that fits. -/
theorem mulWord_spec (a : Bn) (ha : Wf a) (x : Nat) (hx : x < B) (h0 : x ≠ 0) (hfit : mag a * x < B ^ 257) :
    ∃ r, mulWord a x = some r ∧ Wf r ∧ mag r = mag a * x := by
  have la := wf_length_le ha
  have hda : a.data.length = 257 := ha.size
  have htl : (a.data.take a.length).length = a.length := by rw [List.length_take, hda]; omega
  obtain ⟨r, c, e, hrl, hrb, hc, hv⟩ := mulWordLoop_spec x hx (a.data.take a.length) 0 (limbs_take ha.limbs) (by decide)
  rw [htl, nat_take_of_lt a.data a.length ha.below, Nat.add_zero] at hv
  rw [htl] at hrl
  have hv : nat r + B ^ a.length * c = mag a * x := hv
  have hrlt := nat_lt r hrb
  rw [hrl] at hrlt
  have hge : mag a ≤ mag a * x := Nat.le_mul_of_pos_right _ (by omega)
  unfold mulWord
  simp only [Nat.mod_eq_of_lt hx, e]
  have hdrop := nat_drop_replicate a.data a.length ha.below
  rw [hda] at hdrop
  rw [hdrop]
  by_cases hl : a.length = 257
  · rw [hl, Nat.sub_self]
    simp only [List.replicate_zero]
    rw [hl] at hv hrl
    have hc0 : c = 0 := by
      by_contra hne
      have : B ^ 257 * 1 ≤ B ^ 257 * c := Nat.mul_le_mul_left _ (by omega)
      omega
    rw [hc0, Nat.mul_zero, Nat.add_zero] at hv
    refine ⟨_, rfl, ⟨hrl, hrb, ?_, Or.inr ?_⟩, hv⟩
    · show nat r < B ^ 257
      rw [hv]; exact hfit
    · show B ^ (257 - 1) ≤ nat r
      rcases ha.top with h | h
      · omega
      · rw [hl] at h
        have h : B ^ (257 - 1) ≤ mag a := h
        rw [hv]; exact le_trans h hge
  · rw [show 257 - a.length = (256 - a.length) + 1 by omega, List.replicate_succ]
    simp only
    by_cases hc0 : c = 0
    · subst hc0
      rw [Nat.mul_zero, Nat.add_zero] at hv
      have hcl : carryLoop 4 0 a.length 0 = some (0, a.length) := rfl
      rw [hcl]
      simp only [Option.bind_eq_bind, Option.bind_some]
      have hm : nat (r ++ 0 :: List.replicate (256 - a.length) 0) = mag a * x := by
        rw [nat_append, nat_cons, nat_replicate, hv]; simp
      refine ⟨_, rfl, ⟨?_, ?_, ?_, ?_⟩, hm⟩
      · show (r ++ 0 :: List.replicate (256 - a.length) 0).length = 257
        rw [List.length_append, List.length_cons, List.length_replicate, hrl]; omega
      · exact limbs_append hrb (by rw [← List.replicate_succ]; exact limbs_replicate _)
      · show nat (r ++ 0 :: List.replicate (256 - a.length) 0) < B ^ a.length
        rw [hm]; omega
      · show a.length = 0 ∨ B ^ (a.length - 1) ≤ nat (r ++ 0 :: List.replicate (256 - a.length) 0)
        rw [hm]
        rcases ha.top with h | h
        · exact Or.inl h
        · exact Or.inr (le_trans h hge)
    · have hcl : carryLoop 4 0 a.length c = some (c, a.length + 1) := by
        simp only [carryLoop, Nat.zero_add]
        rw [if_pos hc0, w_of_lt (show c < 18446744073709551616 by omega), Nat.mod_eq_of_lt hc, Nat.div_eq_of_lt hc]
        simp
      rw [hcl]
      simp only [Option.bind_eq_bind, Option.bind_some]
      have hm : nat (r ++ c :: List.replicate (256 - a.length) 0) = mag a * x := by
        rw [nat_append, nat_cons, nat_replicate, Nat.mul_zero, Nat.add_zero, hrl, hv]
      have hcc : B ^ a.length * 1 ≤ B ^ a.length * c := Nat.mul_le_mul_left _ (by omega)
      refine ⟨_, rfl, ⟨?_, ?_, ?_, Or.inr ?_⟩, hm⟩
      · show (r ++ c :: List.replicate (256 - a.length) 0).length = 257
        rw [List.length_append, List.length_cons, List.length_replicate, hrl]; omega
      · refine limbs_append hrb ?_
        intro y hy
        rcases List.mem_cons.1 hy with h | hy
        · rw [h]; exact hc
        · exact limbs_replicate _ y hy
      · show nat (r ++ c :: List.replicate (256 - a.length) 0) < B ^ (a.length + 1)
        rw [hm, ← hv, pow_succ]
        have : B ^ a.length * c ≤ B ^ a.length * 4294967295 := Nat.mul_le_mul_left _ (by omega)
        omega
      · show B ^ (a.length + 1 - 1) ≤ nat (r ++ c :: List.replicate (256 - a.length) 0)
        rw [hm, ← hv, Nat.add_sub_cancel]; omega

/-! ## General case -/

/-- The first `n` limbs are in range, the others are zero. -/
def TailOk (n : Nat) (rs : List Nat) : Prop := (∀ x ∈ rs.take n, x < B) ∧ (∀ x ∈ rs.drop n, x = 0)

/-- What a row needs: the current limb may hold a carry on top of a limb. -/
def RowOk : Nat → List Nat → Prop
  | _, [] => True
  | 0, r :: rs => r < B ∧ ∀ x ∈ rs, x = 0
  | n + 1, r :: rs => r ≤ 8589934590 ∧ TailOk n rs

theorem rowOk_bump (n : Nat) (rs : List Nat) (c : Nat) (hc : c < B) (h : TailOk n rs) : RowOk n (bump rs c) := by
  cases rs with
  | nil => cases n <;> simp [bump, RowOk]
  | cons x xs =>
    cases n with
    | zero =>
      have hx : x = 0 := h.2 x (by simp)
      have hxs : ∀ y ∈ xs, y = 0 := fun y hy => h.2 y (by simp [hy])
      simp only [bump, RowOk]
      rw [hx, Nat.zero_add, w_of_lt (show c < 18446744073709551616 by omega)]
      exact ⟨hc, hxs⟩
    | succ n =>
      have hx : x < B := h.1 x (by simp)
      simp only [bump, RowOk]
      rw [w_of_lt (show x + c < 18446744073709551616 by omega)]
      refine ⟨by omega, ?_, ?_⟩
      · intro y hy; exact h.1 y (by simp [hy])
      · intro y hy; exact h.2 y (by simpa using hy)

theorem bump_spec (n : Nat) (rs : List Nat) (c : Nat) (hc : c < B) (h : TailOk n rs) :
    ∃ k, nat (bump rs c) + k * B ^ rs.length = nat rs + c ∧ (bump rs c).length = rs.length := by
  cases rs with
  | nil => exact ⟨c, by simp [bump, nat], rfl⟩
  | cons x xs =>
    refine ⟨0, ?_, rfl⟩
    have hx : x < B := by
      cases n with
      | zero => rw [h.2 x (by simp)]; decide
      | succ n => exact h.1 x (by simp)
    simp only [bump, nat_cons]
    rw [w_of_lt (show x + c < 18446744073709551616 by omega)]
    omega

theorem mulRow_spec (d : Nat) (hd : d < B) : ∀ (ss rs : List Nat), (∀ x ∈ ss, x < B) → RowOk ss.length rs →
    (∃ k, nat (mulRow d ss rs) + k * B ^ rs.length = nat rs + d * nat ss) ∧ (mulRow d ss rs).length = rs.length ∧
    (∀ x ∈ mulRow d ss rs, x < B) ∧ (∀ x ∈ (mulRow d ss rs).drop (ss.length + 1), x = 0) := by
  intro ss
  induction ss with
  | nil =>
    intro rs _ h
    cases rs with
    | nil => exact ⟨⟨0, by simp [mulRow, nat]⟩, rfl, by simp [mulRow], by simp [mulRow]⟩
    | cons r rs =>
      refine ⟨⟨0, by simp [mulRow, nat]⟩, rfl, ?_, ?_⟩
      · intro x hx
        simp only [mulRow] at hx
        rcases List.mem_cons.1 hx with h' | hx
        · rw [h']; exact h.1
        · rw [h.2 x hx]; decide
      · intro x hx
        simp only [mulRow, List.length_nil, Nat.zero_add, List.drop_succ_cons, List.drop_zero] at hx
        exact h.2 x hx
  | cons s ss ih =>
    intro rs hss h
    cases rs with
    | nil => exact ⟨⟨d * nat (s :: ss), by simp [mulRow, nat]⟩, rfl, by simp [mulRow], by simp [mulRow]⟩
    | cons r rs =>
      have hs := hss s (by simp)
      have hle : d * s ≤ 4294967295 * 4294967295 := Nat.mul_le_mul (by omega) (by omega)
      have hr : r ≤ 8589934590 := h.1
      have hok : TailOk ss.length rs := h.2
      simp only [mulRow]
      rw [w_of_lt (show d * s < 18446744073709551616 by omega), w_of_lt (show d * s + r < 18446744073709551616 by omega)]
      have hc : (d * s + r) / B < B := by omega
      obtain ⟨k', hb, hbl⟩ := bump_spec ss.length rs _ hc hok
      obtain ⟨⟨k, hk⟩, hl, hlim, hz⟩ := ih (bump rs ((d * s + r) / B)) (fun x hx => hss x (by simp [hx])) (rowOk_bump _ _ _ hc hok)
      rw [hbl] at hk hl
      refine ⟨⟨k + k', ?_⟩, by simp [hl], ?_, ?_⟩
      · simp only [nat_cons, List.length_cons, pow_succ]
        have e1 : (k + k') * (B ^ rs.length * B) = B * (k * B ^ rs.length) + B * (k' * B ^ rs.length) := by ring
        have e2 : d * (s + B * nat ss) = d * s + B * (d * nat ss) := by ring
        rw [e1, e2]
        have := Nat.div_add_mod (d * s + r) B
        generalize k * B ^ rs.length = u at *
        generalize k' * B ^ rs.length = v at *
        generalize d * nat ss = y at *
        generalize d * s = t at *
        omega
      · intro x hx
        rcases List.mem_cons.1 hx with h' | hx
        · rw [h']; exact Nat.mod_lt _ (by decide)
        · exact hlim x hx
      · intro x hx
        simp only [List.length_cons, List.drop_succ_cons] at hx
        exact hz x hx

theorem mulRows_spec (ss : List Nat) (hss : ∀ x ∈ ss, x < B) (hne : ss ≠ []) : ∀ (ds res : List Nat), (∀ x ∈ ds, x < B) → TailOk ss.length res →
    (∃ k, nat (mulRows ss ds res) + k * B ^ res.length = nat res + nat ds * nat ss) ∧ (mulRows ss ds res).length = res.length ∧
    (∀ x ∈ mulRows ss ds res, x < B) := by
  intro ds
  induction ds with
  | nil =>
    intro res _ h
    refine ⟨⟨0, by simp [mulRows, nat]⟩, rfl, ?_⟩
    intro x hx
    simp only [mulRows] at hx
    rw [← List.take_append_drop ss.length res] at hx
    rcases List.mem_append.1 hx with hx | hx
    · exact h.1 x hx
    · rw [h.2 x hx]; decide
  | cons d ds ih =>
    intro res hds h
    have hd := hds d (by simp)
    have hrow : RowOk ss.length res := by
      cases ss with
      | nil => exact absurd rfl hne
      | cons s ss =>
        cases res with
        | nil => exact True.intro
        | cons r rs =>
          have hr : r < B := h.1 r (by simp)
          refine ⟨by omega, ?_, ?_⟩
          · intro y hy; exact h.1 y (by simp [hy])
          · intro y hy; exact h.2 y (by simpa using hy)
    obtain ⟨⟨k, hk⟩, hl, hlim, hz⟩ := mulRow_spec d hd ss res hss hrow
    unfold mulRows
    cases hm : mulRow d ss res with
    | nil =>
      rw [hm] at hl
      simp only
      have : res = [] := List.eq_nil_of_length_eq_zero (by rw [← hl]; rfl)
      subst this
      exact ⟨⟨nat (d :: ds) * nat ss, by simp [nat]⟩, rfl, by simp⟩
    | cons r rs =>
      rw [hm] at hk hl hlim hz
      simp only
      obtain ⟨⟨k2, hk2⟩, hl2, hlim2⟩ := ih rs (fun x hx => hds x (by simp [hx])) ⟨fun x hx => hlim x (by simp [List.mem_of_mem_take hx]), fun x hx => hz x (by simpa using hx)⟩
      have hrl : res.length = rs.length + 1 := by rw [← hl]; rfl
      refine ⟨⟨k + k2, ?_⟩, by rw [List.length_cons, hl2, hrl], ?_⟩
      · rw [hrl] at hk ⊢
        simp only [nat_cons, pow_succ] at hk ⊢
        have e1 : (k + k2) * (B ^ rs.length * B) = k * (B ^ rs.length * B) + B * (k2 * B ^ rs.length) := by ring
        have e2 : (d + B * nat ds) * nat ss = d * nat ss + B * (nat ds * nat ss) := by ring
        rw [e1, e2]
        generalize k * (B ^ rs.length * B) = u at *
        generalize k2 * B ^ rs.length = v at *
        generalize d * nat ss = y at *
        generalize nat ds * nat ss = t at *
        omega
      · intro x hx
        rcases List.mem_cons.1 hx with h' | hx
        · rw [h']; exact hlim r (by simp)
        · exact hlim2 x hx

theorem mul_sign (a b r : Bn) (hn : r.neg = xor a.neg b.neg) (hm : mag r = mag a * mag b) : value r = value a * value b := by
  unfold value
  rw [hn, hm]
  cases a.neg <;> cases b.neg <;> simp

theorem len_one_word {b : Bn} (hb : Wf b) (h1 : b.length = 1) : ∃ x, b.data[0]? = some x ∧ x = mag b ∧ x ≠ 0 ∧ x < B := by
  have hsz : b.data.length = 257 := hb.size
  refine ⟨b.data[0], List.getElem?_eq_getElem (by omega), ?_⟩
  have h := nat_take_of_lt b.data 1 (by have := hb.below; rw [h1] at this; exact this)
  have h2 := nat_take_succ_top b.data 0 _ (List.getElem?_eq_getElem (show 0 < b.data.length by omega))
  rw [Nat.zero_add, h] at h2
  simp [nat] at h2
  have h3 : mag b = b.data[0] := h2
  have h4 : mag b ≠ 0 := fun hc => by have := (wf_zero_iff hb).2 hc; omega
  exact ⟨h3.symm, by omega, hb.limbs _ (List.getElem_mem _)⟩

/-- C32: multiplication is exact for all signs whenever the product fits. -/
theorem mul_spec (a b : Bn) (ha : Wf a) (hb : Wf b) (hfit : mag a * mag b < B ^ 257) :
    ∃ r, mul a b = some r ∧ Wf r ∧ value r = value a * value b ∧ mag r = mag a * mag b ∧ (mag r ≠ 0 → r.neg = xor a.neg b.neg) := by
  unfold mul
  simp only
  by_cases hb1 : b.length = 1
  · rw [if_pos hb1]
    obtain ⟨x, ex, hx, hx0, hxB⟩ := len_one_word hb hb1
    obtain ⟨r, er, h1, h2⟩ := mulWord_spec a ha x hxB hx0 (by rw [hx]; exact hfit)
    simp only [ex, er, Option.bind_eq_bind, Option.bind_some]
    rw [hx] at h2
    refine ⟨_, rfl, wf_neg h1 _, mul_sign _ _ _ rfl h2, h2, fun _ => rfl⟩
  · rw [if_neg hb1]
    by_cases ha1 : a.length = 1
    · rw [if_pos ha1]
      obtain ⟨x, ex, hx, hx0, hxB⟩ := len_one_word ha ha1
      obtain ⟨r, er, h1, h2⟩ := mulWord_spec b hb x hxB hx0 (by rw [hx, Nat.mul_comm]; exact hfit)
      simp only [ex, er, Option.bind_eq_bind, Option.bind_some]
      rw [hx, Nat.mul_comm] at h2
      refine ⟨_, rfl, wf_neg h1 _, mul_sign _ _ _ rfl h2, h2, fun _ => rfl⟩
    · rw [if_neg ha1]
      obtain ⟨c1, e1, z1, _, _⟩ := absCompare_spec a zero ha wf_zero
      obtain ⟨c2, e2, z2, _, _⟩ := absCompare_spec b zero hb wf_zero
      rw [mag_zero] at z1 z2
      simp only [e1, e2, Option.bind_eq_bind, Option.bind_some]
      by_cases hz : c1 = 0 ∨ c2 = 0
      · rw [if_pos hz]
        have hmz : mag a * mag b = 0 := by
          rcases hz with h | h
          · rw [z1.1 h, Nat.zero_mul]
          · rw [z2.1 h, Nat.mul_zero]
        have hv : value a * value b = 0 := by
          rcases hz with h | h
          · have : value a = 0 := by unfold value; rw [z1.1 h]; split <;> rfl
            rw [this, Int.zero_mul]
          · have : value b = 0 := by unfold value; rw [z2.1 h]; split <;> rfl
            rw [this, Int.mul_zero]
        exact ⟨zero, rfl, wf_zero, by rw [value_zero, hv], by rw [mag_zero, hmz], fun h => absurd mag_zero h⟩
      · rw [if_neg hz]
        have ha0 : a.length ≠ 0 := fun h => hz (Or.inl (z1.2 ((wf_zero_iff ha).1 h)))
        have hb0 : b.length ≠ 0 := fun h => hz (Or.inr (z2.2 ((wf_zero_iff hb).1 h)))
        have la := wf_length_le ha
        have lb := wf_length_le hb
        have hda : a.data.length = 257 := ha.size
        have hdb : b.data.length = 257 := hb.size
        have hbl : (b.data.take b.length).length = b.length := by rw [List.length_take, hdb]; omega
        have hz0 : ∀ x ∈ zero.data, x = 0 := fun x hx => (List.mem_replicate.1 hx).2
        obtain ⟨⟨k, hk⟩, hl, hlim⟩ := mulRows_spec (b.data.take b.length) (limbs_take hb.limbs)
          (by intro hc; rw [hc] at hbl; simp at hbl; omega) (a.data.take a.length) zero.data (limbs_take ha.limbs)
          ⟨fun x hx => by rw [hz0 x (List.mem_of_mem_take hx)]; decide, fun x hx => hz0 x (List.mem_of_mem_drop hx)⟩
        have hz257 : zero.data.length = 257 := List.length_replicate
        rw [nat_take_of_lt a.data a.length ha.below, nat_take_of_lt b.data b.length hb.below, hz257,
          show nat zero.data = 0 from nat_replicate _, Nat.zero_add] at hk
        have hk : nat _ + k * B ^ 257 = mag a * mag b := hk
        have hk0 : k = 0 := by
          by_contra hne
          have : 1 * B ^ 257 ≤ k * B ^ 257 := Nat.mul_le_mul_right _ (by omega)
          omega
        rw [hk0, Nat.zero_mul, Nat.add_zero] at hk
        rw [hz257] at hl
        generalize mulRows (b.data.take b.length) (a.data.take a.length) zero.data = res at hk hl hlim
        have hta : B ^ (a.length - 1) ≤ mag a := ha.top.resolve_left ha0
        have htb : B ^ (b.length - 1) ≤ mag b := hb.top.resolve_left hb0
        have hlow : B ^ (a.length + b.length - 2) ≤ mag a * mag b := by
          rw [show a.length + b.length - 2 = (a.length - 1) + (b.length - 1) by omega, pow_add]
          exact Nat.mul_le_mul hta htb
        have hup : mag a * mag b < B ^ (a.length + b.length) := by
          rw [pow_add]
          exact Nat.mul_lt_mul'' ha.below hb.below
        have hsum : a.length + b.length - 2 < 257 := by
          by_contra hc
          have : B ^ 257 ≤ B ^ (a.length + b.length - 2) := Nat.pow_le_pow_right (by decide) (by omega)
          omega
        have hpos : (if a.length - 1 + b.length < size then a.length - 1 + b.length else size) = a.length - 1 + b.length := by
          have hsz : size = 257 := rfl
          split
          · rfl
          · omega
        rw [hpos]
        set p := a.length - 1 + b.length with hp
        have hp257 : p ≤ 257 := by omega
        rw [show a.length + b.length = p + 1 by omega] at hup
        rw [show a.length + b.length - 2 = p - 1 by omega] at hlow
        by_cases htop : p < size ∧ res[p]?.getD 0 ≠ 0
        · rw [if_pos htop]
          have hp2 : p < 257 := htop.1
          have hget : res[p]? = some res[p] := List.getElem?_eq_getElem (by omega)
          have hne : res[p] ≠ 0 := by have := htop.2; rw [hget] at this; exact this
          have hlow2 : B ^ p ≤ nat res := by
            rw [nat_take_drop res (p + 1) (by omega), nat_take_succ_top res p _ hget]
            have : B ^ p * 1 ≤ B ^ p * res[p] := Nat.mul_le_mul_left _ (by omega)
            omega
          refine ⟨_, rfl, ⟨hl, hlim, ?_, Or.inr ?_⟩, mul_sign _ _ _ rfl hk, hk, fun _ => rfl⟩
          · show nat res < B ^ (p + 1)
            rw [hk]; exact hup
          · exact hlow2
        · rw [if_neg htop]
          refine ⟨_, rfl, ⟨hl, hlim, ?_, Or.inr ?_⟩, mul_sign _ _ _ rfl hk, hk, fun _ => rfl⟩
          · show nat res < B ^ p
            by_cases hp2 : p = 257
            · rw [hk, hp2]; exact hfit
            · have hget : res[p]? = some res[p] := List.getElem?_eq_getElem (by omega)
              have h0 : res[p] = 0 := by
                by_contra hne
                exact htop ⟨by show p < 257; omega, by rw [hget]; exact hne⟩
              rw [← hk] at hup
              rw [← nat_take_of_lt res (p + 1) hup, nat_take_succ_top res p _ hget, h0, Nat.mul_zero, Nat.add_zero]
              have := nat_lt (res.take p) (limbs_take hlim)
              rwa [List.length_take, Nat.min_eq_left (by omega)] at this
          · show B ^ (p - 1) ≤ nat res
            rw [hk]; exact hlow

example : (mul (small true 4294967295) (small false 4294967295)).map value = some (-18446744065119617025) := by decide +kernel
example : ((mul (small false 4294967295) (small false 4294967295)).bind (fun x => mul x x)).map value
    = some (18446744065119617025 * 18446744065119617025) := by decide +kernel

end Verif.Bn
