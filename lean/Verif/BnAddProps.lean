import Verif.BnBase

/-
Comparison, addition and subtraction of bignums: C31, C38.
-/
namespace Verif.Bn

/-! ## Comparison -/

/-- C38: mln_bignum_abs_compare compares magnitudes. -/
theorem absCompare_spec (a b : Bn) (ha : Wf a) (hb : Wf b) :
    ∃ c, absCompare a b = some c ∧ (c = 0 ↔ mag a = mag b) ∧ (c < 0 ↔ mag a < mag b) ∧ (0 < c ↔ mag b < mag a) := by
  unfold absCompare
  rcases Nat.lt_trichotomy a.length b.length with h | h | h
  · have := wf_len_lt ha hb h
    rw [if_pos (by omega), if_neg (by omega)]
    exact ⟨-1, rfl, by omega⟩
  · rw [if_neg (by omega)]
    by_cases h0 : a.length = 0
    · have h1 := (wf_zero_iff ha).1 h0
      have h2 := (wf_zero_iff hb).1 (by omega)
      rw [if_pos h0]
      exact ⟨0, rfl, by omega⟩
    · rw [if_neg h0]
      exact cmpLoop_mag ha hb h
  · have := wf_len_lt hb ha h
    rw [if_pos (by omega), if_pos h]
    exact ⟨1, rfl, by omega⟩

/-- C38, partial: mln_bignum_compare gives the sign of the difference, except for two
negative numbers of equal length. -/
theorem compare_spec_partial (a b : Bn) (ha : Wf a) (hb : Wf b)
    (hx : ¬ (a.neg = true ∧ b.neg = true ∧ a.length = b.length)) :
    ∃ c, compare a b = some c ∧ (c = 0 ↔ value a = value b) ∧ (c < 0 ↔ value a < value b) ∧ (0 < c ↔ value b < value a) := by
  unfold compare
  have za := wf_zero_iff ha
  have zb := wf_zero_iff hb
  by_cases h00 : a.length = b.length ∧ a.length = 0
  · rw [if_pos h00]
    have h1 := za.1 h00.2
    have h2 := zb.1 (by omega)
    refine ⟨0, rfl, ?_⟩
    unfold value
    rw [h1, h2]
    split <;> split <;> simp
  · rw [if_neg h00]
    have hpos : mag a ≠ 0 ∨ mag b ≠ 0 := by
      by_contra hc
      have hc := not_or.1 hc
      have h1 := za.2 (not_not.1 hc.1)
      have h2 := zb.2 (not_not.1 hc.2)
      omega
    by_cases ht : a.neg = b.neg
    · rw [if_neg (by simpa using ht)]
      by_cases hl : a.length = b.length
      · rw [if_neg (by simpa using hl)]
        have hf : a.neg = false := by
          cases h : a.neg
          · rfl
          · exact absurd ⟨h, by rw [← ht]; exact h, hl⟩ hx
        obtain ⟨c, e, i1, i2, i3⟩ := cmpLoop_mag ha hb hl
        refine ⟨c, e, ?_⟩
        unfold value
        rw [← ht, hf]
        simp only [Bool.false_eq_true, if_false]
        omega
      · rw [if_pos hl]
        unfold value
        rw [← ht]
        rcases Nat.lt_or_ge a.length b.length with h | h
        · have := wf_len_lt ha hb h
          cases hn : a.neg
          · simp only [Bool.false_eq_true, if_false, if_true]
            rw [if_neg (by omega)]
            exact ⟨-1, rfl, by omega⟩
          · simp only [Bool.true_eq_false, if_false, if_true]
            rw [if_neg (by omega)]
            exact ⟨1, rfl, by omega⟩
        · have := wf_len_lt hb ha (by omega)
          cases hn : a.neg
          · simp only [Bool.false_eq_true, if_false, if_true]
            rw [if_pos (by omega)]
            exact ⟨1, rfl, by omega⟩
          · simp only [Bool.true_eq_false, if_false, if_true]
            rw [if_pos (by omega)]
            exact ⟨-1, rfl, by omega⟩
    · rw [if_pos ht]
      unfold value
      cases hA : a.neg <;> cases hB : b.neg
      · rw [hA, hB] at ht; exact absurd rfl ht
      · simp only [Bool.false_eq_true, if_false, if_true]
        exact ⟨1, rfl, by omega⟩
      · simp only [Bool.true_eq_false, Bool.false_eq_true, if_false, if_true]
        exact ⟨-1, rfl, by omega⟩
      · rw [hA, hB] at ht; exact absurd rfl ht

/-- C38 fails for two negative numbers of equal length: the order is the wrong way round. -/
theorem compare_negative (a b : Bn) (ha : Wf a) (hb : Wf b) (hna : a.neg = true) (hnb : b.neg = true)
    (hl : a.length = b.length) (h0 : a.length ≠ 0) :
    ∃ c, compare a b = some c ∧ (c < 0 ↔ value b < value a) ∧ (0 < c ↔ value a < value b) := by
  unfold compare
  rw [if_neg (fun h => h0 h.2), if_neg (by rw [hna, hnb]; simp), if_neg (by simpa using hl)]
  obtain ⟨c, e, i1, i2, i3⟩ := cmpLoop_mag ha hb hl
  refine ⟨c, e, ?_⟩
  unfold value
  rw [hna, hnb]
  simp only [if_true]
  omega

/-! ## Loops -/

theorem addLoop_spec : ∀ (n : Nat) (as bs : List Nat) (c : Nat), n ≤ as.length → n ≤ bs.length → (∀ x ∈ as, x < B) → (∀ x ∈ bs, x < B) → c ≤ 1 →
    ∃ r c', addLoop n as bs c = some (r, c') ∧ r.length = n ∧ (∀ x ∈ r, x < B) ∧ c' ≤ 1 ∧
      nat r + B ^ n * c' = nat (as.take n) + nat (bs.take n) + c := by
  intro n
  induction n with
  | zero => intro as bs c _ _ _ _ hc; exact ⟨[], c, rfl, rfl, by simp, hc, by simp [nat]⟩
  | succ n ih =>
    intro as bs c h1 h2 h3 h4 hc
    cases as with
    | nil => simp at h1
    | cons a as =>
      cases bs with
      | nil => simp at h2
      | cons b bs =>
        have ha := h3 a (by simp)
        have hb := h4 b (by simp)
        simp only [addLoop, List.take_succ_cons, nat_cons]
        rw [w_of_lt (show a + b < 18446744073709551616 by omega), w_of_lt (show a + b + c < 18446744073709551616 by omega)]
        by_cases hge : a + b + c ≥ B
        · rw [if_pos hge]
          obtain ⟨r, c', e, hl, hr, hc', hv⟩ := ih as bs 1 (by simpa using h1) (by simpa using h2) (fun x hx => h3 x (by simp [hx])) (fun x hx => h4 x (by simp [hx])) (by omega)
          simp only [e, Option.bind_eq_bind, Option.bind_some]
          refine ⟨_, c', by rw [], by rw [List.length_cons, hl], ?_, hc', ?_⟩
          · intro x hx
            rcases List.mem_cons.1 hx with h | hx
            · rw [h]; omega
            · exact hr x hx
          · rw [nat_cons, pow_succ]
            have : B * (nat r + B ^ n * c') = B * (nat (as.take n) + nat (bs.take n) + 1) := by rw [hv]
            have hh : B ^ n * B * c' = B * (B ^ n * c') := by ring
            rw [hh]
            generalize B ^ n * c' = z at this
            omega
        · rw [if_neg hge]
          obtain ⟨r, c', e, hl, hr, hc', hv⟩ := ih as bs 0 (by simpa using h1) (by simpa using h2) (fun x hx => h3 x (by simp [hx])) (fun x hx => h4 x (by simp [hx])) (by omega)
          simp only [e, Option.bind_eq_bind, Option.bind_some]
          refine ⟨_, c', rfl, by simp [hl], ?_, hc', ?_⟩
          · intro x hx
            rcases List.mem_cons.1 hx with h | hx
            · rw [h]; omega
            · exact hr x hx
          · rw [nat_cons, pow_succ]
            have hh : B ^ n * B * c' = B * (B ^ n * c') := by ring
            rw [hh]
            generalize B ^ n * c' = z at hv
            omega

theorem subLoop_spec : ∀ (ds ss : List Nat) (c : Nat), ds.length ≤ ss.length → (∀ x ∈ ds, x < B) → (∀ x ∈ ss, x < B) → c ≤ 1 →
    ∃ r c', subLoop ds ss c = some (r, c') ∧ r.length = ds.length ∧ (∀ x ∈ r, x < B) ∧ c' ≤ 1 ∧
      nat r + nat (ss.take ds.length) + c = nat ds + B ^ ds.length * c' := by
  intro ds
  induction ds with
  | nil => intro ss c _ _ _ hc; exact ⟨[], c, rfl, rfl, by simp, hc, by simp [nat]⟩
  | cons d ds ih =>
    intro ss c h1 h2 h3 hc
    cases ss with
    | nil => simp at h1
    | cons s ss =>
      have hd := h2 d (by simp)
      have hs := h3 s (by simp)
      simp only [subLoop, List.length_cons, List.take_succ_cons, nat_cons]
      rw [w_of_lt (show s + c < 18446744073709551616 by omega)]
      by_cases hgt : s + c > d
      · have ht : w (w (d + B) + (18446744073709551616 - (s + c))) = d + B - (s + c) := by
          rw [w_of_lt (show d + B < 18446744073709551616 by omega)]
          unfold w
          omega
        rw [if_pos hgt, ht]
        obtain ⟨r, c', e, hl, hr, hc', hv⟩ := ih ss 1 (by simpa using h1) (fun x hx => h2 x (by simp [hx])) (fun x hx => h3 x (by simp [hx])) (by omega)
        simp only [e, Option.bind_eq_bind, Option.bind_some]
        refine ⟨_, c', rfl, by simp [hl], ?_, hc', ?_⟩
        · intro x hx
          rcases List.mem_cons.1 hx with rfl | hx
          · omega
          · exact hr x hx
        · rw [nat_cons, pow_succ]
          have hh : B ^ ds.length * B * c' = B * (B ^ ds.length * c') := by ring
          rw [hh]
          generalize B ^ ds.length * c' = z at hv
          omega
      · rw [if_neg hgt]
        obtain ⟨r, c', e, hl, hr, hc', hv⟩ := ih ss 0 (by simpa using h1) (fun x hx => h2 x (by simp [hx])) (fun x hx => h3 x (by simp [hx])) (by omega)
        simp only [e, Option.bind_eq_bind, Option.bind_some]
        refine ⟨_, c', rfl, by simp [hl], ?_, hc', ?_⟩
        · intro x hx
          rcases List.mem_cons.1 hx with rfl | hx
          · omega
          · exact hr x hx
        · rw [nat_cons, pow_succ]
          have hh : B ^ ds.length * B * c' = B * (B ^ ds.length * c') := by ring
          rw [hh]
          generalize B ^ ds.length * c' = z at hv
          omega

/-! ## Magnitudes -/

/-- Addition of magnitudes that fits. -/
theorem addSame_spec (a b : Bn) (ha : Wf a) (hb : Wf b) (hfit : mag a + mag b < B ^ 257) :
    ∃ r, addSame a b = some r ∧ Wf r ∧ r.neg = a.neg ∧ mag r = mag a + mag b := by
  unfold addSame
  set n := if a.length < b.length then b.length else a.length with hn
  have la := wf_length_le ha
  have lb := wf_length_le hb
  have hna : a.length ≤ n := by rw [hn]; split <;> omega
  have hnb : b.length ≤ n := by rw [hn]; split <;> omega
  have hn257 : n ≤ 257 := by rw [hn]; split <;> omega
  have hma : mag a < B ^ n := lt_of_lt_of_le ha.below (Nat.pow_le_pow_right (by decide) hna)
  have hmb : mag b < B ^ n := lt_of_lt_of_le hb.below (Nat.pow_le_pow_right (by decide) hnb)
  have htop : n = 0 ∨ B ^ (n - 1) ≤ mag a + mag b := by
    rw [hn]
    split
    · rcases hb.top with h | h
      · exact Or.inl h
      · right; have h : B ^ (b.length - 1) ≤ mag b := h; omega
    · rcases ha.top with h | h
      · exact Or.inl h
      · right; have h : B ^ (a.length - 1) ≤ mag a := h; omega
  have hloop : ∃ r c, (if a.length < b.length then addLoop n b.data a.data 0 else addLoop n a.data b.data 0) = some (r, c) ∧
      r.length = n ∧ (∀ x ∈ r, x < B) ∧ c ≤ 1 ∧ nat r + B ^ n * c = mag a + mag b := by
    split
    · obtain ⟨r, c, e, h1, h2, h3, h4⟩ := addLoop_spec n b.data a.data 0 (by rw [hb.size]; exact hn257) (by rw [ha.size]; exact hn257) hb.limbs ha.limbs (by omega)
      rw [nat_take_of_lt _ _ hma, nat_take_of_lt _ _ hmb] at h4
      exact ⟨r, c, e, h1, h2, h3, by rw [h4]; unfold mag; omega⟩
    · obtain ⟨r, c, e, h1, h2, h3, h4⟩ := addLoop_spec n a.data b.data 0 (by rw [ha.size]; exact hn257) (by rw [hb.size]; exact hn257) ha.limbs hb.limbs (by omega)
      rw [nat_take_of_lt _ _ hma, nat_take_of_lt _ _ hmb] at h4
      exact ⟨r, c, e, h1, h2, h3, by rw [h4]; unfold mag; omega⟩
  obtain ⟨r, c, e, hrl, hrb, hc, hv⟩ := hloop
  simp only [e, Option.bind_eq_bind, Option.bind_some]
  have hrlt := nat_lt r hrb
  rw [hrl] at hrlt
  have hda : a.data.length = 257 := ha.size
  by_cases hc0 : c = 0
  · rw [if_neg (fun h => h.1 hc0)]
    rw [hc0, Nat.mul_zero, Nat.add_zero] at hv
    have hm : nat (r ++ a.data.drop n) = mag a + mag b := by
      rw [nat_append, nat_drop_zero a.data n hma, Nat.mul_zero, Nat.add_zero, hv]
    refine ⟨_, rfl, ⟨?_, limbs_append hrb (limbs_drop ha.limbs), ?_, ?_⟩, rfl, hm⟩
    · show (r ++ a.data.drop n).length = 257
      rw [List.length_append, hrl, List.length_drop, hda]; omega
    · show nat (r ++ a.data.drop n) < B ^ n
      rw [hm]; omega
    · show n = 0 ∨ B ^ (n - 1) ≤ nat (r ++ a.data.drop n)
      rw [hm]; exact htop
  · have hc1 : c = 1 := by omega
    subst hc1
    rw [Nat.mul_one] at hv
    have hlt : n < 257 := by
      by_contra hge
      have : n = 257 := by omega
      rw [this] at hv
      omega
    rw [if_pos ⟨by omega, hlt⟩]
    have hx : a.data[n]? = some 0 := by
      rw [List.getElem?_eq_getElem (by omega)]
      congr 1
      apply (nat_zero_iff _).1 (nat_drop_zero a.data n hma)
      rw [List.mem_iff_getElem]
      exact ⟨0, by rw [List.length_drop]; omega, by rw [List.getElem_drop]; rfl⟩
    rw [hx]
    simp only [Option.bind_some]
    have hm : nat (r ++ [w (0 + 1)] ++ a.data.drop (n + 1)) = mag a + mag b := by
      rw [nat_append, nat_append, nat_drop_zero a.data (n + 1) (lt_of_lt_of_le hma (Nat.pow_le_pow_right (by decide) (by omega))), hrl, Nat.mul_zero, Nat.add_zero]
      show nat r + B ^ n * (w (0 + 1) + B * 0) = _
      rw [w_of_lt (by decide)]
      omega
    refine ⟨_, rfl, ⟨?_, ?_, ?_, Or.inr ?_⟩, rfl, hm⟩
    · show (r ++ [w (0 + 1)] ++ a.data.drop (n + 1)).length = 257
      rw [List.length_append, List.length_append, hrl, List.length_drop, hda, List.length_singleton]; omega
    · refine limbs_append (limbs_append hrb ?_) (limbs_drop ha.limbs)
      intro x hx
      rw [List.mem_singleton.1 hx]; decide
    · show nat (r ++ [w (0 + 1)] ++ a.data.drop (n + 1)) < B ^ (n + 1)
      rw [hm, pow_succ]
      have := Bpos n
      omega
    · show B ^ (n + 1 - 1) ≤ nat (r ++ [w (0 + 1)] ++ a.data.drop (n + 1))
      rw [hm, Nat.add_sub_cancel]; omega

/-- Subtraction of a magnitude that is not larger. -/
theorem subCore_spec (a b : Bn) (ha : Wf a) (hb : Wf b) (h : mag b ≤ mag a) :
    ∃ r, subCore a b = some r ∧ Wf r ∧ r.neg = a.neg ∧ mag r = mag a - mag b := by
  unfold subCore
  have la := wf_length_le ha
  have hda : a.data.length = 257 := ha.size
  have hdb : b.data.length = 257 := hb.size
  have htl : (a.data.take a.length).length = a.length := by rw [List.length_take, hda]; omega
  obtain ⟨r, c, e, hrl, hrb, hc, hv⟩ := subLoop_spec (a.data.take a.length) b.data 0 (by rw [htl, hdb]; exact la) (limbs_take ha.limbs) hb.limbs (by omega)
  rw [htl, nat_take_of_lt a.data a.length ha.below, nat_take_of_lt b.data a.length (lt_of_le_of_lt h ha.below)] at hv
  rw [htl] at hrl
  simp only [e, Option.bind_eq_bind, Option.bind_some]
  have hrlt := nat_lt r hrb
  rw [hrl] at hrlt
  have hv' : nat r + mag b + 0 = mag a + B ^ a.length * c := hv
  have hc0 : c = 0 := by
    by_contra hne
    have : c = 1 := by omega
    subst this
    have := ha.below
    have : mag a < B ^ a.length := this
    omega
  subst hc0
  rw [if_neg (by simp)]
  have hm : nat (r ++ a.data.drop a.length) = mag a - mag b := by
    rw [nat_append, nat_drop_zero a.data a.length ha.below, Nat.mul_zero, Nat.add_zero]
    omega
  have hlb : ∀ x ∈ r ++ a.data.drop a.length, x < B := limbs_append hrb (limbs_drop ha.limbs)
  have hlen : (r ++ a.data.drop a.length).length = 257 := by
    rw [List.length_append, hrl, List.length_drop, hda]; omega
  obtain ⟨k, ek, h1, h2, h3⟩ := scan_canon (r ++ a.data.drop a.length) a.length (by rw [hlen]; exact la) hlb
    (by rw [hm]; exact lt_of_le_of_lt (Nat.sub_le _ _) ha.below)
  rw [ek]
  exact ⟨_, rfl, ⟨hlen, hlb, h2, h3⟩, rfl, hm⟩

/-- The assertion fails when the subtrahend is larger. -/
theorem subCore_abort (a b : Bn) (ha : Wf a) (hb : Wf b) (h : mag a < mag b) (hl : a.length = b.length) : subCore a b = none := by
  unfold subCore
  have la := wf_length_le ha
  have hda : a.data.length = 257 := ha.size
  have hdb : b.data.length = 257 := hb.size
  have htl : (a.data.take a.length).length = a.length := by rw [List.length_take, hda]; omega
  obtain ⟨r, c, e, hrl, hrb, hc, hv⟩ := subLoop_spec (a.data.take a.length) b.data 0 (by rw [htl, hdb]; exact la) (limbs_take ha.limbs) hb.limbs (by omega)
  rw [htl, nat_take_of_lt a.data a.length ha.below, nat_take_of_lt b.data a.length (by rw [hl]; exact hb.below)] at hv
  simp only [e, Option.bind_eq_bind, Option.bind_some]
  have hv' : nat r + mag b + 0 = mag a + B ^ a.length * c := hv
  rw [if_pos]
  rintro rfl
  omega

/-! ## Signed numbers -/

theorem value_pos {b : Bn} (h : b.neg = false) : value b = mag b := by unfold value; rw [h]; rfl
theorem value_neg {b : Bn} (h : b.neg = true) : value b = -(mag b : Int) := by unfold value; rw [h]; rfl

/-- Subtraction of two non-negative numbers. -/
theorem subSame_pos (a b : Bn) (ha : Wf a) (hb : Wf b) (hna : a.neg = false) (hnb : b.neg = false) :
    ∃ r, subSame a b = some (r, b) ∧ Wf r ∧ value r = (mag a : Int) - mag b := by
  obtain ⟨c, e, i1, i2, i3⟩ := compare_spec_partial a b ha hb (by rw [hna]; simp)
  rw [value_pos hna, value_pos hnb] at i1 i2 i3
  unfold subSame
  simp only [e, Option.bind_eq_bind, Option.bind_some, hna, Bool.false_eq_true, if_false]
  by_cases h0 : c = 0
  · rw [if_pos h0]
    exact ⟨zero, rfl, wf_zero, by rw [value_zero]; have := i1.1 h0; omega⟩
  · rw [if_neg h0]
    by_cases hlt : c < 0
    · rw [if_pos hlt]
      obtain ⟨r, er, h1, h2, h3⟩ := subCore_spec b a hb ha (by have := i2.1 hlt; omega)
      rw [er]
      refine ⟨_, rfl, wf_neg h1 true, ?_⟩
      rw [value_neg rfl]
      show -(mag r : Int) = _
      have := i2.1 hlt
      omega
    · rw [if_neg hlt]
      have hgt := i3.1 (by omega)
      obtain ⟨r, er, h1, h2, h3⟩ := subCore_spec a b ha hb (by omega)
      rw [er]
      refine ⟨r, rfl, h1, ?_⟩
      rw [value_pos (by rw [h2]; exact hna)]
      omega

/-- Subtraction of two negative numbers of different lengths. -/
theorem subSame_neg (a b : Bn) (ha : Wf a) (hb : Wf b) (hna : a.neg = true) (hnb : b.neg = true) (hl : a.length ≠ b.length) :
    ∃ r, subSame a b = some (r, b) ∧ Wf r ∧ value r = (mag b : Int) - mag a := by
  obtain ⟨c, e, i1, i2, i3⟩ := compare_spec_partial a b ha hb (fun h => hl h.2.2)
  rw [value_neg hna, value_neg hnb] at i1 i2 i3
  have hbb : ({ b with neg := true } : Bn) = b := by cases b; simp at hnb; rw [hnb]
  unfold subSame
  simp only [e, Option.bind_eq_bind, Option.bind_some, hna, if_true]
  by_cases h0 : c = 0
  · rw [if_pos h0]
    exact ⟨zero, rfl, wf_zero, by rw [value_zero]; have := i1.1 h0; omega⟩
  · rw [if_neg h0]
    by_cases hlt : c < 0
    · rw [if_pos hlt]
      have hlt' := i2.1 hlt
      obtain ⟨r, er, h1, h2, h3⟩ := subCore_spec { a with neg := false } { b with neg := false } (wf_neg ha _) (wf_neg hb _)
        (show mag b ≤ mag a by omega)
      rw [er]
      refine ⟨_, by rw [← hbb]; rfl, wf_neg h1 true, ?_⟩
      rw [value_neg rfl]
      show -(mag r : Int) = _
      have h3 : mag r = mag a - mag b := h3
      omega
    · rw [if_neg hlt]
      have hgt := i3.1 (by omega)
      obtain ⟨r, er, h1, h2, h3⟩ := subCore_spec { b with neg := false } { a with neg := false } (wf_neg hb _) (wf_neg ha _)
        (show mag a ≤ mag b by omega)
      rw [er]
      refine ⟨_, rfl, wf_neg h1 false, ?_⟩
      rw [value_pos rfl]
      show (mag r : Int) = _
      have h3 : mag r = mag b - mag a := h3
      omega

/-- C31: addition is exact for all signs whenever the sum fits, the result is canonical and
the other operand is unchanged. -/
theorem add_spec (a b : Bn) (ha : Wf a) (hb : Wf b) (hfit : (value a + value b).natAbs < B ^ 257) :
    ∃ r, add a b = some (r, b) ∧ Wf r ∧ value r = value a + value b := by
  unfold add
  cases hna : a.neg <;> cases hnb : b.neg
  · simp only [ne_eq, not_true_eq_false, if_false]
    rw [value_pos hna, value_pos hnb] at hfit ⊢
    obtain ⟨r, e, h1, h2, h3⟩ := addSame_spec a b ha hb (by omega)
    rw [e]
    refine ⟨r, rfl, h1, ?_⟩
    rw [value_pos (by rw [h2]; exact hna)]; omega
  · simp only [ne_eq, Bool.false_eq_true, not_false_eq_true, if_false, if_true]
    rw [value_pos hna, value_neg hnb]
    obtain ⟨r, e, h1, h2⟩ := subSame_pos a { b with neg := false } ha (wf_neg hb _) hna rfl
    simp only [e, Option.bind_eq_bind, Option.bind_some]
    have hbb : ({ b with neg := true } : Bn) = b := by cases b; simp at hnb; rw [hnb]
    refine ⟨r, by rw [hbb], h1, ?_⟩
    rw [h2]; show (mag a : Int) - mag b = _; omega
  · simp only [ne_eq, Bool.true_eq_false, not_false_eq_true, if_true]
    rw [value_neg hna, value_pos hnb]
    obtain ⟨r, e, h1, h2⟩ := subSame_pos b { a with neg := false } hb (wf_neg ha _) hnb rfl
    simp only [e, Option.bind_eq_bind, Option.bind_some]
    refine ⟨r, rfl, h1, ?_⟩
    rw [h2]; show (mag b : Int) - mag a = _; omega
  · simp only [ne_eq, not_true_eq_false, if_false]
    rw [value_neg hna, value_neg hnb] at hfit ⊢
    obtain ⟨r, e, h1, h2, h3⟩ := addSame_spec a b ha hb (by omega)
    rw [e]
    refine ⟨r, rfl, h1, ?_⟩
    rw [value_neg (by rw [h2]; exact hna)]; omega

/-- C31, partial: subtraction is exact whenever the difference fits, unless both operands are
negative with equal length. -/
theorem sub_spec_partial (a b : Bn) (ha : Wf a) (hb : Wf b) (hfit : (value a - value b).natAbs < B ^ 257)
    (hx : ¬ (a.neg = true ∧ b.neg = true ∧ a.length = b.length)) :
    ∃ r, sub a b = some (r, b) ∧ Wf r ∧ value r = value a - value b := by
  unfold sub
  cases hna : a.neg <;> cases hnb : b.neg
  · simp only [ne_eq, not_true_eq_false, if_false]
    rw [value_pos hna, value_pos hnb]
    exact subSame_pos a b ha hb hna hnb
  · simp only [ne_eq, Bool.false_eq_true, not_false_eq_true, if_false, if_true]
    rw [value_pos hna, value_neg hnb] at hfit ⊢
    have hbb : ({ b with neg := true } : Bn) = b := by cases b; simp at hnb; rw [hnb]
    obtain ⟨r, e, h1, h2, h3⟩ := addSame_spec a { b with neg := false } ha (wf_neg hb _) (show mag a + mag b < _ by omega)
    simp only [e, Option.bind_eq_bind, Option.bind_some]
    refine ⟨r, by rw [hbb], h1, ?_⟩
    rw [value_pos (by rw [h2]; exact hna)]
    have h3 : mag r = mag a + mag b := h3
    omega
  · simp only [ne_eq, Bool.true_eq_false, not_false_eq_true, if_true]
    rw [value_neg hna, value_pos hnb] at hfit ⊢
    have hbb : ({ b with neg := false } : Bn) = b := by cases b; simp at hnb; rw [hnb]
    obtain ⟨r, e, h1, h2, h3⟩ := addSame_spec a { b with neg := true } ha (wf_neg hb _) (show mag a + mag b < _ by omega)
    simp only [e, Option.bind_eq_bind, Option.bind_some]
    refine ⟨r, by rw [hbb], h1, ?_⟩
    rw [value_neg (by rw [h2]; exact hna)]
    have h3 : mag r = mag a + mag b := h3
    omega
  · simp only [ne_eq, not_true_eq_false, if_false]
    rw [value_neg hna, value_neg hnb]
    obtain ⟨r, e, h1, h2⟩ := subSame_neg a b ha hb hna hnb (fun h => hx ⟨hna, hnb, h⟩)
    exact ⟨r, e, h1, by rw [h2]; omega⟩

/-- C31 fails for two different negative numbers of equal length: the assertion of the
subtraction always fails and the program aborts. -/
theorem sub_negative_abort (a b : Bn) (ha : Wf a) (hb : Wf b) (hna : a.neg = true) (hnb : b.neg = true)
    (hl : a.length = b.length) (hne : value a ≠ value b) : sub a b = none := by
  have h0 : a.length ≠ 0 := by
    intro h0
    apply hne
    unfold value
    rw [(wf_zero_iff ha).1 h0, (wf_zero_iff hb).1 (by omega)]
    split <;> simp
  obtain ⟨c, e, i2, i3⟩ := compare_negative a b ha hb hna hnb hl h0
  rw [value_neg hna, value_neg hnb] at i2 i3 hne
  unfold sub
  rw [if_neg (by rw [hna, hnb]; simp)]
  unfold subSame
  simp only [e, Option.bind_eq_bind, Option.bind_some, hna, if_true]
  rcases Int.lt_trichotomy c 0 with h | h | h
  · rw [if_neg (by omega), if_pos h]
    rw [subCore_abort { a with neg := false } { b with neg := false } (wf_neg ha _) (wf_neg hb _) (show mag a < mag b by have := i2.1 h; omega) hl]
    rfl
  · exfalso
    have h1 : ¬ (c < 0) := by omega
    have h2 : ¬ (0 < c) := by omega
    rw [i2] at h1; rw [i3] at h2
    omega
  · rw [if_neg (by omega), if_neg (by omega)]
    rw [subCore_abort { b with neg := false } { a with neg := false } (wf_neg hb _) (wf_neg ha _) (show mag b < mag a by have := i3.1 h; omega) hl.symm]
    rfl

/-! ## Concrete cases -/

/-- A small number for examples. -/
def small (n : Bool) (x : Nat) : Bn := { word x with neg := n }

example : sub (small true 3) (small true 5) = none := by decide +kernel
example : (compare (small true 3) (small true 5)) = some (-1) := by decide +kernel
example : (add (small false 4294967295) (small false 4294967295)).map (fun p => value p.1) = some 8589934590 := by decide +kernel
example : (sub (small false 3) (small true 5)).map (fun p => value p.1) = some 8 := by decide +kernel
example : (add (small false 3) (small true 5)).map (fun p => value p.1) = some (-2) := by decide +kernel

end Verif.Bn
