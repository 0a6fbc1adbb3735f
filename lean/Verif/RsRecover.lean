import Verif.RsProps
import Mathlib.Data.Finset.Card
import Mathlib.Data.Fintype.Card
/-
Property C17: which erasures the Reed-Solomon code of mln_rs.c recovers from.
-/
set_option linter.unusedSimpArgs false

namespace Verif.Rs
open Matrix

theorem coRow_unit {n i : Nat} (h : i < n) (j : Fin n) : coRow n i j = if j.val = i then 1 else 0 := by rw [coRow, if_pos h]; rfl

theorem coRow_pow {n e : Nat} (he : e < 2 ^ 64) (j : Fin n) (hj : j.val + 1 < 2 ^ 64) : coRow n (n + e) j = BitVec.ofNat 8 ((j.val + 1) ^ e) := by
  rw [coRow, if_neg (by omega), Nat.add_sub_cancel_left, powRow_eq n e he j hj]

theorem coRow_zero {n : Nat} (j : Fin n) : coRow n n j = 1 := by
  rw [coRow, if_neg (by omega), Nat.sub_self, powRow]
  have : powerCalc (BitVec.ofNat 64 (j.val + 1)) (BitVec.ofNat 64 0) = 1 := by
    apply BitVec.eq_of_toNat_eq
    rw [powerCalc_eq]; simp
  rw [this]; rfl

/-- decode succeeds when the coefficients of the fragments it uses determine everything. -/
theorem decode_full {n len k : Nat} {data : Mat n len} {v : Vec len} (hk : k ≠ 0) (hf : Fragments k data v) (hc : n ≤ count (n + k) v) (hn : n ≠ 0) (hl : len ≠ 0)
    (h : ∀ x : Fin n → GF, (∀ i ∈ used n k v, ∑ j, (⟨coRow n i j⟩ : GF) * x j = 0) → x = 0) : decode n k v = some (some data) := by
  have e := decode_eq hk hf hc hn hl
  rcases inverse_spec (decM n k v hc) with ⟨B, e1, e2⟩ | ⟨e1, x, hx, hz⟩
  · rw [e1] at e
    rw [Option.map_some] at e
    rw [e, rs_decode_sound hn hk hl hf e]
  · refine absurd (h x ?_) hx
    intro i hi
    obtain ⟨q, hq, rfl⟩ := List.getElem_of_mem hi
    have := congrFun hz ⟨q, by rw [used_length hc] at hq; exact hq⟩
    exact this

/-- decode returns NULL when they do not. -/
theorem decode_null {n len k : Nat} {data : Mat n len} {v : Vec len} (hk : k ≠ 0) (hf : Fragments k data v) (hc : n ≤ count (n + k) v) (hn : n ≠ 0) (hl : len ≠ 0)
    (x : Fin n → GF) (hx : x ≠ 0) (h : ∀ i, i < n + k → present v i = true → ∑ j, (⟨coRow n i j⟩ : GF) * x j = 0) : decode n k v = some none := by
  have e := decode_eq hk hf hc hn hl
  rcases inverse_spec (decM n k v hc) with ⟨B, e1, e2⟩ | ⟨e1, _⟩
  · have hz : toM (decM n k v hc) *ᵥ x = 0 := by
      funext q
      exact h _ (used_lt (List.getElem_mem _)).1 (used_lt (List.getElem_mem _)).2
    have : x = 0 := by
      rw [← Matrix.one_mulVec x, ← e2, ← Matrix.mulVec_mulVec, hz, Matrix.mulVec_zero]
    exact absurd this hx
  · rw [e1] at e; exact e

/-! ### Lost data and used parity -/

def lost {len : Nat} (n k : Nat) (v : Vec len) : Finset (Fin n) := Finset.univ.filter fun j => j.val ∉ used n k v
def parity {len : Nat} (n k : Nat) (v : Vec len) : Finset Nat := (used n k v).toFinset.filter fun i => ¬ i < n

theorem used_nodup {len : Nat} (n k : Nat) (v : Vec len) : (used n k v).Nodup := (List.nodup_range.filter _).sublist (List.take_sublist _ _)

theorem lost_card {len : Nat} {n k : Nat} {v : Vec len} (hc : n ≤ count (n + k) v) : (lost n k v).card = (parity n k v).card := by
  have h1 : (used n k v).toFinset.card = n := by rw [List.toFinset_card_of_nodup (used_nodup n k v), used_length hc]
  have h2 := Finset.card_filter_add_card_filter_not (s := (used n k v).toFinset) (fun i => i < n)
  have h3 := Finset.card_filter_add_card_filter_not (s := (Finset.univ : Finset (Fin n))) (fun j => j.val ∈ used n k v)
  have h4 : (Finset.univ.filter fun j : Fin n => j.val ∈ used n k v).card = ((used n k v).toFinset.filter fun i => i < n).card := by
    refine Finset.card_bij (fun j _ => j.val) ?_ ?_ ?_
    · intro j hj
      simp at hj ⊢
      exact hj
    · intro a _ b _ e; exact Fin.ext e
    · intro i hi
      simp at hi
      exact ⟨⟨i, hi.2⟩, by simpa using hi.1, rfl⟩
  rw [Finset.card_univ, Fintype.card_fin] at h3
  rw [lost, parity]
  omega

theorem parity_mem {len : Nat} {n k : Nat} {v : Vec len} {i : Nat} (h : i ∈ parity n k v) : n ≤ i ∧ i < n + k ∧ i ∈ used n k v := by
  simp only [parity, Finset.mem_filter, List.mem_toFinset] at h
  exact ⟨by omega, (used_lt h.1).1, h.1⟩

/-- A solution vanishes on the data that are there, so a parity equation is one about lost data. -/
theorem lost_sum {len : Nat} {n k : Nat} {v : Vec len} {x : Fin n → GF} (h : ∀ i ∈ used n k v, ∑ j, (⟨coRow n i j⟩ : GF) * x j = 0) :
    (∀ j, j ∉ lost n k v → x j = 0) ∧ ∀ i ∈ parity n k v, ∑ j ∈ lost n k v, (⟨coRow n i j⟩ : GF) * x j = 0 := by
  have h1 : ∀ j, j ∉ lost n k v → x j = 0 := by
    intro j hj
    simp only [lost, Finset.mem_filter, Finset.mem_univ, true_and, not_not] at hj
    have := h j.val hj
    have e : ∀ q : Fin n, (⟨coRow n j.val q⟩ : GF) * x q = if q = j then x j else 0 := by
      intro q
      rw [coRow_unit j.isLt]
      by_cases hq : q = j
      · subst hq; rw [if_pos rfl, if_pos rfl]; exact one_mul _
      · rw [if_neg (fun e => hq (Fin.ext e)), if_neg hq]; exact zero_mul _
    simpa only [e, Finset.sum_ite_eq', Finset.mem_univ, if_true] using this
  refine ⟨h1, fun i hi => ?_⟩
  rw [← h i (parity_mem hi).2.2]
  refine Finset.sum_subset (Finset.subset_univ _) ?_
  intro j _ hj
  rw [h1 j hj, mul_zero]

/-- One parity fragment: any one lost fragment is recovered, for every n. -/
theorem rs_recover_one_partial {n len : Nat} {data : Mat n len} {v : Vec len} (hn : n ≠ 0) (hl : len ≠ 0) (hf : Fragments 1 data v) (hc : n ≤ count (n + 1) v) : decode n 1 v = some (some data) := by
  refine decode_full (by omega) hf hc hn hl fun x hx => ?_
  obtain ⟨h1, h2⟩ := lost_sum hx
  have hcard := lost_card hc
  have hsub : parity n 1 v ⊆ {n} := by
    intro i hi
    have := parity_mem hi
    simp; omega
  rcases Finset.subset_singleton_iff.1 hsub with e | e
  · rw [e, Finset.card_empty, Finset.card_eq_zero] at hcard
    funext j
    exact h1 j (by rw [hcard]; simp)
  · rw [e, Finset.card_singleton, Finset.card_eq_one] at hcard
    obtain ⟨a, ha⟩ := hcard
    have := h2 n (by rw [e]; simp)
    rw [ha, Finset.sum_singleton, coRow_zero] at this
    funext j
    by_cases hj : j = a
    · subst hj
      exact (one_mul (x j)).symm.trans this
    · exact h1 j (by rw [ha]; simpa using hj)

theorem byte_ne {a : Nat} (h : a < 255) : (⟨BitVec.ofNat 8 (a + 1)⟩ : GF) ≠ 0 := by
  intro e
  have := congrArg (fun g : GF => g.v.toNat) e
  simp only [BitVec.toNat_ofNat] at this
  rw [Nat.mod_eq_of_lt (by omega)] at this
  have h0 : (GF.v 0).toNat = 0 := rfl
  omega

theorem byte_inj {a b : Nat} (ha : a < 255) (hb : b < 255) (e : (⟨BitVec.ofNat 8 (a + 1)⟩ : GF) = ⟨BitVec.ofNat 8 (b + 1)⟩) : a = b := by
  have := congrArg (fun g : GF => g.v.toNat) e
  simp only [BitVec.toNat_ofNat] at this
  rw [Nat.mod_eq_of_lt (by omega), Nat.mod_eq_of_lt (by omega)] at this
  omega

/-- Two parity fragments: any two lost fragments are recovered, for every n up to 255. -/
theorem rs_recover_two_partial {n len : Nat} {data : Mat n len} {v : Vec len} (hn : n ≠ 0) (hn2 : n ≤ 255) (hl : len ≠ 0) (hf : Fragments 2 data v) (hc : n ≤ count (n + 2) v) : decode n 2 v = some (some data) := by
  refine decode_full (by omega) hf hc hn hl fun x hx => ?_
  obtain ⟨h1, h2⟩ := lost_sum hx
  have hcard := lost_card hc
  have hco : ∀ j : Fin n, coRow n (n + 1) j = BitVec.ofNat 8 (j.val + 1) := by
    intro j
    rw [coRow_pow (by decide) j (by have := j.isLt; omega), Nat.pow_one]
  have hsub : ∀ i, i ∈ parity n 2 v → i = n ∨ i = n + 1 := by
    intro i hi
    have := parity_mem hi
    omega
  have one : ∀ p, parity n 2 v = {p} → (∀ a : Fin n, (⟨coRow n p a⟩ : GF) ≠ 0) → x = 0 := by
    intro p e hp
    rw [e, Finset.card_singleton, Finset.card_eq_one] at hcard
    obtain ⟨a, ha⟩ := hcard
    have := h2 p (by rw [e]; simp)
    rw [ha, Finset.sum_singleton] at this
    funext j
    by_cases hj : j = a
    · subst hj
      exact (mul_eq_zero.1 this).resolve_left (hp j)
    · exact h1 j (by rw [ha]; simpa using hj)
  by_cases hp0 : n ∈ parity n 2 v
  · by_cases hp1 : n + 1 ∈ parity n 2 v
    · have e : parity n 2 v = {n, n + 1} := by
        ext i
        constructor
        · intro hi; simpa using hsub i hi
        · intro hi
          simp at hi
          rcases hi with rfl | rfl
          · exact hp0
          · exact hp1
      rw [e, Finset.card_pair (by omega), Finset.card_eq_two] at hcard
      obtain ⟨a, b, hab, hL⟩ := hcard
      have e0 := h2 n hp0
      have e1 := h2 (n + 1) hp1
      rw [hL, Finset.sum_pair hab] at e0 e1
      rw [coRow_zero, coRow_zero] at e0
      rw [hco, hco] at e1
      have e0' : x a + x b = 0 := by
        have h1 : (⟨1⟩ : GF) = 1 := rfl
        rw [h1, one_mul, one_mul] at e0
        exact e0
      have hxb : x b = x a := by
        have := eq_neg_of_add_eq_zero_right e0'
        rw [this]; rfl
      rw [hxb, ← add_mul] at e1
      have hxa : x a = 0 := by
        refine (mul_eq_zero.1 e1).resolve_left ?_
        intro e
        have := eq_neg_of_add_eq_zero_left e
        rw [GF.neg_eq] at this
        have ha := a.isLt
        have hb := b.isLt
        exact hab (Fin.ext (byte_inj (by omega) (by omega) this))
      funext j
      by_cases hj : j ∈ lost n 2 v
      · rw [hL] at hj
        simp at hj
        rcases hj with rfl | rfl
        · exact hxa
        · rw [hxb]; exact hxa
      · exact h1 j hj
    · refine one n ?_ ?_
      · ext i
        simp only [Finset.mem_singleton]
        constructor
        · intro hi
          rcases hsub i hi with rfl | rfl
          · rfl
          · exact absurd hi hp1
        · rintro rfl; exact hp0
      · intro a
        rw [coRow_zero]
        exact one_ne_zero
  · by_cases hp1 : n + 1 ∈ parity n 2 v
    · refine one (n + 1) ?_ ?_
      · ext i
        simp only [Finset.mem_singleton]
        constructor
        · intro hi
          rcases hsub i hi with rfl | rfl
          · exact absurd hi hp0
          · rfl
        · rintro rfl; exact hp1
      · intro a
        rw [hco]
        exact byte_ne (by have := a.isLt; omega)
    · have e : parity n 2 v = ∅ := by
        ext i
        simp only [Finset.notMem_empty, iff_false]
        intro hi
        rcases hsub i hi with rfl | rfl
        · exact hp0 hi
        · exact hp1 hi
      rw [e, Finset.card_empty, Finset.card_eq_zero] at hcard
      funext j
      exact h1 j (by rw [hcard]; simp)

/-! ### Erasures that are not recovered -/

/-- The vector left when the data fragments in `C` are lost and only the parity fragments in `R`
survive. -/
def erased {n len : Nat} (k : Nat) (data : Mat n len) (C R : Finset Nat) : Vec len := fun i =>
  if h : i < n + k then if i ∈ C ∨ (n ≤ i ∧ i - n ∉ R) then some none else some (some (mmul (coMatrix n k) data ⟨i, h⟩)) else none

theorem erased_fragments {n len k : Nat} (hn : n ≠ 0) (hk : k ≠ 0) (hl : len ≠ 0) (data : Mat n len) (C R : Finset Nat) : Fragments k data (erased k data C R) := by
  refine ⟨?_, ?_⟩
  · intro i h
    simp only [erased, dif_pos h]
    split
    · exact .inl rfl
    · exact .inr ⟨_, if_neg (by omega), rfl⟩
  · intro i h
    simp only [erased]
    rw [dif_neg (by omega)]

theorem erased_present {n len k : Nat} {data : Mat n len} {C R : Finset Nat} {i : Nat} (h : i < n + k) : present (erased k data C R) i = true ↔ ¬ (i ∈ C ∨ (n ≤ i ∧ i - n ∉ R)) := by
  simp only [present, erased, dif_pos h]
  by_cases hc : i ∈ C ∨ (n ≤ i ∧ i - n ∉ R)
  · simp only [if_pos hc, hc]; simp
  · simp only [if_neg hc, hc]; simp

/-- As many parity fragments survive as data fragments are lost. -/
theorem erased_count {n len k : Nat} {data : Mat n len} {C R : Finset Nat} (hR : R ⊆ Finset.range k) (hCR : C.card ≤ R.card) : n ≤ count (n + k) (erased k data C R) := by
  have hcount : count (n + k) (erased k data C R) = ((Finset.range (n + k)).filter fun i => present (erased k data C R) i = true).card := by
    rw [count, ← List.toFinset_card_of_nodup (List.nodup_range.filter _), List.toFinset_filter, List.toFinset_range]
  rw [hcount]
  have h2 := Finset.card_filter_add_card_filter_not (s := Finset.range (n + k)) (fun i => present (erased k data C R) i = true)
  have h3 : (Finset.range (n + k)).filter (fun i => ¬ present (erased k data C R) i = true) ⊆ C ∪ ((Finset.range k) \ R).image (n + ·) := by
    intro i hi
    simp only [Finset.mem_filter, Finset.mem_range] at hi
    rw [erased_present hi.1, not_not] at hi
    rcases hi.2 with h | ⟨h, h'⟩
    · exact Finset.mem_union_left _ h
    · refine Finset.mem_union_right _ (Finset.mem_image.2 ⟨i - n, ?_, by omega⟩)
      simp only [Finset.mem_sdiff, Finset.mem_range]
      exact ⟨by omega, h'⟩
  have h4 := Finset.card_le_card h3
  have h5 := Finset.card_union_le C (((Finset.range k) \ R).image (n + ·))
  have h6 := Finset.card_image_le (s := (Finset.range k) \ R) (f := (n + ·))
  have h7 := Finset.card_sdiff_of_subset hR
  have h8 := Finset.card_le_card hR
  rw [Finset.card_range] at h2 h7 h8
  omega

/-- decode fails when a combination of lost data is invisible to the surviving parity. -/
theorem erased_null {n len k : Nat} (hn : n ≠ 0) (hk : k ≠ 0) (hl : len ≠ 0) (data : Mat n len) {C R : Finset Nat} (hR : R ⊆ Finset.range k) (hCR : C.card ≤ R.card) (x : Fin n → GF) (hx : x ≠ 0)
    (hsupp : ∀ j : Fin n, j.val ∉ C → x j = 0) (hpar : ∀ e ∈ R, ∑ j, (⟨coRow n (n + e) j⟩ : GF) * x j = 0) : decode n k (erased k data C R) = some none := by
  refine decode_null hk (erased_fragments hn hk hl data C R) (erased_count hR hCR) hn hl x hx ?_
  intro i hi hp
  rw [erased_present hi, not_or] at hp
  by_cases hin : i < n
  · have e : ∀ q : Fin n, (⟨coRow n i q⟩ : GF) * x q = 0 := by
      intro q
      rw [coRow_unit hin]
      by_cases hq : q.val = i
      · rw [hsupp q (by rw [hq]; exact hp.1), mul_zero]
      · rw [if_neg hq]; exact zero_mul _
    simp only [e, Finset.sum_const_zero]
  · have := hp.2
    have hr : i - n ∈ R := by
      by_contra hc
      exact this ⟨by omega, hc⟩
    have := hpar (i - n) hr
    rw [show n + (i - n) = i by omega] at this
    exact this

theorem sum_single {n : Nat} (f : Fin n → GF) (a : Fin n) (c : GF) : ∑ j, f j * (Pi.single a c : Fin n → GF) j = f a * c := by
  have : ∀ j, f j * (Pi.single a c : Fin n → GF) j = if j = a then f a * c else 0 := by
    intro j
    by_cases h : j = a
    · subst h; simp
    · simp [h]
  simp only [this, Finset.sum_ite_eq', Finset.mem_univ, if_true]

/-- A single lost data fragment with a zero coefficient. -/
theorem erased_null_one {n len k : Nat} (hl : len ≠ 0) (data : Mat n len) {c e : Nat} (hc : c < n) (he : e < k) (he2 : e < 2 ^ 64) (hc2 : c < 2 ^ 63) (hz : BitVec.ofNat 8 ((c + 1) ^ e) = 0) : decode n k (erased k data {c} {e}) = some none := by
  refine erased_null (by omega) (by omega) hl data (by simpa using he) (by simp) (Pi.single ⟨c, hc⟩ 1) ?_ ?_ ?_
  · intro h
    have := congrFun h ⟨c, hc⟩
    simp at this
  · intro j hj
    have : j ≠ ⟨c, hc⟩ := by
      rintro rfl
      simp at hj
    simp [this]
  · intro e' he'
    rw [Finset.mem_singleton] at he'
    subst he'
    rw [sum_single, coRow_pow he2 _ (by show c + 1 < _; omega), hz]
    exact zero_mul _

/-- Three lost data fragments with dependent coefficients. -/
theorem erased_null_three {n len k : Nat} (hl : len ≠ 0) (data : Mat n len) {a b c : Nat} {R : Finset Nat} {p q r : U8} (ha : a < n) (hb : b < n) (hc : c < n) (hac : a ≠ c) (hbc : b ≠ c) (hR : R ⊆ Finset.range k) (hR3 : R.card = 3)
    (hsm : a < 2 ^ 63 ∧ b < 2 ^ 63 ∧ c < 2 ^ 63) (hr0 : r ≠ 0)
    (hz : ∀ e ∈ R, e < 2 ^ 64 ∧ gmul (BitVec.ofNat 8 ((a + 1) ^ e)) p ^^^ gmul (BitVec.ofNat 8 ((b + 1) ^ e)) q ^^^ gmul (BitVec.ofNat 8 ((c + 1) ^ e)) r = 0) : decode n k (erased k data {a, b, c} R) = some none := by
  have hk : k ≠ 0 := by
    have := Finset.card_le_card hR
    rw [Finset.card_range] at this
    omega
  refine erased_null (by omega) hk hl data hR (by rw [hR3]; exact Finset.card_le_three) (Pi.single ⟨a, ha⟩ ⟨p⟩ + Pi.single ⟨b, hb⟩ ⟨q⟩ + Pi.single ⟨c, hc⟩ ⟨r⟩) ?_ ?_ ?_
  · intro h
    have := congrFun h ⟨c, hc⟩
    have h1 : (⟨c, hc⟩ : Fin n) ≠ ⟨a, ha⟩ := fun e => hac (congrArg Fin.val e).symm
    have h2 : (⟨c, hc⟩ : Fin n) ≠ ⟨b, hb⟩ := fun e => hbc (congrArg Fin.val e).symm
    simp only [Pi.add_apply, Pi.single_eq_of_ne h1, Pi.single_eq_of_ne h2, Pi.single_eq_same, zero_add, Pi.zero_apply] at this
    exact hr0 (congrArg GF.v this)
  · intro j hj
    simp only [Finset.mem_insert, Finset.mem_singleton, not_or] at hj
    have h1 : j ≠ ⟨a, ha⟩ := fun e => hj.1 (congrArg Fin.val e)
    have h2 : j ≠ ⟨b, hb⟩ := fun e => hj.2.1 (congrArg Fin.val e)
    have h3 : j ≠ ⟨c, hc⟩ := fun e => hj.2.2 (congrArg Fin.val e)
    simp only [Pi.add_apply, Pi.single_eq_of_ne h1, Pi.single_eq_of_ne h2, Pi.single_eq_of_ne h3, add_zero]
  · intro e he
    obtain ⟨h1, h2⟩ := hz e he
    simp only [Pi.add_apply, mul_add, Finset.sum_add_distrib, sum_single]
    rw [coRow_pow h1 _ (by show a + 1 < _; omega), coRow_pow h1 _ (by show b + 1 < _; omega), coRow_pow h1 _ (by show c + 1 < _; omega)]
    exact GF.ext h2

/-- The full property fails: already from these sizes on there are k lost fragments, n left, and
decode returns NULL, whatever the data. -/
theorem rs_recover_any_false {n len k : Nat} (hl : len ≠ 0) (data : Mat n len) (h : (3 ≤ k ∧ 11 ≤ n) ∨ (4 ≤ k ∧ 7 ≤ n) ∨ (5 ≤ k ∧ 4 ≤ n) ∨ (9 ≤ k ∧ 2 ≤ n) ∨ (2 ≤ k ∧ 256 ≤ n)) :
    ∃ v, Fragments k data v ∧ n ≤ count (n + k) v ∧ decode n k v = some none := by
  have wit : ∀ C R : Finset Nat, n ≠ 0 → k ≠ 0 → R ⊆ Finset.range k → C.card ≤ R.card → decode n k (erased k data C R) = some none → ∃ v, Fragments k data v ∧ n ≤ count (n + k) v ∧ decode n k v = some none :=
    fun C R h1 h2 h3 h4 h5 => ⟨_, erased_fragments h1 h2 hl data C R, erased_count h3 h4, h5⟩
  rcases h with ⟨h1, h2⟩ | ⟨h1, h2⟩ | ⟨h1, h2⟩ | ⟨h1, h2⟩ | ⟨h1, h2⟩
  · have hR : ({0, 1, 2} : Finset Nat) ⊆ Finset.range k := by intro i hi; simp at hi ⊢; omega
    refine wit {2, 6, 10} {0, 1, 2} (by omega) (by omega) hR (by decide) ?_
    exact erased_null_three hl data (p := 3) (q := 2) (r := 1) (by omega) (by omega) (by omega) (by omega) (by omega) hR (by decide) (by omega) (by decide) (by decide +kernel)
  · have hR : ({0, 1, 3} : Finset Nat) ⊆ Finset.range k := by intro i hi; simp at hi ⊢; omega
    refine wit {1, 2, 6} {0, 1, 3} (by omega) (by omega) hR (by decide) ?_
    exact erased_null_three hl data (p := 4) (q := 5) (r := 1) (by omega) (by omega) (by omega) (by omega) (by omega) hR (by decide) (by omega) (by decide) (by decide +kernel)
  · exact wit {3} {4} (by omega) (by omega) (by intro i hi; simp at hi ⊢; omega) (by decide) (erased_null_one hl data (by omega) (by omega) (by omega) (by omega) (by decide))
  · exact wit {1} {8} (by omega) (by omega) (by intro i hi; simp at hi ⊢; omega) (by decide) (erased_null_one hl data (by omega) (by omega) (by omega) (by omega) (by decide))
  · exact wit {255} {1} (by omega) (by omega) (by intro i hi; simp at hi ⊢; omega) (by decide) (erased_null_one hl data (by omega) (by omega) (by omega) (by omega) (by decide))

/-! ### Concrete cases -/

def exData : Mat 3 2 := fun i j => BitVec.ofNat 8 (10 * i.val + j.val + 1)

example : (encode 2 exData).map (fun E => (List.finRange 5).map fun i => (List.finRange 2).map fun j => (E i j).toNat) = some [[1, 2], [11, 12], [21, 22], [31, 24], [40, 32]] := by decide +kernel
/-- Two of three data fragments lost. -/
example : (decode 3 2 (erased 2 exData {0, 2} {0, 1})).map (Option.map fun R => (List.finRange 3).map fun i => (List.finRange 2).map fun j => (R i j).toNat) = some (some [[1, 2], [11, 12], [21, 22]]) := by decide +kernel

end Verif.Rs
