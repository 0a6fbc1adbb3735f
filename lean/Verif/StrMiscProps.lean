import Verif.Str
import Verif.StrSearchProps
import Mathlib.Data.List.TakeWhile
import Mathlib.Data.List.Forall2

/-
Case-insensitive comparison, trimming, case mapping and concatenation of strings: C66 - C68.
-/
namespace Verif.Str

/-! ## Specification -/

/-- Equal bytes, or the upper and lower case form of one ASCII letter. -/
def SameLetter (a b : Byte) : Prop :=
  a = b ∨ ∃ i < 26, (a.toNat = 65 + i ∧ b.toNat = 97 + i) ∨ (a.toNat = 97 + i ∧ b.toNat = 65 + i)

/-- The bytes before the first NUL. -/
def beforeNul (s : List Byte) : List Byte := s.takeWhile (· ≠ 0)

/-- `r` is `s` without its longest ends made of bytes of `mask`. -/
def Trimmed (mask s r : List Byte) : Prop :=
  ∃ a b, s = a ++ r ++ b ∧ (∀ x ∈ a, x ∈ mask) ∧ (∀ x ∈ b, x ∈ mask) ∧
    (∀ x, r.head? = some x → x ∉ mask) ∧ (∀ x, r.getLast? = some x → x ∉ mask)

/-! ## Case-insensitive comparison -/

theorem tolower_toNat (a : Byte) : (tolower a).toNat = if 65 ≤ a.toNat ∧ a.toNat ≤ 90 then a.toNat + 32 else a.toNat := by
  revert a; decide +kernel

theorem tolower_eq_iff (a b : Byte) : tolower a = tolower b ↔ SameLetter a b := by
  have ha := tolower_toNat a
  have hb := tolower_toNat b
  constructor
  · intro h
    have h' : (tolower a).toNat = (tolower b).toNat := by rw [h]
    rw [ha, hb] at h'
    by_cases h1 : 65 ≤ a.toNat ∧ a.toNat ≤ 90 <;> by_cases h2 : 65 ≤ b.toNat ∧ b.toNat ≤ 90
    · rw [if_pos h1, if_pos h2] at h'
      exact Or.inl (BitVec.eq_of_toNat_eq (by omega))
    · rw [if_pos h1, if_neg h2] at h'
      exact Or.inr ⟨a.toNat - 65, by omega, Or.inl (by omega)⟩
    · rw [if_neg h1, if_pos h2] at h'
      exact Or.inr ⟨b.toNat - 65, by omega, Or.inr (by omega)⟩
    · rw [if_neg h1, if_neg h2] at h'
      exact Or.inl (BitVec.eq_of_toNat_eq h')
  · rintro (rfl | ⟨i, hi, h | h⟩)
    · rfl
    · apply BitVec.eq_of_toNat_eq
      rw [ha, hb, if_pos (by omega), if_neg (by omega)]; omega
    · apply BitVec.eq_of_toNat_eq
      rw [ha, hb, if_neg (by omega), if_pos (by omega)]; omega

theorem tolower_zero (a : Byte) : tolower a = 0 ↔ a = 0 := by
  revert a; decide +kernel

theorem sameLetter_zero (a b : Byte) (h : SameLetter a b) : a = 0 ↔ b = 0 := by
  rw [← tolower_zero a, ← tolower_zero b, (tolower_eq_iff a b).2 h]

theorem strncasecmp_spec : ∀ (s1 s2 : List Byte), s1.length = s2.length →
    ∃ r, strncasecmp s1.length s1 s2 = some r ∧
      (r = 0 ↔ List.Forall₂ SameLetter (beforeNul s1) (beforeNul s2)) := by
  intro s1
  induction s1 with
  | nil =>
    intro s2 h
    cases s2 with
    | nil => exact ⟨0, rfl, by simp [beforeNul]⟩
    | cons b s2 => simp at h
  | cons a s1 ih =>
    intro s2 h
    cases s2 with
    | nil => simp at h
    | cons b s2 =>
      simp only [List.length_cons, strncasecmp, List.head?_cons, Option.bind_eq_bind, Option.bind_some, List.tail_cons]
      by_cases hab : tolower a = tolower b
      · rw [if_neg (by simpa using hab)]
        have hsl := (tolower_eq_iff a b).1 hab
        have hz := sameLetter_zero a b hsl
        by_cases h0 : a = 0
        · have hb0 := hz.1 h0
          rw [if_pos ((tolower_zero a).2 h0)]
          refine ⟨0, rfl, ?_⟩
          simp [beforeNul, h0, hb0]
        · have hb0 : b ≠ 0 := fun hc => h0 (hz.2 hc)
          rw [if_neg (fun hc => h0 ((tolower_zero a).1 hc))]
          obtain ⟨r, e, hr⟩ := ih s2 (by simpa using h)
          refine ⟨r, e, ?_⟩
          rw [hr]
          unfold beforeNul
          rw [List.takeWhile_cons, List.takeWhile_cons, if_pos (by simpa using h0), if_pos (by simpa using hb0)]
          exact ⟨List.Forall₂.cons hsl, fun h => by cases h with | cons _ h => exact h⟩
      · rw [if_pos (by simpa using hab)]
        refine ⟨_, rfl, ?_⟩
        have hn : (tolower a).toNat ≠ (tolower b).toNat := fun hc => hab (BitVec.eq_of_toNat_eq hc)
        have hns : ¬ SameLetter a b := fun hc => hab ((tolower_eq_iff a b).2 hc)
        constructor
        · intro hc; omega
        · intro hc
          exfalso
          unfold beforeNul at hc
          rw [List.takeWhile_cons, List.takeWhile_cons] at hc
          by_cases h0 : a = 0 <;> by_cases hb0 : b = 0
          · exact hns (Or.inl (by rw [h0, hb0]))
          · rw [if_neg (by simpa using h0), if_pos (by simpa using hb0)] at hc
            cases hc
          · rw [if_pos (by simpa using h0), if_neg (by simpa using hb0)] at hc
            cases hc
          · rw [if_pos (by simpa using h0), if_pos (by simpa using hb0)] at hc
            cases hc with
            | cons h _ => exact hns h

/-- C66, partial: two strings in different buffers compare equal exactly when their lengths
agree and they agree up to ASCII case before their first NUL; no byte outside is read. -/
theorem strcasecmp_zero_partial (s1 s2 : List Byte) :
    ∃ r, strcasecmp false s1 s2 = some r ∧
      (r = 0 ↔ s1.length = s2.length ∧ List.Forall₂ SameLetter (beforeNul s1) (beforeNul s2)) := by
  unfold strcasecmp
  simp only [Bool.false_eq_true, if_false]
  rcases Nat.lt_trichotomy s1.length s2.length with h | h | h
  · rw [if_neg (by omega), if_pos h]
    exact ⟨-1, rfl, by constructor <;> intro hc <;> omega⟩
  · rw [if_neg (by omega), if_neg (by omega)]
    obtain ⟨r, e, hr⟩ := strncasecmp_spec s1 s2 h
    exact ⟨r, e, by rw [hr]; simp [h]⟩
  · rw [if_pos h]
    exact ⟨1, rfl, by constructor <;> intro hc <;> omega⟩

theorem beforeNul_self (s : List Byte) (h : (0 : Byte) ∉ s) : beforeNul s = s := by
  unfold beforeNul
  rw [List.takeWhile_eq_self_iff]
  intro x hx
  simp
  rintro rfl
  exact h hx

/-- C66: without NUL bytes the comparison is zero exactly for strings equal up to case. -/
theorem strcasecmp_zero_text (s1 s2 : List Byte) (h1 : (0 : Byte) ∉ s1) (h2 : (0 : Byte) ∉ s2) :
    ∃ r, strcasecmp false s1 s2 = some r ∧ (r = 0 ↔ List.Forall₂ SameLetter s1 s2) := by
  obtain ⟨r, e, hr⟩ := strcasecmp_zero_partial s1 s2
  refine ⟨r, e, ?_⟩
  rw [hr, beforeNul_self s1 h1, beforeNul_self s2 h2]
  exact ⟨fun h => h.2, fun h => ⟨h.length_eq, h⟩⟩

/-- C66 fails for embedded NULs: what follows one is not compared. -/
theorem strcasecmp_nul : strcasecmp false [97, 0, 98] [97, 0, 99] = some 0 := by decide +kernel

example : strcasecmp false [65, 98, 67] [97, 66, 99] = some 0 := by decide +kernel
example : strcasecmp false [64] [96] = some (-32) := by decide +kernel
example : SameLetter 65 97 := Or.inr ⟨0, by omega, Or.inl ⟨rfl, rfl⟩⟩

/-! ## Trimming -/

theorem trimEnd_spec (chars : Byte → Bool) (s : List Byte) (i : Nat) :
    ∀ j, i ≤ j → j ≤ s.length →
      i ≤ trimEnd chars s i j ∧ trimEnd chars s i j ≤ j ∧
      (∀ k b, trimEnd chars s i j ≤ k → k < j → s[k]? = some b → chars b = true) ∧
      (trimEnd chars s i j = i ∨ ∃ b, s[trimEnd chars s i j - 1]? = some b ∧ chars b = false) := by
  intro j
  induction j with
  | zero =>
    intro hi _
    have : i = 0 := by omega
    subst this
    exact ⟨by simp [trimEnd], by simp [trimEnd], fun k b _ h => by omega, Or.inl rfl⟩
  | succ j ih =>
    intro hi hj
    have hlt : j < s.length := by omega
    by_cases hgt : j + 1 > i
    · by_cases hc : chars s[j] = true
      · have e : trimEnd chars s i (j + 1) = trimEnd chars s i j := by
          simp only [trimEnd]
          rw [if_pos hgt, List.getElem?_eq_getElem hlt]
          simp only [hc, if_true]
        rw [e]
        obtain ⟨h1, h2, h3, h4⟩ := ih (by omega) (by omega)
        refine ⟨h1, by omega, ?_, h4⟩
        intro k b hk hkj hb
        rcases Nat.lt_or_ge k j with h | h
        · exact h3 k b hk h hb
        · have : k = j := by omega
          subst this
          rw [List.getElem?_eq_getElem hlt] at hb
          rw [← Option.some.inj hb]; exact hc
      · have e : trimEnd chars s i (j + 1) = j + 1 := by
          simp only [trimEnd]
          rw [if_pos hgt, List.getElem?_eq_getElem hlt]
          simp only [hc, Bool.false_eq_true, if_false]
        rw [e]
        refine ⟨hi, le_refl _, fun k b h h' => by omega, Or.inr ⟨s[j], ?_, by simpa using hc⟩⟩
        rw [Nat.add_sub_cancel, List.getElem?_eq_getElem hlt]
    · have e : trimEnd chars s i (j + 1) = j + 1 := by
        simp only [trimEnd]
        rw [if_neg hgt]
      rw [e]
      exact ⟨hi, le_refl _, fun k b h h' => by omega, Or.inl (by omega)⟩

/-- C67: trimming removes exactly the longest ends made of bytes of the mask. -/
theorem trim_spec (s mask : List Byte) : Trimmed mask s (trim s mask) := by
  unfold trim
  simp only
  obtain ⟨gap, r, e, hl, hg, hr⟩ := skipSeps_spec (fun b => mask.contains b) s
  have hle : skipSeps (fun b => mask.contains b) s ≤ s.length := by
    rw [← hl, e, List.length_append]; omega
  obtain ⟨h1, h2, h3, h4⟩ := trimEnd_spec (fun b => mask.contains b) s (skipSeps (fun b => mask.contains b) s) s.length hle (le_refl _)
  generalize trimEnd (fun b => mask.contains b) s (skipSeps (fun b => mask.contains b) s) s.length = j at h1 h2 h3 h4
  rw [← hl] at h1 h4 ⊢
  have hd : s.drop gap.length = r := by
    conv_lhs => rw [e]
    rw [List.drop_left]
  rw [hd]
  have hrl : r.length = s.length - gap.length := by rw [← hd, List.length_drop]
  have hget : ∀ k, r[k]? = s[gap.length + k]? := by
    intro k; rw [← hd, List.getElem?_drop]
  refine ⟨gap, r.drop (j - gap.length), ?_, ?_, ?_, ?_, ?_⟩
  · rw [List.append_assoc, List.take_append_drop]; exact e
  · intro x hx; simpa using hg x hx
  · intro x hx
    obtain ⟨k, hk, rfl⟩ := List.mem_iff_getElem.1 hx
    have hk' : (r.drop (j - gap.length))[k]? = some (r.drop (j - gap.length))[k] := List.getElem?_eq_getElem hk
    rw [List.getElem?_drop, hget] at hk'
    rw [List.length_drop] at hk
    simpa using h3 _ _ (by omega) (by omega) hk'
  · intro x hx
    have : r.head? = some x := by
      cases r with
      | nil => simp at hx
      | cons y r =>
        cases hjg : j - gap.length with
        | zero => rw [hjg] at hx; simp at hx
        | succ m => rw [hjg] at hx; simpa using hx
    simpa using hr x this
  · intro x hx
    rcases h4 with h | ⟨b, hb, hc⟩
    · rw [h, Nat.sub_self] at hx; simp at hx
    · have hjg : gap.length < j := by
        by_contra hn
        have : j - gap.length = 0 := by omega
        rw [this] at hx; simp at hx
      rw [List.getLast?_eq_getElem?, List.length_take, Nat.min_eq_left (by omega), List.getElem?_take_of_lt (by omega), hget,
        show gap.length + (j - gap.length - 1) = j - 1 by omega, hb] at hx
      rw [← Option.some.inj hx]
      simpa using hc

theorem trimmed_head {mask a r : List Byte} (ha : ∀ x ∈ a, x ∈ mask) (hr : ∀ x, r.head? = some x → x ∉ mask)
    {a' r' : List Byte} (ha' : ∀ x ∈ a', x ∈ mask) (hr' : ∀ x, r'.head? = some x → x ∉ mask) (h : a ++ r = a' ++ r') :
    a = a' ∧ r = r' :=
  gap_unique a a' r r' h ha ha' hr hr'

theorem trimmed_nil {mask s : List Byte} (h : ∀ x ∈ s, x ∈ mask) {r : List Byte} (ht : Trimmed mask s r) : r = [] := by
  obtain ⟨a, b, e, _, _, h3, _⟩ := ht
  cases r with
  | nil => rfl
  | cons x r => exact absurd (h x (by rw [e]; simp)) (h3 x rfl)

/-- The specification determines the trimmed string. -/
theorem trimmed_unique (mask s r r' : List Byte) (h : Trimmed mask s r) (h' : Trimmed mask s r') : r = r' := by
  have hh := h
  have hh' := h'
  obtain ⟨a, b, e, h1, h2, h3, h4⟩ := h
  obtain ⟨a', b', e', h1', h2', h3', h4'⟩ := h'
  by_cases hr : r = []
  · subst hr
    rw [List.append_nil] at e
    symm
    apply trimmed_nil (s := s) _ hh'
    intro x hx
    rw [e, List.mem_append] at hx
    exact hx.elim (h1 x) (h2 x)
  · by_cases hr' : r' = []
    · subst hr'
      rw [List.append_nil] at e'
      apply trimmed_nil (s := s) _ hh
      intro x hx
      rw [e', List.mem_append] at hx
      exact hx.elim (h1' x) (h2' x)
    · have hhd : ∀ (u v : List Byte), u ≠ [] → (∀ x, u.head? = some x → x ∉ mask) → ∀ x, (u ++ v).head? = some x → x ∉ mask := by
        intro u v hu hx x hxx
        cases u with
        | nil => exact absurd rfl hu
        | cons y u => exact hx x (by simpa using hxx)
      rw [e, List.append_assoc, List.append_assoc] at e'
      obtain ⟨_, e2⟩ := gap_unique (sep := (· ∈ mask)) a a' (r ++ b) (r' ++ b') e' h1 h1' (hhd r b hr h3) (hhd r' b' hr' h3')
      have e3 := congrArg List.reverse e2
      rw [List.reverse_append, List.reverse_append] at e3
      obtain ⟨_, e4⟩ := gap_unique (sep := (· ∈ mask)) b.reverse b'.reverse r.reverse r'.reverse e3
        (fun x hx => h2 x (by simpa using hx)) (fun x hx => h2' x (by simpa using hx))
        (fun x hx => h4 x (by simpa using hx)) (fun x hx => h4' x (by simpa using hx))
      exact List.reverse_injective e4

/-- C67: trimming twice is trimming once. -/
theorem trim_idem (s mask : List Byte) : trim (trim s mask) mask = trim s mask := by
  refine trimmed_unique mask (trim s mask) _ _ (trim_spec _ _) ⟨[], [], by simp, by simp, by simp, ?_, ?_⟩
  · obtain ⟨_, _, _, _, _, h, _⟩ := trim_spec s mask; exact h
  · obtain ⟨_, _, _, _, _, _, h⟩ := trim_spec s mask; exact h

example : trim [32, 9, 97, 32, 98, 32] [32, 9] = [97, 32, 98] := by decide +kernel
example : trim [32, 32] [32] = [] := by decide +kernel

/-! ## Case mapping -/

theorem upper_byte (b : Byte) : (if mapTab lowerTab upperTab b ≠ 0 then mapTab lowerTab upperTab b else b)
    = if 97 ≤ b.toNat ∧ b.toNat ≤ 122 then b - 32#8 else b := by
  revert b; decide +kernel

theorem lower_byte (b : Byte) : (if mapTab upperTab lowerTab b ≠ 0 then mapTab upperTab lowerTab b else b)
    = if 65 ≤ b.toNat ∧ b.toNat ≤ 90 then b + 32#8 else b := by
  revert b; decide +kernel

/-- C67: upper changes exactly the bytes a-z, each to its capital. -/
theorem upper_spec (s : List Byte) (i : Nat) :
    (upper s)[i]? = s[i]?.map (fun b => if 97 ≤ b.toNat ∧ b.toNat ≤ 122 then b - 32#8 else b) := by
  unfold upper mapWith
  rw [List.getElem?_map]
  congr 1
  funext b; exact upper_byte b

/-- C67: lower changes exactly the bytes A-Z, each to its small letter. -/
theorem lower_spec (s : List Byte) (i : Nat) :
    (lower s)[i]? = s[i]?.map (fun b => if 65 ≤ b.toNat ∧ b.toNat ≤ 90 then b + 32#8 else b) := by
  unfold lower mapWith
  rw [List.getElem?_map]
  congr 1
  funext b; exact lower_byte b

/-- C67: the length never changes. -/
theorem case_length (s : List Byte) : (upper s).length = s.length ∧ (lower s).length = s.length := by
  simp [upper, lower, mapWith]

theorem map2 (f g h : Byte → Byte) (e : ∀ b, g (f b) = h b) (s : List Byte) : (s.map f).map g = s.map h := by
  rw [List.map_map]
  exact List.map_congr_left (fun b _ => e b)

/-- C67: mapping twice is mapping with the last one. -/
theorem case_idem (s : List Byte) :
    upper (upper s) = upper s ∧ lower (lower s) = lower s ∧ upper (lower s) = upper s ∧ lower (upper s) = lower s := by
  unfold upper lower mapWith
  refine ⟨map2 _ _ _ ?_ s, map2 _ _ _ ?_ s, map2 _ _ _ ?_ s, map2 _ _ _ ?_ s⟩ <;> decide +kernel

/-- C67: the case of a string does not matter to the case-insensitive comparison. -/
theorem strcasecmp_lower (s : List Byte) : strcasecmp false s (lower s) = some 0 ∧ strcasecmp false s (upper s) = some 0 := by
  have hl : ∀ b : Byte, tolower b = tolower (if mapTab upperTab lowerTab b ≠ 0 then mapTab upperTab lowerTab b else b) := by decide +kernel
  have hu : ∀ b : Byte, tolower b = tolower (if mapTab lowerTab upperTab b ≠ 0 then mapTab lowerTab upperTab b else b) := by decide +kernel
  have gen : ∀ (f : Byte → Byte), (∀ b, tolower b = tolower (f b)) → ∀ s : List Byte, strncasecmp s.length s (s.map f) = some 0 := by
    intro f hf s
    induction s with
    | nil => rfl
    | cons a s ih =>
      simp only [List.length_cons, List.map_cons, strncasecmp, List.head?_cons, Option.bind_eq_bind, Option.bind_some, List.tail_cons]
      rw [if_neg (by simpa using hf a)]
      split
      · rfl
      · exact ih
  constructor
  · unfold strcasecmp
    rw [(case_length s).2]
    simp only [Bool.false_eq_true, if_false, gt_iff_lt, lt_irrefl]
    exact gen _ hl s
  · unfold strcasecmp
    rw [(case_length s).1]
    simp only [Bool.false_eq_true, if_false, gt_iff_lt, lt_irrefl]
    exact gen _ hu s

example : upper [97, 122, 123, 64, 0xe9] = [65, 90, 123, 64, 0xe9] := by decide +kernel
example : lower [65, 90, 91, 64, 0xc9] = [97, 122, 91, 64, 0xc9] := by decide +kernel

/-! ## Concatenation -/

/-- C68: two strings are joined with the separator between them; a missing string leaves the
other one alone, without separator. -/
theorem concat_spec (a b c : List Byte) :
    concat (some a) (some b) (some c) = a ++ c ++ b ∧ concat (some a) (some b) none = a ++ b ∧
    (∀ sep, concat (some a) none sep = a) ∧ (∀ sep, concat none (some b) sep = b) ∧ (∀ sep, concat none none sep = []) := by
  refine ⟨rfl, by simp [concat], ?_, ?_, ?_⟩ <;> intro sep <;> cases sep <;> simp [concat]

/-- C68: the size that is allocated (plus one for the NUL) is the number of bytes written. -/
theorem concat_size (s1 s2 sep : Option (List Byte)) : concatSize s1 s2 sep = (concat s1 s2 sep).length := by
  cases s1 <;> cases s2 <;> cases sep <;> simp [concat, concatSize] <;> omega

example : concat (some [1, 2]) (some [3]) (some [9, 9]) = [1, 2, 9, 9, 3] := by decide +kernel

end Verif.Str
