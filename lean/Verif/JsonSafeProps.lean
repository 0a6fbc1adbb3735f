import Verif.JsonEncProps
import Mathlib.Data.List.Infix
/-
C42, C79, C80: memory safety of decoding, the limits of the policy, objects as maps.
-/
namespace Verif.Json
open Verif.Str (Byte strcmp)
variable {D : Type}

/-! ## String literals -/

theorem utf8_len (u : BitVec 32) : 1 ≤ (utf8 u).length ∧ (utf8 u).length ≤ 4 := by
  unfold utf8
  split
  · simp
  split
  · simp
  split <;> simp

/-- What one step takes and gives: at least one byte is taken; if 0 is returned, six bytes or a raw
NUL. -/
theorem getChar_step (hex : BitVec 32) (b : Byte) (t : List Byte) (c : Byte) (s : List Byte) (hex' : BitVec 32)
    (h : getChar hex (b :: t) = some (c, s, hex')) : s <:+ t ∧ (c = 0 → b = 0 ∨ s.length + 6 ≤ (b :: t).length) := by
  rw [getChar.eq_def] at h
  simp only at h
  split at h
  · rename_i hb
    subst hb
    cases t with
    | nil => simp at h
    | cons e t =>
      simp only at h
      have key : ∀ x : Byte, x ≠ 0 → some (x, t, hex) = some (c, s, hex') → s <:+ e :: t ∧ (c = 0 → (92 : Byte) = 0 ∨ s.length + 6 ≤ (92 :: e :: t).length) := by
        intro x hx he
        simp only [Option.some.injEq, Prod.mk.injEq] at he
        obtain ⟨rfl, rfl, rfl⟩ := he
        exact ⟨List.suffix_cons _ _, fun h => absurd h hx⟩
      split at h
      · exact key _ (by decide) h
      split at h
      · exact key _ (by decide) h
      split at h
      · exact key _ (by decide) h
      split at h
      · exact key _ (by decide) h
      split at h
      · exact key _ (by decide) h
      split at h
      · exact key _ (by decide) h
      split at h
      · exact key _ (by decide) h
      split at h
      · exact key _ (by decide) h
      split at h
      · split at h
        · rename_i a b c d t
          simp only [Option.some.injEq, Prod.mk.injEq] at h
          obtain ⟨rfl, rfl, rfl⟩ := h
          refine ⟨⟨[e, a, b, c, d], rfl⟩, fun _ => Or.inr ?_⟩
          simp
        · simp at h
      · simp at h
  · simp only [Option.some.injEq, Prod.mk.injEq] at h
    obtain ⟨rfl, rfl, rfl⟩ := h
    exact ⟨List.suffix_refl _, fun h => Or.inl h⟩

theorem fetchLoop_safe (cap : Nat) : ∀ (n : Nat) (t : List Byte) (hex : BitVec 32) (out : List Byte), (0 : Byte) ∉ t → t.length ≤ n →
    out.length + t.length ≤ cap → ∃ r, fetchLoop cap n t hex out = some r ∧ ∀ s, r = some s → s.length ≤ cap := by
  intro n
  induction n with
  | zero =>
    intro t hex out _ hl hc
    cases t with
    | nil => exact ⟨some out, rfl, by intro s hs; cases hs; simpa using hc⟩
    | cons b t => simp at hl
  | succ n ih =>
    intro t hex out h0 hl hc
    cases t with
    | nil => exact ⟨some out, rfl, by intro s hs; cases hs; simpa using hc⟩
    | cons b t =>
      rw [fetchLoop]
      cases hg : getChar hex (b :: t) with
      | none => exact ⟨none, rfl, by intro s hs; cases hs⟩
      | some q =>
        obtain ⟨c, s, hex'⟩ := q
        obtain ⟨h1, h2⟩ := getChar_step _ _ _ _ _ _ hg
        simp only
        have hs0 : (0 : Byte) ∉ s := fun hm => h0 (List.mem_cons_of_mem _ (h1.subset hm))
        have hlen := h1.length_le
        simp only [List.length_cons] at hl hc
        have hw : out.length + (if c = 0 then utf8 hex' else [c]).length + s.length ≤ cap := by
          by_cases hc0 : c = 0
          · rw [if_pos hc0]
            have := utf8_len hex'
            rcases h2 hc0 with hb | hb
            · exact absurd (by rw [hb]; simp) h0
            · simp only [List.length_cons] at hb
              omega
          · rw [if_neg hc0]
            simp only [List.length_cons, List.length_nil]
            omega
        rw [if_pos (by omega)]
        exact ih _ _ _ hs0 (by omega) (by simp only [List.length_append]; omega)

/-- C42 for literals without a raw NUL byte: what is written fits into the buffer.  Missing: raw NUL
bytes, see `string_overflow`. -/
theorem string_safe_partial (raw : List Byte) (h : (0 : Byte) ∉ raw) : ∃ r, fetch raw = some r ∧ ∀ s, r = some s → s.length ≤ raw.length :=
  fetchLoop_safe _ _ _ _ _ h (Nat.le_refl _) (by simp)

theorem fetchLoop_zeros (cap : Nat) (hex : BitVec 32) (h3 : (utf8 hex).length = 3) : ∀ (k n : Nat) (out : List Byte), k ≤ n → cap < out.length + 3 * k →
    0 < k → fetchLoop cap n (List.replicate k 0) hex out = none := by
  intro k
  induction k with
  | zero => intro n out _ _ h; omega
  | succ k ih =>
    intro n out hk hc _
    obtain ⟨n, rfl⟩ : ∃ m, n = m + 1 := ⟨n - 1, by omega⟩
    rw [List.replicate_succ, fetchLoop]
    have hg : getChar hex (0 :: List.replicate k 0) = some (0, List.replicate k 0, hex) := by
      simp [getChar]
    rw [hg]
    simp only [if_true, h3]
    split
    · by_cases h0 : k = 0
      · subst h0; omega
      · exact ih n _ (by omega) (by simp only [List.length_append, h3]; omega) (by omega)
    · rfl

theorem utf8_three (x : Nat) (h1 : 2048 ≤ x) (h2 : x < 65536) : (utf8 (BitVec.ofNat 32 x)).length = 3 := by
  have e : (BitVec.ofNat 32 x).toNat = x := by simp; omega
  unfold utf8
  rw [if_neg, if_neg, if_pos]
  · rfl
  · rw [BitVec.le_def, e]; simp; omega
  · rw [BitVec.le_def, e]; simp; omega
  · rw [BitVec.le_def, e]; simp; omega

/-- Refutation of C42: `\u` with a code of 2048 or more and then only NUL bytes, at least two,
overruns the buffer. -/
theorem string_overflow (a b c d : Byte) (x y z w : Nat) (ha : Hex a x) (hb : Hex b y) (hc : Hex c z) (hd : Hex d w)
    (hx : 2048 ≤ x * 4096 + y * 256 + z * 16 + w) (k : Nat) (hk : 2 ≤ k) :
    fetch (92 :: 117 :: a :: b :: c :: d :: List.replicate k 0) = none := by
  obtain ⟨ea, la, _⟩ := hex_char ha
  obtain ⟨eb, lb, _⟩ := hex_char hb
  obtain ⟨ec, lc, _⟩ := hex_char hc
  obtain ⟨ed, ld, _⟩ := hex_char hd
  have hg : getChar 0 (92 :: 117 :: a :: b :: c :: d :: List.replicate k 0) =
      some (0, List.replicate k 0, BitVec.ofNat 32 (x * 4096 + y * 256 + z * 16 + w)) := by
    rw [← hex_code x y z w la lb lc ld, ← ea, ← eb, ← ec, ← ed]
    rfl
  have h3 := utf8_three (x * 4096 + y * 256 + z * 16 + w) hx (by omega)
  unfold fetch
  simp only [List.length_cons, List.length_replicate]
  rw [fetchLoop, hg]
  simp only [if_true, List.nil_append, h3, List.length_nil]
  rw [if_pos (by omega)]
  exact fetchLoop_zeros _ _ h3 k _ _ (by omega) (by omega) (by omega)

/-! ## Decoding has no undefined behaviour -/

/-- Texts for which decoding is safe. -/
structure Good (t : List Byte) : Prop where
  noNul : (0 : Byte) ∉ t
  last : ∀ s b, t = s ++ [b] → blank b = false
  noTen : ∀ s ds r, t = s ++ (ds ++ r) → (∀ c ∈ ds, isDigit c = true) → ds.length ≤ 9

theorem Good.suffix {s t : List Byte} (h : Good t) (hs : s <:+ t) : Good s := by
  obtain ⟨p, rfl⟩ := hs
  refine ⟨fun hm => h.noNul (List.mem_append_right _ hm), fun r b hr => h.last (p ++ r) b (by simp [hr]), fun r ds q hr hd => h.noTen (p ++ r) ds q (by simp [hr]) hd⟩

theorem skip_suffix (t : List Byte) : skip t <:+ t := List.dropWhile_suffix _

theorem skip_head (t : List Byte) (b : Byte) (r : List Byte) (h : skip t = b :: r) : blank b = false := by
  induction t with
  | nil => simp [skip] at h
  | cons c t ih =>
    cases hc : blank c with
    | true =>
      simp only [skip, List.dropWhile_cons, hc, if_true] at h ih
      exact ih h
    | false =>
      rw [skip_cons hc] at h
      simp only [List.cons.injEq] at h
      rw [← h.1]
      exact hc

theorem Good.skip_ne {t : List Byte} (h : Good t) (h0 : t ≠ []) : skip t ≠ [] := by
  intro he
  have hall : ∀ u : List Byte, skip u = [] → ∀ b ∈ u, blank b = true := by
    intro u
    induction u with
    | nil => intro _ b hb; simp at hb
    | cons c u ih =>
      intro hu b hb
      cases hc : blank c with
      | false => rw [skip_cons hc] at hu; cases hu
      | true =>
        simp only [skip, List.dropWhile_cons, hc, if_true] at hu ih
        rcases List.mem_cons.1 hb with rfl | hb
        · exact hc
        · exact ih hu b hb
  have e := List.dropLast_append_getLast h0
  have h1 := h.last _ _ e.symm
  rw [hall t he _ (List.getLast_mem h0)] at h1
  cases h1

theorem scan_split : ∀ (t : List Byte) (f : Bool) (raw rest : List Byte), scan f t = some (raw, rest) → t = raw ++ 34 :: rest := by
  intro t
  induction t with
  | nil => intro f raw rest h; simp [scan] at h
  | cons b t ih =>
    intro f raw rest h
    have step : ∀ g, (scan g t).map (fun p => (b :: p.1, p.2)) = some (raw, rest) → b :: t = raw ++ 34 :: rest := by
      intro g hg
      cases hs : scan g t with
      | none => rw [hs] at hg; cases hg
      | some q =>
        rw [hs] at hg
        simp only [Option.map_some, Option.some.injEq, Prod.mk.injEq] at hg
        obtain ⟨rfl, rfl⟩ := hg
        rw [ih g q.1 q.2 hs]
        rfl
    unfold scan at h
    split at h
    · exact step _ h
    split at h
    · rename_i hb
      simp only [Bool.and_eq_true, beq_iff_eq] at hb
      simp only [Option.some.injEq, Prod.mk.injEq] at h
      obtain ⟨rfl, rfl⟩ := h
      rw [hb.1]
      rfl
    · exact step _ h

/-- A defined result whose rest is a suffix of the text. -/
def Fine (t : List Byte) (r : Option (Option (α × List Byte))) : Prop := ∃ q, r = some q ∧ ∀ v u, q = some (v, u) → u <:+ t

theorem fine_fail (t : List Byte) : Fine (α := α) t (some none) := ⟨none, rfl, by intro v u h; cases h⟩

theorem fine_ok {t u : List Byte} (v : α) (h : u <:+ t) : Fine t (some (some (v, u))) := ⟨_, rfl, by intro v' u' e; cases e; exact h⟩

theorem Fine.trans {s t : List Byte} {r : Option (Option (α × List Byte))} (h : Fine s r) (hs : s <:+ t) : Fine t r := by
  obtain ⟨q, h1, h2⟩ := h
  exact ⟨q, h1, fun v u e => (h2 v u e).trans hs⟩

theorem string_fine (p : Policy) (key : Bool) (t : List Byte) (h : (0 : Byte) ∉ t) : Fine t (parseString (D := D) p key t) := by
  unfold parseString
  cases hs : scan false t with
  | none => exact fine_fail t
  | some q =>
    obtain ⟨raw, rest⟩ := q
    have e := scan_split _ _ _ _ hs
    obtain ⟨r, hr, _⟩ := string_safe_partial raw (fun hm => h (by rw [e]; exact List.mem_append_left _ hm))
    simp only [hr]
    cases r with
    | none => exact fine_fail t
    | some s =>
      simp only
      split
      · exact fine_fail t
      split
      · exact fine_fail t
      · exact fine_ok _ ⟨raw ++ [34], by rw [e]; simp⟩

theorem intPart_suffix (F : Fl D) : ∀ (t : List Byte) (v : D), (intPart F v t).2 <:+ t := by
  intro t
  induction t with
  | nil => intro v; exact List.suffix_refl _
  | cons b t ih =>
    intro v
    unfold intPart
    split
    · exact (ih _).trans (List.suffix_cons _ _)
    · exact List.suffix_refl _

theorem fracPart_suffix (F : Fl D) : ∀ (t : List Byte) (i : Nat) (v : D), (fracPart F i v t).2 <:+ t := by
  intro t
  induction t with
  | nil => intro i v; exact List.suffix_refl _
  | cons b t ih =>
    intro i v
    unfold fracPart
    split
    · exact (ih _ _).trans (List.suffix_cons _ _)
    · exact List.suffix_refl _

theorem expPart_safe : ∀ (t : List Byte) (i j : Nat), i < 10 ^ j → j ≤ 9 → (∀ ds r, t = ds ++ r → (∀ c ∈ ds, isDigit c = true) → ds.length + j ≤ 9) →
    ∃ k r, expPart i t = some (k, r) ∧ r <:+ t := by
  intro t
  induction t with
  | nil => intro i j _ _ _; exact ⟨i, [], rfl, List.suffix_refl _⟩
  | cons b t ih =>
    intro i j hi hj h
    unfold expPart
    by_cases hb : isDigit b = true
    · rw [if_pos hb]
      have hd := (digit_facts b hb).1
      have h1 := h [b] t rfl (by simpa using hb)
      simp only [List.length_cons, List.length_nil] at h1
      have h2 : i * 10 + (b.toNat - 48) < 10 ^ (j + 1) := by rw [Nat.pow_succ]; generalize b.toNat - 48 = x at *; omega
      have h3 : 10 ^ (j + 1) ≤ 10 ^ 9 := Nat.pow_le_pow_right (by omega) (by omega)
      rw [if_pos (by generalize b.toNat - 48 = x at *; omega)]
      obtain ⟨k, r, e, hs⟩ := ih _ (j + 1) h2 (by omega) (by
        intro ds r hr hds
        have := h (b :: ds) r (by rw [hr]; rfl) (by
          intro c hc
          rcases List.mem_cons.1 hc with rfl | hc
          · exact hb
          · exact hds c hc)
        simp only [List.length_cons] at this
        omega)
      exact ⟨k, r, e, hs.trans (List.suffix_cons _ _)⟩
    · rw [if_neg hb]
      exact ⟨i, _, rfl, List.suffix_refl _⟩

theorem exp_fine (F : Fl D) (v : D) (t : List Byte) (h : Good t) : Fine t (digitExp F v t) := by
  have hgo : ∀ (dir : Bool) (s : List Byte), s <:+ t → Fine t
      (match expPart 0 s with
        | none => none
        | some (i, s) => if i = 0 then some (some (v, s)) else some (some (F.mul v (expo F dir i (F.ofNat 1)), s))) := by
    intro dir s hs
    obtain ⟨k, r, e, hr⟩ := expPart_safe s 0 0 (by simp) (by omega) fun ds r hd hall => (h.suffix hs).noTen [] ds r hd hall
    rw [e]
    simp only
    split
    · exact fine_ok _ (hr.trans hs)
    · exact fine_ok _ (hr.trans hs)
  unfold digitExp
  cases t with
  | nil => exact fine_fail _
  | cons b t =>
    simp only
    have hn : ([] : List Byte) <:+ b :: t := List.nil_suffix
    split
    · split
      · exact fine_ok _ hn
      · exact hgo _ _ (List.suffix_cons _ _)
    split
    · split
      · exact fine_ok _ hn
      · exact hgo _ _ (List.suffix_cons _ _)
    · exact hgo _ _ (List.suffix_refl _)

theorem tail_fine (F : Fl D) (v : D) (t : List Byte) (h : Good t) : Fine t (digitTail F v t) := by
  unfold digitTail
  cases t with
  | nil => exact fine_ok _ (List.suffix_refl _)
  | cons b t =>
    simp only
    split
    · exact (exp_fine F v t (h.suffix (List.suffix_cons _ _))).trans (List.suffix_cons _ _)
    · exact fine_ok _ (List.suffix_refl _)

theorem frac_fine (F : Fl D) (v : D) (t : List Byte) (h : Good t) : Fine t (digitFrac F v t) := by
  unfold digitFrac
  cases t with
  | nil => exact fine_ok _ (List.suffix_refl _)
  | cons b t =>
    simp only
    split
    · split
      · exact fine_fail _
      · have hs := (fracPart_suffix F t 1 v).trans (List.suffix_cons b t)
        exact (tail_fine F _ _ (h.suffix hs)).trans hs
    · exact tail_fine F v _ h

theorem process_fine (F : Fl D) (t : List Byte) (h0 : t ≠ []) (h : Good t) : Fine t (digitProcess F t) := by
  unfold digitProcess
  cases t with
  | nil => exact absurd rfl h0
  | cons b t =>
    simp only
    split
    · exact fine_fail _
    split
    · cases t with
      | nil => exact fine_ok _ List.nil_suffix
      | cons c t =>
        simp only
        split
        · exact fine_fail _
        · exact (frac_fine F _ _ (h.suffix (List.suffix_cons _ _))).trans (List.suffix_cons _ _)
    · have hs := intPart_suffix F (b :: t) (F.ofNat 0)
      exact (frac_fine F _ _ (h.suffix hs)).trans hs

theorem digit_fine (F : Fl D) (t : List Byte) (h0 : t ≠ []) (h : Good t) : Fine t (parseDigit F t) := by
  unfold parseDigit
  cases t with
  | nil => exact absurd rfl h0
  | cons b t =>
    simp only
    split
    · split
      · exact fine_fail _
      · rename_i hn
        obtain ⟨q, h1, h2⟩ := process_fine F t hn (h.suffix (List.suffix_cons _ _))
        rw [h1]
        cases q with
        | none => exact fine_fail _
        | some q => exact fine_ok _ ((h2 q.1 q.2 rfl).trans (List.suffix_cons _ _))
    · obtain ⟨q, h1, h2⟩ := process_fine F (b :: t) (by simp) h
      rw [h1]
      cases q with
      | none => exact fine_fail _
      | some q => exact fine_ok _ (h2 q.1 q.2 rfl)

theorem word_suffix (w : List Byte) (v : Json D) (t : List Byte) (r : Json D × List Byte) (h : word w v t = some r) : r.2 <:+ t := by
  unfold word at h
  split at h
  · cases h
  split at h
  · cases h
    exact List.drop_suffix _ _
  · cases h

theorem update_some (kvs : List (List Byte × Json D)) (k : List Byte) (v : Json D) : ∃ l, update kvs k v = some l := by
  induction kvs with
  | nil => exact ⟨_, rfl⟩
  | cons a kvs ih =>
    obtain ⟨k', v'⟩ := a
    obtain ⟨r, hr, _⟩ := Verif.Str.strcmp_zero k k'
    obtain ⟨l, hl⟩ := ih
    rw [update, hr]
    simp only
    split
    · exact ⟨_, rfl⟩
    · rw [hl]; exact ⟨_, rfl⟩

theorem parse_fine (F : Fl D) (p : Policy) : ∀ n,
    (∀ key d t, Good t → 2 * t.length + 1 ≤ n → Fine t (parseJson F p n key d t)) ∧
    (∀ d acc t, Good t → t ≠ [] → 2 * t.length + 2 ≤ n → Fine t (objLoop F p n d acc t)) ∧
    (∀ d acc t, Good t → t ≠ [] → 2 * t.length + 2 ≤ n → Fine t (arrLoop F p n d acc t)) := by
  intro n
  induction n with
  | zero => exact ⟨fun _ _ _ _ h => by omega, fun _ _ _ _ _ h => by omega, fun _ _ _ _ _ h => by omega⟩
  | succ n ih =>
    obtain ⟨ihP, ihO, ihA⟩ := ih
    refine ⟨?_, ?_, ?_⟩
    · intro key d t h hn
      have hsk := skip_suffix t
      have hskl := hsk.length_le
      rw [parseJson]
      cases hs : skip t with
      | nil => exact fine_ok _ List.nil_suffix
      | cons b u =>
        rw [hs] at hsk hskl
        have hu : u <:+ t := (List.suffix_cons b u).trans hsk
        simp only [List.length_cons] at hskl
        have gu := h.suffix hu
        have gb := h.suffix hsk
        simp only
        split
        · split
          · exact fine_fail _
          split
          · exact fine_fail _
          · rename_i h0 _
            exact (ihO d [] u gu h0 (by omega)).trans hu
        split
        · split
          · exact fine_fail _
          split
          · exact fine_fail _
          · rename_i h0 _
            exact (ihA d [] u gu h0 (by omega)).trans hu
        split
        · exact (string_fine p key u gu.noNul).trans hu
        split
        · exact (digit_fine F (b :: u) (by simp) gb).trans hsk
        · cases h1 : word wTrue (.tru : Json D) (b :: u) with
          | some r => exact fine_ok _ ((word_suffix _ _ _ _ h1).trans hsk)
          | none =>
            simp only
            cases h2 : word wFalse (.fls : Json D) (b :: u) with
            | some r => exact fine_ok _ ((word_suffix _ _ _ _ h2).trans hsk)
            | none =>
              simp only
              cases h3 : word wNull (.null : Json D) (b :: u) with
              | some r => exact fine_ok _ ((word_suffix _ _ _ _ h3).trans hsk)
              | none => exact fine_fail _
    · intro d acc t h h0 hn
      have hsk := skip_suffix t
      have hskl := hsk.length_le
      rw [objLoop]
      cases hs : skip t with
      | nil => exact absurd hs (h.skip_ne h0)
      | cons b u =>
        rw [hs] at hsk hskl
        have hu : u <:+ t := (List.suffix_cons b u).trans hsk
        simp only
        split
        · exact fine_ok _ ((skip_suffix u).trans hu)
        · obtain ⟨q, h1, h2⟩ := ihP true (d + 1) (b :: u) (h.suffix hsk) (by omega)
          rw [h1]
          cases q with
          | none => exact fine_fail _
          | some q =>
            obtain ⟨k, t1⟩ := q
            have ht1 := (h2 k t1 rfl).trans hsk
            simp only
            split
            · exact fine_fail _
            · cases k with
              | str key =>
                simp only
                have hs2 := (skip_suffix t1).trans ht1
                cases hs1 : skip t1 with
                | nil => exact fine_fail _
                | cons c t2 =>
                  rw [hs1] at hs2
                  have ht2 : t2 <:+ t := (List.suffix_cons c t2).trans hs2
                  have hl2 := hs2.length_le
                  simp only [List.length_cons] at hl2
                  simp only
                  split
                  · exact fine_fail _
                  split
                  · exact fine_fail _
                  · obtain ⟨q, h3, h4⟩ := ihP false (d + 1) t2 (h.suffix ht2) (by omega)
                    rw [h3]
                    cases q with
                    | none => exact fine_fail _
                    | some q =>
                      obtain ⟨v, t3⟩ := q
                      have ht3 := (h4 v t3 rfl).trans ht2
                      have hl3 := (h4 v t3 rfl).length_le
                      simp only
                      split
                      · exact fine_fail _
                      · have hs4 := (skip_suffix t3).trans ht3
                        have hl4 := (skip_suffix t3).length_le
                        cases hs3 : skip t3 with
                        | nil => exact fine_fail _
                        | cons e t4 =>
                          rw [hs3] at hs4 hl4
                          have ht4 : t4 <:+ t := (List.suffix_cons e t4).trans hs4
                          simp only [List.length_cons] at hl4
                          obtain ⟨l, hl⟩ := update_some acc key v
                          simp only [hl]
                          split
                          · exact fine_fail _
                          split
                          · split
                            · exact fine_fail _
                            · rename_i h40
                              exact (ihO d l t4 (h.suffix ht4) h40 (by omega)).trans ht4
                          split
                          · exact fine_ok _ ((skip_suffix t4).trans ht4)
                          · exact fine_fail _
              | _ => exact fine_fail _
    · intro d acc t h h0 hn
      rw [arrLoop.eq_def]
      cases t with
      | nil => exact absurd rfl h0
      | cons b u =>
        simp only
        have hq : Fine (b :: u) (if b = 93 then some (some ((.none : Json D), b :: u)) else parseJson F p n false (d + 1) (b :: u)) := by
          split
          · exact fine_ok _ (List.suffix_refl _)
          · exact ihP false (d + 1) (b :: u) h (by omega)
        obtain ⟨q, h1, h2⟩ := hq
        rw [h1]
        cases q with
        | none => exact fine_fail _
        | some q =>
          obtain ⟨v, t1⟩ := q
          have ht1 := h2 v t1 rfl
          simp only
          split
          · exact fine_fail _
          split
          · exact fine_fail _
          · have hs2 := (skip_suffix t1).trans ht1
            cases hs1 : skip t1 with
            | nil => exact fine_fail _
            | cons c t2 =>
              rw [hs1] at hs2
              have ht2 : t2 <:+ b :: u := (List.suffix_cons c t2).trans hs2
              have hl2 := hs2.length_le
              simp only [List.length_cons] at hl2
              simp only
              split
              · split
                · exact fine_fail _
                · rename_i h20
                  simp only [List.length_cons] at hn
                  exact (ihA d _ t2 (h.suffix ht2) h20 (by omega)).trans ht2
              split
              · exact fine_ok _ ((skip_suffix t2).trans ht2)
              · exact fine_fail _

/-- C79, for texts without NUL byte, without ten digits in a row and not ending in a blank: decoding
reads and writes inside its buffers, overflows no `int` and comes to an end, whatever the text and
the policy.  Missing: the other texts, see `string_overflow`, `decode_open`, `decode_exponent`. -/
theorem decode_safe_partial (F : Fl D) (p : Policy) (t : List Byte) (h : Good t) : decode F p t ≠ none := by
  obtain ⟨q, h1, _⟩ := (parse_fine F p (2 * t.length + 3)).1 false 0 t h (by omega)
  unfold decode
  rw [h1]
  cases q with
  | none => simp
  | some q =>
    obtain ⟨v, r⟩ := q
    simp only
    split
    · simp
    · cases v <;> simp

/-- Refutation of C79: `{` and then only blanks reads behind the text. -/
theorem decode_open (F : Fl D) (w : List Byte) (h : Blanks w) (h0 : w ≠ []) : decode F {} (123 :: w) = none := by
  unfold decode
  rw [List.length_cons, show 2 * (w.length + 1) + 3 = (2 * w.length + 3) + 1 + 1 by omega, parseJson, skip_cons (by decide)]
  simp only
  rw [if_pos trivial, if_neg h0, if_neg (by simp), objLoop, skip_nil h]

/-- Refutation of C79: an exponent of ten digits overflows an `int`. -/
theorem decode_exponent (F : Fl D) : decode F {} [91, 49, 101, 57, 57, 57, 57, 57, 57, 57, 57, 57, 57, 93] = none := rfl

/-! ## The policy -/

/-- The limit `m` (0: none) holds for `n`. -/
def Lim (m n : Nat) : Prop := m = 0 ∨ n ≤ m

/-- The value, `d` levels deep, keeps the limits. -/
inductive Within (p : Policy) : Nat → Json D → Prop
  | none (d : Nat) : Within p d .none
  | tru (d : Nat) : Within p d .tru
  | fls (d : Nat) : Within p d .fls
  | null (d : Nat) : Within p d .null
  | num (d : Nat) (x : D) : Within p d (.num x)
  | str (d : Nat) (s : List Byte) (h : Lim p.strLen s.length) : Within p d (.str s)
  | arr (d : Nat) (vs : List (Json D)) (h1 : Lim p.depth (d + 1)) (h2 : Lim p.arrElem vs.length) (h : ∀ v ∈ vs, Within p (d + 1) v) : Within p d (.arr vs)
  | obj (d : Nat) (kvs : List (List Byte × Json D)) (h1 : Lim p.depth (d + 1)) (h2 : Lim p.objKv kvs.length)
      (hk : ∀ k v, (k, v) ∈ kvs → Lim p.keyLen k.length) (h : ∀ k v, (k, v) ∈ kvs → Within p (d + 1) v) : Within p d (.obj kvs)

theorem lim_of {m n : Nat} (h : ¬ (m ≠ 0 ∧ n > m)) : Lim m n := by unfold Lim; omega

theorem string_within (p : Policy) (key : Bool) (t : List Byte) (v : Json D) (r : List Byte) (h : parseString p key t = some (some (v, r))) :
    ∃ s, v = .str s ∧ (key = true → Lim p.keyLen s.length) ∧ (key = false → Lim p.strLen s.length) := by
  unfold parseString at h
  split at h
  · cases h
  split at h
  · cases h
  · cases h
  split at h
  · cases h
  split at h
  · cases h
  · rename_i s _ h1 h2
    cases h
    refine ⟨s, rfl, fun hk => lim_of fun hc => h1 ⟨hk, hc⟩, fun hk => lim_of fun hc => h2 ⟨hk, hc⟩⟩

theorem digit_within (F : Fl D) (t : List Byte) (v : Json D) (r : List Byte) (h : parseDigit F t = some (some (v, r))) : ∃ x, v = .num x := by
  unfold parseDigit at h
  split at h
  · cases h
  split at h
  · split at h
    · cases h
    split at h
    · cases h
    · cases h
    · cases h; exact ⟨_, rfl⟩
  · split at h
    · cases h
    · cases h
    · cases h; exact ⟨_, rfl⟩

theorem word_value (w : List Byte) (v : Json D) (t : List Byte) (r : Json D × List Byte) (h : word w v t = some r) : r.1 = v := by
  unfold word at h
  split at h
  · cases h
  split at h
  · cases h; rfl
  · cases h

theorem update_mem (kvs : List (List Byte × Json D)) (k : List Byte) (v : Json D) : ∀ l, update kvs k v = some l →
    ∀ a ∈ l, a = (k, v) ∨ a ∈ kvs := by
  induction kvs with
  | nil => intro l h a ha; cases h; simp at ha; exact Or.inl ha
  | cons b kvs ih =>
    obtain ⟨k', v'⟩ := b
    intro l h a ha
    rw [update] at h
    split at h
    · cases h
    split at h
    · cases h
      rcases List.mem_cons.1 ha with rfl | ha
      · exact Or.inl rfl
      · exact Or.inr (List.mem_cons_of_mem _ ha)
    · cases hu : update kvs k v with
      | none => rw [hu] at h; cases h
      | some m =>
        rw [hu] at h
        cases h
        rcases List.mem_cons.1 ha with rfl | ha
        · exact Or.inr (by simp)
        · rcases ih m hu a ha with h | h
          · exact Or.inl h
          · exact Or.inr (List.mem_cons_of_mem _ h)

theorem parse_within (F : Fl D) (p : Policy) : ∀ n,
    (∀ key d t v r, parseJson F p n key d t = some (some (v, r)) → (key = false → Within p d v) ∧ (key = true → ∀ s, v = .str s → Lim p.keyLen s.length)) ∧
    (∀ d acc t v r, Lim p.depth (d + 1) → Lim p.objKv acc.length → (∀ k v, (k, v) ∈ acc → Lim p.keyLen k.length) → (∀ k v, (k, v) ∈ acc → Within p (d + 1) v) →
      objLoop F p n d acc t = some (some (v, r)) → Within p d v ∧ ∃ l, v = .obj l) ∧
    (∀ d acc t v r, Lim p.depth (d + 1) → (∀ v ∈ acc, Within p (d + 1) v) → arrLoop F p n d acc t = some (some (v, r)) → Within p d v ∧ ∃ l, v = .arr l) := by
  intro n
  induction n with
  | zero =>
    refine ⟨?_, ?_, ?_⟩
    · intro key d t v r h; simp [parseJson] at h
    · intro d acc t v r _ _ _ _ h; simp [objLoop] at h
    · intro d acc t v r _ _ h; simp [arrLoop] at h
  | succ n ih =>
    obtain ⟨ihP, ihO, ihA⟩ := ih
    refine ⟨?_, ?_, ?_⟩
    · intro key d t v r h
      rw [parseJson] at h
      split at h
      · cases h
        exact ⟨fun _ => Within.none d, fun _ s hs => by cases hs⟩
      split at h
      · split at h
        · cases h
        split at h
        · cases h
        · rename_i hd
          obtain ⟨h1, l, rfl⟩ := ihO d [] _ v r (lim_of hd) (by simp [Lim]) (by simp) (by simp) h
          exact ⟨fun _ => h1, fun _ s hs => by cases hs⟩
      split at h
      · split at h
        · cases h
        split at h
        · cases h
        · rename_i hd
          obtain ⟨h1, l, rfl⟩ := ihA d [] _ v r (lim_of hd) (by simp) h
          exact ⟨fun _ => h1, fun _ s hs => by cases hs⟩
      split at h
      · obtain ⟨s, rfl, h1, h2⟩ := string_within p key _ v r h
        exact ⟨fun hk => Within.str d s (h2 hk), fun hk s' hs => by cases hs; exact h1 hk⟩
      split at h
      · obtain ⟨x, rfl⟩ := digit_within F _ v r h
        exact ⟨fun _ => Within.num d x, fun _ s hs => by cases hs⟩
      split at h
      · rename_i h1
        cases h
        have := word_value _ _ _ _ h1
        simp only at this
        subst this
        exact ⟨fun _ => Within.tru d, fun _ s hs => by cases hs⟩
      split at h
      · rename_i h1
        cases h
        have := word_value _ _ _ _ h1
        simp only at this
        subst this
        exact ⟨fun _ => Within.fls d, fun _ s hs => by cases hs⟩
      · simp only [Option.some.injEq] at h
        have := word_value _ _ _ _ h
        simp only at this
        subst this
        exact ⟨fun _ => Within.null d, fun _ s hs => by cases hs⟩
    · intro d acc t v r hd hc hk hw h
      rw [objLoop] at h
      split at h
      · cases h
      split at h
      · cases h
        exact ⟨Within.obj d acc hd hc hk hw, _, rfl⟩
      split at h
      · cases h
      · cases h
      rename_i k t1 hp
      split at h
      · cases h
      cases k with
      | str key =>
        simp only at h
        split at h
        · cases h
        split at h
        · cases h
        split at h
        · cases h
        split at h
        · cases h
        · cases h
        rename_i v' t3 hv
        split at h
        · cases h
        split at h
        · cases h
        split at h
        · cases h
        rename_i l hl
        split at h
        · cases h
        rename_i hcnt
        have hm := update_mem acc key v' l hl
        have hk' : ∀ k v, (k, v) ∈ l → Lim p.keyLen k.length := by
          intro a b hab
          rcases hm _ hab with h | h
          · cases h; exact (ihP true _ _ _ _ hp).2 rfl _ rfl
          · exact hk _ _ h
        have hw' : ∀ k v, (k, v) ∈ l → Within p (d + 1) v := by
          intro a b hab
          rcases hm _ hab with h | h
          · cases h; exact (ihP false _ _ _ _ hv).1 rfl
          · exact hw _ _ h
        split at h
        · split at h
          · cases h
          · exact ihO d l _ v r hd (lim_of hcnt) hk' hw' h
        split at h
        · cases h
          exact ⟨Within.obj d l hd (lim_of hcnt) hk' hw', _, rfl⟩
        · cases h
      | _ => cases h
    · intro d acc t v r hd hw h
      rw [arrLoop.eq_def] at h
      simp only at h
      split at h
      · cases h
      rename_i b u
      split at h
      · cases h
      · cases h
      rename_i v' t1 hv
      have hv' : Within p (d + 1) v' := by
        split at hv
        · cases hv; exact Within.none _
        · exact (ihP false _ _ _ _ hv).1 rfl
      split at h
      · cases h
      split at h
      · cases h
      rename_i hcnt
      have hw' : ∀ x ∈ acc ++ [v'], Within p (d + 1) x := by
        intro x hx
        rcases List.mem_append.1 hx with hx | hx
        · exact hw x hx
        · simp only [List.mem_cons, List.not_mem_nil, or_false] at hx
          rw [hx]
          exact hv'
      split at h
      · cases h
      split at h
      · split at h
        · cases h
        · exact ihA d _ _ v r hd hw' h
      split at h
      · cases h
        exact ⟨Within.arr d _ hd (lim_of hcnt) hw', _, rfl⟩
      · cases h

/-- C80: whatever decodes under a policy keeps its limits: depth, lengths of keys and strings,
numbers of elements and members. -/
theorem policy_enforced (F : Fl D) (p : Policy) (t : List Byte) (v : Json D) (h : decode F p t = some (some v)) : Within p 0 v := by
  unfold decode at h
  split at h
  · cases h
  · cases h
  rename_i u r hp
  split at h
  · cases h
  · have := ((parse_within F p _).1 false 0 t u r hp).1 rfl
    split at h
    · cases h; exact this
    · cases h; exact this
    · cases h

/-! ## Objects as maps -/

/-- The value of a key, as a specification: the first pair with this key. -/
def get (kvs : List (List Byte × Json D)) (k : List Byte) : Option (Json D) := (kvs.find? fun a => a.1 = k).map (·.2)

def KLt (a b : List Byte) : Prop := ∃ r, strcmp false a b = some r ∧ r < 0

/-- Keys are ASCII and different: the objects built from ASCII keys. -/
structure Keyed (kvs : List (List Byte × Json D)) : Prop where
  ascii : ∀ a ∈ kvs, Verif.Str.Ascii a.1
  ne : kvs.Pairwise fun a b => a.1 ≠ b.1

theorem klt_cases (a b : List Byte) (ha : Verif.Str.Ascii a) (hb : Verif.Str.Ascii b) :
    ∃ r, strcmp false a b = some r ∧ (r = 0 ↔ a = b) ∧ (r < 0 ↔ KLt a b) ∧ (0 < r ↔ KLt b a) := by
  obtain ⟨r, hr, h0⟩ := Verif.Str.strcmp_zero a b
  obtain ⟨⟨x, y, hx, hy, hxy⟩, _⟩ := Verif.Str.strcmp_order_partial a b a ha hb ha
  obtain ⟨⟨x', y', hx', hy', hxy'⟩, _⟩ := Verif.Str.strcmp_order_partial b a b hb ha hb
  obtain rfl : r = x := by rw [hr] at hx; exact Option.some.inj hx
  obtain rfl : x' = y := by rw [hx'] at hy; exact Option.some.inj hy
  obtain rfl : r = y' := by rw [hr] at hy'; exact Option.some.inj hy'
  refine ⟨r, hr, h0, ?_, ?_⟩
  · constructor
    · intro h; exact ⟨r, hr, h⟩
    · rintro ⟨z, hz, h⟩
      rw [hr] at hz; cases hz; exact h
  · constructor
    · intro h; exact ⟨x', hx', hxy'.2 h⟩
    · rintro ⟨z, hz, h⟩
      rw [hx'] at hz; cases hz; exact hxy'.1 h

theorem klt_trans {a b c : List Byte} (ha : Verif.Str.Ascii a) (hb : Verif.Str.Ascii b) (hc : Verif.Str.Ascii c) (h1 : KLt a b) (h2 : KLt b c) : KLt a c := by
  obtain ⟨x, hx, h1⟩ := h1
  obtain ⟨y, hy, h2⟩ := h2
  obtain ⟨z, hz, _⟩ := Verif.Str.strcmp_zero a c
  exact ⟨z, hz, (Verif.Str.strcmp_order_partial a b c ha hb hc).2 x y z hx hy hz h1 h2⟩

theorem klt_ne {a b : List Byte} (h : KLt a b) : b ≠ a := by
  rintro rfl
  obtain ⟨r, hr, h⟩ := h
  obtain ⟨z, hz, h0⟩ := Verif.Str.strcmp_zero b b
  rw [hr] at hz; cases hz
  have := h0.2 rfl
  omega

theorem get_none {kvs : List (List Byte × Json D)} {k : List Byte} (h : ∀ a ∈ kvs, a.1 ≠ k) : get kvs k = none := by
  unfold get
  rw [List.find?_eq_none.2]
  · rfl
  · intro a ha
    simpa using h a ha

theorem get_cons (k' k : List Byte) (v : Json D) (l : List (List Byte × Json D)) : get ((k', v) :: l) k = if k' = k then some v else get l k := by
  unfold get
  rw [List.find?_cons]
  by_cases h : k' = k <;> simp [h]

/-- Different 7-bit keys are ordered by the comparison. -/
theorem ordered_ascii (ks : List (List Byte)) (ha : ∀ k ∈ ks, Verif.Str.Ascii k) (hn : ks.Nodup) : Ordered ks := by
  classical
  suffices ∃ l : List (List Byte), l.Perm ks ∧ l.Pairwise KLt by
    obtain ⟨l, h1, h2⟩ := this
    refine ⟨l, h1, h2.imp_of_mem ?_⟩
    intro a b hm1 hm2 h
    obtain ⟨r, e, _, _, h4⟩ := klt_cases b a (ha b (h1.subset hm2)) (ha a (h1.subset hm1))
    exact ⟨r, e, h4.2 h⟩
  induction ks with
  | nil => exact ⟨[], List.Perm.refl _, List.Pairwise.nil⟩
  | cons k ks ih =>
    obtain ⟨l, h1, h2⟩ := ih (fun a h => ha a (by simp [h])) (List.nodup_cons.1 hn).2
    have hk := ha k (by simp)
    have hl : ∀ a ∈ l, Verif.Str.Ascii a := fun a h => ha a (List.mem_cons_of_mem _ (h1.subset h))
    have hkl : ∀ a ∈ l, ¬KLt a k → KLt k a := by
      intro a h hn'
      obtain ⟨r, e, h0, h3, h4⟩ := klt_cases a k (hl a h) hk
      have : a ≠ k := by rintro rfl; exact (List.nodup_cons.1 hn).1 (h1.subset h)
      have e1 : r ≠ 0 := fun e' => this (h0.1 e')
      have e2 : ¬r < 0 := fun e' => hn' (h3.1 e')
      exact h4.1 (by omega)
    refine ⟨l.filter (fun a => KLt a k) ++ k :: l.filter (fun a => ¬KLt a k), ?_, ?_⟩
    · refine List.perm_middle.trans (List.Perm.cons k ?_)
      have := List.filter_append_perm (fun a => decide (KLt a k)) l
      simp only [decide_not]
      exact this.trans h1
    · refine List.pairwise_append.2 ⟨h2.sublist List.filter_sublist, List.pairwise_cons.2 ⟨?_, h2.sublist List.filter_sublist⟩, ?_⟩
      · intro a h
        simp only [List.mem_filter, decide_eq_true_eq] at h
        exact hkl a h.1 h.2
      · intro a h b hb
        simp only [List.mem_filter, decide_eq_true_eq] at h
        rcases List.mem_cons.1 hb with rfl | hb
        · exact h.2
        · simp only [List.mem_filter, decide_eq_true_eq] at hb
          exact klt_trans (hl a h.1) hk (hl b hb.1) h.2 (hkl b hb.1 hb.2)

/-- mln_json_obj_search finds the value of the key. -/
theorem search_get (kvs : List (List Byte × Json D)) (k : List Byte) : search kvs k = some (get kvs k) := by
  induction kvs with
  | nil => rfl
  | cons a l ih =>
    obtain ⟨k', v'⟩ := a
    obtain ⟨r, hr, h0⟩ := Verif.Str.strcmp_zero k k'
    rw [search, hr, get_cons]
    simp only
    by_cases e : r = 0
    · rw [if_pos e, if_pos (h0.1 e).symm]
    · rw [if_neg e, if_neg (c := k' = k) (fun q => e (h0.2 q.symm)), ih]

/-- C81: mln_json_obj_update sets the value of its key and of no other. -/
theorem update_get (kvs : List (List Byte × Json D)) (h : Keyed kvs) (k : List Byte) (hk : Verif.Str.Ascii k) (v : Json D) :
    ∃ l, update kvs k v = some l ∧ Keyed l ∧ ∀ q, get l q = if k = q then some v else get kvs q := by
  induction kvs with
  | nil =>
    refine ⟨[(k, v)], rfl, ⟨by intro a ha; simp at ha; rw [ha]; exact hk, by simp⟩, ?_⟩
    intro q
    rw [get_cons]
  | cons a l ih =>
    obtain ⟨k', v'⟩ := a
    have hk' : Verif.Str.Ascii k' := h.ascii (k', v') (by simp)
    have hp := List.pairwise_cons.1 h.ne
    have hl : Keyed l := ⟨fun a ha => h.ascii a (by simp [ha]), hp.2⟩
    obtain ⟨r, hr, h0⟩ := Verif.Str.strcmp_zero k k'
    rw [update, hr]
    simp only
    by_cases e : r = 0
    · rw [if_pos e]
      have := h0.1 e
      subst this
      refine ⟨_, rfl, ⟨?_, ?_⟩, ?_⟩
      · intro a ha
        rcases List.mem_cons.1 ha with rfl | ha
        · exact hk
        · exact h.ascii a (by simp [ha])
      · exact List.pairwise_cons.2 ⟨fun a ha => hp.1 a ha, hp.2⟩
      · intro q
        rw [get_cons, get_cons]
        by_cases hq : k = q <;> simp [hq]
    · rw [if_neg e]
      obtain ⟨m, hm, hs, hg⟩ := ih hl
      rw [hm]
      refine ⟨_, rfl, ⟨?_, ?_⟩, ?_⟩
      · intro a ha
        rcases List.mem_cons.1 ha with rfl | ha
        · exact hk'
        · exact hs.ascii a ha
      · refine List.pairwise_cons.2 ⟨?_, hs.ne⟩
        intro a ha
        rcases update_mem l k v m hm a ha with rfl | ha
        · exact fun q => e (h0.2 q.symm)
        · exact hp.1 a ha
      · intro q
        rw [get_cons, get_cons, hg]
        by_cases hq : k' = q
        · subst hq
          rw [if_pos rfl, if_neg (c := k = k') (fun q => e (h0.2 q)), if_pos rfl]
        · rw [if_neg hq, if_neg hq]

/-- C81 in terms of the interface: search after update. -/
theorem json_object_map (kvs : List (List Byte × Json D)) (h : Keyed kvs) (k q : List Byte) (hk : Verif.Str.Ascii k) (v : Json D) :
    ∃ l, update kvs k v = some l ∧ Keyed l ∧ search l q = if k = q then some (some v) else search kvs q := by
  obtain ⟨l, h1, h2, h3⟩ := update_get kvs h k hk v
  refine ⟨l, h1, h2, ?_⟩
  rw [search_get l q, search_get kvs q, h3]
  split <;> rfl

/-! ## Examples -/

/-- Integers as numbers. -/
def intFl : Fl Int where
  ofNat n := n
  add := (· + ·)
  mul := (· * ·)
  div := (· / ·)
  neg := (- ·)
  toS64 := some
  eqInt a b := a == b
  fmtF _ := []

example : Exact intFl id where
  ofNat _ _ := rfl
  add _ _ _ _ _ := rfl
  mul _ _ _ _ _ := rfl
  neg _ _ _ := rfl
  toS64 _ _ := rfl
  eqInt _ _ := by simp [intFl]

example : encode intFl (.obj [([97], .arr [.num (-120), .null]), ([98], .str [34, 92])]) =
    some [123, 34, 97, 34, 58, 91, 45, 49, 50, 48, 44, 110, 117, 108, 108, 93, 44, 34, 98, 34, 58, 34, 92, 34, 92, 92, 34, 125] := by decide +kernel

example : decode intFl {} [123, 34, 97, 34, 58, 91, 45, 49, 50, 48, 44, 110, 117, 108, 108, 93, 44, 34, 98, 34, 58, 34, 92, 34, 92, 92, 34, 125] =
    some (some (.obj [([97], .arr [.num (-120), .null]), ([98], .str [34, 92])])) := rfl

-- the keys keep the order in which they came
example : encode intFl (.obj [([98], .null), ([97], .tru)]) = some [123, 34, 98, 34, 58, 110, 117, 108, 108, 44, 34, 97, 34, 58, 116, 114, 117, 101, 125] := by decide +kernel

example : decode intFl {} [123, 34, 98, 34, 58, 110, 117, 108, 108, 44, 34, 97, 34, 58, 116, 114, 117, 101, 125] = some (some (.obj [([98], .null), ([97], .tru)])) := rfl

-- a limit of two elements
example : decode intFl { arrElem := 2 } [91, 49, 44, 50, 44, 51, 93] = some none ∧
    decode intFl { arrElem := 3 } [91, 49, 44, 50, 44, 51, 93] = some (some (.arr [.num 1, .num 2, .num 3])) := ⟨rfl, rfl⟩

example : update [([97], .tru), ([99], .null)] [98] (.fls : Json Int) = some [([97], .tru), ([99], .null), ([98], .fls)] := rfl

example : update [([97], .tru), ([99], .null)] [97] (.fls : Json Int) = some [([97], .fls), ([99], .null)] := rfl

end Verif.Json
