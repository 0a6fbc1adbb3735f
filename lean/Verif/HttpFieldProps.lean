import Verif.Http
import Verif.StrMiscProps
import Mathlib.Data.List.Forall2
import Mathlib.Data.Nat.ModEq
import Mathlib.Tactic.Ring
/-
Properties of the header fields of src/mln_http.c: set and get, names in other case, removal, and
the values of one name.
-/
namespace Verif.Http
open Verif.Str (SameLetter beforeNul tolower)

/-! ## Specification -/

/-- The same name up to the case of letters. -/
def SameName (a b : List Byte) : Prop := List.Forall₂ SameLetter a b

/-- Names as they are in headers: without NUL. -/
def Text (a : List Byte) : Prop := 0#8 ∉ a

/-- The number of capital letters. -/
def capitals (a : List Byte) : Nat := a.countP (fun b => 65 ≤ b.toNat && b.toNat ≤ 90)

/-! ## The comparison -/

theorem caseEq_iff (a b : List Byte) : caseEq a b = true ↔
    a.length = b.length ∧ List.Forall₂ SameLetter (beforeNul a) (beforeNul b) := by
  obtain ⟨r, e, hr⟩ := Str.strcasecmp_zero_partial a b
  unfold caseEq
  rw [e]
  simp only [Option.some.injEq, decide_eq_true_eq]
  exact hr

theorem caseEq_text {a b : List Byte} (ha : Text a) (hb : Text b) :
    caseEq a b = true ↔ SameName a b := by
  obtain ⟨r, e, hr⟩ := Str.strcasecmp_zero_text a b ha hb
  unfold caseEq
  rw [e]
  simp only [Option.some.injEq, decide_eq_true_eq]
  exact hr

theorem sameLetter_refl (a : Byte) : SameLetter a a := (Str.tolower_eq_iff a a).1 rfl
theorem sameLetter_symm {a b : Byte} (h : SameLetter a b) : SameLetter b a :=
  (Str.tolower_eq_iff _ _).1 ((Str.tolower_eq_iff _ _).2 h).symm
theorem sameLetter_trans {a b c : Byte} (h : SameLetter a b) (h' : SameLetter b c) : SameLetter a c :=
  (Str.tolower_eq_iff _ _).1 (((Str.tolower_eq_iff _ _).2 h).trans ((Str.tolower_eq_iff _ _).2 h'))

theorem caseEq_refl (a : List Byte) : caseEq a a = true := by
  rw [caseEq_iff]
  exact ⟨rfl, List.forall₂_same.2 fun x _ => sameLetter_refl x⟩

theorem forall2_symm {a b : List Byte} (h : List.Forall₂ SameLetter a b) :
    List.Forall₂ SameLetter b a := by
  induction h with
  | nil => exact .nil
  | cons h _ ih => exact .cons (sameLetter_symm h) ih

theorem forall2_trans {a b c : List Byte} (h : List.Forall₂ SameLetter a b)
    (h' : List.Forall₂ SameLetter b c) : List.Forall₂ SameLetter a c := by
  induction h generalizing c with
  | nil => exact h'
  | cons h _ ih =>
    cases h' with
    | cons h1 h2 => exact .cons (sameLetter_trans h h1) (ih h2)

theorem hit_refl (k v) : hit k (k, v) = true := by
  unfold hit
  simp [caseEq_refl]

theorem hit_iff (k : List Byte) (e) : hit k e = true ↔ bucket k = bucket e.1 ∧ caseEq k e.1 = true := by
  unfold hit
  simp

theorem hit_trans {k k' : List Byte} {e v} (h : hit k e = true) : hit k' e = hit k' (k, v) := by
  rw [Bool.eq_iff_iff, hit_iff, hit_iff]
  rw [hit_iff, caseEq_iff] at h
  rw [caseEq_iff, caseEq_iff]
  obtain ⟨h1, h2, h3⟩ := h
  dsimp only
  constructor
  · rintro ⟨a, b, c⟩
    exact ⟨a.trans h1.symm, b.trans h2.symm, forall2_trans c (forall2_symm h3)⟩
  · rintro ⟨a, b, c⟩
    exact ⟨a.trans h1, b.trans h2, forall2_trans c h3⟩

/-! ## Set and get -/

theorem find_update (k v) : ∀ es, es.any (hit k) = true →
    (updateField k v es).find? (hit k) = some (k, some v) := by
  intro es
  induction es with
  | nil => intro h; cases h
  | cons e es ih =>
    intro h
    rw [updateField]
    by_cases he : hit k e = true
    · rw [if_pos he, List.find?_cons_of_pos (hit_refl k _)]
    · rw [if_neg he, List.find?_cons_of_neg he]
      simp only [List.any_cons, he, Bool.false_or] at h
      exact ih h

theorem find_update_other (k k' v) (hk : hit k' (k, some v) = false) : ∀ es,
    (updateField k v es).find? (hit k') = es.find? (hit k') := by
  intro es
  induction es with
  | nil => rfl
  | cons e es ih =>
    rw [updateField]
    by_cases he : hit k e = true
    · rw [if_pos he]
      have h1 : hit k' e = false := by rw [hit_trans he (v := some v), hk]
      rw [List.find?_cons_of_neg (by simp [hk]), List.find?_cons_of_neg (by simp [h1])]
    · rw [if_neg he]
      by_cases h1 : hit k' e = true
      · rw [List.find?_cons_of_pos h1, List.find?_cons_of_pos h1]
      · rw [List.find?_cons_of_neg h1, List.find?_cons_of_neg h1, ih]

/-- What was set is what one gets, and other names are not changed. -/
theorem set_get {okK okV okN h k v h'} (hs : fieldSet okK okV okN h k v = (OK, h')) :
    fieldGet h' k = some v ∧
      ∀ k', Text k → Text k' → ¬ SameName k' k → fieldGet h' k' = fieldGet h k' := by
  unfold fieldSet at hs
  have hk' : ∀ k', Text k → Text k' → ¬ SameName k' k → hit k' (k, some v) = false := by
    intro k' ht ht' hn
    rw [Bool.eq_false_iff, ne_eq, hit_iff, caseEq_text ht' ht]
    exact fun h => hn h.2
  split at hs
  · simp [OK, ERROR] at hs
  · split at hs
    · rename_i ha
      simp only [Prod.mk.injEq, true_and] at hs
      subst hs
      refine ⟨?_, ?_⟩
      · unfold fieldGet
        rw [find_update k v _ ha]
      · intro k' ht ht' hn
        unfold fieldGet
        rw [find_update_other k k' v (hk' k' ht ht' hn)]
    · rename_i ha
      split at hs
      · simp only [Prod.mk.injEq, true_and] at hs
        subst hs
        have hnone : h.fields.find? (hit k) = none := by
          rw [List.find?_eq_none]
          intro x hx hc
          exact ha (List.any_eq_true.2 ⟨x, hx, hc⟩)
        refine ⟨?_, ?_⟩
        · unfold fieldGet
          rw [List.find?_append, hnone]
          simp [hit_refl]
        · intro k' ht ht' hn
          unfold fieldGet
          rw [List.find?_append, List.find?_cons_of_neg (by simp [hk' k' ht ht' hn])]
          simp
      · simp [OK, ERROR] at hs

example : (fieldSet true true true { fields := [(b! "Host", some (b! "a"))] } (b! "Host") (b! "b")).2.fields
    = [(b! "Host", some (b! "b"))] := by decide +kernel

/-! ## Names in other case -/

theorem upper_toNat {a b : Byte} (h : SameLetter a b) :
    a.toNat + 32 * (if 65 ≤ a.toNat && a.toNat ≤ 90 then 1 else 0) =
      b.toNat + 32 * (if 65 ≤ b.toNat && b.toNat ≤ 90 then 1 else 0) := by
  have e := (Str.tolower_eq_iff a b).2 h
  have e' := congrArg BitVec.toNat e
  rw [Str.tolower_toNat, Str.tolower_toNat] at e'
  by_cases h1 : 65 ≤ a.toNat ∧ a.toNat ≤ 90 <;> by_cases h2 : 65 ≤ b.toNat ∧ b.toNat ≤ 90 <;>
    simp_all

theorem sum_capitals {a b : List Byte} (h : SameName a b) :
    (a.map (fun b => b.toNat * 3)).sum + 96 * capitals a =
      (b.map (fun b => b.toNat * 3)).sum + 96 * capitals b := by
  induction h with
  | nil => rfl
  | cons h _ ih =>
    have := upper_toNat h
    unfold capitals at ih ⊢
    simp only [List.map_cons, List.sum_cons, List.countP_cons]
    omega

theorem sum_lt {a : List Byte} : (a.map (fun b => b.toNat * 3)).sum ≤ 765 * a.length := by
  induction a with
  | nil => simp
  | cons x a ih =>
    have := x.isLt
    simp only [List.map_cons, List.sum_cons, List.length_cons]
    omega

/-- Names that are the same up to case are in the same bucket when the numbers of their capital
letters differ by a multiple of 31, and only then. -/
theorem bucket_case {a b : List Byte} (h : SameName a b) (hl : a.length < 2 ^ 32) :
    bucket a = bucket b ↔ capitals a % 31 = capitals b % 31 := by
  have e := sum_capitals h
  have l1 := sum_lt (a := a)
  have l2 := sum_lt (a := b)
  have hl' := h.length_eq
  unfold bucket
  generalize (a.map (fun b => b.toNat * 3)).sum = x at *
  generalize (b.map (fun b => b.toNat * 3)).sum = y at *
  rw [Nat.mod_eq_of_lt (show x < 2 ^ 64 by omega), Nat.mod_eq_of_lt (show y < 2 ^ 64 by omega)]
  omega

/-- What a search finds: the first field with the same name up to case and with as many capital
letters modulo 31. -/
theorem get_spec {h : Http} {k : List Byte} (hk : Text k) (hl : k.length < 2 ^ 32)
    (hf : ∀ e ∈ h.fields, Text e.1) (v : List Byte) :
    fieldGet h k = some v ↔ ∃ l r n, h.fields = l ++ (n, some v) :: r ∧
      (SameName k n ∧ capitals k % 31 = capitals n % 31) ∧
      ∀ e ∈ l, ¬ (SameName k e.1 ∧ capitals k % 31 = capitals e.1 % 31) := by
  have hh : ∀ e, Text e.1 → (hit k e = true ↔ SameName k e.1 ∧ capitals k % 31 = capitals e.1 % 31) := by
    intro e he
    rw [hit_iff, caseEq_text hk he]
    constructor
    · rintro ⟨h1, h2⟩
      exact ⟨h2, (bucket_case h2 hl).1 h1⟩
    · rintro ⟨h1, h2⟩
      exact ⟨(bucket_case h1 hl).2 h2, h1⟩
  unfold fieldGet
  constructor
  · intro hg
    cases hfd : h.fields.find? (hit k) with
    | none => rw [hfd] at hg; cases hg
    | some e =>
      rw [hfd] at hg
      obtain ⟨n, v'⟩ := e
      dsimp only at hg
      subst hg
      obtain ⟨h1, l, r, h2, h3⟩ := List.find?_eq_some_iff_append.1 hfd
      have hm : ∀ e ∈ l ++ (n, some v) :: r, Text e.1 := by rw [← h2]; exact hf
      refine ⟨l, r, n, h2, (hh _ (hm (n, some v) (by simp))).1 h1, ?_⟩
      intro e he hc
      have := h3 e he
      rw [(hh e (hm e (by simp [he]))).2 hc] at this
      simp at this
  · rintro ⟨l, r, n, h1, h2, h3⟩
    have hm : ∀ e ∈ l ++ (n, some v) :: r, Text e.1 := by rw [← h1]; exact hf
    have : h.fields.find? (hit k) = some (n, some v) := by
      rw [List.find?_eq_some_iff_append]
      refine ⟨(hh _ (hm (n, some v) (by simp))).2 h2, l, r, h1, ?_⟩
      intro e he
      have := h3 e he
      rw [← hh e (hm e (by simp [he]))] at this
      simpa using this
    rw [this]

/-- A name with fewer than 31 letters is not found when it is written with another number of
capital letters: names are not compared without case. -/
theorem get_other_case {n k v : List Byte} (hs : SameName k n)
    (hl : k.length < 31) (hc : capitals k ≠ capitals n) :
    fieldGet { fields := [(n, some v)] } k = none ∧
      ∀ w, (fieldSet true true true { fields := [(n, some v)] } k w).2.fields =
        [(n, some v), (k, some w)] := by
  have hb : hit k (n, some v) = false := by
    rw [Bool.eq_false_iff, ne_eq, hit_iff]
    rintro ⟨h1, _⟩
    have h2 := (bucket_case hs (by omega)).1 h1
    have l1 : capitals k ≤ k.length := List.countP_le_length
    have l2 : capitals n ≤ n.length := List.countP_le_length
    have := hs.length_eq
    rw [Nat.mod_eq_of_lt (by omega), Nat.mod_eq_of_lt (by omega)] at h2
    exact hc h2
  constructor
  · unfold fieldGet
    rw [List.find?_cons_of_neg (by simp [hb])]
    rfl
  · intro w
    unfold fieldSet
    simp [hb]

example : fieldGet { fields := [(b! "content-length", some (b! "5"))] } (b! "Content-Length") = none := by
  decide +kernel
example : fieldGet { fields := [(b! "Content-length", some (b! "5"))] } (b! "content-Length") = some (b! "5") := by
  decide +kernel

/-! ## Removal -/

/-- What is removed: the fields found, up to the first of them without a value. -/
def removed (k : List Byte) : List (List Byte × Option (List Byte)) →
    List (List Byte × Option (List Byte))
  | [] => []
  | e :: es => if hit k e then (if e.2 = none then e :: es else removed k es) else e :: removed k es

theorem removeLoop_cons {k e} (he : hit k e = false) : ∀ n es,
    removeLoop k n (e :: es) = e :: removeLoop k n es := by
  intro n
  induction n with
  | zero => intro _; rfl
  | succ n ih =>
    intro es
    rw [removeLoop, removeLoop, List.find?_cons_of_neg (by simp [he])]
    cases hf : es.find? (hit k) with
    | none => rfl
    | some x =>
      obtain ⟨a, b⟩ := x
      cases b with
      | none => rfl
      | some b =>
        dsimp only
        unfold removeField
        rw [List.eraseP_cons_of_neg (by simp [he]), ih]

theorem removeLoop_spec (k) : ∀ es n, es.length ≤ n → removeLoop k n es = removed k es := by
  intro es
  induction es with
  | nil =>
    intro n _
    cases n <;> rfl
  | cons e es ih =>
    intro n hn
    simp only [List.length_cons] at hn
    rw [removed]
    by_cases he : hit k e = true
    · rw [if_pos he]
      obtain ⟨n, rfl⟩ : ∃ m, n = m + 1 := ⟨n - 1, by omega⟩
      rw [removeLoop, List.find?_cons_of_pos he]
      obtain ⟨a, b⟩ := e
      cases b with
      | none => rfl
      | some b =>
        dsimp only
        unfold removeField
        rw [List.eraseP_cons_of_pos he, ih n (by omega)]
        rfl
    · rw [if_neg he]
      have he' : hit k e = false := by simpa using he
      rw [removeLoop_cons he', ih n (by omega)]

theorem fieldRemove_spec (h k) : (fieldRemove h k).fields = removed k h.fields :=
  removeLoop_spec k h.fields _ (Nat.le_refl _)

/-- When all fields found have values, all are removed and all others stay in order.  The rest of
the message is the same in any case. -/
theorem remove_all_partial {h : Http} {k} (hv : ∀ e ∈ h.fields, hit k e = true → e.2 ≠ none) :
    fieldRemove h k = { h with fields := h.fields.filter (fun e => !hit k e) } := by
  have : removed k h.fields = h.fields.filter (fun e => !hit k e) := by
    generalize h.fields = es at hv
    induction es with
    | nil => rfl
    | cons e es ih =>
      have i := ih (fun e he => hv e (by simp [he]))
      rw [removed, List.filter_cons]
      by_cases he : hit k e = true
      · simp [he, hv e (by simp) he, i]
      · simp [he, i]
  rw [← this, ← fieldRemove_spec]
  rfl

/-- A field without a value is never removed, nor is a field of the name after it. -/
theorem remove_stops {h : Http} {k n l r} (hf : h.fields = l ++ (n, none) :: r)
    (hn : hit k (n, none) = true) (hl : ∀ e ∈ l, hit k e = false) : fieldRemove h k = h := by
  have : removed k h.fields = h.fields := by
    rw [hf]
    clear hf
    induction l with
    | nil => rw [List.nil_append, removed, if_pos hn, if_pos rfl]
    | cons e l ih =>
      rw [List.cons_append, removed, if_neg (by simp [hl e (by simp)]), ih (fun e he => hl e (by simp [he]))]
  have e := fieldRemove_spec h k
  rw [this] at e
  cases h
  unfold fieldRemove at e ⊢
  dsimp only at e ⊢
  rw [e]

example : (fieldRemove { fields := [(b! "A", none), (b! "A", some (b! "x"))] } (b! "A")).fields =
    [(b! "A", none), (b! "A", some (b! "x"))] := by decide +kernel
example : (fieldRemove { fields := [(b! "A", some (b! "y")), (b! "B", none), (b! "A", some (b! "x"))] } (b! "A")).fields =
    [(b! "B", none)] := by decide +kernel

/-! ## All values of a name -/

theorem join_spec : ∀ vs : List (List Byte), join vs.length vs = [44#8].intercalate vs := by
  intro vs
  induction vs with
  | nil => rfl
  | cons v vs ih =>
    rw [join]
    cases vs with
    | nil => simp [join]
    | cons w ws =>
      rw [if_pos (by simp), List.intercalate_cons_cons, ← ih]
      simp

/-- A field is found by a name when it has the same name up to case and as many capital letters
modulo 31. -/
theorem hit_spec {k : List Byte} {e} (hk : Text k) (hl : k.length < 2 ^ 32) (he : Text e.1) :
    hit k e = true ↔ SameName k e.1 ∧ capitals k % 31 = capitals e.1 % 31 := by
  rw [hit_iff, caseEq_text hk he]
  constructor
  · rintro ⟨h1, h2⟩
    exact ⟨h2, (bucket_case h2 hl).1 h1⟩
  · rintro ⟨h1, h2⟩
    exact ⟨(bucket_case h1 hl).2 h2, h1⟩

/-- The iterator gives the values of all fields found, in order, with commas between them. -/
theorem iterator_spec (h k) : fieldIterator true true h k =
    if (h.fields.filter (hit k)).filterMap (fun e => e.2) = [] then none
    else some ([44#8].intercalate ((h.fields.filter (hit k)).filterMap (fun e => e.2))) := by
  change _ = if values h k = [] then none else some ([44#8].intercalate (values h k))
  unfold fieldIterator
  cases hv : values h k with
  | nil => rfl
  | cons v vs =>
    simp only [Bool.not_true, Bool.or_self, if_false, Bool.false_eq_true]
    rw [← hv, join_spec, if_neg (by simp [hv]), if_neg (by simp [hv])]

example : fieldIterator true true
    { fields := [(b! "A", some (b! "x")), (b! "B", some (b! "z")), (b! "A", none), (b! "A", some (b! "y"))] }
    (b! "A") = some (b! "x,y") := by decide +kernel

/-- After setting, the first value changes and the values of further fields stay. -/
example : values (fieldSet true true true
    { fields := [(b! "A", some (b! "x")), (b! "A", some (b! "y"))] } (b! "A") (b! "z")).2 (b! "A")
    = [b! "z", b! "y"] := by decide +kernel

end Verif.Http
