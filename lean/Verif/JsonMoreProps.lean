import Verif.JsonEncProps
import Mathlib.Data.Rat.Cast.Order
import Mathlib.Tactic.FieldSimp
import Mathlib.Tactic.Ring
/-
More about JSON texts (Verif/Json.lean): numbers with a fraction and an exponent, text behind the
value, a missing colon.
-/
namespace Verif.Json
open Verif.Str (Byte strcmp)
variable {D : Type}

/-! ### Numbers -/

/-- Exact arithmetic: the operations are those of the rational numbers. -/
structure ExactRat (F : Fl ℚ) : Prop where
  ofNat : ∀ n : Nat, F.ofNat n = n
  add : ∀ a b, F.add a b = a + b
  mul : ∀ a b, F.mul a b = a * b
  div : ∀ a b, F.div a b = a / b
  neg : ∀ a, F.neg a = -a

/-- The integer part of a number: no leading zero. -/
def IntDigits (ip : List Byte) : Prop := ip = [48] ∨ ∃ b t, ip = b :: t ∧ b ≠ 48 ∧ ∀ c ∈ b :: t, isDigit c = true

/-- The text of a fraction; none if there are no digits. -/
def fracTxt (fp : List Byte) : List Byte := if fp = [] then [] else 46 :: fp

/-- The exponent: its sign (as written) and its digits. -/
inductive ExpTxt : ℚ → List Byte → Prop
  | none : ExpTxt 1 []
  | pos (e : Byte) (sg ds : List Byte) (he : e = 101 ∨ e = 69) (hs : sg = [] ∨ sg = [43]) (h0 : ds ≠ []) (hd : ∀ c ∈ ds, isDigit c = true)
      (hm : digits 0 ds < 2147483648) : ExpTxt (10 ^ digits 0 ds) (e :: (sg ++ ds))
  | neg (e : Byte) (ds : List Byte) (he : e = 101 ∨ e = 69) (h0 : ds ≠ []) (hd : ∀ c ∈ ds, isDigit c = true)
      (hm : digits 0 ds < 2147483648) : ExpTxt (1 / 10 ^ digits 0 ds) (e :: 45 :: ds)

theorem digits_shift (t : List Byte) : ∀ a, digits a t = a * 10 ^ t.length + digits 0 t := by
  induction t with
  | nil => intro a; simp [digits_nil]
  | cons b t ih =>
    intro a
    rw [digits_cons, digits_cons, ih, ih (0 * 10 + (b.toNat - 48)), List.length_cons, pow_succ]
    ring

section
variable {F : Fl ℚ} (hF : ExactRat F)
include hF

theorem divs_eq (n : Nat) : ∀ f : ℚ, divs F n f = f / 10 ^ n := by
  induction n with
  | zero => intro f; simp [divs]
  | succ n ih =>
    intro f
    rw [divs, ih, hF.div, hF.ofNat, pow_succ]
    push_cast
    rw [div_div, mul_comm]

theorem fracPart_eq (rest : List Byte) (hr : Delim rest) (ds : List Byte) : ∀ (i : Nat) (v : ℚ), (∀ c ∈ ds, isDigit c = true) →
    fracPart F (i + 1) v (ds ++ rest) = (v + (digits 0 ds : ℚ) / 10 ^ (ds.length + i), rest) := by
  induction ds with
  | nil =>
    intro i v _
    cases rest with
    | nil => simp [fracPart, digits_nil]
    | cons b r =>
      have := (dl_facts b (hr b r rfl)).1
      simp [fracPart, digits_nil, this]
  | cons b ds ih =>
    intro i v hd
    simp only [List.cons_append, fracPart, hd b (by simp), if_true]
    rw [ih (i + 1) _ (fun c hc => hd c (by simp [hc])), hF.add, divs_eq hF, hF.ofNat, digits_cons, digits_shift ds (0 * 10 + _)]
    congr 1
    rw [List.length_cons, show ds.length + 1 + i = ds.length + (i + 1) from by omega]
    push_cast
    rw [pow_add (10 : ℚ) ds.length (i + 1)]
    field_simp
    ring

theorem expo_eq (dir : Bool) (n : Nat) : ∀ f : ℚ, expo F dir n f = if dir then f * 10 ^ n else f / 10 ^ n := by
  induction n with
  | zero => intro f; simp [expo]
  | succ n ih =>
    intro f
    rw [expo, ih]
    cases dir with
    | true => simp only [if_true]; rw [hF.mul, hF.ofNat, pow_succ]; push_cast; ring
    | false => simp only [Bool.false_eq_true, if_false]; rw [hF.div, hF.ofNat, pow_succ, div_div]; push_cast; rw [mul_comm]

theorem intPart_eq (rest : List Byte) (hr : ∀ b r, rest = b :: r → isDigit b = false) (ds : List Byte) : ∀ a : Nat, (∀ c ∈ ds, isDigit c = true) →
    intPart F (a : ℚ) (ds ++ rest) = (((digits a ds : Nat) : ℚ), rest) := by
  induction ds with
  | nil =>
    intro a _
    cases rest with
    | nil => simp [intPart, digits_nil]
    | cons b r =>
      have := hr b r rfl
      simp [intPart, digits_nil, this]
  | cons b ds ih =>
    intro a hd
    simp only [List.cons_append, intPart, hd b (by simp), if_true]
    rw [digits_cons, ← ih _ (fun c hc => hd c (by simp [hc]))]
    congr 1
    rw [hF.add, hF.mul, hF.ofNat, hF.ofNat]
    push_cast
    rfl

end

theorem expPart_eq (rest : List Byte) (hr : Delim rest) (ds : List Byte) : ∀ i : Nat, (∀ c ∈ ds, isDigit c = true) → digits i ds < 2147483648 →
    expPart i (ds ++ rest) = some (digits i ds, rest) := by
  induction ds with
  | nil =>
    intro i _ _
    cases rest with
    | nil => simp [expPart, digits_nil]
    | cons b r =>
      have := (dl_facts b (hr b r rfl)).1
      simp [expPart, digits_nil, this]
  | cons b ds ih =>
    intro i hd hm
    rw [digits_cons] at hm
    have := digits_le ds (i * 10 + (b.toNat - 48))
    simp only [List.cons_append, expPart, hd b (by simp), if_true]
    rw [if_pos (by omega), ih _ (fun c hc => hd c (by simp [hc])) hm, digits_cons]

theorem digitTail_eq {F : Fl ℚ} (hF : ExactRat F) (v x : ℚ) (ex rest : List Byte) (hr : Delim rest) (h : ExpTxt x ex) :
    digitTail F v (ex ++ rest) = some (some (v * x, rest)) := by
  cases h with
  | none =>
    cases rest with
    | nil => simp [digitTail]
    | cons b r =>
      have := dl_facts b (hr b r rfl)
      simp only [List.nil_append, digitTail, mul_one]
      rw [if_neg (by rintro (h | h); exacts [this.2.2.1 h, this.2.2.2 h])]
  | pos e sg ds he hs h0 hd hm =>
    have he' : e = 101 ∨ e = 69 := he
    obtain ⟨d, t, rfl⟩ := List.exists_cons_of_ne_nil h0
    have hdd := hd d (by simp)
    have d43 : d ≠ 43 := by rintro rfl; revert hdd; decide
    have d45 : d ≠ 45 := by rintro rfl; revert hdd; decide
    simp only [List.cons_append, digitTail, if_pos he', digitExp]
    have fin : (match expPart 0 ((d :: t) ++ rest) with
        | Option.none => Option.none
        | some (i, s) => if i = 0 then some (some (v, s)) else some (some (F.mul v (expo F true i (F.ofNat 1)), s))) = some (some (v * 10 ^ digits 0 (d :: t), rest)) := by
      rw [expPart_eq rest hr _ 0 hd hm]
      simp only
      split
      · rename_i hz; rw [hz]; simp
      · rw [hF.mul, expo_eq hF, hF.ofNat]; simp
    rcases hs with rfl | rfl
    · simp only [List.nil_append, List.cons_append, if_neg d43, if_neg d45]
      exact fin
    · simp only [List.cons_append, if_true]
      rw [if_neg (by simp)]
      exact fin
  | neg e ds he h0 hd hm =>
    have he' : e = 101 ∨ e = 69 := he
    obtain ⟨d, t, rfl⟩ := List.exists_cons_of_ne_nil h0
    simp only [List.cons_append, digitTail, if_pos he', digitExp]
    rw [if_neg (by decide), if_pos trivial, if_neg (by simp)]
    have := expPart_eq rest hr _ 0 hd hm
    simp only [List.cons_append] at this
    rw [this]
    simp only
    split
    · rename_i hz; rw [hz]; simp
    · rw [hF.mul, expo_eq hF, hF.ofNat]; simp

/-- **Numbers**: in exact arithmetic, the number read is the one written: digits, fraction, exponent
with its sign (exponents that fit an `int`), whatever delimiter follows. -/
theorem number_value {F : Fl ℚ} (hF : ExactRat F) (ip fp ex rest : List Byte) (x : ℚ) (hi : IntDigits ip) (hf : ∀ c ∈ fp, isDigit c = true) (he : ExpTxt x ex) (hr : Delim rest) :
    parseDigit F (ip ++ (fracTxt fp ++ (ex ++ rest))) = some (some (.num (((digits 0 ip : ℚ) + (digits 0 fp : ℚ) / 10 ^ fp.length) * x), rest)) ∧
    parseDigit F (45 :: (ip ++ (fracTxt fp ++ (ex ++ rest)))) = some (some (.num (-(((digits 0 ip : ℚ) + (digits 0 fp : ℚ) / 10 ^ fp.length) * x)), rest)) := by
  -- what follows the integer part is no digit
  have hnd : ∀ b r, fracTxt fp ++ (ex ++ rest) = b :: r → isDigit b = false := by
    intro b r h
    unfold fracTxt at h
    split at h
    · cases he with
      | none => exact (dl_facts b (hr b r (by simpa using h))).1
      | pos e sg ds he => simp at h; rw [← h.1]; rcases he with rfl | rfl <;> decide
      | neg e ds he => simp at h; rw [← h.1]; rcases he with rfl | rfl <;> decide
    · simp at h; rw [← h.1]; decide
  have hfrac : ∀ v : ℚ, digitFrac F v (fracTxt fp ++ (ex ++ rest)) = some (some ((v + (digits 0 fp : ℚ) / 10 ^ fp.length) * x, rest)) := by
    intro v
    unfold fracTxt
    split
    · rename_i h0
      subst h0
      have ht := digitTail_eq hF v x ex rest hr he
      simp only [List.nil_append, digits_nil, List.length_nil, pow_zero, Nat.cast_zero, zero_div, add_zero]
      rw [← ht]
      cases hx : ex ++ rest with
      | nil => rfl
      | cons b r =>
        have hb : b ≠ 46 := by
          cases he with
          | none => exact (dl_facts b (hr b r (by simpa using hx))).2.1
          | pos e sg ds he => simp at hx; rw [← hx.1]; rcases he with rfl | rfl <;> decide
          | neg e ds he => simp at hx; rw [← hx.1]; rcases he with rfl | rfl <;> decide
        simp only [digitFrac, if_neg hb]
    · rename_i h0
      have hne : fp ++ (ex ++ rest) ≠ [] := by simp [h0]
      simp only [List.cons_append, digitFrac, if_true, if_neg hne]
      have key : fracPart F (0 + 1) v (fp ++ (ex ++ rest)) = (v + (digits 0 fp : ℚ) / 10 ^ (fp.length + 0), ex ++ rest) := by
        cases he with
        | none => exact fracPart_eq hF _ (by simpa using hr) fp 0 v hf
        | pos e sg ds he =>
          have aux : ∀ (l : List Byte) (i : Nat) (v : ℚ), (∀ c ∈ l, isDigit c = true) → ∀ r, fracPart F (i + 1) v (l ++ (e :: r)) = (v + (digits 0 l : ℚ) / 10 ^ (l.length + i), e :: r) := by
            intro l i v hl r
            have h1 := fracPart_eq hF [] (by intro b r h; cases h) l i v hl
            have hed : isDigit e = false := by rcases he with rfl | rfl <;> decide
            have app : ∀ (l : List Byte) (i : Nat) (v : ℚ), (∀ c ∈ l, isDigit c = true) → fracPart F i v (l ++ (e :: r)) = ((fracPart F i v (l ++ [])).1, e :: r) := by
              intro l
              induction l with
              | nil => intro i v _; simp [fracPart, hed]
              | cons b l ih => intro i v hl; simp only [List.cons_append, fracPart, hl b (by simp), if_true]; exact ih _ _ (fun c hc => hl c (by simp [hc]))
            rw [app l (i + 1) v hl, h1]
          exact aux fp 0 v hf _
        | neg e ds he =>
          have aux : ∀ (l : List Byte) (i : Nat) (v : ℚ), (∀ c ∈ l, isDigit c = true) → ∀ r, fracPart F (i + 1) v (l ++ (e :: r)) = (v + (digits 0 l : ℚ) / 10 ^ (l.length + i), e :: r) := by
            intro l i v hl r
            have h1 := fracPart_eq hF [] (by intro b r h; cases h) l i v hl
            have hed : isDigit e = false := by rcases he with rfl | rfl <;> decide
            have app : ∀ (l : List Byte) (i : Nat) (v : ℚ), (∀ c ∈ l, isDigit c = true) → fracPart F i v (l ++ (e :: r)) = ((fracPart F i v (l ++ [])).1, e :: r) := by
              intro l
              induction l with
              | nil => intro i v _; simp [fracPart, hed]
              | cons b l ih => intro i v hl; simp only [List.cons_append, fracPart, hl b (by simp), if_true]; exact ih _ _ (fun c hc => hl c (by simp [hc]))
            rw [app l (i + 1) v hl, h1]
          exact aux fp 0 v hf _
      have key' : fracPart F 1 v (fp ++ (ex ++ rest)) = (v + (digits 0 fp : ℚ) / 10 ^ (fp.length + 0), ex ++ rest) := key
      rw [key']
      simp only [Nat.add_zero]
      exact digitTail_eq hF _ x ex rest hr he
  have hproc : digitProcess F (ip ++ (fracTxt fp ++ (ex ++ rest))) = some (some (((digits 0 ip : ℚ) + (digits 0 fp : ℚ) / 10 ^ fp.length) * x, rest)) := by
    rcases hi with rfl | ⟨b, t, rfl, hb, hd⟩
    · have hz : F.ofNat 0 = ((digits 0 [48] : Nat) : ℚ) := by rw [hF.ofNat, digits_cons, digits_nil]; simp
      simp only [List.singleton_append, digitProcess]
      rw [if_neg (by decide), if_pos trivial]
      cases hx : fracTxt fp ++ (ex ++ rest) with
      | nil =>
        have := hfrac ((digits 0 [48] : Nat) : ℚ)
        rw [hx] at this
        rw [← this, hz]; rfl
      | cons c r =>
        simp only [hnd c r hx, Bool.false_eq_true, if_false]
        rw [← hx, hz]
        exact hfrac _
    · simp only [List.cons_append, digitProcess]
      rw [if_neg (by simp [hd b (by simp)]), if_neg hb]
      have := intPart_eq hF (fracTxt fp ++ (ex ++ rest)) hnd (b :: t) 0 hd
      simp only [List.cons_append, Nat.cast_zero] at this
      rw [hF.ofNat, Nat.cast_zero, this]
      exact hfrac _
  have hne : ip ++ (fracTxt fp ++ (ex ++ rest)) ≠ [] := by
    rcases hi with rfl | ⟨b, t, rfl, _⟩ <;> simp
  refine ⟨?_, ?_⟩
  · obtain ⟨b, t, hbt⟩ := List.exists_cons_of_ne_nil hne
    have hb : b ≠ 45 := by
      rcases hi with rfl | ⟨c, t', rfl, _, hd⟩
      · simp at hbt; rw [← hbt.1]; decide
      · simp at hbt; rw [← hbt.1]; have := hd c (by simp); rintro rfl; revert this; decide
    rw [hbt] at hproc ⊢
    simp only [parseDigit, if_neg hb, hproc]
  · simp only [parseDigit, if_true, if_neg hne, hproc, hF.neg]

/-- **Refuted: only numbers of JSON are taken.**  `1.`, `1e`, `1E+` and `1.e-` are taken for 1 (in any
arithmetic). -/
theorem number_lenient (F : Fl D) : ∃ x, parseDigit F [49, 44] = some (some (.num x, [44])) ∧ parseDigit F [49, 46, 44] = some (some (.num x, [44])) ∧
    parseDigit F [49, 101, 44] = some (some (.num x, [44])) ∧ parseDigit F [49, 69, 43, 44] = some (some (.num x, [44])) ∧
    parseDigit F [49, 46, 101, 45, 44] = some (some (.num x, [44])) ∧ decode F {} [91, 49, 46, 93] = some (some (.arr [.num x])) :=
  ⟨_, rfl, rfl, rfl, rfl, rfl, rfl⟩

/-! ### Text behind the value -/

/-- Behind an object or an array nothing but blanks is allowed. -/
theorem decode_trailing {F : Fl D} {ofInt : Int → D} (hF : Exact F ofInt) (v : Json D) (t w1 w2 : List Byte) (b : Byte) (r : List Byte) (h : Txt ofInt v t)
    (hv : (∃ kvs, v = .obj kvs) ∨ ∃ vs, v = .arr vs) (h1 : Blanks w1) (h2 : Blanks w2) (hb : blank b = false) :
    decode F {} (w1 ++ (t ++ (w2 ++ b :: r))) = some none := by
  have key : ∀ n, 2 * t.length + 1 ≤ n → parseJson F {} n false 0 (w1 ++ (t ++ (w2 ++ b :: r))) = some (some (v, b :: r)) := by
    intro n hn
    obtain ⟨n, rfl⟩ : ∃ k, n = k + 1 := ⟨n - 1, by omega⟩
    have hs : skip (w2 ++ b :: r) = b :: r := skip_blanks h2 hb r
    rw [parseJson]
    cases h with
    | arr vs u h =>
      have := (parse_txt hF u.length).2.1 vs u h (Nat.le_refl _) n 0 [] (w2 ++ b :: r) (by simp at hn; omega)
      simp only [List.cons_append]
      rw [skip_blanks h1 (by decide)]
      simp only
      rw [if_neg (by decide), if_pos trivial, if_neg (by simp), if_neg (by simp), this, hs]
      rfl
    | obj0 w hw =>
      simp only [List.cons_append, List.append_assoc]
      rw [skip_blanks h1 (by decide)]
      simp only [if_true]
      rw [if_neg (by simp), if_neg (by simp)]
      obtain ⟨n, rfl⟩ : ∃ k, n = k + 1 := ⟨n - 1, by simp at hn; omega⟩
      rw [objLoop, skip_blanks hw (by decide)]
      simp [hs]
    | obj kvs u h =>
      have := (parse_txt hF u.length).2.2 [] kvs u h (Nat.le_refl _) n 0 (w2 ++ b :: r) (by simp at hn; omega)
      simp only [List.cons_append]
      rw [skip_blanks h1 (by decide)]
      simp only [if_true]
      rw [if_neg (by simp), if_neg (by simp), this, hs]
    | _ => rcases hv with ⟨_, hv⟩ | ⟨_, hv⟩ <;> cases hv
  unfold decode
  rw [key _ (by simp; omega)]
  simp

/-! ### The colon -/

/-- Behind the name of a member, nothing but a colon is taken. -/
theorem decode_colon (F : Fl D) (q s w1 w2 w3 : List Byte) (b : Byte) (r : List Byte) (hq : StrTxt false q s) (h1 : Blanks w1) (h2 : Blanks w2) (h3 : Blanks w3)
    (hb : blank b = false) (hc : b ≠ 58) : decode F {} (w1 ++ 123 :: (w2 ++ 34 :: (q ++ 34 :: (w3 ++ b :: r)))) = some none := by
  have hl : 2 * (w1 ++ 123 :: (w2 ++ 34 :: (q ++ 34 :: (w3 ++ b :: r)))).length + 3 = (2 * (w1.length + w2.length + q.length + w3.length + r.length) + 6) + 1 + 1 + 1 + 1 + 1 := by
    simp; omega
  unfold decode
  rw [hl, parseJson, skip_blanks h1 (by decide)]
  simp only [if_true]
  rw [if_neg (by simp), if_neg (by simp), objLoop, skip_blanks h2 (by decide)]
  simp only
  rw [if_neg (by decide), parseJson, skip_cons (by decide)]
  simp only
  rw [if_neg (by decide), if_neg (by decide), if_pos trivial, parseString_txt hq]
  simp only
  rw [if_neg (by simp), skip_blanks h3 hb]
  simp only
  rw [if_pos hc]

/-! ### Concrete cases -/

/-- A rational instance. -/
def ratFl : Fl ℚ := { ofNat := fun n => n, add := (· + ·), mul := (· * ·), div := (· / ·), neg := fun a => -a, toS64 := fun _ => none, eqInt := fun _ _ => false, fmtF := fun _ => [] }

example : ExactRat ratFl := ⟨fun _ => rfl, fun _ _ => rfl, fun _ _ => rfl, fun _ _ => rfl, fun _ => rfl⟩

/-- -12.50e-3 followed by `]` is -0.0125. -/
example : parseDigit ratFl [45, 49, 50, 46, 53, 48, 101, 45, 51, 93] = some (some (.num (-1 / 80), [93])) := by
  have := (number_value (F := ratFl) ⟨fun _ => rfl, fun _ _ => rfl, fun _ _ => rfl, fun _ _ => rfl, fun _ => rfl⟩ [49, 50] [53, 48] [101, 45, 51] [93] _
    (.inr ⟨49, [50], rfl, by decide, by decide⟩) (by decide) (.neg 101 [51] (.inl rfl) (by simp) (by decide) (by simp [digits_cons, digits_nil]))
    (by intro b r h; cases h; exact Or.inr (by decide))).2
  have h1 : digits 0 [49, 50] = 12 := by simp only [digits_cons, digits_nil]; decide
  have h2 : digits 0 [53, 48] = 50 := by simp only [digits_cons, digits_nil]; decide
  have h3 : digits 0 [51] = 3 := by simp only [digits_cons, digits_nil]; decide
  rw [h1, h2, h3] at this
  rw [show ([45, 49, 50, 46, 53, 48, 101, 45, 51, 93] : List Byte) = 45 :: ([49, 50] ++ (fracTxt [53, 48] ++ ([101, 45, 51] ++ [93]))) from rfl, this]
  congr 4
  norm_num

/-- `{"a"=1}` is refused, `{} x` too. -/
example (F : Fl D) : decode F {} [123, 34, 97, 34, 61, 49, 125] = some none ∧ decode F {} [123, 125, 32, 120] = some none := ⟨rfl, rfl⟩

end Verif.Json
