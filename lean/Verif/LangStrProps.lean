import Verif.LangStr
import Verif.StrProps
import Mathlib.Tactic.Linarith

/-!
# Properties of the operators of scripts on strings
-/
namespace Verif.LangStr

open Verif.Str (Byte strcmp strseqcmp strcmp_zero strseqcmp_zero strseqcmp_lex_partial Lex)
open Verif.Json (decNat decInt)

/-! ## Spec: texts, bytes, byte order -/

/-- Is one of the two a string? -/
def HasStr (a b : V) : Prop := (∃ s, a = .str s) ∨ ∃ s, b = .str s

/-- Byte by byte dictionary order. -/
def Before (a b : List Byte) : Prop := Lex (a.map BitVec.toNat) (b.map BitVec.toNat)

/-! ## Concatenation and single bytes (C257) -/

/-- C257: `+` with a string on either side is the text of the left operand followed by the text of the right one. -/
theorem plus_text (a b : V) (h : HasStr a b) : bin .add a b = some (.ok (.str (text a ++ text b))) := by
  rcases h with ⟨s, rfl⟩ | ⟨s, rfl⟩
  · rfl
  · cases a <;> rfl

/-- C257: `+=` stores what `+` gives. -/
theorem pluseq_plus (a b : V) (h : HasStr a b) : pluseq a b = bin .add a b := by
  rw [plus_text a b h]
  rcases h with ⟨s, rfl⟩ | ⟨s, rfl⟩
  · cases b <;> rfl
  · cases a <;> rfl

/-- C257: strings: plain concatenation; the empty string is neutral. -/
theorem plus_strings (s t : List Byte) : bin .add (.str s) (.str t) = some (.ok (.str (s ++ t))) ∧
    bin .add (.str s) (.str []) = some (.ok (.str s)) ∧ bin .add (.str []) (.str s) = some (.ok (.str s)) := by
  simp [bin, binStr, text]

/-- C257: `s[i]` is the byte at `i` for `0 ≤ i < length`, the one `-i` from the end for `-length ≤ i < 0`, and an
error otherwise. -/
theorem index_spec (s : List Byte) (i : BitVec 64) :
    (∀ k : Nat, (i.toInt = k ∨ i.toInt = (k : Int) - s.length) → (hk : k < s.length) → (i.toInt = k ∨ i.toInt < 0) → index s (.int i) = .ok (.str [s[k]])) ∧
    (((s.length : Int) ≤ i.toInt ∨ i.toInt < -(s.length : Int)) → index s (.int i) = .err) := by
  constructor
  · intro k h hk hn
    simp only [index]
    by_cases h0 : i.toInt < 0
    · have e : (s.length : Int) + i.toInt = k := by omega
      simp only [if_pos h0, e]
      rw [if_neg (by omega)]
      simp [hk]
    · have e : i.toInt = k := by omega
      simp only [if_neg h0]
      rw [if_neg (by omega), e]
      simp [hk]
  · intro h
    simp only [index]
    by_cases h0 : i.toInt < 0
    · simp only [if_pos h0]
      rw [if_pos (by omega)]
    · simp only [if_neg h0]
      rw [if_pos (by omega)]

/-- C257: never a byte outside the string, never undefined; other offsets are errors. -/
theorem index_total (s : List Byte) (v : V) : index s v = .err ∨ ∃ c ∈ s, index s v = .ok (.str [c]) := by
  cases v with
  | int i =>
    simp only [index]
    generalize (if i.toInt < 0 then (s.length : Int) + i.toInt else i.toInt) = off
    by_cases h : off < 0 ∨ off ≥ s.length
    · left; rw [if_pos h]
    · right
      rw [if_neg h]
      have hk : off.toNat < s.length := by omega
      exact ⟨s[off.toNat], List.getElem_mem hk, by simp [hk]⟩
  | _ => left; rfl

example : bin .add (.str (ascii "n=")) (.int 42) = some (.ok (.str (ascii "n=42"))) ∧
    bin .add (.int (BitVec.ofInt 64 (-7))) (.str (ascii "!")) = some (.ok (.str (ascii "-7!"))) ∧
    bin .add .nil (.str (ascii "?")) = some (.ok (.str (ascii "nil?"))) ∧
    pluseq (.bool true) (.str (ascii "x")) = some (.ok (.str (ascii "truex"))) ∧
    index (ascii "abc") (.int (BitVec.ofInt 64 (-1))) = .ok (.str (ascii "c")) ∧
    index (ascii "abc") (.int 3) = .err ∧ index (ascii "abc") (.int (BitVec.ofInt 64 (-4))) = .err := by decide +kernel

/-! ## Comparing two strings (C258) -/

/-- C258: `==` holds exactly for equal strings, `!=` is its opposite. -/
theorem eq_exact (s t : List Byte) : bin .eq (.str s) (.str t) = some (.ok (.bool (s = t))) ∧
    bin .ne (.str s) (.str t) = some (.ok (.bool (s ≠ t))) := by
  obtain ⟨r, hr, h⟩ := strcmp_zero s t
  constructor
  · simp [bin, binStr, comparable, text, hr, h]
  · simp [bin, binStr, comparable, text, hr, h]

theorem bin_order (s t : List Byte) : bin .lt (.str s) (.str t) = some (.ok (.bool (decide (strseqcmp s t < 0)))) ∧
    bin .le (.str s) (.str t) = some (.ok (.bool (decide (strseqcmp s t ≤ 0)))) ∧
    bin .gt (.str s) (.str t) = some (.ok (.bool (decide (0 < strseqcmp s t)))) ∧
    bin .ge (.str s) (.str t) = some (.ok (.bool (decide (0 ≤ strseqcmp s t)))) := ⟨rfl, rfl, rfl, rfl⟩

/-- C258, partial: on nonempty strings the four orders are the dictionary order of the bytes.  Missing: the empty
string, see `empty_order`. -/
theorem order_partial (s t : List Byte) (hs : s ≠ []) (ht : t ≠ []) :
    ∃ l g : Bool, (l = true ↔ Before s t) ∧ (g = true ↔ Before t s) ∧
      bin .lt (.str s) (.str t) = some (.ok (.bool l)) ∧ bin .gt (.str s) (.str t) = some (.ok (.bool g)) ∧
      bin .le (.str s) (.str t) = some (.ok (.bool !g)) ∧ bin .ge (.str s) (.str t) = some (.ok (.bool !l)) := by
  obtain ⟨h1, h2⟩ := strseqcmp_lex_partial s t hs ht
  refine ⟨decide (strseqcmp s t < 0), decide (0 < strseqcmp s t), by simp [Before, h1], by simp [Before, h2], (bin_order s t).1, (bin_order s t).2.2.1, ?_, ?_⟩
  · rw [(bin_order s t).2.1]
    by_cases h : 0 < strseqcmp s t
    · have h' : ¬ strseqcmp s t ≤ 0 := by omega
      simp [h, h']
    · have h' : strseqcmp s t ≤ 0 := by omega
      simp [h, h']
  · rw [(bin_order s t).2.2.2]
    by_cases h : strseqcmp s t < 0
    · have h' : ¬ 0 ≤ strseqcmp s t := by omega
      simp [h, h']
    · have h' : 0 ≤ strseqcmp s t := by omega
      simp [h, h']

/-- C258, partial: exactly one of `<`, `==`, `>` holds for two nonempty strings, and `s < t` is `t > s`.  Missing:
the empty string. -/
theorem trichotomy_partial (s t : List Byte) (hs : s ≠ []) (ht : t ≠ []) :
    ∃ l e g : Bool, bin .lt (.str s) (.str t) = some (.ok (.bool l)) ∧ bin .eq (.str s) (.str t) = some (.ok (.bool e)) ∧
      bin .gt (.str s) (.str t) = some (.ok (.bool g)) ∧ bin .gt (.str t) (.str s) = some (.ok (.bool l)) ∧
      [l, e, g].count true = 1 := by
  obtain ⟨h1, h2⟩ := strseqcmp_lex_partial s t hs ht
  obtain ⟨h3, h4⟩ := strseqcmp_lex_partial t s ht hs
  have hz := strseqcmp_zero s t
  refine ⟨decide (strseqcmp s t < 0), decide (s = t), decide (0 < strseqcmp s t), (bin_order s t).1, (eq_exact s t).1, (bin_order s t).2.2.1, ?_, ?_⟩
  · rw [(bin_order t s).2.2.1, Option.some.injEq, R.ok.injEq, V.bool.injEq, decide_eq_decide, h1, h4]
  · rcases Int.lt_trichotomy (strseqcmp s t) 0 with h | h | h
    · have : s ≠ t := fun e => by have := hz.2 e; omega
      have h' : ¬ 0 < strseqcmp s t := by omega
      simp [h, this, h']
    · have := hz.1 h
      have h' : ¬ 0 < strseqcmp s t := by omega
      have h'' : ¬ strseqcmp s t < 0 := by omega
      rw [decide_eq_false h', decide_eq_false h'', decide_eq_true this]
      rfl
    · have : s ≠ t := fun e => by have := hz.2 e; omega
      have h' : ¬ strseqcmp s t < 0 := by omega
      simp [h, this, h']

/-- Refutation of C258: for every nonempty string `s`, both `"" > s` and `s > ""` are true, `"" < s` and `"" <= s` false. -/
theorem empty_order (s : List Byte) (h : s ≠ []) : bin .gt (.str []) (.str s) = some (.ok (.bool true)) ∧
    bin .gt (.str s) (.str []) = some (.ok (.bool true)) ∧ bin .lt (.str []) (.str s) = some (.ok (.bool false)) ∧
    bin .le (.str []) (.str s) = some (.ok (.bool false)) := by
  cases s with
  | nil => exact absurd rfl h
  | cons a l => simp [bin, binStr, comparable, text, sign, strseqcmp]

example : bin .lt (.str (ascii "ab")) (.str (ascii "b")) = some (.ok (.bool true)) ∧
    bin .lt (.str (ascii "a")) (.str (ascii "ab")) = some (.ok (.bool true)) ∧
    bin .ge (.str (ascii "a")) (.str (ascii "ab")) = some (.ok (.bool false)) ∧
    bin .eq (.str (ascii "abcd")) (.str (ascii "abcd")) = some (.ok (.bool true)) := by decide +kernel

/-! ## Comparing a string and an integer (C259) -/

theorem digit_facts (n : Nat) (h : n < 10) : digit (BitVec.ofNat 8 (48 + n)) = true ∧ (BitVec.ofNat 8 (48 + n)).toNat - 48 = n := by
  revert n; decide

theorem foldl_app (s t : List Byte) (f : Nat → Byte → Nat) (n : Nat) : (s ++ t).foldl f n = t.foldl f (s.foldl f n) := by
  simp

theorem takeWhile_all (s : List Byte) (h : ∀ c ∈ s, digit c = true) : s.takeWhile digit = s := by
  induction s with
  | nil => rfl
  | cons a s ih => simp [h a (by simp), ih fun c hc => h c (by simp [hc])]

theorem value_all (s : List Byte) (h : ∀ c ∈ s, digit c = true) : value s = s.foldl (fun n c => n * 10 + (c.toNat - 48)) 0 := by
  rw [value, takeWhile_all s h]

theorem decNat_value (k : Nat) : ∀ n, n < 10 ^ (k + 1) → decNat (k + 1) n ≠ [] ∧ (∀ c ∈ decNat (k + 1) n, digit c = true) ∧
    (decNat (k + 1) n).foldl (fun n c => n * 10 + (c.toNat - 48)) 0 = n := by
  induction k with
  | zero =>
    intro n h
    have h : n < 10 := by omega
    obtain ⟨h1, h2⟩ := digit_facts n h
    simp only [decNat, if_pos h]
    refine ⟨by simp, by simpa using h1, by simpa using h2⟩
  | succ k ih =>
    intro n h
    rw [decNat]
    by_cases h10 : n < 10
    · obtain ⟨h1, h2⟩ := digit_facts n h10
      simp only [if_pos h10]
      refine ⟨by simp, by simpa using h1, by simpa using h2⟩
    · rw [if_neg h10]
      obtain ⟨g1, g2, g3⟩ := ih (n / 10) (by rw [Nat.pow_succ] at h; omega)
      obtain ⟨h1, h2⟩ := digit_facts (n % 10) (by omega)
      refine ⟨by simp, ?_, ?_⟩
      · intro c hc
        rw [List.mem_append] at hc
        rcases hc with hc | hc
        · exact g2 c hc
        · simp only [List.mem_cons, List.not_mem_nil, or_false] at hc; rw [hc]; exact h1
      · rw [foldl_app, g3]
        simp only [List.foldl_cons, List.foldl_nil, h2]
        omega

theorem digit_class (c : Byte) (h : digit c = true) : space c = false ∧ c.toNat ≠ 45 ∧ c.toNat ≠ 43 := by
  revert c; decide +kernel

theorem digit_big (c : Byte) (h : digit c = true) : 48 ≤ c.toNat := by
  revert c; decide +kernel

theorem dropSpace (s : List Byte) (c : Byte) (h : space c = true) : (c :: s).dropWhile space = s.dropWhile space := by
  simp [h]

/-- Reading back the text of an integer. -/
theorem scan_text (i : BitVec 64) : scan (text (.int i)) = i.toInt := by
  have hb : i.toInt.natAbs < 10 ^ (19 + 1) := by
    have := i.toInt_lt; have := i.le_toInt; omega
  obtain ⟨g1, g2, g3⟩ := decNat_value 19 i.toInt.natAbs hb
  simp only [text, decInt]
  by_cases hn : i.toInt < 0
  · rw [if_pos hn]
    simp only [scan]
    rw [show (45 :: decNat 20 i.toInt.natAbs : List Byte).dropWhile space = 45 :: decNat 20 i.toInt.natAbs by simp [space]]
    simp only [show (45 : Byte).toNat = 45 from rfl, if_true]
    rw [value_all _ g2, g3]
    omega
  · rw [if_neg hn]
    cases he : decNat 20 i.toInt.natAbs with
    | nil => exact absurd he g1
    | cons c t =>
      have hc := g2 c (by rw [he]; simp)
      obtain ⟨s1, s2, s3⟩ := digit_class c hc
      simp only [scan]
      rw [show (c :: t).dropWhile space = c :: t by simp [s1]]
      simp only [if_neg s2, if_neg s3]
      rw [value_all _ (by rw [← he]; exact g2), ← he, g3]
      omega

theorem fits (i : BitVec 64) : -2 ^ 63 ≤ i.toInt ∧ i.toInt < 2 ^ 63 := by
  have := i.toInt_lt; have := i.le_toInt; constructor <;> omega

/-- C259: an integer equals its own text, from both sides. -/
theorem own_text_equal (i : BitVec 64) : bin .eq (.int i) (.str (text (.int i))) = some (.ok (.bool true)) ∧
    bin .eq (.str (text (.int i))) (.int i) = some (.ok (.bool true)) := by
  constructor
  · simp only [bin, binInt, scan_text, if_pos (fits i)]
    simp
  · obtain ⟨r, hr, h⟩ := strcmp_zero (text (.int i)) (text (.int i))
    simp only [bin, binStr, comparable, if_true]
    rw [show text (.str (text (.int i))) = text (.int i) from rfl, hr]
    simp [h.2 rfl]

/-- C259: with the string on the left `==` compares texts. -/
theorem str_eq_int (s : List Byte) (i : BitVec 64) : bin .eq (.str s) (.int i) = some (.ok (.bool (s = text (.int i)))) := by
  obtain ⟨r, hr, h⟩ := strcmp_zero s (text (.int i))
  simp only [bin, binStr, comparable, if_true]
  rw [show text (.str s) = s from rfl, hr]
  simp [h]

/-- C259, partial: `s == i` implies `i == s`.  Missing: the converse, see `eq_not_symmetric`. -/
theorem eq_symmetric_partial (s : List Byte) (i : BitVec 64) (h : bin .eq (.str s) (.int i) = some (.ok (.bool true))) :
    bin .eq (.int i) (.str s) = some (.ok (.bool true)) := by
  rw [str_eq_int] at h
  simp only [Option.some.injEq, R.ok.injEq, V.bool.injEq, decide_eq_true_eq] at h
  rw [h]
  exact (own_text_equal i).1

/-- Refutation of C259: for every integer, with a blank before its text: `i == s` holds, `s == i` does not, and
`i > s` holds as well. -/
theorem eq_not_symmetric (i : BitVec 64) : bin .eq (.int i) (.str (32 :: text (.int i))) = some (.ok (.bool true)) ∧
    bin .eq (.str (32 :: text (.int i))) (.int i) = some (.ok (.bool false)) ∧
    bin .gt (.int i) (.str (32 :: text (.int i))) = some (.ok (.bool true)) := by
  refine ⟨?_, ?_, ?_⟩
  · have e : scan (32 :: text (.int i)) = i.toInt := by
      rw [← scan_text i]
      simp only [scan]
      rw [dropSpace _ _ (by decide)]
    simp only [bin, binInt, e, if_pos (fits i)]
    simp
  · rw [str_eq_int]
    simp
  · have hne : text (.int i) ≠ [] := by
      intro e
      have hb : i.toInt.natAbs < 10 ^ (19 + 1) := by
        have := i.toInt_lt; have := i.le_toInt; omega
      have g1 := (decNat_value 19 i.toInt.natAbs hb).1
      simp only [text, decInt] at e
      split at e
      · cases e
      · exact g1 e
    have hfirst : ∃ c t, text (.int i) = c :: t ∧ 32 < c.toNat := by
      have hb : i.toInt.natAbs < 10 ^ (19 + 1) := by
        have := i.toInt_lt; have := i.le_toInt; omega
      obtain ⟨g1, g2, _⟩ := decNat_value 19 i.toInt.natAbs hb
      by_cases hn : i.toInt < 0
      · exact ⟨45, decNat 20 i.toInt.natAbs, by simp [text, decInt, hn], by decide⟩
      · cases he : decNat 20 i.toInt.natAbs with
        | nil => exact absurd he g1
        | cons c t =>
          have hc := g2 c (by rw [he]; simp)
          refine ⟨c, t, by simp [text, decInt, hn, he], ?_⟩
          have := digit_big c hc
          omega
    obtain ⟨c, t, e, hc⟩ := hfirst
    have hp : 0 < strseqcmp (text (.int i)) (32 :: text (.int i)) := by
      rw [(strseqcmp_lex_partial _ _ hne (by simp)).2, e]
      simp only [List.map_cons]
      exact Verif.Str.Lex.head _ _ _ _ (by simpa using hc)
    have e2 : bin .gt (.int i) (.str (32 :: text (.int i))) = some (.ok (.bool (decide (0 < strseqcmp (text (.int i)) (32 :: text (.int i)))))) := rfl
    rw [e2, decide_eq_true hp]

/-- Refutation of C259: every string that does not start with white space, a sign or a digit equals zero, but zero
is not equal to it from the other side. -/
theorem zero_equals_words (c : Byte) (s : List Byte) (h : space c = false) (hd : digit c = false) (h1 : c.toNat ≠ 45) (h2 : c.toNat ≠ 43) :
    bin .eq (.int 0) (.str (c :: s)) = some (.ok (.bool true)) ∧ bin .eq (.str (c :: s)) (.int 0) = some (.ok (.bool false)) := by
  constructor
  · have e : scan (c :: s) = 0 := by
      simp only [scan]
      rw [show (c :: s).dropWhile space = c :: s by simp [h]]
      simp only [if_neg h1, if_neg h2, value]
      simp [hd]
    simp only [bin, binInt, e]
    simp
  · rw [str_eq_int]
    simp only [Option.some.injEq, R.ok.injEq, V.bool.injEq, decide_eq_false_iff_not]
    intro e
    have : (c :: s) = [48] := by rw [e]; decide
    have hc : c = 48 := by injection this
    rw [hc] at hd
    exact absurd hd (by decide)

/-- Refutation of C259: the order of an integer and a string is that of the texts: 9 is above "10". -/
theorem order_textual : bin .gt (.int 9) (.str (ascii "10")) = some (.ok (.bool true)) ∧
    bin .lt (.int (BitVec.ofInt 64 (-1))) (.str (ascii "-2")) = some (.ok (.bool true)) := by decide +kernel

example : bin .eq (.int 1) (.str (ascii "01")) = some (.ok (.bool true)) ∧ bin .eq (.str (ascii "01")) (.int 1) = some (.ok (.bool false)) ∧
    bin .eq (.int 0) (.str (ascii "abc")) = some (.ok (.bool true)) ∧ bin .eq (.int 12) (.str (ascii "12abc")) = some (.ok (.bool true)) ∧
    bin .eq (.int (BitVec.ofInt 64 (-5))) (.str (ascii " -5")) = some (.ok (.bool true)) ∧
    bin .eq (.int 5) (.str (ascii "+5")) = some (.ok (.bool true)) := by decide +kernel

/-- The negation of a result. -/
def negR : R → R
  | .ok (.bool b) => .ok (.bool (!b))
  | r => r

/-- `!=` is the negation of `==`, whatever the two operands are. -/
theorem ne_negation (a b : V) : bin .ne a b = (bin .eq a b).map negR := by
  cases a <;> cases b <;> simp only [bin, Option.map] <;>
    first
    | rfl
    | (simp only [binStr, binInt]
       repeat' split
       all_goals first
         | rfl
         | simp [negR])

/-- nil, booleans, arrays, functions and objects equal no string, on either side. -/
theorem others_never_equal (a : V) (s : List Byte) (h : comparable a = false) :
    bin .eq a (.str s) = some (.ok (.bool false)) ∧ bin .eq (.str s) a = some (.ok (.bool false)) := by
  cases a <;> first | exact ⟨rfl, rfl⟩ | cases h

example : text .nil = ascii "nil" ∧ text .obj = ascii "Object" ∧ text .func = ascii "Function" ∧
    text .arr = ascii "Array" ∧ text (.bool true) = ascii "true" ∧ text (.bool false) = ascii "false" := by decide +kernel
-- white space ends with carriage return
example : bin .eq (.int 1) (.str [13, 49]) = some (.ok (.bool true)) ∧
    bin .eq (.int 1) (.str [14, 49]) = some (.ok (.bool false)) ∧
    bin .eq (.int 1) (.str [9, 49]) = some (.ok (.bool true)) ∧
    bin .eq (.int 1) (.str [8, 49]) = some (.ok (.bool false)) := by decide +kernel

end Verif.LangStr
