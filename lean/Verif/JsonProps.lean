import Verif.Json
import Verif.StrProps
import Mathlib.Tactic.Common
import Mathlib.Tactic.Linarith
/-
C41-C44, C78-C80: JSON decoding and encoding.
-/
namespace Verif.Json
open Verif.Str (Byte strcmp)
variable {D : Type}

/-! ## Specification of JSON text -/

/-- The two-character escapes. -/
def escapes : List (Byte × Byte) := [(34, 34), (92, 92), (47, 47), (98, 8), (102, 12), (110, 10), (114, 13), (116, 9)]

/-- The value of a hexadecimal digit. -/
inductive Hex : Byte → Nat → Prop
  | dig (n : Nat) (h : n < 10) : Hex (BitVec.ofNat 8 (48 + n)) n
  | low (n : Nat) (h : n < 6) : Hex (BitVec.ofNat 8 (97 + n)) (10 + n)
  | up (n : Nat) (h : n < 6) : Hex (BitVec.ofNat 8 (65 + n)) (10 + n)

/-- UTF-8 of a code below 65536. -/
def utf8Spec (u : Nat) : List Byte :=
  if u < 128 then [BitVec.ofNat 8 u]
  else if u < 2048 then [BitVec.ofNat 8 (192 + u / 64), BitVec.ofNat 8 (128 + u % 64)]
  else [BitVec.ofNat 8 (224 + u / 4096), BitVec.ofNat 8 (128 + u / 64 % 64), BitVec.ofNat 8 (128 + u % 64)]

/-- What stands between the quotes, and the string it denotes.  The flag: there was a `\u` before;
then a raw NUL byte is excluded. -/
inductive StrTxt : Bool → List Byte → List Byte → Prop
  | nil (f : Bool) : StrTxt f [] []
  | plain (f : Bool) (b : Byte) (r s : List Byte) (h1 : b ≠ 34) (h2 : b ≠ 92) (h3 : b = 0 → f = false) (h : StrTxt f r s) : StrTxt f (b :: r) (b :: s)
  | esc (f : Bool) (e c : Byte) (r s : List Byte) (he : (e, c) ∈ escapes) (h : StrTxt f r s) : StrTxt f (92 :: e :: r) (c :: s)
  | uni (f : Bool) (a b c d : Byte) (x y z w : Nat) (r s : List Byte) (ha : Hex a x) (hb : Hex b y) (hc : Hex c z) (hd : Hex d w)
      (h : StrTxt true r s) : StrTxt f (92 :: 117 :: a :: b :: c :: d :: r) (utf8Spec (x * 4096 + y * 256 + z * 16 + w) ++ s)

/-- The value of decimal digits after `a`. -/
def digits (a : Nat) (t : List Byte) : Nat := t.foldl (fun a b => a * 10 + (b.toNat - 48)) a

theorem digits_nil (a : Nat) : digits a [] = a := by unfold digits; rw [List.foldl_nil]

theorem digits_cons (a : Nat) (b : Byte) (t : List Byte) : digits a (b :: t) = digits (a * 10 + (b.toNat - 48)) t := by
  unfold digits; rw [List.foldl_cons]

attribute [irreducible] digits

/-- An integer literal of at most 2^53 in absolute value. -/
inductive NumTxt : Int → List Byte → Prop
  | zero : NumTxt 0 [48]
  | pos (b : Byte) (t : List Byte) (h : ∀ c ∈ b :: t, isDigit c = true) (h0 : b ≠ 48) (hm : digits 0 (b :: t) ≤ 2 ^ 53) : NumTxt (digits 0 (b :: t)) (b :: t)
  | neg (b : Byte) (t : List Byte) (h : ∀ c ∈ b :: t, isDigit c = true) (h0 : b ≠ 48) (hm : digits 0 (b :: t) ≤ 2 ^ 53) : NumTxt (-(digits 0 (b :: t))) (45 :: b :: t)

/-- `ofInt` are the integers among the doubles: the operations are exact on them up to 2^53. -/
structure Exact (F : Fl D) (ofInt : Int → D) : Prop where
  ofNat : ∀ n : Nat, n ≤ 10 → F.ofNat n = ofInt n
  add : ∀ a b : Int, |a| ≤ 2 ^ 53 → |b| ≤ 2 ^ 53 → |a + b| ≤ 2 ^ 53 → F.add (ofInt a) (ofInt b) = ofInt (a + b)
  mul : ∀ a b : Int, |a| ≤ 2 ^ 53 → |b| ≤ 2 ^ 53 → |a * b| ≤ 2 ^ 53 → F.mul (ofInt a) (ofInt b) = ofInt (a * b)
  neg : ∀ a : Int, a ≠ 0 → |a| ≤ 2 ^ 53 → F.neg (ofInt a) = ofInt (-a)
  toS64 : ∀ a : Int, |a| ≤ 2 ^ 53 → F.toS64 (ofInt a) = some a
  eqInt : ∀ a : Int, |a| ≤ 2 ^ 53 → F.eqInt (ofInt a) a = true

def Blanks (w : List Byte) : Prop := ∀ b ∈ w, blank b = true

mutual
/-- A JSON text without surrounding blanks and the value it denotes. -/
inductive Txt (ofInt : Int → D) : Json D → List Byte → Prop
  | tru : Txt ofInt .tru [116, 114, 117, 101]
  | fls : Txt ofInt .fls [102, 97, 108, 115, 101]
  | null : Txt ofInt .null [110, 117, 108, 108]
  | num (i : Int) (t : List Byte) (h : NumTxt i t) : Txt ofInt (.num (ofInt i)) t
  | str (r s : List Byte) (h : StrTxt false r s) : Txt ofInt (.str s) (34 :: (r ++ [34]))
  | arr (vs : List (Json D)) (t : List Byte) (h : Elems ofInt vs t) : Txt ofInt (.arr vs) (91 :: t)
  | obj0 (w : List Byte) (hw : Blanks w) : Txt ofInt (.obj []) (123 :: (w ++ [125]))
  | obj (kvs : List (List Byte × Json D)) (t : List Byte) (h : Mems ofInt [] kvs t) : Txt ofInt (.obj kvs) (123 :: t)

/-- One or more elements separated by commas, and the closing bracket. -/
inductive Elems (ofInt : Int → D) : List (Json D) → List Byte → Prop
  | one (v : Json D) (w1 t w2 : List Byte) (h1 : Blanks w1) (h : Txt ofInt v t) (h2 : Blanks w2) : Elems ofInt [v] (w1 ++ (t ++ (w2 ++ [93])))
  | cons (v : Json D) (vs : List (Json D)) (w1 t w2 u : List Byte) (h1 : Blanks w1) (h : Txt ofInt v t) (h2 : Blanks w2) (hu : Elems ofInt vs u) :
      Elems ofInt (v :: vs) (w1 ++ (t ++ (w2 ++ 44 :: u)))

/-- One or more members separated by commas, and the closing brace: they are added one after the
other to the object. -/
inductive Mems (ofInt : Int → D) : List (List Byte × Json D) → List (List Byte × Json D) → List Byte → Prop
  | one (acc kvs : List (List Byte × Json D)) (r k : List Byte) (v : Json D) (w1 w2 w3 t w4 : List Byte) (h1 : Blanks w1) (hk : StrTxt false r k)
      (h2 : Blanks w2) (h3 : Blanks w3) (h : Txt ofInt v t) (h4 : Blanks w4) (hu : update acc k v = some kvs) :
      Mems ofInt acc kvs (w1 ++ (34 :: (r ++ (34 :: (w2 ++ (58 :: (w3 ++ (t ++ (w4 ++ [125])))))))))
  | cons (acc acc' kvs : List (List Byte × Json D)) (r k : List Byte) (v : Json D) (w1 w2 w3 t w4 u : List Byte) (h1 : Blanks w1) (hk : StrTxt false r k)
      (h2 : Blanks w2) (h3 : Blanks w3) (h : Txt ofInt v t) (h4 : Blanks w4) (hu : update acc k v = some acc') (hm : Mems ofInt acc' kvs u) :
      Mems ofInt acc kvs (w1 ++ (34 :: (r ++ (34 :: (w2 ++ (58 :: (w3 ++ (t ++ (w4 ++ (44 :: u))))))))))
end

/-! ## Strings -/

theorem or_add (k m x : Nat) (h : x < 2 ^ k) (hm : m % 2 ^ k = 0) : m ||| x = m + x := by
  have : m = 2 ^ k * (m / 2 ^ k) := by have := Nat.div_add_mod m (2 ^ k); omega
  rw [this, ← Nat.two_pow_add_eq_or_of_lt h]

theorem hex_char {a : Byte} {x : Nat} (h : Hex a x) : char2int a = BitVec.ofNat 32 x ∧ x < 16 ∧ a ≠ 34 ∧ a ≠ 92 ∧ a ≠ 0 := by
  cases h with
  | dig _ h => revert x; decide
  | low n h => revert n; decide
  | up n h => revert n; decide

theorem hex_code (x y z w : Nat) (hx : x < 16) (hy : y < 16) (hz : z < 16) (hw : w < 16) :
    ((((BitVec.ofNat 32 x <<< 4 ||| BitVec.ofNat 32 y) <<< 4 ||| BitVec.ofNat 32 z) <<< 4) ||| BitVec.ofNat 32 w) =
      BitVec.ofNat 32 (x * 4096 + y * 256 + z * 16 + w) := by
  apply BitVec.eq_of_toNat_eq
  simp only [BitVec.toNat_or, BitVec.toNat_shiftLeft, BitVec.toNat_ofNat, Nat.shiftLeft_eq]
  rw [Nat.mod_eq_of_lt (show x < 2 ^ 32 by omega), Nat.mod_eq_of_lt (show y < 2 ^ 32 by omega), Nat.mod_eq_of_lt (show z < 2 ^ 32 by omega),
    Nat.mod_eq_of_lt (show w < 2 ^ 32 by omega)]
  rw [Nat.mod_eq_of_lt (show x * 2 ^ 4 < 2 ^ 32 by omega), or_add 4 _ y (by omega) (by omega)]
  rw [Nat.mod_eq_of_lt (show (x * 2 ^ 4 + y) * 2 ^ 4 < 2 ^ 32 by omega), or_add 4 _ z (by omega) (by omega)]
  rw [Nat.mod_eq_of_lt (show ((x * 2 ^ 4 + y) * 2 ^ 4 + z) * 2 ^ 4 < 2 ^ 32 by omega), or_add 4 _ w (by omega) (by omega)]
  omega

theorem utf8_eq (u : Nat) (h : u < 65536) : utf8 (BitVec.ofNat 32 u) = utf8Spec u := by
  have hu : (BitVec.ofNat 32 u).toNat = u := by rw [BitVec.toNat_ofNat]; exact Nat.mod_eq_of_lt (by omega)
  have hand : ∀ x, x &&& 63 = x % 64 := fun x => Nat.and_two_pow_sub_one_eq_mod x 6
  have hand8 : ∀ x, x &&& 255 = x % 256 := fun x => Nat.and_two_pow_sub_one_eq_mod x 8
  have k255 : (255 : BitVec 32).toNat = 255 := rfl
  have k63 : (63 : BitVec 32).toNat = 63 := rfl
  have k192 : (192 : BitVec 32).toNat = 192 := rfl
  have k128 : (128 : BitVec 32).toNat = 128 := rfl
  have k224 : (224 : BitVec 32).toNat = 224 := rfl
  unfold utf8 utf8Spec
  simp only [BitVec.le_def, hu]
  by_cases h1 : u < 128
  · rw [if_pos (show u ≤ (0x7f : BitVec 32).toNat by simp; omega), if_pos h1]
    congr 1
    apply BitVec.eq_of_toNat_eq
    simp only [BitVec.truncate_eq_setWidth, BitVec.toNat_setWidth, BitVec.toNat_and, hu, BitVec.toNat_ofNat]
    norm_num [k255, k192, k224, hand8]
  · rw [if_neg (show ¬ u ≤ (0x7f : BitVec 32).toNat by simp; omega), if_neg h1]
    by_cases h2 : u < 2048
    · rw [if_pos (show u ≤ (0x7ff : BitVec 32).toNat by simp; omega), if_pos h2]
      congr 1
      · apply BitVec.eq_of_toNat_eq
        simp only [BitVec.truncate_eq_setWidth, BitVec.toNat_setWidth, BitVec.toNat_and, BitVec.toNat_or, BitVec.toNat_ushiftRight, hu, BitVec.toNat_ofNat,
          Nat.shiftRight_eq_div_pow]
        norm_num [k255, k192, k224, hand8]
        rw [Nat.mod_eq_of_lt (show u / 64 < 256 by omega), or_add 6 192 (u / 64) (by omega) (by omega)]
      · congr 1
        apply BitVec.eq_of_toNat_eq
        simp only [BitVec.truncate_eq_setWidth, BitVec.toNat_setWidth, BitVec.toNat_and, BitVec.toNat_or, hu, BitVec.toNat_ofNat]
        norm_num [k63, k128, hand]
        rw [or_add 6 128 (u % 64) (by omega) (by omega)]
    · rw [if_neg (show ¬ u ≤ (0x7ff : BitVec 32).toNat by simp; omega), if_neg h2]
      rw [if_pos (show u ≤ (0xffff : BitVec 32).toNat by simp; omega)]
      congr 1
      · apply BitVec.eq_of_toNat_eq
        simp only [BitVec.truncate_eq_setWidth, BitVec.toNat_setWidth, BitVec.toNat_and, BitVec.toNat_or, BitVec.toNat_ushiftRight, hu, BitVec.toNat_ofNat,
          Nat.shiftRight_eq_div_pow]
        norm_num [k255, k192, k224, hand8]
        rw [Nat.mod_eq_of_lt (show u / 4096 < 256 by omega), or_add 5 224 (u / 4096) (by omega) (by omega)]
      · congr 1
        · apply BitVec.eq_of_toNat_eq
          simp only [BitVec.truncate_eq_setWidth, BitVec.toNat_setWidth, BitVec.toNat_and, BitVec.toNat_or, BitVec.toNat_ushiftRight, hu, BitVec.toNat_ofNat,
            Nat.shiftRight_eq_div_pow]
          norm_num [k63, k128, hand]
          rw [or_add 6 128 (u / 64 % 64) (by omega) (by omega)]
        · congr 1
          apply BitVec.eq_of_toNat_eq
          simp only [BitVec.truncate_eq_setWidth, BitVec.toNat_setWidth, BitVec.toNat_and, BitVec.toNat_or, hu, BitVec.toNat_ofNat]
          norm_num [k63, k128, hand]
          rw [or_add 6 128 (u % 64) (by omega) (by omega)]

theorem scan_plain (b : Byte) (t : List Byte) (h1 : b ≠ 34) (h2 : b ≠ 92) : scan false (b :: t) = (scan false t).map fun p => (b :: p.1, p.2) := by
  have e1 : (b == 92) = false := by simpa using h2
  have e2 : (b == 34) = false := by simpa using h1
  rw [scan, e1, e2]
  rfl

theorem scan_esc (e : Byte) (t : List Byte) : scan false (92 :: e :: t) = (scan false t).map fun p => (92 :: e :: p.1, p.2) := by
  have : scan true (e :: t) = (scan false t).map fun p => (e :: p.1, p.2) := by
    rw [scan]
    simp
  rw [scan, this]
  simp only [Bool.not_false, Bool.true_and, beq_self_eq_true, if_true, Option.map_map]
  rfl

theorem scan_txt {f : Bool} {r s : List Byte} (h : StrTxt f r s) (rest : List Byte) : scan false (r ++ 34 :: rest) = some (r, rest) := by
  induction h with
  | nil => rfl
  | plain f b r s h1 h2 h3 h ih => rw [List.cons_append, scan_plain _ _ h1 h2, ih]; rfl
  | esc f e c r s he h ih => rw [List.cons_append, List.cons_append, scan_esc, ih]; rfl
  | uni f a b c d x y z w r s ha hb hc hd h ih =>
    have ea := hex_char ha; have eb := hex_char hb; have ec := hex_char hc; have ed := hex_char hd
    simp only [List.cons_append]
    rw [scan_esc, scan_plain _ _ ea.2.2.1 ea.2.2.2.1, scan_plain _ _ eb.2.2.1 eb.2.2.2.1, scan_plain _ _ ec.2.2.1 ec.2.2.2.1,
      scan_plain _ _ ed.2.2.1 ed.2.2.2.1, ih]
    rfl

theorem utf8Spec_len (u : Nat) : 1 ≤ (utf8Spec u).length ∧ (utf8Spec u).length ≤ 3 := by
  unfold utf8Spec
  split
  · simp
  · split <;> simp

theorem txt_len {f : Bool} {r s : List Byte} (h : StrTxt f r s) : s.length ≤ r.length := by
  induction h with
  | nil => simp
  | plain => simp; omega
  | esc => simp; omega
  | uni f a b c d x y z w r s =>
    have := utf8Spec_len (x * 4096 + y * 256 + z * 16 + w)
    simp; omega

theorem fetch_txt {f : Bool} {r s : List Byte} (h : StrTxt f r s) : ∀ (cap n : Nat) (hex : BitVec 32) (out : List Byte), r.length ≤ n →
    out.length + r.length ≤ cap → (f = false → hex = 0) → fetchLoop cap n r hex out = some (some (out ++ s)) := by
  induction h with
  | nil => intro cap n hex out _ _ _; cases n <;> simp [fetchLoop]
  | plain f b r s h1 h2 h3 h ih =>
    intro cap n hex out hn hc hx
    obtain ⟨m, rfl⟩ : ∃ m, n = m + 1 := ⟨n - 1, by simp at hn; omega⟩
    have hw : (if b = 0 then utf8 hex else [b]) = [b] := by
      split
      · rename_i hb; rw [hx (h3 hb), hb]; rfl
      · rfl
    simp only [fetchLoop, getChar, if_neg h2, hw]
    rw [if_pos (by simp at hc ⊢; omega), ih cap m hex _ (by simp at hn; omega) (by simp at hc ⊢; omega) hx]
    simp
  | esc f e c r s he h ih =>
    intro cap n hex out hn hc hx
    obtain ⟨m, rfl⟩ : ∃ m, n = m + 1 := ⟨n - 1, by simp at hn; omega⟩
    have hg : getChar hex (92 :: e :: r) = some (c, r, hex) ∧ c ≠ 0 := by
      simp only [escapes, List.mem_cons, Prod.mk.injEq, List.not_mem_nil, or_false] at he
      rcases he with ⟨rfl, rfl⟩ | ⟨rfl, rfl⟩ | ⟨rfl, rfl⟩ | ⟨rfl, rfl⟩ | ⟨rfl, rfl⟩ | ⟨rfl, rfl⟩ | ⟨rfl, rfl⟩ | ⟨rfl, rfl⟩ <;>
        exact ⟨by simp [getChar], by decide⟩
    simp only [fetchLoop, hg.1, if_neg hg.2]
    rw [if_pos (by simp at hc ⊢; omega), ih cap m hex _ (by simp at hn; omega) (by simp at hc ⊢; omega) hx]
    simp
  | uni f a b c d x y z w r s ha hb hc hd h ih =>
    intro cap n hex out hn hcap hx
    obtain ⟨m, rfl⟩ : ∃ m, n = m + 1 := ⟨n - 1, by simp at hn; omega⟩
    have ea := hex_char ha; have eb := hex_char hb; have ec := hex_char hc; have ed := hex_char hd
    have hg : getChar hex (92 :: 117 :: a :: b :: c :: d :: r) = some (0, r, BitVec.ofNat 32 (x * 4096 + y * 256 + z * 16 + w)) := by
      simp only [getChar, ea.1, eb.1, ec.1, ed.1, hex_code x y z w ea.2.1 eb.2.1 ec.2.1 ed.2.1]
      simp
    have hl := utf8Spec_len (x * 4096 + y * 256 + z * 16 + w)
    simp only [fetchLoop, hg, if_true]
    rw [utf8_eq _ (by omega), if_pos (by simp at hcap ⊢; omega), ih cap m _ _ (by simp at hn; omega) (by simp at hcap ⊢; omega) (by simp)]
    simp

/-- A string literal denotes the string the grammar says. -/
theorem parseString_txt {r s : List Byte} (h : StrTxt false r s) (key : Bool) (rest : List Byte) :
    parseString (D := D) {} key (r ++ 34 :: rest) = some (some (.str s, rest)) := by
  unfold parseString
  rw [scan_txt h]
  simp only [fetch, fetch_txt h r.length r.length 0 [] (by omega) (by simp) (by simp)]
  simp

/-! ## Numbers -/

/-- What may follow a value. -/
def Dl (b : Byte) : Prop := blank b = true ∨ b = 44 ∨ b = 93 ∨ b = 125 ∨ b = 58

def Delim (r : List Byte) : Prop := ∀ b t, r = b :: t → Dl b

instance (b : Byte) : Decidable (Dl b) := by unfold Dl; infer_instance

theorem dl_facts (b : Byte) (h : Dl b) : isDigit b = false ∧ b ≠ 46 ∧ b ≠ 101 ∧ b ≠ 69 := by
  unfold Dl at h
  revert b
  decide +kernel

theorem digit_facts (b : Byte) (h : isDigit b = true) : b.toNat - 48 ≤ 9 ∧ blank b = false ∧ b ≠ 123 ∧ b ≠ 91 ∧ b ≠ 34 ∧ b ≠ 45 ∧ (b = 48 ↔ b.toNat - 48 = 0) := by
  revert b
  decide +kernel

theorem digits_le (t : List Byte) : ∀ a, a ≤ digits a t := by
  induction t with
  | nil => intro a; rw [digits_nil]
  | cons b t ih => intro a; rw [digits_cons]; exact Nat.le_trans (by omega) (ih _)

theorem intPart_end {F : Fl D} (x : D) (rest : List Byte) (hr : Delim rest) : intPart F x rest = (x, rest) := by
  cases rest with
  | nil => rfl
  | cons b t =>
    rw [intPart, if_neg (by rw [(dl_facts b (hr b t rfl)).1]; decide)]

theorem intPart_txt {F : Fl D} {ofInt : Int → D} (hF : Exact F ofInt) (rest : List Byte) (hr : Delim rest) : ∀ (ds : List Byte) (a : Nat),
    (∀ c ∈ ds, isDigit c = true) → digits a ds ≤ 2 ^ 53 → intPart F (ofInt a) (ds ++ rest) = (ofInt (digits a ds : Nat), rest) := by
  intro ds
  induction ds with
  | nil =>
    intro a _ _
    rw [digits_nil]
    exact intPart_end _ rest hr
  | cons b t ih =>
    intro a hd hm
    rw [digits_cons] at hm ⊢
    have hb := digit_facts b (hd b (by simp))
    have h1 : a * 10 + (b.toNat - 48) ≤ 2 ^ 53 := Nat.le_trans (digits_le t _) hm
    have e1 : F.mul (ofInt a) (F.ofNat 10) = ofInt (a * 10 : Nat) := by
      rw [hF.ofNat 10 (by omega), hF.mul]
      · norm_num
      · rw [abs_of_nonneg (by omega)]; omega
      · norm_num
      · rw [abs_of_nonneg (by omega)]; omega
    have e2 : F.add (ofInt (a * 10 : Nat)) (F.ofNat (b.toNat - 48)) = ofInt (a * 10 + (b.toNat - 48) : Nat) := by
      rw [hF.ofNat _ (by omega), hF.add]
      · norm_num
      · rw [abs_of_nonneg (by omega)]; omega
      · rw [abs_of_nonneg (by omega)]; omega
      · rw [abs_of_nonneg (by omega)]; omega
    rw [List.cons_append, intPart, if_pos (hd b (by simp)), e1, e2]
    exact ih _ (fun c hc => hd c (by simp [hc])) hm

theorem digitFrac_end {F : Fl D} (x : D) (rest : List Byte) (hr : Delim rest) : digitFrac F x rest = some (some (x, rest)) := by
  cases rest with
  | nil => rfl
  | cons b t =>
    have h := dl_facts b (hr b t rfl)
    simp only [digitFrac, if_neg h.2.1, digitTail]
    rw [if_neg]
    rintro (h1 | h1)
    · exact h.2.2.1 h1
    · exact h.2.2.2 h1

theorem process_txt {F : Fl D} {ofInt : Int → D} (hF : Exact F ofInt) (b : Byte) (t rest : List Byte) (hr : Delim rest)
    (h : ∀ c ∈ b :: t, isDigit c = true) (h0 : b ≠ 48) (hm : digits 0 (b :: t) ≤ 2 ^ 53) :
    digitProcess F (b :: (t ++ rest)) = some (some (ofInt (digits 0 (b :: t) : Nat), rest)) := by
  have := intPart_txt hF rest hr (b :: t) 0 h hm
  simp only [digitProcess, h b (by simp), Bool.not_true, Bool.false_eq_true, if_false, if_neg h0]
  rw [hF.ofNat 0 (by omega), ← List.cons_append, this, digitFrac_end _ _ hr]

theorem digits_pos (t : List Byte) (b : Byte) (h : isDigit b = true) (h0 : b ≠ 48) : 0 < digits 0 (b :: t) := by
  have h1 : b.toNat - 48 ≠ 0 := fun q => h0 ((digit_facts b h).2.2.2.2.2.2.2 q)
  rw [digits_cons]
  exact Nat.lt_of_lt_of_le (Nat.pos_of_ne_zero h1) (Nat.le_trans (Nat.le_add_left _ _) (digits_le t (0 * 10 + (b.toNat - 48))))

theorem parseDigit_txt {F : Fl D} {ofInt : Int → D} (hF : Exact F ofInt) {i : Int} {t : List Byte} (h : NumTxt i t) (rest : List Byte) (hr : Delim rest) :
    parseDigit F (t ++ rest) = some (some (.num (ofInt i), rest)) := by
  cases h with
  | zero =>
    have e : digitProcess F (48 :: rest) = some (some (ofInt 0, rest)) := by
      have h48 : isDigit 48 = true := by decide
      simp only [digitProcess, h48, Bool.not_true, Bool.false_eq_true, if_false, if_true]
      rw [hF.ofNat 0 (by omega)]
      cases rest with
      | nil => rfl
      | cons c u =>
        have := (dl_facts c (hr c u rfl)).1
        simp only [this, Bool.false_eq_true, if_false]
        exact digitFrac_end _ _ hr
    simp only [List.cons_append, List.nil_append, parseDigit]
    rw [if_neg (by decide), e]
  | pos b t h h0 hm =>
    have hb := digit_facts b (h b (by simp))
    simp only [List.cons_append, parseDigit, if_neg hb.2.2.2.2.2.1]
    rw [process_txt hF b t rest hr h h0 hm]
  | neg b t h h0 hm =>
    have hp := digits_pos t b (h b (by simp)) h0
    simp only [List.cons_append, parseDigit, if_true]
    rw [if_neg (by simp), process_txt hF b t rest hr h h0 hm]
    simp only
    rw [hF.neg _ (by omega) (by rw [abs_of_nonneg (by omega)]; omega)]

/-! ## Values -/

theorem skip_cons {b : Byte} (h : blank b = false) (t : List Byte) : skip (b :: t) = b :: t := by
  simp [skip, h]

theorem skip_blanks {w : List Byte} (hw : Blanks w) {b : Byte} (h : blank b = false) (t : List Byte) : skip (w ++ b :: t) = b :: t := by
  induction w with
  | nil => exact skip_cons h t
  | cons c w ih =>
    have hc := hw c (by simp)
    have := ih fun x hx => hw x (by simp [hx])
    simp only [List.cons_append, skip, List.dropWhile_cons, hc, if_true] at this ⊢
    exact this

theorem delim_blanks {w : List Byte} (hw : Blanks w) {b : Byte} (h : Dl b) (t : List Byte) : Delim (w ++ b :: t) := by
  intro c u he
  cases w with
  | nil => simp at he; rw [← he.1]; exact h
  | cons d w =>
    simp at he
    rw [← he.1]
    exact Or.inl (hw d (by simp))

theorem word_txt (w : List Byte) (v : Json D) (h : w.map lower = w) (rest : List Byte) : word w v (w ++ rest) = some (v, rest) := by
  unfold word
  rw [if_neg (by simp), List.take_left', List.drop_left', if_pos h] <;> rfl

/-- What is left after a value: objects and arrays also take the blanks. -/
def aft (v : Json D) (rest : List Byte) : List Byte :=
  match v with
  | .obj _ => skip rest
  | .arr _ => skip rest
  | _ => rest

theorem skip_skip (t : List Byte) : skip (skip t) = skip t := by
  induction t with
  | nil => rfl
  | cons b t ih =>
    cases h : blank b with
    | true => simp only [skip, List.dropWhile_cons, h, if_true] at ih ⊢; exact ih
    | false => rw [skip_cons h, skip_cons h]

theorem skip_aft (v : Json D) (rest : List Byte) : skip (aft v rest) = skip rest := by
  unfold aft
  cases v <;> first | exact skip_skip rest | rfl

theorem aft_ne (v : Json D) {w : List Byte} (hw : Blanks w) {b : Byte} (h : blank b = false) (t : List Byte) : aft v (w ++ b :: t) ≠ [] := by
  intro he
  have := skip_aft v (w ++ b :: t)
  rw [he, skip_blanks hw h] at this
  simp [skip] at this

theorem txt_pos {ofInt : Int → D} {v : Json D} {t : List Byte} (h : Txt ofInt v t) : 0 < t.length := by
  cases h with
  | num i t h => cases h <;> simp
  | _ => simp

theorem elems_pos {ofInt : Int → D} {vs : List (Json D)} {t : List Byte} (h : Elems ofInt vs t) : 1 < t.length := by
  cases h with
  | one v w1 t w2 h1 h h2 => have := txt_pos h; simp; omega
  | cons v vs w1 t w2 u h1 h h2 hu => have := txt_pos h; simp; omega

theorem mems_pos {ofInt : Int → D} {a vs : List (List Byte × Json D)} {t : List Byte} (h : Mems ofInt a vs t) : 1 < t.length := by
  cases h with
  | one => simp; omega
  | cons => simp; omega

/-- The first byte of a text. -/
theorem txt_head {ofInt : Int → D} {v : Json D} {t : List Byte} (h : Txt ofInt v t) : ∃ b u, t = b :: u ∧ blank b = false ∧ b ≠ 93 ∧ b ≠ 125 := by
  cases h with
  | tru => exact ⟨_, _, rfl, by decide⟩
  | fls => exact ⟨_, _, rfl, by decide⟩
  | null => exact ⟨_, _, rfl, by decide⟩
  | num i t h =>
    have hd : ∀ b : Byte, isDigit b = true → blank b = false ∧ b ≠ 93 ∧ b ≠ 125 := by decide +kernel
    cases h with
    | zero => exact ⟨_, _, rfl, by decide⟩
    | pos b t h h0 hm => exact ⟨_, _, rfl, hd b (h b (by simp))⟩
    | neg b t h h0 hm => exact ⟨_, _, rfl, by decide⟩
  | str r s h => exact ⟨_, _, rfl, by decide⟩
  | arr vs t h => exact ⟨_, _, rfl, by decide⟩
  | obj0 w hw => exact ⟨_, _, rfl, by decide⟩
  | obj kvs t h => exact ⟨_, _, rfl, by decide⟩

theorem parse_txt {F : Fl D} {ofInt : Int → D} (hF : Exact F ofInt) : ∀ m,
    (∀ v t, Txt ofInt v t → t.length ≤ m → ∀ n key d w rest, Blanks w → Delim rest → 2 * t.length + 1 ≤ n →
      parseJson F {} n key d (w ++ (t ++ rest)) = some (some (v, aft v rest))) ∧
    (∀ vs t, Elems ofInt vs t → t.length ≤ m → ∀ n d acc rest, 2 * t.length ≤ n →
      arrLoop F {} n d acc (t ++ rest) = some (some (.arr (acc ++ vs), skip rest))) ∧
    (∀ acc kvs t, Mems ofInt acc kvs t → t.length ≤ m → ∀ n d rest, 2 * t.length ≤ n →
      objLoop F {} n d acc (t ++ rest) = some (some (.obj kvs, skip rest))) := by
  intro m
  induction m with
  | zero =>
    refine ⟨?_, ?_, ?_⟩
    · intro v t h hl; have := txt_pos h; omega
    · intro v t h hl; have := elems_pos h; omega
    · intro a v t h hl; have := mems_pos h; omega
  | succ m ih =>
    obtain ⟨ihT, ihE, ihM⟩ := ih
    have p0 : ¬ ((({} : Policy).depth ≠ 0) ∧ ∀ _ : True, True) := by simp
    refine ⟨?_, ?_, ?_⟩
    · intro v t h hl n key d w rest hw hr hn
      obtain ⟨n, rfl⟩ : ∃ k, n = k + 1 := ⟨n - 1, by omega⟩
      cases h with
      | tru =>
        rw [parseJson]
        simp only [List.cons_append, List.nil_append]
        rw [skip_blanks hw (by decide)]
        simp only
        rw [if_neg (by decide), if_neg (by decide), if_neg (by decide), if_neg (by decide)]
        have := word_txt wTrue (.tru : Json D) (by decide) rest
        simp only [wTrue, List.cons_append, List.nil_append] at this ⊢
        rw [this]
        rfl
      | fls =>
        rw [parseJson]
        simp only [List.cons_append, List.nil_append]
        rw [skip_blanks hw (by decide)]
        simp only
        rw [if_neg (by decide), if_neg (by decide), if_neg (by decide), if_neg (by decide)]
        have := word_txt wFalse (.fls : Json D) (by decide) rest
        simp only [wFalse, List.cons_append, List.nil_append] at this ⊢
        have h2 : word wTrue (.tru : Json D) (102 :: 97 :: 108 :: 115 :: 101 :: rest) = none := by
          simp [word, wTrue, lower]
        rw [h2, this]
        rfl
      | null =>
        rw [parseJson]
        simp only [List.cons_append, List.nil_append]
        rw [skip_blanks hw (by decide)]
        simp only
        rw [if_neg (by decide), if_neg (by decide), if_neg (by decide), if_neg (by decide)]
        have := word_txt wNull (.null : Json D) (by decide) rest
        simp only [wNull, List.cons_append, List.nil_append] at this ⊢
        have h2 : word wTrue (.tru : Json D) (110 :: 117 :: 108 :: 108 :: rest) = none := by
          simp [word, wTrue, lower]
        have h3 : word wFalse (.fls : Json D) (110 :: 117 :: 108 :: 108 :: rest) = none := by
          simp [word, wFalse, lower]
        rw [h2, h3, this]
        rfl
      | num i t h =>
        have hq := parseDigit_txt hF h rest hr
        have hhead : ∃ b u, t = b :: u ∧ blank b = false ∧ b ≠ 123 ∧ b ≠ 91 ∧ b ≠ 34 ∧ (isDigit b = true ∨ b = 45) := by
          cases h with
          | zero => exact ⟨_, _, rfl, by decide⟩
          | pos b t h h0 hm =>
            have := digit_facts b (h b (by simp))
            exact ⟨_, _, rfl, this.2.1, this.2.2.1, this.2.2.2.1, this.2.2.2.2.1, Or.inl (h b (by simp))⟩
          | neg b t h h0 hm => exact ⟨_, _, rfl, by decide⟩
        obtain ⟨b, u, rfl, g1, g2, g3, g4, g5⟩ := hhead
        rw [parseJson]
        simp only [List.cons_append] at hq ⊢
        rw [skip_blanks hw g1]
        simp only
        rw [if_neg g2, if_neg g3, if_neg g4, if_pos g5, hq]
        rfl
      | str r s h =>
        rw [parseJson]
        simp only [List.cons_append, List.append_assoc, List.nil_append]
        rw [skip_blanks hw (by decide)]
        simp only
        rw [if_neg (by decide), if_neg (by decide), if_pos trivial, parseString_txt h]
        rfl
      | arr vs t h =>
        have := elems_pos h
        rw [parseJson]
        simp only [List.cons_append]
        rw [skip_blanks hw (by decide)]
        simp only
        rw [if_neg (by decide), if_pos trivial, if_neg (by intro hc; rw [(List.append_eq_nil_iff.1 hc).1] at this; simp at this), if_neg (by simp)]
        simp only [List.length_cons] at hl hn
        rw [ihE vs t h (by omega) n d [] rest (by omega)]
        rfl
      | obj0 w2 hw2 =>
        rw [parseJson]
        simp only [List.cons_append, List.append_assoc, List.nil_append]
        rw [skip_blanks hw (by decide)]
        simp only
        rw [if_pos trivial, if_neg (by simp), if_neg (by simp)]
        simp only [List.length_cons, List.length_append, List.length_nil] at hn
        obtain ⟨n, rfl⟩ : ∃ k, n = k + 1 := ⟨n - 1, by omega⟩
        rw [objLoop, skip_blanks hw2 (by decide)]
        simp only [if_true]
        rfl
      | obj kvs t h =>
        have := mems_pos h
        rw [parseJson]
        simp only [List.cons_append]
        rw [skip_blanks hw (by decide)]
        simp only
        rw [if_pos trivial, if_neg (by intro hc; rw [(List.append_eq_nil_iff.1 hc).1] at this; simp at this), if_neg (by simp)]
        simp only [List.length_cons] at hl hn
        rw [ihM [] kvs t h (by omega) n d rest (by omega)]
        rfl
    · intro vs t h hl n d acc rest hn
      have hpos := elems_pos h
      obtain ⟨n, rfl⟩ : ∃ k, n = k + 1 := ⟨n - 1, by omega⟩
      cases h with
      | one v w1 t w2 h1 h h2 =>
        simp only [List.length_append, List.length_cons, List.length_nil] at hl hn
        have hp := ihT v t h (by omega) n false (d + 1) w1 (w2 ++ 93 :: rest) h1 (delim_blanks h2 (by decide) rest) (by omega)
        have htx : w1 ++ (t ++ (w2 ++ [93])) ++ rest = w1 ++ (t ++ (w2 ++ 93 :: rest)) := by simp
        rw [htx]
        obtain ⟨b, u, rfl, g1, g2, g3⟩ := txt_head h
        have hcons : ∃ c z, w1 ++ (b :: u ++ (w2 ++ 93 :: rest)) = c :: z ∧ c ≠ 93 := by
          cases w1 with
          | nil => exact ⟨_, _, rfl, g2⟩
          | cons c w1 =>
            refine ⟨_, _, rfl, ?_⟩
            rintro rfl
            exact absurd (h1 93 (by simp)) (by decide)
        obtain ⟨c, z, hcz, hc⟩ := hcons
        rw [hcz, arrLoop.eq_def]
        simp only
        rw [if_neg hc, ← hcz, hp]
        simp only
        rw [if_neg (aft_ne v h2 (by decide) rest), if_neg (by simp), skip_aft, skip_blanks h2 (by decide)]
        simp
      | cons v vs w1 t w2 u' h1 h h2 hu =>
        have hpu := elems_pos hu
        simp only [List.length_append, List.length_cons] at hl hn
        have hp := ihT v t h (by omega) n false (d + 1) w1 (w2 ++ 44 :: (u' ++ rest)) h1 (delim_blanks h2 (by decide) _) (by omega)
        have htx : w1 ++ (t ++ (w2 ++ 44 :: u')) ++ rest = w1 ++ (t ++ (w2 ++ 44 :: (u' ++ rest))) := by simp
        rw [htx]
        obtain ⟨b, u, rfl, g1, g2, g3⟩ := txt_head h
        have hcons : ∃ c z, w1 ++ (b :: u ++ (w2 ++ 44 :: (u' ++ rest))) = c :: z ∧ c ≠ 93 := by
          cases w1 with
          | nil => exact ⟨_, _, rfl, g2⟩
          | cons c w1 =>
            refine ⟨_, _, rfl, ?_⟩
            rintro rfl
            exact absurd (h1 93 (by simp)) (by decide)
        obtain ⟨c, z, hcz, hc⟩ := hcons
        rw [hcz, arrLoop.eq_def]
        simp only
        rw [if_neg hc, ← hcz, hp]
        simp only
        rw [if_neg (aft_ne v h2 (by decide) _), if_neg (by simp), skip_aft, skip_blanks h2 (by decide)]
        simp only [if_true]
        rw [if_neg (by intro hc; rw [(List.append_eq_nil_iff.1 hc).1] at hpu; simp at hpu), ihE vs u' hu (by omega) n d (acc ++ [v]) rest (by omega)]
        simp
    · intro acc kvs t h hl n d rest hn
      have hpos := mems_pos h
      obtain ⟨n, rfl⟩ : ∃ k, n = k + 1 := ⟨n - 1, by omega⟩
      cases h with
      | one _ _ r k v w1 w2 w3 t w4 h1 hk h2 h3 h h4 hu =>
        have htp := txt_pos h
        simp only [List.length_append, List.length_cons, List.length_nil] at hl hn
        have hpk := ihT (.str k) (34 :: (r ++ [34])) (Txt.str r k hk) (by simp; omega) n true (d + 1) [] (w2 ++ 58 :: (w3 ++ (t ++ (w4 ++ 125 :: rest))))
          (by intro b hb; simp at hb) (delim_blanks h2 (by decide) _) (by simp; omega)
        have hpv := ihT v t h (by omega) n false (d + 1) w3 (w4 ++ 125 :: rest) h3 (delim_blanks h4 (by decide) _) (by omega)
        have htx : w1 ++ (34 :: (r ++ (34 :: (w2 ++ (58 :: (w3 ++ (t ++ (w4 ++ [125])))))))) ++ rest =
            w1 ++ 34 :: (r ++ 34 :: (w2 ++ 58 :: (w3 ++ (t ++ (w4 ++ 125 :: rest))))) := by simp
        rw [htx, objLoop, skip_blanks h1 (by decide)]
        simp only
        rw [if_neg (by decide)]
        simp only [List.nil_append, List.cons_append, List.append_assoc] at hpk
        rw [hpk]
        simp only
        rw [if_neg (aft_ne _ h2 (by decide) _), skip_aft, skip_blanks h2 (by decide)]
        simp only
        rw [if_neg (by decide), if_neg (by intro hc; have := congrArg List.length hc; simp at this), hpv]
        simp only
        rw [if_neg (aft_ne v h4 (by decide) _), skip_aft, skip_blanks h4 (by decide)]
        simp only [hu]
        rw [if_neg (by simp), if_neg (by decide), if_pos trivial]
      | cons _ acc' _ r k v w1 w2 w3 t w4 u h1 hk h2 h3 h h4 hu hm =>
        have htp := txt_pos h
        have hup := mems_pos hm
        simp only [List.length_append, List.length_cons] at hl hn
        have hpk := ihT (.str k) (34 :: (r ++ [34])) (Txt.str r k hk) (by simp; omega) n true (d + 1) [] (w2 ++ 58 :: (w3 ++ (t ++ (w4 ++ 44 :: (u ++ rest)))))
          (by intro b hb; simp at hb) (delim_blanks h2 (by decide) _) (by simp; omega)
        have hpv := ihT v t h (by omega) n false (d + 1) w3 (w4 ++ 44 :: (u ++ rest)) h3 (delim_blanks h4 (by decide) _) (by omega)
        have htx : w1 ++ (34 :: (r ++ (34 :: (w2 ++ (58 :: (w3 ++ (t ++ (w4 ++ 44 :: u)))))))) ++ rest =
            w1 ++ 34 :: (r ++ 34 :: (w2 ++ 58 :: (w3 ++ (t ++ (w4 ++ 44 :: (u ++ rest)))))) := by simp
        rw [htx, objLoop, skip_blanks h1 (by decide)]
        simp only
        rw [if_neg (by decide)]
        simp only [List.nil_append, List.cons_append, List.append_assoc] at hpk
        rw [hpk]
        simp only
        rw [if_neg (aft_ne _ h2 (by decide) _), skip_aft, skip_blanks h2 (by decide)]
        simp only
        rw [if_neg (by decide), if_neg (by intro hc; have := congrArg List.length hc; simp at this), hpv]
        simp only
        rw [if_neg (aft_ne v h4 (by decide) _), skip_aft, skip_blanks h4 (by decide)]
        simp only [hu]
        rw [if_neg (by simp), if_pos trivial, if_neg (by intro hc; rw [(List.append_eq_nil_iff.1 hc).1] at hup; simp at hup),
          ihM acc' kvs u hm (by omega) n d rest (by omega)]

end Verif.Json
