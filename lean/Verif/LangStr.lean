import Verif.Str
import Verif.Json

/-!
# The operators of the script language on strings

src/mln_lang_str.c, and what the tables of the other types do when the other operand is a string:
src/mln_lang_int.c, mln_lang_bool.c, mln_lang_nil.c, mln_lang_array.c, mln_lang_func.c, mln_lang_obj.c.
A binary operator takes the table of its left operand (mln_lang.c:4677 and its copies), an assignment the
table of its right operand (mln_lang.c:4459).

Simplifications.
* One operand is a string; pairs without strings are in LangOp, their result here is `none`.
* Reals are no operands (their text is printf's `%lf`).
* Arrays, functions and objects are opaque: only their type matters to a string.
* Operators overloaded by the script are not modelled; allocations succeed.
* `sscanf` of a number that does not fit into mln_s64_t is undefined (C11 7.21.6.2p10).
-/
namespace Verif.LangStr

open Verif.Str (Byte strcmp strseqcmp)

/-- `mln_lang_val_t`. -/
inductive V
  | nil
  | bool (b : Bool)
  | int (i : BitVec 64)
  | str (s : List Byte)
  | arr
  | func
  | obj
  deriving DecidableEq

/-- What a handler does: undefined behaviour, an error (-1), a value. -/
inductive R
  | ub
  | err
  | ok (v : V)
  deriving DecidableEq

/-- The bytes of an ASCII text. -/
def ascii (s : String) : List Byte := s.toList.map fun c => BitVec.ofNat 8 c.toNat

/-- `__mln_lang_str_var_tostring`, mln_lang_str.c:168-212. -/
def text : V → List Byte
  | .nil => ascii "nil"
  | .obj => ascii "Object"
  | .func => ascii "Function"
  | .arr => ascii "Array"
  | .int i => Verif.Json.decInt i.toInt
  | .bool b => if b then ascii "true" else ascii "false"
  | .str s => s

/-- `isspace` of the C locale. -/
def space (c : Byte) : Bool := c.toNat = 32 || (9 ≤ c.toNat && c.toNat ≤ 13)

def digit (c : Byte) : Bool := 48 ≤ c.toNat && c.toNat ≤ 57

/-- The value of the digits at the front of a text. -/
def value (s : List Byte) : Nat := (s.takeWhile digit).foldl (fun n c => n * 10 + (c.toNat - 48)) 0

/-- `sscanf(buf, "%ld", &i)` with `i = 0` before, mln_lang_int.c:186-198: white space, a sign, digits; without a
digit nothing is stored. -/
def scan (s : List Byte) : Int :=
  match s.dropWhile space with
  | [] => 0
  | c :: t => if c.toNat = 45 then -(value t : Int) else if c.toNat = 43 then value t else value (c :: t)

/-- The operators that take strings. -/
inductive Op | add | eq | ne | lt | le | gt | ge
  deriving DecidableEq

/-- `mln_string_strseqcmp` against zero, the `if (rv …)` of mln_lang_str.c:530, 574, 618, 662. -/
def sign : Op → Int → Bool
  | .lt, r => r < 0
  | .le, r => r ≤ 0
  | .gt, r => 0 < r
  | .ge, r => 0 ≤ r
  | _, _ => false

/-- Types the comparisons of the string table accept on the right, mln_lang_str.c:435, 476, 517, 561, 605, 649. -/
def comparable : V → Bool
  | .int _ => true
  | .str _ => true
  | _ => false

/-- The string table: mln_lang_str_equal to mln_lang_str_greale, mln_lang_str.c:421-677, and mln_lang_str_plus,
lines 705-745.  The left operand need not be a string: other tables come here. -/
def binStr (op : Op) (a b : V) : R :=
  match op with
  | .add => .ok (.str (text a ++ text b))
  | .eq => if comparable b then (match strcmp false (text a) (text b) with
      | some rv => .ok (.bool (rv = 0))
      | none => .ub) else .ok (.bool false)
  | .ne => if comparable b then (match strcmp false (text a) (text b) with
      | some rv => .ok (.bool (rv ≠ 0))
      | none => .ub) else .ok (.bool true)
  | op => if comparable b then .ok (.bool (sign op (strseqcmp (text a) (text b)))) else .err

/-- The integer table with a string on the right: `==` and `!=` convert the string to a number
(mln_lang_int.c:692-764), the orders and `+` go to the string table (lines 789-803, 841-855, 893-907, 945-959,
1065-1079). -/
def binInt (op : Op) (i : BitVec 64) (s : List Byte) : R :=
  let n := scan s
  match op with
  | .eq => if -2 ^ 63 ≤ n ∧ n < 2 ^ 63 then .ok (.bool (i.toInt = n)) else .ub
  | .ne => if -2 ^ 63 ≤ n ∧ n < 2 ^ 63 then .ok (.bool (i.toInt ≠ n)) else .ub
  | op => binStr op (.int i) (.str s)

/-- The tables of nil, booleans, arrays, functions and objects with a string on the right: never equal
(mln_lang_nil.c:371, mln_lang_bool.c:372, mln_lang_array.c, mln_lang_func.c, mln_lang_obj.c), no order, `+` goes
to the string table (mln_lang_nil.c:499-516 and its copies). -/
def binOther (op : Op) (a : V) (s : List Byte) : R :=
  match op with
  | .add => binStr .add a (.str s)
  | .eq => .ok (.bool false)
  | .ne => .ok (.bool true)
  | _ => .err

/-- A binary operator with a string among its operands. -/
def bin (op : Op) (a b : V) : Option R :=
  match a, b with
  | .str _, _ => some (binStr op a b)
  | .int i, .str s => some (binInt op i s)
  | _, .str s => some (binOther op a s)
  | _, _ => none

/-- `a += b` with a string among the two: what `a` becomes.  The table of `b`: the string table takes any left
operand (mln_lang_str.c:232-263), the others hand a string on the left over to it (mln_lang_int.c:281-292,
mln_lang_nil.c:188-203 and its copies). -/
def pluseq (a b : V) : Option R :=
  match a, b with
  | _, .str _ => some (.ok (.str (text a ++ text b)))
  | .str _, _ => some (.ok (.str (text a ++ text b)))
  | _, _ => none

/-- `s[b]`, `mln_lang_str_index`, mln_lang_str.c:825-856.  Lines 842-847: a negative offset counts from the end;
`offset >= s->len` compares as unsigned (the offset is not negative there). -/
def index (s : List Byte) (b : V) : R :=
  match b with
  | .int i =>
    let off := if i.toInt < 0 then (s.length : Int) + i.toInt else i.toInt
    if off < 0 ∨ off ≥ s.length then .err else
    match s[off.toNat]? with
    | some c => .ok (.str [c])
    | none => .ub
  | _ => .err

end Verif.LangStr
