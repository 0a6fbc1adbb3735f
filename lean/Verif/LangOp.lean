import Verif.Lang
import Mathlib.Data.Rat.Floor

/-!
# The operators of the script language on nil, integers, booleans and reals

src/mln_lang_int.c, mln_lang_real.c, mln_lang_bool.c, mln_lang_nil.c, and the choice of the method
table in src/mln_lang.c: binary and unary operators take the table of the left operand
(e.g. mln_lang.c:4677), assignments the one of the right operand (mln_lang.c:4459).

Simplifications.
* Reals are exact rational numbers: rounding, infinities and NaN are not modelled; the constants
  1e-15 and 2.2204460492503131E-16 are taken as written.
* Strings, arrays, objects and functions are no operands here.
* Operators overloaded by the script are not modelled; allocations succeed.
* Undefined behaviour (signed overflow, INT64_MIN / -1, shifts by a negative count or by 64 and more,
  left shifts of negative numbers or beyond 63 bits, conversion of a real outside the range of
  mln_s64_t) is the result `ub`.  `>>` of a negative number is arithmetic.
-/
namespace Verif.LangOp

open Verif.Lang (BOp AOp UOp IOp)

/-- `mln_lang_val_t`. -/
inductive V
  | nil
  | int (i : BitVec 64)
  | bool (b : Bool)
  | real (r : Rat)
  deriving DecidableEq

/-- What a handler does: undefined behaviour, an error (-1), a value. -/
inductive R (α : Type)
  | ub
  | err
  | ok (a : α)
  deriving DecidableEq

/-- Does the number fit into mln_s64_t? -/
def Fits (n : Int) : Prop := -2 ^ 63 ≤ n ∧ n < 2 ^ 63

instance (n : Int) : Decidable (Fits n) := by unfold Fits; infer_instance

/-- Signed arithmetic: overflow is undefined. -/
def s64 (n : Int) : R V := if Fits n then .ok (.int (BitVec.ofInt 64 n)) else .ub

/-- Conversion of a real to an integer: towards zero. -/
def trunc (r : Rat) : Int := if 0 ≤ r then ⌊r⌋ else -⌊-r⌋

/-- `mln_lang_int_var_toint`, mln_lang_int.c:162-203. -/
def toInt : V → R Int
  | .nil => .ok 0
  | .int i => .ok i.toInt
  | .bool b => .ok (if b then 1 else 0)
  | .real r => if Fits (trunc r) then .ok (trunc r) else .ub

/-- `mln_lang_int_var_toreal`, mln_lang_int.c:205-241; `mln_lang_real_var_toreal`,
mln_lang_real.c:162-198. -/
def toReal : V → Rat
  | .nil => 0
  | .int i => (i.toInt : Rat)
  | .bool b => if b then 1 else 0
  | .real r => r

/-- Both operands as integers. -/
def ints (a b : V) (f : Int → Int → R V) : R V :=
  match toInt a, toInt b with
  | .ok x, .ok y => f x y
  | _, _ => .ub

/-- `x << y`. -/
def shl (x y : Int) : R V := if y < 0 ∨ 64 ≤ y ∨ x < 0 then .ub else s64 (x * 2 ^ y.toNat)

/-- `x >> y`. -/
def shr (x y : Int) : R V := if y < 0 ∨ 64 ≤ y then .ub else .ok (.int (BitVec.ofInt 64 (x / 2 ^ y.toNat)))

/-- `x / y`, e.g. mln_lang_int.c:1221-1226. -/
def divI (x y : Int) : R V := if y = 0 then .err else s64 (x.tdiv y)

/-- `x % y`, mln_lang_int.c:1261-1266; INT64_MIN % -1 is undefined like the quotient. -/
def modI (x y : Int) : R V := if y = 0 then .err else if Fits (x.tdiv y) then s64 (x.tmod y) else .ub

/-- Bitwise operators. -/
def bits (f : BitVec 64 → BitVec 64 → BitVec 64) (x y : Int) : R V :=
  .ok (.int (f (BitVec.ofInt 64 x) (BitVec.ofInt 64 y)))

/-- Division of reals, e.g. mln_lang_real.c:870-908. -/
def divR (x y : Rat) : R V := if |y| ≤ 1 / 10 ^ 15 then .err else .ok (.real (x / y))

def isReal : V → Bool
  | .real _ => true
  | _ => false

/-- Nil or a boolean: the types the handlers of numbers refuse. -/
def odd : V → Bool
  | .nil => true
  | .bool _ => true
  | _ => false

/-- `mln_lang_int_cor` … `mln_lang_int_mod`, mln_lang_int.c:587-1275. -/
def binInt (op : BOp) (a b : V) : R V :=
  match op with
  | .eq => if odd b then .ok (.bool false) else ints a b fun x y => .ok (.bool (x = y))
  | .ne => if odd b then .ok (.bool true) else ints a b fun x y => .ok (.bool (x ≠ y))
  | .cor => if odd b then .err else ints a b (bits (· ||| ·))
  | .cand => if odd b then .err else ints a b (bits (· &&& ·))
  | .cxor => if odd b then .err else ints a b (bits (· ^^^ ·))
  | .lt => if odd b then .err else if isReal b then .ok (.bool (toReal a < toReal b)) else ints a b fun x y => .ok (.bool (x < y))
  | .le => if odd b then .err else if isReal b then .ok (.bool (toReal a ≤ toReal b)) else ints a b fun x y => .ok (.bool (x ≤ y))
  | .gt => if odd b then .err else if isReal b then .ok (.bool (toReal a > toReal b)) else ints a b fun x y => .ok (.bool (x > y))
  | .ge => if odd b then .err else if isReal b then .ok (.bool (toReal a ≥ toReal b)) else ints a b fun x y => .ok (.bool (x ≥ y))
  | .shl => if odd b || isReal b then .err else ints a b shl
  | .shr => if odd b || isReal b then .err else ints a b shr
  | .add => if odd b then .err else if isReal b then .ok (.real (toReal a + toReal b)) else ints a b fun x y => s64 (x + y)
  | .sub => if odd b then .err else if isReal b then .ok (.real (toReal a - toReal b)) else ints a b fun x y => s64 (x - y)
  | .mul => if odd b then .err else if isReal b then .ok (.real (toReal a * toReal b)) else ints a b fun x y => s64 (x * y)
  | .div => if odd b then .err else if isReal b then divR (toReal a) (toReal b) else ints a b divI
  | .mod => if odd b || isReal b then .err else ints a b modI

/-- `mln_lang_real_cor` … `mln_lang_real_mod`, mln_lang_real.c:424-921. -/
def binReal (op : BOp) (a b : V) : R V :=
  match op with
  | .eq => if odd b then .ok (.bool false) else .ok (.bool (toReal a = toReal b))
  | .ne => if odd b then .ok (.bool true) else .ok (.bool (toReal a ≠ toReal b))
  | .lt => if odd b then .err else .ok (.bool (toReal a < toReal b))
  | .le => if odd b then .err else .ok (.bool (toReal a ≤ toReal b))
  | .gt => if odd b then .err else .ok (.bool (toReal a > toReal b))
  | .ge => if odd b then .err else .ok (.bool (toReal a ≥ toReal b))
  | .add => if odd b then .err else .ok (.real (toReal a + toReal b))
  | .sub => if odd b then .err else .ok (.real (toReal a - toReal b))
  | .mul => if odd b then .err else .ok (.real (toReal a * toReal b))
  | .div => if odd b then .err else divR (toReal a) (toReal b)
  | _ => .err

/-- `mln_lang_bool_cor` … `mln_lang_bool_mod`, mln_lang_bool.c:323-571: only `==` and `!=`. -/
def binBool (op : BOp) (x : Bool) (b : V) : R V :=
  match op with
  | .eq => .ok (.bool (b = .bool x))
  | .ne => .ok (.bool (b ≠ .bool x))
  | _ => .err

/-- `mln_lang_nil_cor` … `mln_lang_nil_mod`, mln_lang_nil.c:322-566: only `==` and `!=`. -/
def binNil (op : BOp) (b : V) : R V :=
  match op with
  | .eq => .ok (.bool (b = .nil))
  | .ne => .ok (.bool (b ≠ .nil))
  | _ => .err

/-- A binary operator: the table of the left operand (mln_lang.c:4677 and its copies). -/
def bin (op : BOp) (a b : V) : R V :=
  match a with
  | .nil => binNil op b
  | .int _ => binInt op a b
  | .bool x => binBool op x b
  | .real _ => binReal op a b

/-- `mln_lang_int_pluseq` … `mln_lang_int_modeq`, mln_lang_int.c:261-585: `a` is the left operand. -/
def asgInt (op : AOp) (a b : V) : R V :=
  if odd a then .err else
  match op with
  | .add => if isReal a then .ok (.real (toReal a + toReal b)) else ints a b fun x y => s64 (x + y)
  | .sub => if isReal a then .ok (.real (toReal a - toReal b)) else ints a b fun x y => s64 (x - y)
  | .mul => if isReal a then .ok (.real (toReal a * toReal b)) else ints a b fun x y => s64 (x * y)
  | .div => if isReal a then divR (toReal a) (toReal b) else ints a b divI
  | .shl => ints a b shl
  | .shr => ints a b shr
  | .or => ints a b (bits (· ||| ·))
  | .and => ints a b (bits (· &&& ·))
  | .xor => ints a b (bits (· ^^^ ·))
  | .mod => if toInt b = .ok 0 then .err else ints a b modI

/-- `mln_lang_real_pluseq` … `mln_lang_real_modeq`, mln_lang_real.c:218-422. -/
def asgReal (op : AOp) (a b : V) : R V :=
  match op with
  | .add => if odd a then .err else .ok (.real (toReal a + toReal b))
  | .sub => if odd a then .err else .ok (.real (toReal a - toReal b))
  | .mul => if odd a then .err else .ok (.real (toReal a * toReal b))
  | .div => if odd a then .err else divR (toReal a) (toReal b)
  | _ => .err

/-- `mln_lang_nil_pluseq`, mln_lang_nil.c:177-204: strings only. -/
def asgNil : R V := .err

/-- `mln_lang_bool_pluseq` … , mln_lang_bool.c:178-321: `+=` is handed to the table of the left
operand, unless that is a boolean. -/
def asgBool (op : AOp) (a b : V) : R V :=
  match op, a with
  | .add, .int _ => asgInt .add a b
  | .add, .real _ => asgReal .add a b
  | .add, .nil => asgNil
  | _, _ => .err

/-- A compound assignment: the table of the right operand (mln_lang.c:4458-4459). -/
def asg (op : AOp) (a b : V) : R V :=
  match b with
  | .nil => asgNil
  | .int _ => asgInt op a b
  | .bool _ => asgBool op a b
  | .real _ => asgReal op a b

/-- `__mln_lang_condition_is_true`, mln_lang.c:3869-3901. -/
def truth : V → Bool
  | .nil => false
  | .int i => i ≠ 0
  | .bool b => b
  | .real r => r < -(22204460492503131 / 10 ^ 32) ∨ r > 22204460492503131 / 10 ^ 32

/-- `!`, `-`, `~`: mln_lang_int.c:1353-1423, mln_lang_real.c:999-1058, mln_lang_bool.c:624-672,
mln_lang_nil.c:619-660. -/
def un (op : UOp) (a : V) : R V :=
  match op, a with
  | .not, .nil => .ok (.bool true)
  | .not, .int i => .ok (.bool (i = 0))
  | .not, .bool b => .ok (.bool (!truth (.bool b)))
  | .not, .real r => .ok (.bool (r = 0))
  | .neg, .int i => s64 (-i.toInt)
  | .neg, .real r => .ok (.real (-r))
  | .rev, .int i => .ok (.int (~~~i))
  | _, _ => .err

/-- What is added: the functions below, `mln_lang_int_sinc` … adding 1 or subtracting 1. -/
def delta : IOp → Int
  | .sinc => 1
  | .pinc => 1
  | .sdec => -1
  | .pdec => -1

/-- `x++` and `x--` give the old value (a copy made before the change), `++x` and `--x` the new one:
the same functions. -/
def post : IOp → Bool
  | .sinc => true
  | .sdec => true
  | .pinc => false
  | .pdec => false

/-- The new value of the variable: the same functions. -/
def step (op : IOp) : V → R V
  | .int i => s64 (i.toInt + delta op)
  | .real r => .ok (.real (r + delta op))
  | _ => .err

/-- `x++`, `x--`, `++x`, `--x`: mln_lang_int.c:1277-1325, 1425-1474; mln_lang_real.c:923-971,
1060-1109: the new value of the variable and the value of the expression. -/
def inc (op : IOp) (a : V) : R (V × V) :=
  match step op a with
  | .ok v => .ok (v, if post op then a else v)
  | .ub => .ub
  | .err => .err

end Verif.LangOp
