import Verif.Str

/-!
# Arrays of the script language

src/mln_lang.c:2754-3040 (mln_lang_array_new, mln_lang_array_get, mln_lang_array_elem_exist) and
src/mln_lang_array.c:599-628 (the index operator).

An array has two trees: `elems_index` holds every element under its number, `elems_key` those that were made with a
key that is not an integer.  Both trees point to the same element.

Simplifications.
* The elements are a list.  A search in a tree gives an element with the number or key searched for if there is one;
  if there are several, `pick` decides which.  (RbTreeProps proves this for comparison functions that are orders.
  For keys that are strings mln_string_strcmp is not an order, see StrProps; LangArrayProps shows what follows.)
* A value is the variable the element owns; each element gets a variable of its own, named by a number.
* Keys that are neither integers nor strings (booleans, reals, objects, functions, arrays) are numbers.
* Allocations succeed.  The operator overloaded by the script is not modelled.
-/
namespace Verif.LangArray

open Verif.Str (Byte)

/-- A key of `elems_key`. -/
inductive K
  | str (s : List Byte)
  | other (n : Nat)
  deriving DecidableEq

/-- The value of an index expression; `nil` is also the empty index `a[]` (mln_lang.c:5503-5510). -/
inductive Arg
  | nil
  | int (i : BitVec 64)
  | key (k : K)
  deriving DecidableEq

/-- `mln_lang_array_elem_t`. -/
structure Elem where
  idx : Nat
  key : Option K
  cell : Nat
  deriving DecidableEq

/-- `mln_lang_array_t`; `next` names the next variable. -/
structure Arr where
  elems : List Elem := []
  index : Nat := 0
  next : Nat := 0
  deriving DecidableEq

/-- One of several elements that compare equal. -/
def pickOf (pick : Nat) (l : List Elem) : Option Elem := l[pick % l.length]?

/-- `++(array->index)`, an mln_u64_t. -/
def inc (n : Nat) : Nat := (n + 1) % 2 ^ 64

/-- `mln_lang_array_get_int`, mln_lang.c:2884-2918.  The number of an element is unsigned, the comparison in line 2913
too; the sum in line 2914 is signed: `none` on overflow. -/
def getInt (pick : Nat) (a : Arr) (i : BitVec 64) : Option (Arr × Nat) :=
  match pickOf pick (a.elems.filter fun e => e.idx = i.toNat) with
  | some e => some (a, e.cell)
  | none =>
    let a' := { a with elems := a.elems ++ [⟨i.toNat, none, a.next⟩], next := a.next + 1 }
    if a.index ≤ i.toNat then
      if i.toInt = 2 ^ 63 - 1 then none else some ({ a' with index := (i + 1).toNat }, a.next)
    else some (a', a.next)

/-- `mln_lang_array_get_other`, mln_lang.c:2920-2966. -/
def getKey (pick : Nat) (a : Arr) (k : K) : Option (Arr × Nat) :=
  match pickOf pick (a.elems.filter fun e => e.key = some k) with
  | some e => some (a, e.cell)
  | none => some ({ a with elems := a.elems ++ [⟨a.index, some k, a.next⟩], index := inc a.index, next := a.next + 1 }, a.next)

/-- `mln_lang_array_get_nil`, mln_lang.c:2968-2991. -/
def getNil (a : Arr) : Option (Arr × Nat) :=
  some ({ a with elems := a.elems ++ [⟨a.index, none, a.next⟩], index := inc a.index, next := a.next + 1 }, a.next)

/-- `mln_lang_array_get`, mln_lang.c:2852-2882. -/
def get (pick : Nat) (a : Arr) (v : Arg) : Option (Arr × Nat) :=
  match v with
  | .nil => getNil a
  | .int i => getInt pick a i
  | .key k => getKey pick a k

/-- `mln_lang_array_elem_exist`, mln_lang.c:2993-3035: nil is searched for among the keys, where it never is. -/
def exist (a : Arr) (v : Arg) : Bool :=
  match v with
  | .nil => false
  | .int i => a.elems.any fun e => e.idx = i.toNat
  | .key k => a.elems.any fun e => e.key = some k

/-- What the index operator does; `v` is the value of the index variable afterwards. -/
inductive Res
  | ub
  | err (v : Arg)
  | ok (a : Arr) (cell : Nat) (v : Arg)
  deriving DecidableEq

/-- `a[v]`, `mln_lang_array_index`, mln_lang_array.c:599-628.  The index operand is changed in place (line 614) and
put back afterwards unless it was -1, which is also the mark for "nothing to put back" (lines 611, 623).  The operand is
the variable itself when the index expression is a variable (mln_lang.c:6172). -/
def indexOp (pick : Nat) (a : Arr) (v : Arg) : Res :=
  match v with
  | .int i =>
    if i.toInt < 0 then
      let j := i + BitVec.ofNat 64 a.index
      if j.toInt < 0 then .err (.int j) else
      match get pick a (.int j) with
      | none => .ub
      | some (a', c) => .ok a' c (if i ≠ -1 then .int i else .int j)
    else
      match get pick a (.int i) with
      | none => .ub
      | some (a', c) => .ok a' c (.int i)
  | v =>
    match get pick a v with
    | none => .ub
    | some (a', c) => .ok a' c v

/-- What a script does with one array: an index expression, or an element of the array literal
(`mln_lang_stack_handler_elemlist`, mln_lang.c:6266-6335, calls mln_lang_array_get with the key as it is). -/
inductive Op
  | idx (v : Arg)
  | lit (v : Arg)
  deriving DecidableEq

/-- One operation: the array and the variable found (`none`: error), or undefined behaviour. -/
def step (a : Arr) (o : Op × Nat) : Option (Arr × Option Nat) :=
  match o.1 with
  | .idx v =>
    match indexOp o.2 a v with
    | .ub => none
    | .err _ => some (a, none)
    | .ok a' c _ => some (a', some c)
  | .lit v =>
    match get o.2 a v with
    | none => none
    | some (a', c) => some (a', some c)

/-- A history: the array and the variables found. -/
def run (a : Arr) : List (Op × Nat) → Option (Arr × List (Option Nat))
  | [] => some (a, [])
  | o :: os =>
    match step a o with
    | none => none
    | some (a', r) =>
      match run a' os with
      | none => none
      | some (a'', rs) => some (a'', r :: rs)

end Verif.LangArray
