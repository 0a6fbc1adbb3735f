import Mathlib.Data.List.Basic
/-!
# Functions as operands of a Melang program

mln_lang_func.c: the operators on functions (159-709); mln_lang.c: what a definition makes of itself
(mln_lang_stack_handler_funcdef 3361-3374, __mln_lang_func_detail_new 2323-2378) and how a function is copied
(mln_lang_func_detail_dup 2394-2435).

Simplifications.
* The body of a definition in the syntax tree is a pointer; definitions have numbers, and a body that is not empty is at
  the number of its definition.  An empty body is NULL (the rule "stm: " of mln_lang_ast.c line 428 has no action).
* Of the variables only the values that were captured at the definition are kept, as numbers; parameters are left out.
* Values that are no functions are known by their type only.  The string operators that `+` and `+=` hand over to are
  a result that says so.
* `over` is what mln_lang_funccall_val_operator says: `none` when no operator was overloaded (op_func_flag is 0),
  otherwise its return value.
-/
namespace Verif.LangFunc

/-- mln_lang_func_type_t: M_FUNC_INTERNAL, M_FUNC_EXTERNAL (mln_lang.c lines 2358-2365). -/
inductive Kind
  | internal
  | external
  deriving DecidableEq

/-- mln_lang_func_detail_t as filled in mln_lang.c lines 2323-2378: `data` is data.process or data.stm. -/
structure Func where
  kind : Kind
  data : Option Nat
  captured : List Int
  deriving DecidableEq

/-- A definition `@f(...) $(uses) { body }`, mln_lang_ast.c line 432. -/
structure Def where
  id : Nat
  uses : List Nat
  body : List Nat

/-- The types of values that are no functions, as far as mln_lang_func.c lines 190, 522 tell them apart. -/
inductive V
  | func (f : Func)
  | str
  | other (type : Nat)

/-- The entries of mln_lang_func_oprs, mln_lang_func.c lines 82-119. -/
inductive Op
  | assign | pluseq | subeq | lmoveq | rmoveq | muleq | diveq | oreq | andeq | xoreq | modeq
  | cor | cand | cxor | equal | nonequal | less | lesseq | grea | greale | lmov | rmov
  | plus | sub | mul | div | mod | sdec | sinc | index | property | negative | reverse | not | pinc | pdec
  deriving DecidableEq

/-- What an operator does, mln_lang_func.c lines 159-709: -1, the result of the overloaded operator, a boolean, an
assignment, or what the operator of strings gives. -/
inductive R
  | err
  | overloaded
  | bool (b : Bool)
  | assigned (v : V)
  | string

/-- mln_lang_stack_handler_funcdef, mln_lang.c lines 3361-3374: `env` are the values of the variables. -/
def define (d : Def) (env : Nat → Int) : Func :=
  { kind := .external, data := if d.body = [] then none else some d.id, captured := d.uses.map env }

/-- A function of the library, e.g. mln_lang.c line 6580. -/
def builtin (process : Nat) : Func := { kind := .internal, data := some process, captured := [] }

/-- The loop of mln_lang.c lines 2423-2433. -/
def push : List Int → List Int → List Int
  | acc, [] => acc
  | acc, v :: vs => push (acc ++ [v]) vs

/-- mln_lang_func_detail_dup, mln_lang.c lines 2394-2435. -/
def dup (f : Func) : Func := { kind := f.kind, data := f.data, captured := push [] f.captured }

/-- mln_lang_func_equal, mln_lang_func.c lines 372-394, as long as memory does not run out. -/
def equal : V → V → Bool
  | .func f, .func g => if f.kind ≠ g.kind then false else if f.data ≠ g.data then false else true
  | _, _ => false

/-- mln_lang_func_nonequal, mln_lang_func.c lines 405-427. -/
def nonequal : V → V → Bool
  | .func f, .func g => if f.kind ≠ g.kind then true else if f.data ≠ g.data then true else false
  | _, _ => true

/-- The part of an operator behind the overloaded ones, mln_lang_func.c lines 159-709.  For assignments the table of the
right operand `b` is used, for the others that of the left operand `a`. -/
def plain (op : Op) (mem : Bool) (a b : V) : R :=
  match op with
  | .assign => if mem then .assigned b else .err
  | .pluseq => match a with | .str => .string | _ => .err
  | .plus => match b with | .str => .string | _ => .err
  | .equal => if mem then .bool (equal a b) else .err
  | .nonequal => if mem then .bool (nonequal a b) else .err
  | .not => if mem then .bool false else .err
  | _ => .err

/-- An operator of mln_lang_func.c, lines 159-709. -/
def apply (op : Op) (over : Option Int) (mem : Bool) (a b : V) : R :=
  match over with
  | none => plain op mem a b
  | some rc => if rc < 0 then .err else if rc > 0 then .overloaded else plain op mem a b

end Verif.LangFunc
