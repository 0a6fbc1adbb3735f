/-!
# Variables of the script language: assignment, parameters, captured variables

`mln_lang_val_data_free` (mln_lang.c:2589-2626), `mln_lang_val_dup` (mln_lang.c:2628-2677), `__mln_lang_var_value_set`
and `mln_lang_var_value_set_string_ref` (mln_lang.c:2122-2229), which are what `=` does for every type of the right
operand (e.g. mln_lang_int.c:243-259), `mln_lang_var_transform` (mln_lang.c:1986-2013), `mln_lang_funcdef_args_get`
(mln_lang.c:2256-2312), and the binding of parameters and captured variables in
`mln_lang_stack_handler_funccall_run` (mln_lang.c:5813-5861).

Simplifications.
* A value (`mln_lang_val_t`) has an address; values are not freed and addresses not used again (reference counts are
  not modelled).  A variable is the address of its value, or none for a null pointer.
* Contents of a value: objects, arrays and functions are numbers (they are shared, or for functions copied together
  with what they captured).
* Allocations succeed.
-/
namespace Verif.LangVar

/-- What a value contains. -/
inductive Data where
  | nil
  | int (i : Int)
  | bool (b : Bool)
  | str (s : List UInt8)
  | obj (k : Nat)
  | func (k : Nat)
  | arr (k : Nat)
  deriving DecidableEq, Repr

/-- The values, and the next address. -/
structure St where
  heap : Nat → Data
  next : Nat

/-- A value changed. -/
def put (st : St) (a : Nat) (d : Data) : St := { st with heap := fun x => if x = a then d else st.heap x }

/-- `__mln_lang_val_new`, mln_lang.c:2519-2567. -/
def alloc (st : St) (d : Data) : St × Nat := (⟨fun x => if x = st.next then d else st.heap x, st.next + 1⟩, st.next)

/-- `mln_lang_val_data_free`, mln_lang.c:2589-2626: the value becomes nil. -/
def dataFree (st : St) (a : Nat) : St := put st a .nil

/-- `__mln_lang_var_value_set`, mln_lang.c:2122-2174, and `mln_lang_var_value_set_string_ref`, mln_lang.c:2176-2229:
the old contents are given up first. -/
def valueSet (st : St) (dest src : Nat) : St :=
  let st1 := dataFree st dest
  put st1 dest (st1.heap src)

/-- `mln_lang_var_transform`, mln_lang.c:1986-2013: the value of a new variable, referring or with a copy. -/
def transform (st : St) (a : Nat) (refer : Bool) : St × Nat :=
  if refer then (st, a) else alloc st (st.heap a)

/-- The loop of `mln_lang_funcdef_args_get`, mln_lang.c:2263-2294: which parameters refer.  The local variable `type`
keeps its value from one parameter to the next. -/
def argTypes : Bool → List Bool → List Bool
  | _, [] => []
  | type, amp :: l =>
    let type' := if amp then true else type
    type' :: argTypes type' l

/-- An argument: the address of its value, and whether it is only the argument (`ref` is 0). -/
structure Arg where
  addr : Nat
  temp : Bool

/-- The loop of mln_lang.c:5813-5839: the addresses of the values of the parameters. -/
def bind (st : St) : List Bool → List Arg → St × List Nat
  | [], _ => (st, [])
  | _ :: ts, [] =>
    let r := alloc st .nil
    let q := bind r.1 ts []
    (q.1, r.2 :: q.2)
  | t :: ts, a :: as =>
    let r := if a.temp then (st, a.addr) else transform st a.addr t
    let q := bind r.1 ts as
    (q.1, r.2 :: q.2)

/-- A call of a function whose parameters are declared with or without `&`. -/
def call (st : St) (amps : List Bool) (args : List Arg) : St × List Nat := bind st (argTypes false amps) args

/-- What a function does with its parameters: `p_i = constant` or `p_i = p_j`. -/
inductive Act where
  | const (i : Nat) (d : Data)
  | copy (i j : Nat)

/-- Assignments in the function; `none` for a parameter that is not there. -/
def exec (ps : List Nat) (st : St) : List Act → Option St
  | [] => some st
  | .const i d :: l =>
    match ps[i]? with
    | none => none
    | some a =>
      let r := alloc st d
      exec ps (valueSet r.1 a r.2) l
  | .copy i j :: l =>
    match ps[i]?, ps[j]? with
    | some a, some b => exec ps (valueSet st a b) l
    | _, _ => none

/-- The captured variables of a function, mln_lang.c:2263-2309 with `is_closure`: `&` or not, and what the name is
when the function is defined, if anything.  A name that is not defined stays a variable without value. -/
def captures (st : St) : Bool → List (Bool × Option Nat) → St × List (Option Nat)
  | _, [] => (st, [])
  | type, (amp, sym) :: l =>
    let type' := if amp then true else type
    match sym with
    | none =>
      let q := captures st type' l
      (q.1, none :: q.2)
    | some a =>
      let r := transform st a type'
      let q := captures r.1 type' l
      (q.1, some r.2 :: q.2)

/-- A captured variable used in the function: `mln_lang_var_val_type_get` (mln_lang.h:500) reads through the pointer to
the value, so does `=` for its left operand (mln_lang.c:4500).  `none` for a null pointer. -/
def use (st : St) (v : Option Nat) : Option Data :=
  match v with
  | none => none
  | some a => some (st.heap a)

end Verif.LangVar
