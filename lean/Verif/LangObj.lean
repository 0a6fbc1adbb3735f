/-!
# Sets and objects of the script language

`mln_lang_set_member_add`, `_search` and the copying of members (mln_lang.c:1844-1907), `mln_lang_object_new`
(mln_lang.c:2450-2491), the definition of sets in `mln_lang_stack_handler_funcdef`, `_set`, `_setstm`
(mln_lang.c:3361-3527), `mln_lang_stack_handler_spec_new` (mln_lang.c:6106-6157), the names in
`mln_lang_stack_handler_factor` (mln_lang.c:6167-6201), `mln_lang_obj_property` (mln_lang_obj.c:612-658),
`mln_lang_obj_assign`, `_equal`, `_nonequal` (mln_lang_obj.c:160-176 and the two others), and the search for the function
of `x.f()` with the binding of `this` in `mln_lang_stack_handler_funccall_run` (mln_lang.c:5748-5807).

Simplifications.
* No operator is overloaded (`op_obj_flag` is 0); overloading is in `LangSym`.
* A value has an address; values and objects are not freed and their addresses not used again (reference counts and the
  garbage collector are not modelled).  A member is its name and the address of its value.
* One scope with its symbols as a list; the table of symbols and the scopes are in `LangSym`.  A called method has the
  scope of `callee`.
* Members and functions of a set are nil or the number of the function; a copy of a function has the number of it.
* Allocations succeed.  A script that ends with an error message is `none`.
-/
namespace Verif.LangObj

/-- The bytes of a name. -/
abbrev Name := List UInt8

/-- What a value contains (arrays, reals and booleans behave as `int` here). -/
inductive Data where
  | nil
  | int (i : Int)
  | str (s : Name)
  | func (k : Nat)
  | obj (k : Nat)
  deriving DecidableEq, Repr

/-- A member in the text of a set: a variable (`none`) or a function. -/
abbrev Decl := Name × Option Nat

/-- What a symbol is: `M_LANG_SYMBOL_VAR` with the address of the value, or `M_LANG_SYMBOL_SET` with the members. -/
inductive Sym where
  | var (a : Nat)
  | set (ms : List Decl)
  deriving DecidableEq, Repr

/-- The values, objects and symbols. -/
structure St where
  heap : Nat → Data
  next : Nat
  objs : Nat → List (Name × Nat)
  onext : Nat
  syms : List (Name × Sym)

/-- At the begin of a script. -/
def init : St := ⟨fun _ => .nil, 0, fun _ => [], 0, []⟩

/-- `mln_rbtree_search` with `mln_lang_var_name_cmp` (mln_lang.c:2091-2097), and the search of symbols. -/
def find {β : Type} : List (Name × β) → Name → Option β
  | [], _ => none
  | (n, b) :: l, x => if n = x then some b else find l x

/-- `__mln_lang_symbol_node_join`, mln_lang.c:1703-1728: a symbol of the same name is taken out. -/
def join (l : List (Name × Sym)) (n : Name) (s : Sym) : List (Name × Sym) :=
  (n, s) :: l.filter (fun x => !(x.1 == n))

/-- `mln_lang_set_member_add`, mln_lang.c:1844-1861: a member of the same name gets the value. -/
def memberAdd : List Decl → Decl → List Decl
  | [], d => [d]
  | e :: l, d => if e.1 = d.1 then (e.1, d.2) :: l else e :: memberAdd l d

/-- The statements of a set, mln_lang.c:3477-3527 and 3361-3435. -/
def setBody (body : List Decl) : List Decl := body.foldl memberAdd []

/-- A value written. -/
def put (st : St) (a : Nat) (d : Data) : St := { st with heap := fun x => if x = a then d else st.heap x }

/-- `__mln_lang_val_new`, mln_lang.c:2519-2567. -/
def alloc (st : St) (d : Data) : St × Nat :=
  ({ st with heap := fun x => if x = st.next then d else st.heap x, next := st.next + 1 }, st.next)

/-- `__mln_lang_var_value_set`, mln_lang.c:2122-2174: the old contents are given up first. -/
def valueSet (st : St) (dest src : Nat) : St :=
  let st1 := put st dest .nil
  put st1 dest (st1.heap src)

/-- What a name or a chain of properties denotes: `x`, `x.m`, `x.m.n`... -/
inductive Place where
  | var (x : Name)
  | mem (p : Place) (m : Name)
  deriving DecidableEq, Repr

/-- A symbol added. -/
def addVar (st : St) (x : Name) (a : Nat) : St := { st with syms := join st.syms x (.var a) }

/-- A member added to an object. -/
def addMember (st : St) (k : Nat) (m : Name) (a : Nat) : St :=
  { st with objs := fun j => if j = k then (m, a) :: st.objs j else st.objs j }

/-- The value a place denotes: `mln_lang_stack_handler_factor` (mln_lang.c:6167-6201) for names, which makes a nil
variable of an unknown name, and `mln_lang_obj_property` (mln_lang_obj.c:622-649) for properties, which makes a nil
member; properties of other values are refused. -/
def addr (st : St) : Place → Option (St × Nat)
  | .var x =>
    match find st.syms x with
    | some (.var a) => some (st, a)
    | some (.set _) => none
    | none => let r := alloc st .nil; some (addVar r.1 x r.2, r.2)
  | .mem p m =>
    match addr st p with
    | none => none
    | some (st1, a) =>
      match st1.heap a with
      | .obj k =>
        match find (st1.objs k) m with
        | some b => some (st1, b)
        | none => let r := alloc st1 .nil; some (addMember r.1 k m r.2, r.2)
      | _ => none

/-- The value of a member of a set. -/
def declData : Option Nat → Data
  | none => .nil
  | some k => .func k

/-- `mln_rbtree_iterate` with `mln_lang_set_member_iterate_handler`, mln_lang.c:1882-1901: each member is copied. -/
def copy (st : St) : List Decl → St × List (Name × Nat)
  | [] => (st, [])
  | d :: l =>
    let r := alloc st (declData d.2)
    let q := copy r.1 l
    (q.1, (d.1, r.2) :: q.2)

/-- `mln_lang_object_new`, mln_lang.c:2450-2491. -/
def newObj (st : St) (ms : List Decl) : St × Nat :=
  let q := copy st ms
  ({ q.1 with objs := fun j => if j = q.1.onext then q.2 else q.1.objs j, onext := q.1.onext + 1 }, q.1.onext)

/-- The search of `mln_lang_stack_handler_spec_new`, mln_lang.c:6114-6138: `none` if the rounds do not suffice,
`some none` for nil. -/
def resolve (st : St) : Nat → Name → Option (Option (List Decl))
  | 0, _ => none
  | n + 1, s =>
    match find st.syms s with
    | some (.set ms) => some (some ms)
    | some (.var a) =>
      match st.heap a with
      | .str t => resolve st n t
      | _ => some none
    | none => some none

/-- Statements of a script. -/
inductive Stmt where
  /-- `s { ... }` -/
  | set (s : Name) (body : List Decl)
  /-- `p = q;` -/
  | assign (p q : Place)
  /-- `p = 5; p = 'text'; p = nil;` -/
  | lit (p : Place) (d : Data)
  /-- `p = $s;` with the rounds of the search -/
  | new (p : Place) (n : Nat) (s : Name)

/-- A statement: `mln_lang_stack_handler_set` (mln_lang.c:3437-3475), or an assignment, of which the left side is
evaluated first; all types of the right side assign with `__mln_lang_var_value_set`. -/
def exec (st : St) : Stmt → Option St
  | .set s body => some { st with syms := join st.syms s (.set (setBody body)) }
  | .assign p q =>
    match addr st p with
    | none => none
    | some (st1, a) =>
      match addr st1 q with
      | none => none
      | some (st2, b) => some (valueSet st2 a b)
  | .lit p d =>
    match addr st p with
    | none => none
    | some (st1, a) => let r := alloc st1 d; some (valueSet r.1 a r.2)
  | .new p n s =>
    match addr st p with
    | none => none
    | some (st1, a) =>
      match resolve st1 n s with
      | none => none
      | some none => let r := alloc st1 .nil; some (valueSet r.1 a r.2)
      | some (some ms) =>
        let o := newObj st1 ms
        let r := alloc o.1 (.obj o.2)
        some (valueSet r.1 a r.2)

/-- A script. -/
def run (st : St) : List Stmt → Option St
  | [] => some st
  | s :: l =>
    match exec st s with
    | none => none
    | some st1 => run st1 l

/-- `mln_lang_obj_equal`, mln_lang_obj.c:361-387: the same type and the same object. -/
def equal : Data → Data → Bool
  | .obj j, .obj k => j == k
  | _, _ => false

/-- `mln_lang_obj_nonequal`, mln_lang_obj.c:389-415. -/
def nonequal : Data → Data → Bool
  | .obj j, .obj k => !(j == k)
  | _, _ => true

/-- The name `this`. -/
def this : Name := [116, 104, 105, 115]

/-- Names that begin with `A`-`Z` are looked for in the main program too, mln_lang.c:1782-1797. -/
def capital : Name → Bool
  | [] => false
  | c :: _ => decide (65 ≤ c.toNat) && decide (c.toNat ≤ 90)

/-- The scope of a method without parameters called for the value at address `a` of the main program:
mln_lang.c:5797-5807; the variable `this` has the value of the variable before the dot, not a copy. -/
def callee (st : St) (a : Nat) : St :=
  { st with syms := (this, .var a) :: st.syms.filter (fun x => capital x.1) }

/-- The search for the function of `x.f()` where the object of `x` is `k`, mln_lang.c:5766-5794: `none` if the rounds
do not suffice, `some none` for "No such prototype". -/
def method (st : St) (k : Nat) : Nat → Name → Option (Option Nat)
  | 0, _ => none
  | n + 1, f =>
    match find (st.objs k) f with
    | none =>
      match find st.syms f with
      | some (.var a) =>
        match st.heap a with
        | .str t => method st k n t
        | _ => some none
      | _ => some none
    | some a =>
      match st.heap a with
      | .func g => some (some g)
      | .str t => method st k n t
      | _ => some none

end Verif.LangObj
