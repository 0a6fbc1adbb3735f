/-!
# Names of the script language: scopes, the table of symbols, calls and operators

`mln_lang_scope_in`, `_push`, `_pop` (mln_lang.c:653-701), `mln_lang_symbol_node_new`, `_join`, `_upper_join`,
`_search`, `_id_search` (mln_lang.c:1640-1797), `mln_lang_hash_get_bucket` (mln_lang.c:8070-8079), the search for the
function and the binding of the arguments in `mln_lang_stack_handler_funccall_run` (mln_lang.c:5735-5862),
`mln_lang_stack_handler_spec_new` (mln_lang.c:6106-6139) up to the set found, `mln_lang_withdraw_until_func`
(mln_lang.c:3796-3820) as far as it leaves the scope, the flags set by `mln_lang_stack_handler_funcdef`
(mln_lang.c:3381-3411), `mln_lang_funccall_val_operator` and `_operator_overload_test` (mln_lang.c:3107-3135,
3196-3207).

Simplifications.
* Allocations succeed; the cache of freed nodes is not modelled (a node gets a new number in place of an address).
* The chain of a bucket is a list beginning at its tail, the chain of a scope a list in any order; a node is
  immutable, and each chain that holds it holds it once.
* What a symbol holds is a value of any type; in calls it is `Val`.
* A scope is its place in the array `scopes`; the top is the first of the list.
* Memory outside of the arrays is not modelled: touching it is the result `none`.
-/
namespace Verif.LangSym

/-- The bytes of a name. -/
abbrev Name := List UInt8

/-- `mln_lang_symbol_node_t`. -/
structure Node (α : Type) where
  id : Nat
  name : Name
  layer : Nat
  data : α

/-- `mln_lang_scope_t`. -/
structure Scope (α : Type) where
  name : Name
  layer : Nat
  chain : List (Node α)

/-- The part of `mln_lang_ctx_t` used here. -/
structure St (α : Type) where
  buckets : Nat → List (Node α)
  scopes : List (Scope α)
  next : Nat

/-- `M_LANG_SCOPE_LEN`, mln_lang.h:24. -/
def scopeLen : Nat := 1024

/-- `M_LANG_SYMBOL_TABLE_LEN`, mln_lang.h:21. -/
def tableLen : Nat := 371

/-- `mln_lang_hash_get_bucket`, mln_lang.c:8070-8079. -/
def hash (name : Name) (layer : Nat) : Nat :=
  name.foldl (fun a b => (a + b.toNat) % 2 ^ 64) 0 * layer % 2 ^ 64 % tableLen

/-- `mln_lang_scope_in`, mln_lang.c:653-660, for the scope at place `i` of the array: the difference of two pointers
is signed, and no place near the array is at the null pointer. -/
def scopeIn (i : Int) : Bool := decide (i ≤ scopeLen)

/-- `mln_lang_scope_push`, mln_lang.c:662-684: `none` when the stack of scopes is full. -/
def push {α : Type} (st : St α) (name : Name) : Option (St α) :=
  match st.scopes with
  | [] => some { st with scopes := [⟨name, 1, []⟩] }
  | s :: rest =>
    if rest.length < scopeLen then some { st with scopes := ⟨name, s.layer + 1, []⟩ :: s :: rest } else none

/-- A node taken from a chain. -/
def del {α : Type} (l : List (Node α)) (id : Nat) : List (Node α) := l.filter fun n => n.id != id

/-- A bucket changed. -/
def upd {α : Type} (f : Nat → List (Node α)) (b : Nat) (l : List (Node α)) : Nat → List (Node α) :=
  fun i => if i = b then l else f i

/-- The loop of `mln_lang_scope_pop`, mln_lang.c:693-697. -/
def drops {α : Type} (bk : Nat → List (Node α)) : List (Node α) → Nat → List (Node α)
  | [] => bk
  | n :: ns => drops (upd bk (hash n.name n.layer) (del (bk (hash n.name n.layer)) n.id)) ns

/-- `mln_lang_scope_pop`, mln_lang.c:686-701. -/
def pop {α : Type} (st : St α) : St α :=
  match st.scopes with
  | [] => st
  | s :: rest => { st with buckets := drops st.buckets s.chain, scopes := rest }

/-- The comparison of a node with a layer and a name, mln_lang.c:1716-1717 and 1784-1785. -/
def same {α : Type} (layer : Nat) (name : Name) (n : Node α) : Bool := n.layer == layer && n.name == name

/-- Joining in the scope that is `k` below the top, mln_lang.c:1710-1725 and 1741-1759: `none` when there is no such
scope, or when the node replaced is not in the chain it is taken from. -/
def joinAt {α : Type} (st : St α) (k : Nat) (name : Name) (v : α) : Option (St α) :=
  match st.scopes[k]? with
  | none => none
  | some s =>
    let n : Node α := ⟨st.next, name, s.layer, v⟩
    let b := hash name s.layer
    match (st.buckets b).find? (same s.layer name) with
    | none =>
      some ⟨upd st.buckets b (n :: st.buckets b), st.scopes.set k { s with chain := n :: s.chain }, st.next + 1⟩
    | some t =>
      if s.chain.any fun m => m.id == t.id then
        some ⟨upd st.buckets b (n :: del (st.buckets b) t.id),
          st.scopes.set k { s with chain := n :: del s.chain t.id }, st.next + 1⟩
      else none

/-- `__mln_lang_symbol_node_join`, mln_lang.c:1703-1728. -/
def join {α : Type} (st : St α) (name : Name) (v : α) : Option (St α) := joinAt st 0 name v

/-- `mln_lang_symbol_node_upper_join`, mln_lang.c:1730-1762: the scope below the top is at place `length - 2`. -/
def upperJoin {α : Type} (st : St α) (name : Name) (v : α) : Option (St α) :=
  if scopeIn ((st.scopes.length : Int) - 2) then joinAt st 1 name v else joinAt st 0 name v

/-- One round of `__mln_lang_symbol_node_search`, mln_lang.c:1780-1786. -/
def searchIn {α : Type} (st : St α) (layer : Nat) (name : Name) : Option (Node α) :=
  (st.buckets (hash name layer)).find? (same layer name)

/-- `__mln_lang_symbol_node_search`, mln_lang.c:1770-1791. -/
def search {α : Type} (st : St α) (name : Name) (loc : Bool) : Option (Node α) :=
  match st.scopes with
  | [] => none
  | s :: rest =>
    match searchIn st s.layer name with
    | some n => some n
    | none =>
      if loc then none else
      match rest.getLast? with
      | none => none
      | some base => searchIn st base.layer name

/-- The test of mln_lang.c:1796. -/
def isGlobalName (name : Name) : Bool :=
  match name with
  | [] => false
  | c :: _ => 64 < c && c < 91

/-- `mln_lang_symbol_node_id_search`, mln_lang.c:1793-1797. -/
def idSearch {α : Type} (st : St α) (name : Name) : Option (Node α) := search st name (!isGlobalName name)

/-- The state in which `mln_lang_ctx_new` leaves the names, mln_lang.c:1118-1127: the scope `__main__`. -/
def main {α : Type} : St α := ⟨fun _ => [], [⟨[95, 95, 109, 97, 105, 110, 95, 95], 1, []⟩], 0⟩

/-- What is done to the names while a script runs. -/
inductive Op (α : Type) where
  | push (name : Name)
  | pop
  | join (name : Name) (v : α)
  | upper (name : Name) (v : α)

/-- One of them; a scope that cannot be pushed leaves everything as it is. -/
def step {α : Type} (st : St α) : Op α → Option (St α)
  | .push n => some ((push st n).getD st)
  | .pop => some (pop st)
  | .join n v => join st n v
  | .upper n v => upperJoin st n v

/-- All of them. -/
def run {α : Type} (st : St α) : List (Op α) → Option (St α)
  | [] => some st
  | o :: os => match step st o with
    | none => none
    | some st' => run st' os

/-! ## Calls -/

/-- What a variable holds, as far as calls look at it; functions, and other values, have numbers. -/
inductive Val where
  | nil
  | str (s : Name)
  | func (f : Nat)
  | other (k : Nat)
  | arr (l : List Val)

/-- A symbol is a variable or a set. -/
inductive Data where
  | var (v : Val)
  | set (k : Nat)

/-- What the search for a function comes to. -/
inductive Res where
  | func (f : Nat) (name : Name)
  | err
  deriving DecidableEq

/-- The loop of mln_lang.c:5749-5766, at most `fuel` rounds of it. -/
def resolve (st : St Data) : Nat → Name → Option Res
  | 0, _ => none
  | fuel + 1, name =>
    match search st name false with
    | none => some .err
    | some n => match n.data with
      | .set _ => some .err
      | .var (.func f) => some (.func f name)
      | .var (.str s) => resolve st fuel s
      | .var _ => some .err

/-- The loop of `mln_lang_stack_handler_spec_new`, mln_lang.c:6114-6137: the set, or `nil`. -/
def resolveSet (st : St Data) : Nat → Name → Option (Option Nat)
  | 0, _ => none
  | fuel + 1, name =>
    let byName : Option (Option Nat) :=
      match idSearch st name with
      | none => some none
      | some n => match n.data with
        | .var (.str s) => resolveSet st fuel s
        | _ => some none
    match search st name false with
    | none => byName
    | some n => match n.data with
      | .set k => some (some k)
      | .var _ => byName

/-- The bytes of "this" and of "args". -/
def thisName : Name := [116, 104, 105, 115]
def argsName : Name := [97, 114, 103, 115]

/-- `mln_lang_func_detail_t`: the names of the parameters and the variables captured. -/
structure Proto where
  args : List Name
  closure : List (Name × Val)

/-- Joining variables one after the other. -/
def joins (st : St Data) : List (Name × Val) → Option (St Data)
  | [] => some st
  | (n, v) :: l => match join st n (.var v) with
    | none => none
    | some st' => joins st' l

/-- The loop of mln_lang.c:5813-5839: what the parameters become. -/
def bound : List Name → List Val → List (Name × Val)
  | [], _ => []
  | p :: ps, [] => (p, .nil) :: bound ps []
  | p :: ps, v :: vs => (p, v) :: bound ps vs

/-- Entering a function, mln_lang.c:5797-5861: the scope, `this`, the parameters, the array `args` of the arguments
left over, the variables captured.  The outer `none` is memory that is not the program's, the inner one the error that
the stack of scopes is full. -/
def enter (st : St Data) (name : Name) (this : Option Val) (p : Proto) (vals : List Val) : Option (Option (St Data)) :=
  match push st name with
  | none => some none
  | some st1 =>
    (joins st1 ((this.toList.map fun v => (thisName, v)) ++ bound p.args vals ++
      (if p.args.length < vals.length then [(argsName, .arr (vals.drop p.args.length))] else []) ++ p.closure)).map some

/-! ## Operators -/

/-- Which of the eight flags a definition sets, mln_lang.c:3381-3409: the third byte of the name. -/
def flagOf (name : Name) : Option UInt8 :=
  if 18 < name.length then
    match name with
    | 95 :: 95 :: c :: _ => if c ∈ [97, 98, 102, 105, 110, 111, 114, 115] then some c else none
    | _ => none
  else none

/-- `mln_lang_funccall_val_operator_overload_test`, mln_lang.c:3196-3207, from the scope at place `i` down: the scopes
that are left are `l`, topmost first. -/
def overloadTest {α : Type} (name : Name) : Int → List (Scope α) → Option Bool
  | i, [] => if scopeIn i then none else some false
  | i, s :: l => if scopeIn i then (if s.name = name then some true else overloadTest name (i - 1) l) else some false

/-- What an operator does: the operation itself, or the call of a function. -/
inductive Oper where
  | plain
  | call (f : Nat)
  deriving DecidableEq

/-- `mln_lang_funccall_val_operator`, mln_lang.c:3107-3135, with the test of the flag that comes before it (as in
mln_lang_int.c:247-251; the same in all 288 operators). -/
def operator (st : St Data) (flag : Bool) (name : Name) : Option Oper :=
  if flag then
    match overloadTest name ((st.scopes.length : Int) - 1) st.scopes with
    | none => none
    | some true => some .plain
    | some false =>
      match search st name false with
      | none => some .plain
      | some n => match n.data with
        | .var (.func f) => some (.call f)
        | _ => some .plain
  else some .plain

end Verif.LangSym
