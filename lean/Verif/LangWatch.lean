import Verif.LangVar

/-!
# Watched variables of the script language

`Watch` and `Unwatch` (`mln_lang_func_watch_process`, mln_lang.c:6638-6694, `mln_lang_func_unwatch_process`, lines
6736-6757), `mln_lang_watch_func_build` (lines 6759-6791), and the places where a watch function is called: the ends of
the handlers of assignments (lines 4527-4572), of `x++` and `x--` (lines 5421-5461) and of `++x` and `--x` (lines
6058-6106).  The call itself is `mln_lang_stack_handler_funccall_run` (lines 5735-5891), its parameters are those of
`Verif.LangVar`.

Simplifications.
* As in `Verif.LangVar`: a value has an address, reference counts and allocation failures are left out.
* Functions are numbers.  In `step` a watch function is an entry of the list of calls, what it does is in `run`.
-/
namespace Verif.LangWatch

open Verif.LangVar (Data St put alloc valueSet)

/-- The fields `func` and `udata` of a value (mln_lang.h), for every value. -/
abbrev Watches := Nat → Option (Nat × Nat)

/-- A call of a watch function: the function, the contents of the new value, and the address of the user data. -/
structure Call where
  func : Nat
  newval : Data
  udata : Nat
  deriving DecidableEq

/-- Statements of a script, on the values the names stand for. -/
inductive Cmd where
  /-- `Watch(a, f, d)` -/
  | watch (a f d : Nat)
  /-- `Watch(a, x, d)` with something that is no function. -/
  | watchOther (a d : Nat)
  /-- `Unwatch(a)` -/
  | unwatch (a : Nat)
  /-- `x = y`, or any other operator that assigns. -/
  | assign (x y : Nat)
  /-- `x++`, `++x`, `x--`, `--x` -/
  | inc (x : Nat)

structure S where
  st : St
  w : Watches
  calls : List Call

/-- `val1->func` and `val1->udata` set. -/
def setWatch (w : Watches) (a : Nat) (v : Option (Nat × Nat)) : Watches := fun x => if x = a then v else w x

/-- The end of the three handlers: `if (node->ret_var != NULL && node->ret_var->val->func != NULL)`. -/
def fire (s : S) (x : Nat) : S :=
  match s.w x with
  | none => s
  | some (f, d) => { s with calls := s.calls ++ [⟨f, s.st.heap x, d⟩] }

/-- One more, for integers. -/
def succ : Data → Data
  | .int i => .int (i + 1)
  | d => d

/-- One statement. -/
def step (s : S) : Cmd → S
  | .watch a f d => { s with w := setWatch s.w a (some (f, d)) }
  | .watchOther _ _ => s
  | .unwatch a => { s with w := setWatch s.w a none }
  | .assign x y => fire { s with st := valueSet s.st x y } x
  | .inc x => fire { s with st := put s.st x (succ (s.st.heap x)) } x

/-- A script. -/
def steps (s : S) (l : List Cmd) : S := l.foldl step s

/-! ## The value of the expression -/

/-- A function as a watch function: one of the script with what it returns (`none` for a function that does not
return a value), or one in C with the value it returns. -/
inductive Fn where
  | script (ret : Option Nat)
  | internal (ret : Nat)

/-- `node->ret_var` and `ctx->ret_var`. -/
structure Rets where
  node : Option Nat
  ctx : Option Nat

/-- `mln_lang_stack_handler_funccall_run` up to its return: line 5863 gives up `ctx->ret_var`; a function in C has
returned (line 5878), a script function is only pushed. -/
def callRun (r : Rets) : Fn → Rets
  | .script _ => { r with ctx := none }
  | .internal v => { r with ctx := some v }

/-- `mln_lang_stack_node_get_ctx_ret_var`, mln_lang.c:1590-1596. -/
def nodeGet (r : Rets) : Rets := ⟨r.ctx, none⟩

/-- `mln_lang_ctx_reset_ret_var`, mln_lang.c:1613-1617. -/
def ctxReset (r : Rets) : Rets := { r with ctx := none }

/-- The rest of the call: a script function runs and leaves what it returns; `mln_lang_withdraw_until_func`,
mln_lang.c:3796-3820, makes it nil (here the address `nilAddr`) if there is nothing. -/
def callEnd (r : Rets) (nilAddr : Nat) : Fn → Rets
  | .script v => { r with ctx := some (v.getD nilAddr) }
  | .internal _ => { r with ctx := some (r.ctx.getD nilAddr) }

/-- `mln_lang_ctx_get_node_ret_val`, mln_lang.c:1632-1638. -/
def ctxGet (r : Rets) : Rets := ⟨none, r.node⟩

/-- The end of the handlers of assignments, mln_lang.c:4545-4572 (the same at lines 5431-5455 and 6070-6100): what
`ctx->ret_var` is afterwards, the value of the expression.  `lhs` is the operand, `res` the result. -/
def exprValue (watch : Option Fn) (lhs res nilAddr : Nat) : Option Nat :=
  let r : Rets := ⟨some lhs, some res⟩
  match watch with
  | none => r.ctx
  | some f => (ctxGet (callEnd (ctxReset (nodeGet (callRun r f))) nilAddr f)).ctx

/-- `b = (a = …)`: the handler of the outer assignment reads the type through `ctx->ret_var` (mln_lang.c:4459);
`none` for a null pointer. -/
def outerAssign (st : St) (b : Nat) (v : Option Nat) : Option St :=
  match v with
  | none => none
  | some a => some (valueSet st b a)

/-! ## Watch functions that assign -/

/-- An assignment of a constant in a watch function. -/
structure Set where
  a : Nat
  d : Data

/-- Assignments with watch functions that consist of assignments; `k` is the room on the stack of scopes
(`mln_lang_scope_push` fails when it is full, mln_lang.c:5796-5799), `none` the error `Scope stack is full.` -/
def run (watch : Nat → Option Nat) (body : Nat → List Set) (k : Nat) (h : Nat → Data) (l : List Set) :
    Option (Nat → Data) :=
  match l with
  | [] => some h
  | s :: l =>
    let h1 := fun x => if x = s.a then s.d else h x
    match watch s.a with
    | none => run watch body k h1 l
    | some f =>
      match k with
      | 0 => none
      | k + 1 =>
        match run watch body k h1 (body f) with
        | none => none
        | some h2 => run watch body (k + 1) h2 l
termination_by (k, l.length)

end Verif.LangWatch
