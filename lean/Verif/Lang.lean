/-!
# The stack machine of the script language (src/mln_lang.c)

`mln_lang_run_handler` (mln_lang.c:846-900) takes the top node of the context's
run stack, calls the handler of its type from `mln_lang_stack_map`
(mln_lang.c:718-744), and goes on until the stack is empty or `ctx->quit` is
set.  Each handler keeps its state in the node: a step number, a pointer into
the syntax tree, and a variable.

Modelled here: statements (`mln_lang_stack_handler_stm`, `_block`, `_while`,
`_switch`, `_switchstm`, `_for`, `_if`), `break`, `continue` and `return`, and
expressions built from identifiers, literals, parentheses, prefix and suffix
operators, the binary operators, `&&`, `||`, and the assignments
(`mln_lang_stack_handler_exp` … `_factor`).

Simplifications.
* The operators themselves (`mln_lang_int.c`, `mln_lang_real.c`, …) are a
  parameter, `Alg`.
* Function calls, indices, properties, arrays, `$`, sets, labels and `goto` are
  not modelled, nor are operators overloaded by the script, watched variables
  and values marked as not modifiable.
* Memory allocation succeeds.  The run stack (1024 nodes) does not overflow.
* An identifier that has not been defined yet is a variable holding nil
  (`mln_lang_stack_handler_factor` creates it so); there is one scope.
* A handler that pushes a node and calls its handler at once is two steps.
* An access through a null pointer is the result `none` of `step`.
-/

namespace Verif.Lang

/-- Binary operators of the levels `logichigh`, `relativelow`, `relativehigh`,
`move`, `addsub` and `muldiv` (include/mln_lang_ast.h:222-345). -/
inductive BOp
  | cor | cand | cxor | eq | ne | lt | le | gt | ge | shl | shr | add | sub | mul | div | mod
  deriving DecidableEq, Repr

/-- Assignment operators (include/mln_lang_ast.h:172-185) other than `=`. -/
inductive AOp
  | add | sub | shl | shr | mul | div | or | and | xor | mod
  deriving DecidableEq, Repr

/-- Operators that give a new value: `!`, `-`, `~`. -/
inductive UOp
  | not | neg | rev
  deriving DecidableEq, Repr

/-- `x++`, `x--`, `++x`, `--x`. -/
inductive IOp
  | sinc | sdec | pinc | pdec
  deriving DecidableEq, Repr

/-- The operators on values: the method tables of mln_lang.c:706-716.  `none`
is a handler that returns a negative number, or no handler.  `asg` gives the
new value of the left operand, `inc` the new value of the operand and the
value of the expression. -/
structure Alg (V : Type) where
  nil : V
  tru : V
  truth : V → Bool
  bin : BOp → V → V → Option V
  asg : AOp → V → V → Option V
  un : UOp → V → Option V
  inc : IOp → V → Option (V × V)

/-- `mln_lang_factor_t`: identifiers and literals. -/
inductive Fac (V : Type)
  | id (x : Nat)
  | lit (v : V)

mutual
/-- The expression nodes (include/mln_lang_ast.h:172-460).  The six levels of
binary operators share one shape and one handler, `bin`.  A node whose
operator is `NONE` is there as well: `asg0`, `logic l .nil`, `bin l .nil`,
`not false`, `suf none`, `loc`. -/
inductive E (V : Type)
  /-- `mln_lang_spec_t` with `M_SPEC_FACTOR` -/
  | spf (f : Fac V)
  /-- `M_SPEC_PARENTH` -/
  | paren (e : Es V)
  /-- `M_SPEC_NEGATIVE`, `M_SPEC_REVERSE` -/
  | pre (op : UOp) (e : E V)
  /-- `M_SPEC_INC`, `M_SPEC_DEC` -/
  | preInc (op : IOp) (e : E V)
  /-- `mln_lang_locate_t` with `M_LOCATE_NONE` -/
  | loc (e : E V)
  /-- `mln_lang_suffix_t` with `M_SUFFIX_NONE` -/
  | suf0 (e : E V)
  /-- `mln_lang_suffix_t` with `M_SUFFIX_INC` or `M_SUFFIX_DEC` -/
  | suf (op : IOp) (e : E V)
  /-- `mln_lang_not_t` with `M_NOT_NONE` -/
  | not0 (e : E V)
  /-- `mln_lang_not_t` with `M_NOT_NOT` -/
  | not (e : E V)
  /-- `mln_lang_logichigh_t` … `mln_lang_muldiv_t` -/
  | bin (l : E V) (tl : Tl V)
  /-- `mln_lang_logiclow_t` -/
  | logic (l : E V) (tl : LTl V)
  /-- `mln_lang_assign_t` with `M_ASSIGN_NONE` -/
  | asg0 (l : E V)
  /-- `mln_lang_assign_t` with `M_ASSIGN_EQUAL` -/
  | set (l r : E V)
  /-- `mln_lang_assign_t` with another operator -/
  | asg (l : E V) (op : AOp) (r : E V)

/-- The operator and the right part of a binary node: `cons op l tl` is the
operator `op` and the node `bin l tl` on the right. -/
inductive Tl (V : Type)
  | nil
  | cons (op : BOp) (l : E V) (tl : Tl V)

/-- The same for `&&` (`false`) and `||` (`true`). -/
inductive LTl (V : Type)
  | nil
  | cons (isOr : Bool) (l : E V) (tl : LTl V)

/-- `mln_lang_exp_t *`: a list of expressions, `NULL` is `nil`. -/
inductive Es (V : Type)
  | nil
  | cons (e : E V) (next : Es V)
end

mutual
/-- `mln_lang_stm_t *` (include/mln_lang_ast.h:46-75), `NULL` is `nil`. -/
inductive Stm (V : Type)
  | nil
  | block (b : Block V) (next : Stm V)
  | whl (c : Es V) (b : Block V) (next : Stm V)
  | fr (i c m : Es V) (b : Block V) (next : Stm V)
  | sw (c : Es V) (cs : Cases V) (next : Stm V)

/-- `mln_lang_block_t` (include/mln_lang_ast.h:104-127).  `ifN` has no `else`. -/
inductive Block (V : Type)
  | exp (e : Es V)
  | stm (s : Stm V)
  | cont
  | brk
  | ret (e : Es V)
  | ifN (c : Es V) (b : Block V)
  | ifE (c : Es V) (b e : Block V)

/-- `mln_lang_switchstm_t *` (include/mln_lang_ast.h:136-142): the factor of a
case (`none` for `default`), its statements, the next case. -/
inductive Cases (V : Type)
  | nil
  | cons (f : Option (Fac V)) (s : Stm V) (next : Cases V)
end

/-- `ctx->ret_var`, `node->ret_var`: a reference to a variable of the script or
a temporary. -/
inductive RV (V : Type)
  | loc (x : Nat)
  | tmp (v : V)

abbrev St (V : Type) := Nat → V

/-- The value of a variable. -/
def rd {V : Type} (σ : St V) : RV V → V
  | .loc x => σ x
  | .tmp v => v

def upd {V : Type} (σ : St V) (x : Nat) (v : V) : St V := fun y => if y = x then v else σ y

/-- A variable gets a value: the store and the variable afterwards. -/
def wr {V : Type} (σ : St V) : RV V → V → RV V × St V
  | .loc x, v => (.loc x, upd σ x v)
  | .tmp _, v => (.tmp v, σ)

/-- `__mln_lang_var_value_set` (mln_lang.c:2122-2172), as called by the
`assign_handler` of every type: the old value of the left operand is freed,
which makes it nil (`mln_lang_val_data_free`, mln_lang.c:2589-2625); then the
value of the right operand is copied. -/
def valueSet {V : Type} (A : Alg V) (σ : St V) (l r : RV V) : RV V × St V :=
  let (l1, σ1) := wr σ l A.nil
  wr σ1 l1 (rd σ1 r)

/-- What a stack node points to. -/
inductive Item (V : Type)
  | stm (s : Stm V)
  | block (b : Block V)
  | whl (c : Es V) (b : Block V)
  | sw (c : Es V) (cs : Cases V)
  | swstm (cs : Cases V)
  | fr (i c m : Es V) (b : Block V)
  | ite (c : Es V) (b : Block V) (e : Option (Block V))
  | es (e : E V) (next : Es V)
  | e (x : E V)
  | fac (f : Fac V)

/-- `mln_lang_stack_node_t`: item, step (`M_LANG_STEP_OUT` is -1), variable. -/
structure Node (V : Type) where
  item : Item V
  step : Int
  ret : Option (RV V)

/-- The part of `mln_lang_ctx_t` the handlers work on. -/
structure Ctx (V : Type) where
  stack : List (Node V)
  ret : Option (RV V)
  st : St V
  retFlag : Bool := false
  quit : Bool := false

variable {V : Type}

/-- `mln_lang_stack_push` (mln_lang.c:455-550). -/
def fresh (i : Item V) : Node V := ⟨i, 0, none⟩

/-- `mln_lang_stack_popuntil` (mln_lang.c:584-587). -/
def popuntil : List (Node V) → List (Node V)
  | [] => []
  | n :: S => if n.step = -1 then popuntil S else n :: S

/-- `mln_lang_generate_jump_ptr` (mln_lang.c:4153-4388): the way down from an
expression node to the first node that has an operator, or to the factor. -/
def E.jump : E V → Item V
  | .spf f => .fac f
  | .loc e => e.jump
  | .suf0 e => e.jump
  | .not0 e => e.jump
  | .bin l .nil => l.jump
  | .logic l .nil => l.jump
  | .asg0 l => l.jump
  | x => .e x

def Item.isFac : Item V → Bool
  | .fac _ => true
  | _ => false

/-- An operation failed: `ctx->quit = 1`. -/
def Ctx.fail (c : Ctx V) : Ctx V := { c with quit := true }

/-- Pop the node (the stack below it is `S`) and the finished nodes under it. -/
def out (c : Ctx V) (S : List (Node V)) (r : Option (RV V)) (σ : St V) : Ctx V :=
  { c with stack := popuntil S, ret := r, st := σ }

/-- The first step of the handlers of `assign`, `logiclow`, the binary levels,
`suffix` and `locate` (4421-4440, 4579-4599, 4635-4657, 5283-5301, 5457-5498):
with no operator the node is marked as finished, and if the way down leads to
a factor the node is removed at once; then the node down the way is pushed. -/
def enter (c : Ctx V) (n : Node V) (S : List (Node V)) (l : E V) (none? : Bool) : Ctx V :=
  let j := l.jump
  let st : Int := if none? then -1 else 1
  if none? && j.isFac then { c with stack := fresh j :: popuntil S, ret := none }
  else { c with stack := fresh j :: ⟨n.item, st, none⟩ :: S, ret := none }

/-- The end of `++`/`--` handlers: the operand gets its new value, the
expression its own. -/
def incr (A : Alg V) (op : IOp) (c : Ctx V) (S : List (Node V)) : Option (Ctx V) :=
  match c.ret with
  | none => none
  | some a =>
    match A.inc op (rd c.st a) with
    | none => some c.fail
    | some (v, r) => some (out c S (some (.tmp r)) (wr c.st a v).2)

/-- `!`, `-`, `~` on `ctx->ret_var`. -/
def unary (A : Alg V) (op : UOp) (c : Ctx V) (S : List (Node V)) : Option (Ctx V) :=
  match c.ret with
  | none => none
  | some a =>
    match A.un op (rd c.st a) with
    | none => some c.fail
    | some v => some (out c S (some (.tmp v)) c.st)

/-- `again:` in `mln_lang_stack_handler_logiclow` (mln_lang.c:4612-4627): from
a node that is false, go right to the first `||`; the node to the right of it
is `(l, tl)`. -/
def LTl.skip : LTl V → Option (E V × LTl V)
  | .nil => none
  | .cons true l tl => some (l, tl)
  | .cons false _ tl => tl.skip

/-- `mln_lang_stack_handler_assign` … `mln_lang_stack_handler_spec`
(mln_lang.c:4419-5448, 5450-5482, 5932-6065). -/
def hE (A : Alg V) (x : E V) (n : Node V) (S : List (Node V)) (c : Ctx V) : Option (Ctx V) :=
  match x with
  | .spf f =>
    if n.step = 0 then some { c with stack := fresh (.fac f) :: popuntil S, ret := none }
    else some { c with stack := popuntil S }
  | .paren es =>
    if n.step = 0 then
      match es with
      | .nil => some { c with stack := ⟨n.item, 2, none⟩ :: S, ret := none }
      | .cons e nx => some { c with stack := fresh (.es e nx) :: ⟨n.item, 2, none⟩ :: S, ret := none }
    else some { c with stack := popuntil S }
  | .pre op e =>
    if n.step = 0 then some { c with stack := fresh (.e e) :: ⟨n.item, 1, none⟩ :: S, ret := none }
    else if n.step = 1 then unary A op c S
    else some { c with stack := popuntil S }
  | .preInc op e =>
    if n.step = 0 then some { c with stack := fresh (.e e) :: ⟨n.item, 1, none⟩ :: S, ret := none }
    else if n.step = 1 then incr A op c S
    else some { c with stack := popuntil S }
  | .loc e =>
    if n.step = 0 then some (enter c n S e true) else some { c with stack := popuntil S }
  | .suf0 e =>
    if n.step = 0 then some (enter c n S e true) else some { c with stack := popuntil S }
  | .suf op e =>
    if n.step = 0 then some (enter c n S e false)
    else if n.step = 1 then incr A op c S
    else some { c with stack := popuntil S }
  | .not0 e =>
    if n.step = 0 then some { c with stack := fresh e.jump :: ⟨n.item, -1, none⟩ :: S, ret := none }
    else some { c with stack := popuntil S }
  | .not e =>
    if n.step = 0 then some { c with stack := fresh (.e e) :: ⟨n.item, 1, none⟩ :: S, ret := none }
    else if n.step = 1 then unary A .not c S
    else some { c with stack := popuntil S }
  | .bin l tl =>
    if n.step = 0 then some (enter c n S l (match tl with | .nil => true | _ => false))
    else match tl with
      | .nil => some { c with stack := popuntil S }
      | .cons op r tl' =>
        if n.step = 1 then
          some { c with stack := fresh (.e r) :: ⟨n.item, 3, c.ret⟩ :: S, ret := none }
        else if n.step = 2 then
          some { c with stack := fresh (.e r) :: ⟨n.item, 3, n.ret⟩ :: S }
        else if n.step = 3 then
          match n.ret, c.ret with
          | some a, some b =>
            match A.bin op (rd c.st a) (rd c.st b) with
            | none => some c.fail
            | some v =>
              match tl' with
              | .nil => some (out c S (some (.tmp v)) c.st)
              | tl' => some { c with stack := ⟨.e (.bin r tl'), 2, some (.tmp v)⟩ :: S, ret := none }
          | _, _ => none
        else some { c with stack := popuntil S }
  | .logic l tl =>
    if n.step = 0 then some (enter c n S l (match tl with | .nil => true | _ => false))
    else match tl with
      | .nil => some { c with stack := popuntil S }
      | .cons isOr r tl' =>
        if n.step = 1 then
          match c.ret with
          | none => none
          | some a =>
            if A.truth (rd c.st a) then
              if isOr then some { c with stack := ⟨n.item, 2, none⟩ :: S }
              else some { c with stack := fresh (.e (.logic r tl')) :: ⟨n.item, 2, none⟩ :: S }
            else
              match tl.skip with
              | some (r, tl') => some { c with stack := fresh (.e (.logic r tl')) :: ⟨n.item, 2, none⟩ :: S }
              | none => some { c with stack := ⟨n.item, 2, none⟩ :: S }
        else some { c with stack := popuntil S }
  | .asg0 l =>
    if n.step = 0 then some (enter c n S l true) else some { c with stack := popuntil S }
  | .set l r =>
    if n.step = 0 then some (enter c n S l false)
    else if n.step = 1 then
      some { c with stack := fresh (.e r) :: ⟨n.item, 2, c.ret⟩ :: S, ret := none }
    else if n.step = 2 then
      match n.ret, c.ret with
      | some a, some b => let (a', σ') := valueSet A c.st a b; some (out c S (some a') σ')
      | _, _ => none
    else some { c with stack := popuntil S }
  | .asg l op r =>
    if n.step = 0 then some (enter c n S l false)
    else if n.step = 1 then
      some { c with stack := fresh (.e r) :: ⟨n.item, 2, c.ret⟩ :: S, ret := none }
    else if n.step = 2 then
      match n.ret, c.ret with
      | some a, some b =>
        match A.asg op (rd c.st a) (rd c.st b) with
        | none => some c.fail
        | some v => let (a', σ') := wr c.st a v; some (out c S (some a') σ')
      | _, _ => none
    else some { c with stack := popuntil S }

/-- `mln_lang_stack_handler_exp` (mln_lang.c:4389-4417). -/
def hEs (e : E V) (next : Es V) (n : Node V) (S : List (Node V)) (c : Ctx V) : Option (Ctx V) :=
  let again (e : E V) (next : Es V) : Ctx V :=
    match next with
    | .nil =>
      if e.jump.isFac then { c with stack := fresh e.jump :: S, ret := none }
      else { c with stack := fresh e.jump :: ⟨.es e .nil, -1, n.ret⟩ :: S, ret := none }
    | next => { c with stack := fresh e.jump :: ⟨.es e next, 1, n.ret⟩ :: S, ret := none }
  if n.step = 0 then some (again e next)
  else match next with
    | .cons e' next' => some (again e' next')
    | .nil => some { c with stack := popuntil S }

/-- `mln_lang_stack_handler_factor` (mln_lang.c:6112-6236) without arrays. -/
def hFac (f : Fac V) (S : List (Node V)) (c : Ctx V) : Option (Ctx V) :=
  match f with
  | .id x => some (out c S (some (.loc x)) c.st)
  | .lit v => some (out c S (some (.tmp v)) c.st)

/-- `mln_lang_withdraw_to_loop` (mln_lang.c:3747-3768). -/
def contTo : List (Node V) → Option (List (Node V))
  | [] => none
  | n :: S =>
    match n.item with
    | .whl .. | .sw .. | .fr .. => some (n :: S)
    | _ => contTo S

/-- `mln_lang_withdraw_break_loop` (mln_lang.c:3770-3795) and `node->step = 1`
of `mln_lang_stack_handler_block_break` (3667-3679). -/
def brkTo : List (Node V) → Option (List (Node V))
  | [] => none
  | n :: S =>
    match n.item with
    | .stm (.whl ..) | .stm (.fr ..) | .stm (.sw ..) => some ({ n with step := 1 } :: S)
    | _ => brkTo S

/-- `mln_lang_met_return` (mln_lang.c:3596-3627): all nodes but the lowest are
removed. -/
def retTo : List (Node V) → List (Node V)
  | [] => []
  | [n] => [{ n with step := 1 }]
  | _ :: n :: S => retTo (n :: S)

/-- `mln_lang_stack_handler_block` (mln_lang.c:3534-3594) with its parts
(3629-3745). -/
def hBlock (A : Alg V) (b : Block V) (n : Node V) (S : List (Node V)) (c : Ctx V) : Option (Ctx V) :=
  if n.step = 0 then
    match b with
    | .exp .nil => some { c with stack := S, ret := none }
    | .exp (.cons e _) => some { c with stack := fresh e.jump :: ⟨n.item, -1, n.ret⟩ :: S, ret := none }
    | .stm .nil => some { c with stack := S, ret := none }
    | .stm s => some { c with stack := fresh (.stm s) :: ⟨n.item, -1, n.ret⟩ :: S, ret := none }
    | .cont =>
      match contTo S with
      | none => some { c with stack := [], ret := none, quit := true }
      | some S' => some { c with stack := S', ret := none }
    | .brk =>
      match brkTo S with
      | none => some { c with stack := [], ret := none, quit := true }
      | some S' => some { c with stack := S', ret := none }
    | .ret .nil => some { c with stack := ⟨n.item, 1, n.ret⟩ :: S, ret := some (.tmp A.nil) }
    | .ret (.cons e nx) => some { c with stack := fresh (.es e nx) :: ⟨n.item, 1, n.ret⟩ :: S, ret := none }
    | .ifN cd b => some { c with stack := fresh (.ite cd b none) :: ⟨n.item, -1, n.ret⟩ :: S, ret := none }
    | .ifE cd b e => some { c with stack := fresh (.ite cd b (some e)) :: ⟨n.item, -1, n.ret⟩ :: S, ret := none }
  else
    match b with
    | .ret _ =>
      some { c with
        stack := retTo (n :: S)
        ret := some (c.ret.getD (.tmp A.nil))
        retFlag := true }
    | _ => some { c with stack := S, ret := none }

/-- The part `again:` of `mln_lang_stack_handler_stm` (mln_lang.c:3337-3347):
push what the statement's `jump` points to (4157-4207).  A statement that is an
empty expression makes `mln_lang_generate_jump_ptr` read through a null pointer
(4202), and so does a null statement. -/
def stmGo (s : Stm V) (n : Node V) (S : List (Node V)) (c : Ctx V) : Option (Ctx V) :=
  let go (i : Item V) : Option (Ctx V) := some { c with stack := fresh i :: ⟨.stm s, 1, n.ret⟩ :: S }
  match s with
  | .nil => none
  | .block (.exp .nil) _ => none
  | .block (.exp (.cons e _)) _ => go e.jump
  | .block b _ => go (.block b)
  | .whl cd b _ => go (.whl cd b)
  | .fr i cd m b _ => go (.fr i cd m b)
  | .sw cd cs _ => go (.sw cd cs)

/-- `stm->next`. -/
def Stm.next : Stm V → Stm V
  | .nil => .nil
  | .block _ s => s
  | .whl _ _ s => s
  | .fr _ _ _ _ s => s
  | .sw _ _ s => s

/-- `mln_lang_stack_handler_stm` (mln_lang.c:3331-3359). -/
def hStm (s : Stm V) (n : Node V) (S : List (Node V)) (c : Ctx V) : Option (Ctx V) :=
  if n.step = 0 then stmGo s n S c
  else
    match c.retFlag, s.next with
    | false, .nil => some { c with stack := S, ret := none }
    | false, s' => stmGo s' n S c
    | true, _ => some { c with stack := S, retFlag := false }

/-- `mln_lang_stack_handler_while` (mln_lang.c:3820-3862). -/
def hWhl (A : Alg V) (cd : Es V) (b : Block V) (n : Node V) (S : List (Node V)) (c : Ctx V) :
    Option (Ctx V) :=
  let goon1 (r : Option (RV V)) : Option (Ctx V) :=
    match r with
    | none => none
    | some a =>
      if A.truth (rd c.st a) then
        some { c with stack := fresh (.block b) :: ⟨n.item, 0, n.ret⟩ :: S, ret := r }
      else some { c with stack := S, ret := none }
  if n.step = 0 then
    match cd with
    | .nil => goon1 (some (.tmp A.tru))
    | .cons e nx => some { c with stack := fresh (.es e nx) :: ⟨n.item, 1, n.ret⟩ :: S }
  else goon1 c.ret

/-- `mln_lang_stack_handler_for` (mln_lang.c:4048-4108). -/
def hFor (A : Alg V) (i cd m : Es V) (b : Block V) (n : Node V) (S : List (Node V)) (c : Ctx V) :
    Option (Ctx V) :=
  let goon2 : Option (Ctx V) :=
    let go : Option (Ctx V) := some { c with stack := fresh (.block b) :: ⟨n.item, 3, n.ret⟩ :: S }
    match c.ret with
    | none => go
    | some a => if A.truth (rd c.st a) then go else some { c with stack := S }
  let goon1 : Option (Ctx V) :=
    match cd with
    | .nil => goon2
    | .cons e nx => some { c with stack := fresh (.es e nx) :: ⟨n.item, 2, n.ret⟩ :: S }
  if n.step = 0 then
    match i with
    | .nil => goon1
    | .cons e nx => some { c with stack := fresh (.es e nx) :: ⟨n.item, 1, n.ret⟩ :: S }
  else if n.step = 1 then goon1
  else if n.step = 2 then goon2
  else
    match m with
    | .nil => goon1
    | .cons e nx => some { c with stack := fresh (.es e nx) :: ⟨n.item, 1, n.ret⟩ :: S }

/-- `mln_lang_stack_handler_if` (mln_lang.c:4110-4151). -/
def hIf (A : Alg V) (cd : Es V) (b : Block V) (e : Option (Block V)) (n : Node V) (S : List (Node V))
    (c : Ctx V) : Option (Ctx V) :=
  let goon1 (r : Option (RV V)) : Option (Ctx V) :=
    match r with
    | none => none
    | some a =>
      if A.truth (rd c.st a) then some { c with stack := fresh (.block b) :: S, ret := r }
      else match e with
        | some e => some { c with stack := fresh (.block e) :: S, ret := r }
        | none => some { c with stack := S, ret := none }
  if n.step = 0 then
    match cd with
    | .nil => goon1 none
    | .cons x nx => some { c with stack := fresh (.es x nx) :: ⟨n.item, 1, n.ret⟩ :: S, ret := none }
  else goon1 c.ret

/-- `mln_lang_stack_handler_switch` (mln_lang.c:3899-3932). -/
def hSw (cd : Es V) (cs : Cases V) (n : Node V) (S : List (Node V)) (c : Ctx V) : Option (Ctx V) :=
  if n.step = 0 then
    let s : Int := match cs with | .nil => 2 | _ => 1
    match cd with
    | .nil => some { c with stack := ⟨n.item, s, n.ret⟩ :: S, ret := none }
    | .cons e nx => some { c with stack := fresh (.es e nx) :: ⟨n.item, s, n.ret⟩ :: S }
  else if n.step = 1 then
    some { c with stack := fresh (.swstm cs) :: ⟨n.item, 2, c.ret⟩ :: S, ret := none }
  else some { c with stack := S }

/-- `mln_lang_stack_handler_switchstm` (mln_lang.c:3934-4046).  The node below
is the one of the switch, its variable the value switched on. -/
def hSwstm (A : Alg V) (cs : Cases V) (n : Node V) (S : List (Node V)) (c : Ctx V) : Option (Ctx V) :=
  match cs with
  | .nil => none
  | .cons f s next =>
    let goon4 (S : List (Node V)) (r : Option (RV V)) : Option (Ctx V) :=
      match next with
      | .nil => some { c with stack := S, ret := r }
      | next => some { c with stack := fresh (.swstm next) :: S, ret := r }
    match S with
    | [] => none
    | w :: S' =>
      if n.step = 0 then
        match w.ret, f with
        | some _, some f =>
          some { c with stack := fresh (.fac f) :: ⟨n.item, 1, n.ret⟩ :: S, ret := none }
        | _, _ =>
          match s with
          | .nil => goon4 S none
          | s => some { c with stack := fresh (.stm s) :: ⟨n.item, 4, n.ret⟩ :: S, ret := none }
      else if n.step = 1 then
        match w.ret, c.ret with
        | some a, some b =>
          match A.bin .eq (rd c.st a) (rd c.st b) with
          | none => some c.fail
          | some v =>
            if A.truth v then
              some { c with
                stack := fresh (.stm s) :: ⟨n.item, 4, n.ret⟩ :: { w with ret := none } :: S'
                ret := some (.tmp v) }
            else goon4 S (some (.tmp v))
        | _, _ => none
      else goon4 S c.ret

/-- One call of a handler.  A context that has quit or has an empty stack stays
as it is; `none` is an access through a null pointer. -/
def step (A : Alg V) (c : Ctx V) : Option (Ctx V) :=
  if c.quit then some c else
  match c.stack with
  | [] => some c
  | n :: S =>
    match n.item with
    | .stm s => hStm s n S c
    | .block b => hBlock A b n S c
    | .whl cd b => hWhl A cd b n S c
    | .sw cd cs => hSw cd cs n S c
    | .swstm cs => hSwstm A cs n S c
    | .fr i cd m b => hFor A i cd m b n S c
    | .ite cd b e => hIf A cd b e n S c
    | .es e nx => hEs e nx n S c
    | .e x => hE A x n S c
    | .fac f => hFac f S c

/-- `n` calls. -/
def run (A : Alg V) : Nat → Ctx V → Option (Ctx V)
  | 0, c => some c
  | k + 1, c => (step A c).bind (run A k)

/-- `mln_lang_ctx_new` (mln_lang.c:1110-1116): the context of a script. -/
def start (s : Stm V) (σ : St V) : Ctx V :=
  { stack := match s with | .nil => [] | s => [fresh (.stm s)], ret := none, st := σ }

end Verif.Lang
