/-!
# The pipe between C code and a script

`mln_lang_ctx_pipe_new` (mln_lang.c:8084-8114), the script's function `Pipe` (mln_lang.c:8215-8312) with
`mln_lang_func_pipe_process_array_generate` (mln_lang.c:8316-8379), `mln_lang_ctx_pipe_send` and `_do_send`
(mln_lang.c:8381-8503), `mln_lang_ctx_pipe_recv_handler_set` (mln_lang.c:8505-8534).

Simplifications.
* Allocations succeed.  Each operation is one step: it runs under the lock of the pipe.  (That the pipe is looked up,
  and memory of the job's pool taken, without a lock of the job is not modelled.)
* The pipe belongs to the job it is found in, so `p->ctx != ctx` never holds.
* A real number is the bytes it is made of.  Arguments of `mln_lang_ctx_pipe_send` that are not what the format says,
  or too few of them, are the result `none`.
* The handler of C code has a number; what it returns is given from outside.
-/
namespace Verif.LangPipe

/-- `mln_lang_ctx_pipe_elem_t`. -/
inductive Elem where
  | int (i : Int)
  | real (b : Nat)
  | str (s : List UInt8)
  deriving DecidableEq, Repr

/-- A message. -/
abbrev Msg := List Elem

/-- `mln_lang_ctx_pipe_t`. -/
structure Pipe where
  list : List Msg
  subscribed : Bool
  handler : Option Nat

/-- `mln_lang_ctx_pipe_new`, mln_lang.c:8098-8112. -/
def new : Pipe := ⟨[], false, none⟩

/-- The resource "pipe" of a job, if there is one. -/
abbrev St := Option Pipe

/-- `Pipe('subscribe')`, mln_lang.c:8255-8273. -/
def subscribe (st : St) : St := some { st.getD new with subscribed := true }

/-- `Pipe('unsubscribe')`, mln_lang.c:8274-8284. -/
def unsubscribe (st : St) : St := st.map fun p => { p with subscribed := false }

/-- `Pipe('recv')`, mln_lang.c:8285-8296: `none` is the value false. -/
def recv (st : St) : St × Option (List Msg) :=
  match st with
  | none => (none, none)
  | some p => (some { p with list := [] }, some p.list)

/-- The loop of `mln_lang_ctx_pipe_do_send`, mln_lang.c:8440-8495: what is made of a format and the arguments.  The
outer `none` is an argument that is not there, the inner one a format that is not known. -/
def build : List UInt8 → List Elem → Option (Option Msg)
  | [], _ => some (some [])
  | c :: fmt, args =>
    if c = 105 then
      match args with
      | .int i :: args => (build fmt args).map fun r => r.map fun m => .int i :: m
      | _ => none
    else if c = 115 ∨ c = 83 then
      match args with
      | .str s :: args => (build fmt args).map fun r => r.map fun m => .str s :: m
      | _ => none
    else if c = 114 then
      match args with
      | .real b :: args => (build fmt args).map fun r => r.map fun m => .real b :: m
      | _ => none
    else some none

/-- `mln_lang_ctx_pipe_send`, mln_lang.c:8392-8503: the state and whether it returned 0. -/
def send (st : St) (fmt : List UInt8) (args : List Elem) : Option (St × Bool) :=
  match st with
  | none => some (none, true)
  | some p =>
    if p.subscribed then
      match build fmt args with
      | none => none
      | some none => some (some p, false)
      | some (some m) => some (some { p with list := p.list ++ [m] }, true)
    else some (some p, false)

/-- `mln_lang_ctx_pipe_recv_handler_set`, mln_lang.c:8505-8534. -/
def setHandler (st : St) (h : Option Nat) : St := some { st.getD new with handler := h }

/-- `Pipe('send', v)`, mln_lang.c:8297-8312: the handler called, if any, and the value of the expression; `rc` is what
the handler returns. -/
def sendUp (st : St) (rc : Int) : Option Nat × Bool :=
  match st with
  | none => (none, false)
  | some p => match p.handler with
    | none => (none, true)
    | some h => (some h, rc == 0)

end Verif.LangPipe
