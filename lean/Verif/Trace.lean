/-!
# Tracing by a script

mln_trace.c:10-121, with what it uses of mln_lang.c: `mln_lang_new`, `mln_lang_free`
(mln_lang.c:802-844, which calls neither `lang->clear` nor the handlers for the end of a job) and the
launcher (mln_lang.c:846-909).

Simplifications.
* A language object (`mln_lang_t`) has a number in place of an address; numbers are not used again.
  `langs` are those that are allocated, with their jobs: the job of the trace script and how many
  others can run or wait.
* What scripts do in a turn is given from outside.  One thread.
* `mln_event_timer_set` in mln_trace_lang_check does not fail.  A timer fires when it is due.
* Closing a descriptor removes it from epoll, so that its handler is not called any more.
* mln_trace_path reads the configuration (see Conf) and is not modelled.
* The use of an object that was freed is the result `none`.
-/
namespace Verif.Trace

/-- A language object: `main` is the job of the trace script, `some true` if it waits; other jobs. -/
structure Lang where
  num : Nat
  main : Option Bool
  run : Nat
  wait : Nat
  deriving DecidableEq, Repr

/-- `lang->run_head != NULL`. -/
def Lang.ready (l : Lang) : Bool := l.main == some false || 0 < l.run

/-- `lang->run_head == NULL && lang->wait_head == NULL`. -/
def Lang.idle (l : Lang) : Bool := l.main == none && l.run == 0 && l.wait == 0

/-- The variables of mln_trace.c (mln_trace.c:10-13), the objects, for which of them the launcher is
registered with the event loop, how many timers for mln_trace_lang_check are set, and how many pairs
of sockets are open. -/
structure St where
  lang : Option Nat
  ctx : Option Nat
  langs : List Lang
  ev : List Nat
  timers : Nat
  pairs : Nat
  next : Nat
  deriving DecidableEq, Repr

def start : St := { lang := none, ctx := none, langs := [], ev := [], timers := 0, pairs := 0, next := 0 }

/-- What happens in `mln_trace_init`: is there a path, which calls succeed, and what does the callback
return, if there is one. -/
structure Cfg where
  path : Bool
  socket : Bool
  lang : Bool
  job : Bool
  timer : Bool
  cb : Option Bool
  deriving DecidableEq, Repr

def get (st : St) (n : Nat) : Option Lang := st.langs.find? (fun l => l.num == n)

/-- `mln_lang_free`. -/
def freeLang (st : St) (n : Nat) : St := { st with langs := st.langs.filter (fun l => l.num != n) }

def put (st : St) (l : Lang) : St := { st with langs := st.langs.map (fun x => if x.num = l.num then l else x) }

/-- `mln_trace_lang_signal`, mln_trace.c:102-104. -/
def signal (st : St) (n : Nat) : St := { st with ev := if st.ev.contains n then st.ev else st.ev ++ [n] }

/-- `mln_trace_lang_clear`, mln_trace.c:106-108. -/
def clear (st : St) (n : Nat) : St := { st with ev := st.ev.filter (fun x => x != n) }

/-- `err3`, mln_trace.c:71-77. -/
def err3 (st : St) (n : Nat) : St × Int :=
  let st := freeLang st n
  ({ clear st n with pairs := st.pairs - 1 }, -1)

/-- `mln_trace_init`, mln_trace.c:43-78. -/
def init (c : Cfg) (st : St) : St × Int :=
  if c.path = false ∨ st.lang ≠ none ∨ st.ctx ≠ none then (st, -1)
  else if c.socket = false then (st, -1)
  else if c.lang = false then (st, -1)
  else
    let n := st.next
    let st := { st with lang := some n, langs := st.langs ++ [{ num := n, main := none, run := 0, wait := 0 }], pairs := st.pairs + 1, next := n + 1 }
    if c.job = false then err3 { st with ctx := none } n
    else
      let st := signal { put st { num := n, main := some false, run := 0, wait := 0 } with ctx := some n } n
      if c.timer = false then err3 st n
      else
        let st := { st with timers := st.timers + 1 }
        if c.cb = some false then err3 st n
        else (st, 0)

/-- `mln_trace_finalize`, mln_trace.c:85-89. -/
def finalize (st : St) : Option St :=
  match st.lang with
  | none => some { st with lang := none, ctx := none }
  | some n =>
    match get st n with
    | none => none
    | some _ => some { freeLang st n with lang := none, ctx := none }

/-- `mln_trace_lang_check`, mln_trace.c:91-99, when a timer is due. -/
def check (st : St) : Option St :=
  if st.timers = 0 then some st
  else
    let st := { st with timers := st.timers - 1 }
    match st.lang with
    | none => some { st with timers := st.timers + 1 }
    | some n =>
      match get st n with
      | none => none
      | some l =>
        if l.idle then some { freeLang st n with lang := none, ctx := none }
        else some { st with timers := st.timers + 1 }

/-- What is left after a turn: of the trace script, and of the other jobs. -/
structure Turn where
  main : Option Bool
  run : Nat
  wait : Nat
  deriving DecidableEq, Repr

/-- The launcher, registered for the object `n` with M_EV_ONESHOT (mln_lang.c:846-909), and
`mln_trace_lang_ctx_return_handler`, mln_trace.c:110-114, at the end of the trace script. -/
def launch (st : St) (n : Nat) (t : Turn) : Option St :=
  if st.ev.contains n then
    let st := clear st n
    match get st n with
    | none => none
    | some l =>
      if l.ready then
        let l' : Lang := { num := n, main := if l.main = none then none else t.main, run := t.run, wait := t.wait }
        let st := put st l'
        let st := if l.main ≠ none ∧ l'.main = none then { st with ctx := none } else st
        some (if l'.ready then signal st n else clear st n)
      else some (clear st n)
  else some st

/-- The jobs of the object `n` that wait are continued by what they wait for. -/
def wake (st : St) (n : Nat) : Option St :=
  match get st n with
  | none => some st
  | some l =>
    let l' : Lang := { num := n, main := l.main.map (fun _ => false), run := l.run + l.wait, wait := 0 }
    some (if l'.ready then signal (put st l') n else st)

/-- `mln_trace` and `mln_trace_recv_handler_set`, mln_trace.h:20-25, mln_trace.c:120-123: the job
that `trace_ctx` points to is used. -/
def send (st : St) : Option St :=
  match st.ctx with
  | none => some st
  | some n =>
    match get st n with
    | none => none
    | some l => if l.main = none then none else some st

inductive Op
  | init (c : Cfg)
  | finalize
  | check
  | launch (n : Nat) (t : Turn)
  | wake (n : Nat)
  | send
  deriving DecidableEq, Repr

def step (st : St) : Op → Option St
  | .init c => some (init c st).1
  | .finalize => finalize st
  | .check => check st
  | .launch n t => launch st n t
  | .wake n => wake st n
  | .send => send st

def steps : St → List Op → Option St
  | st, [] => some st
  | st, o :: os =>
    match step st o with
    | none => none
    | some st => steps st os

end Verif.Trace
