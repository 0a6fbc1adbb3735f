/-!
# Starting up: mln_framework.c

`mln_framework_init` (lines 33-86), `mln_master_routine` (89-101), `mln_worker_routine` (103-128),
`mln_get_framework_status` (163-198), with `mln_trace_init` (mln_trace.c:45-79), the return handler and
the timer of the trace script (mln_trace.c:92-100, 110-114), the child of a restart (mln_fork.c:372-386,
658-678: it leaves the loop of the master).

Simplifications.
* Event objects are numbers; one that was freed never gets its number back.
* `mln_trace_init` fails before it has made the language object or not at all (for the rest see C255).
* The trace script starts no other jobs.  What a script does is left out: it returns at some time.
* What is set up before (configuration, limits, daemon, log) is left out; `mln_event_new` does not fail.
-/
namespace Verif.Framework

/-! ## The mode -/

/-- The first item of the command `framework`. -/
inductive Item
  | str (s : String)
  | bool (b : Bool)
  | char (c : Nat)
  | int (n : Int)
  | float
  deriving DecidableEq

inductive Mode | process | thread
  deriving DecidableEq, Repr

inductive Status
  /-- returns NULL: no framework -/
  | off
  | on (m : Mode)
  /-- a message and `exit(1)` -/
  | exits
  deriving DecidableEq, Repr

/-- `mln_get_framework_status`, mln_framework.c:163-198.  `none`: no command `framework`; `some none`: a
command without items. -/
def status : Option (Option Item) → Status
  | none => .off -- 197
  | some none => .exits -- 180-183
  | some (some (.str s)) => if s = "multiprocess" then .on .process else if s = "multithread" then .on .thread else .exits -- 184-190
  | some (some (.bool true)) => .exits -- 191-194
  | some (some _) => .off -- 195

/-! ## Processes -/

/-- What `struct mln_framework_attr` has called. -/
inductive Call | master | worker | mainThread
  deriving DecidableEq, Repr

structure P where
  /-- event objects that exist -/
  evs : List Nat := []
  next : Nat := 0
  /-- `_ev` -/
  glob : Option Nat := none
  /-- `trace_lang`: the event object it was made with -/
  lang : Option Nat := none
  /-- `trace_ctx` is not NULL -/
  ctx : Bool := false
  /-- `trace_init_cb` is `mln_master_trace_init` -/
  cb : Bool := false
  /-- the trace script has the variable MASTER -/
  isMaster : Bool := false
  /-- the descriptor of `master_conn`; `none`: -1 -/
  conn : Option Nat := none
  calls : List Call := []
  deriving DecidableEq, Repr

/-- `mln_event_new`, and `if (_ev == NULL) _ev = ev;`, lines 90-92 and 107-109. -/
def newEv (p : P) : P := { p with evs := p.next :: p.evs, next := p.next + 1, glob := p.glob.or (some p.next) }

/-- `mln_trace_init`, mln_trace.c:45-79: `path` tells that one is given, `ok` that what is called
succeeds. -/
def traceInit (path ok : Bool) (ev : Nat) (p : P) : P :=
  if !path || p.lang.isSome || p.ctx then p
  else if ok then { p with lang := some ev, ctx := true, isMaster := p.cb }
  else p

/-- `mln_master_routine` up to the dispatch, lines 90-98. -/
def masterStart (path ok : Bool) (p : P) : P :=
  let q := newEv p
  let q := traceInit path ok p.next { q with cb := true }
  { q with calls := q.calls ++ [.master] }

/-- Behind the dispatch: `mln_event_free`, line 100. -/
def masterStop (ev : Nat) (p : P) : P := { p with evs := p.evs.erase ev }

/-- `mln_worker_routine` up to the dispatch, lines 103-126.  `none`: the assertion in `mln_event_fd_set`
(mln_event.c:349) fails for the descriptor -1. -/
def workerStart (mode : Mode) (path ok : Bool) (p : P) : Option P :=
  let q := newEv p
  match q.conn with
  | none => none -- 110, mln_fork.c:470-481
  | some _ =>
    let q := traceInit path ok p.next q -- 118
    some { q with calls := q.calls ++ [if mode = .process then .worker else .mainThread] } -- 119-126

/-- What happens while a loop runs. -/
inductive Op
  /-- the trace script returns (mln_trace.c:110-114): only a loop that has it runs it -/
  | returns
  /-- the timer of mln_trace.c:92-100, which is in the loop the script was started with -/
  | timer
  /-- `mln_trace_init` is called with the event object of the loop -/
  | init (path ok : Bool)
  deriving DecidableEq

/-- The loop that runs the trace script exists. -/
def alive (p : P) : Bool :=
  match p.lang with
  | none => false
  | some e => p.evs.contains e

def step (ev : Nat) (p : P) : Op → P
  | .returns => if alive p then { p with ctx := false } else p
  | .timer => if alive p && !p.ctx then { p with lang := none } else p
  | .init path ok => traceInit path ok ev p

def run (ev : Nat) (p : P) (os : List Op) : P := os.foldl (step ev) p

/-- The process that called `mln_framework_init`, when `mln_fork` returns in it: nothing is set. -/
def boot : P := {}

/-- A worker that `mln_fork` started: its process leaves `mln_fork` with its end of the socket. -/
def first (mode : Mode) (path ok : Bool) (fd : Nat) : Option P := workerStart mode path ok { boot with conn := some fd }

/-- The master, after what happened in its loop. -/
def master (path ok : Bool) (os : List Op) : P := run 0 (masterStart path ok boot) os

/-- A worker that is started again: the child leaves the loop of the master (mln_fork.c:673-674), frees
the event object and goes to `chl` (line 76). -/
def again (mode : Mode) (path ok : Bool) (fd : Nat) (m : P) : Option P := workerStart mode path ok (masterStop 0 { m with conn := some fd })

/-- The master when something ended its loop. -/
def masterEnds (mode : Mode) (path ok : Bool) (m : P) : Option P := workerStart mode path ok (masterStop 0 m)

/-- `mln_trace` (mln_trace.h:18-25): whether the message is given to a script, and whether the script
can ever take it. -/
def sent (p : P) : Bool × Bool := (p.ctx, p.ctx && alive p)

end Verif.Framework
