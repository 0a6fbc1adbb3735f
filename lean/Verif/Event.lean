/-
Model of src/mln_event.c with epoll: timers, descriptors with their events and timeouts, and the rounds
of mln_event_dispatch.

Simplifications:
* one thread dispatches; other threads show up as operations done while a handler runs, and as a lock
  that is taken at the moment (`busy`);
* the handlers called are recorded in `log`; what they do is a list of operations taken from `plan`, so
  that a theorem about every plan is about every behaviour;
* descriptors in memory have numbers; a freed one is `none`.  Using a freed one, a failed assertion and
  an overflow are errors of the model;
* the heaps of timers and timeouts are lists from which a least element is taken (Fheap has the heaps,
  C25, C26 and C98); the tree of descriptors is a function (RbTree has the tree);
* of epoll: the interest set, and that EPOLLONESHOT switches a registration off with its first event;
* allocations succeed; blocking mode, kqueue and select are left out.
-/
namespace Verif.Event

/-! ## State -/

/-- M_EV_RECV, M_EV_SEND and M_EV_ERROR as a set. -/
structure Mask where
  r : Bool := false
  s : Bool := false
  e : Bool := false
deriving DecidableEq, Repr

inductive Kind where
  | recv
  | send
  | error
deriving DecidableEq, Repr

def Mask.get (m : Mask) : Kind → Bool
  | .recv => m.r
  | .send => m.s
  | .error => m.e
def Mask.drop (m : Mask) : Kind → Mask
  | .recv => { m with r := false }
  | .send => { m with s := false }
  | .error => { m with e := false }
def Mask.add (m : Mask) : Kind → Mask
  | .recv => { m with r := true }
  | .send => { m with s := true }
  | .error => { m with e := true }
def Mask.or (a b : Mask) : Mask := ⟨a.r || b.r, a.s || b.s, a.e || b.e⟩
def Mask.any (a : Mask) : Bool := a.r || a.s || a.e

/-- mln_event_desc_t with mln_event_fd_t, include/mln_event.h lines 72-111: handlers are numbers that
stand for the function and its data; `act` is active_flag, `one` the three oneshot bits, `timed` tells
whether there is a timeout_node. -/
structure Desc where
  fd : Nat
  flag : Mask := {}
  act : Mask := {}
  inProcess : Bool := false
  isClear : Bool := false
  inActive : Bool := false
  one : Mask := {}
  rcv : Option Nat := none
  snd : Option Nat := none
  err : Option Nat := none
  tmo : Option Nat := none
  timed : Bool := false
  endUs : Nat := 0
deriving DecidableEq, Repr

def Desc.h (d : Desc) : Kind → Option Nat
  | .recv => d.rcv
  | .send => d.snd
  | .error => d.err

/-- What epoll has for a file descriptor; `on` is false after a oneshot event; `id` is data.ptr. -/
structure Reg where
  mask : Mask
  oneshot : Bool
  on : Bool := true
  id : Nat
deriving DecidableEq, Repr

/-- A timer: its number, when it is due, and its handler. -/
structure Timer where
  id : Nat
  endTm : Nat
  h : Option Nat
deriving DecidableEq, Repr

/-- timeout_ms: M_EV_UNMODIFIED, M_EV_UNLIMITED or milliseconds. -/
inductive Timeout where
  | unmodified
  | unlimited
  | ms (v : Nat)
deriving DecidableEq, Repr

/-- What a program may call. -/
inductive Op where
  | set (fd : Nat) (mask : Mask) (oneshot append : Bool) (t : Timeout) (h : Option Nat)
  | clr (fd : Nat)
  | onTimeout (fd : Nat) (h : Option Nat)
  | timer (ms : BitVec 32) (h : Option Nat)
  | cancel (id : Nat)
  | brk (b : Bool)
  | tick (us : Nat)
deriving DecidableEq, Repr

/-- A handler that was called. -/
inductive Call where
  | event (k : Kind) (fd h : Nat)
  | timeout (fd h : Nat)
  | timer (id h : Nat)
deriving DecidableEq, Repr

/-- What happens: calls of the program and calls of handlers. -/
inductive Ev where
  | did (o : Op)
  | call (c : Call)
deriving DecidableEq, Repr

/-- `freed` is the use of a freed descriptor, `timer` the cancelling of a timer that is not there. -/
inductive Bad where
  | freed
  | timer
  | assert
  | overflow
  | fuel
deriving DecidableEq, Repr

/-- mln_event_t, include/mln_event.h lines 113-143; `log` has what happened, the latest first. -/
structure St where
  heap : Nat → Option Desc := fun _ => none
  next : Nat := 0
  tree : Nat → Option Nat := fun _ => none
  active : List Nat := []
  timeouts : List Nat := []
  regs : Nat → Option Reg := fun _ => none
  timers : List Timer := []
  nextTimer : Nat := 0
  now : Nat := 0
  isBreak : Bool := false
  plan : List (List Op) := []
  log : List Ev := []

abbrev M := Except Bad

def upd {α} (f : Nat → Option α) (i : Nat) (v : Option α) : Nat → Option α := fun x => if x = i then v else f x

def deref (s : St) (id : Nat) : M Desc :=
  match s.heap id with
  | some d => .ok d
  | none => .error .freed

def put (s : St) (id : Nat) (d : Desc) : St := { s with heap := upd s.heap id (some d) }

/-! ## Setting descriptors -/

/-- The node of the timeout is taken out and freed, lines 661-666, 707-712 and 1238-1243. -/
def untime (s : St) (id : Nat) : M St := do
  let d ← deref s id
  .ok (if d.timed then put { s with timeouts := s.timeouts.erase id } id { d with timed := false, endUs := 0 } else s)

/-- mln_event_fd_timeout_set, lines 654-688; the product of two `int` may overflow. -/
def timeoutSet (s : St) (id : Nat) (t : Timeout) : M St :=
  match t with
  | .unmodified => .ok s
  | .unlimited => untime s id
  | .ms v => do
    let d ← deref s id
    if v * 1000 ≥ 2 ^ 31 then .error .overflow
    else .ok (put { s with timeouts := s.timeouts.erase id ++ [id] } id { d with timed := true, endUs := s.now + v * 1000 })

/-- epoll_ctl with EPOLL_CTL_MOD or EPOLL_CTL_ADD; errors are ignored. -/
def ctl (s : St) (mod : Bool) (fd : Nat) (r : Reg) : St :=
  if (s.regs fd).isSome = mod then { s with regs := upd s.regs fd (some r) } else s

/-- mln_event_fd_append_set, lines 496-588. -/
def appendSet (s : St) (id fd : Nat) (mask : Mask) (oneshot : Bool) (t : Timeout) (h : Option Nat)
    (other : Bool) : M St := do
  let s ← timeoutSet s id t
  let d ← deref s id
  let d := { d with flag := d.flag.or mask,
                    rcv := if mask.r then h else d.rcv,
                    snd := if mask.s then h else d.snd,
                    err := if mask.e then h else d.err,
                    one := if oneshot then d.one.or mask else d.one }
  let s := put s id d
  .ok (if d.flag.any then ctl s other fd { mask := d.flag, oneshot := oneshot, id := id } else s)

/-- mln_event_fd_normal_set, lines 435-494, for a new descriptor. -/
def normalNew (s : St) (fd : Nat) (mask : Mask) (oneshot : Bool) (t : Timeout) (h : Option Nat) : M St := do
  let id := s.next
  let s := put { s with next := id + 1, tree := upd s.tree fd (some id) } id { fd := fd }
  let s ← timeoutSet s id t
  appendSet s id fd mask oneshot .unmodified h false

/-- mln_event_fd_normal_set, lines 468-494, for one that is there. -/
def normalOld (s : St) (id fd : Nat) (mask : Mask) (oneshot : Bool) (t : Timeout) (h : Option Nat)
    (other : Bool) : M St := do
  let d ← deref s id
  let s := put s id (if d.isClear then { fd := fd, inProcess := d.inProcess }
    else { d with flag := {}, one := {}, fd := fd })
  let s ← timeoutSet s id t
  appendSet s id fd mask oneshot .unmodified h other

/-- mln_event_fd_clr_set, lines 690-748. -/
def clrSet (s : St) (fd : Nat) : M St :=
  match s.tree fd with
  | none => .ok s
  | some id => do
    let s ← untime s id
    let s := { s with regs := upd s.regs fd none }
    let d ← deref s id
    if d.inProcess then .ok (put s id { d with isClear := true })
    else .ok { s with tree := upd s.tree fd none, heap := upd s.heap id none,
                      active := if d.inActive then s.active.erase id else s.active }

/-- mln_event_fd_set, lines 347-433, without M_EV_CLR. -/
def fdSet (s : St) (fd : Nat) (mask : Mask) (oneshot append : Bool) (t : Timeout) (h : Option Nat) : M St :=
  match s.tree fd with
  | none => normalNew s fd mask oneshot t h
  | some id => do
    let d ← deref s id
    if append then
      if d.isClear then .error .assert else appendSet s id fd mask oneshot t h true
    else normalOld s id fd mask oneshot t h (!d.isClear)

/-- mln_event_fd_timeout_handler_set, lines 324-345. -/
def onTimeout (s : St) (fd : Nat) (h : Option Nat) : M St :=
  match s.tree fd with
  | none => .error .assert
  | some id => do
    let d ← deref s id
    .ok (put s id { d with tmo := h })

/-! ## Timers -/

/-- mln_event_timer_set, lines 225-257: `msec * 1000` is a product of 32 bits. -/
def timerSet (s : St) (ms : BitVec 32) (h : Option Nat) : St :=
  { s with timers := s.timers ++ [{ id := s.nextTimer, endTm := s.now + (ms * 1000#32).toNat, h := h }],
           nextTimer := s.nextTimer + 1 }

/-- mln_event_timer_cancel, lines 259-269, of a timer that is there. -/
def timerCancel (s : St) (id : Nat) : M St :=
  if s.timers.any (·.id == id) then .ok { s with timers := s.timers.filter (·.id != id) } else .error .timer

/-- The first of the least elements. -/
def least {α} (key : α → Nat) : List α → Option α
  | [] => none
  | a :: l =>
    match least key l with
    | none => some a
    | some b => if key b < key a then some b else some a

/-! ## Operations and handlers -/

/-- What an operation does. -/
def act (s : St) : Op → M St
  | .set fd mask oneshot append t h => fdSet s fd mask oneshot append t h
  | .clr fd => clrSet s fd
  | .onTimeout fd h => onTimeout s fd h
  | .timer ms h => .ok (timerSet s ms h)
  | .cancel id => timerCancel s id
  | .brk b => .ok { s with isBreak := b }
  | .tick us => .ok { s with now := s.now + us }

def run (s : St) (o : Op) : M St := act { s with log := .did o :: s.log } o

def runAll (s : St) : List Op → M St
  | [] => .ok s
  | o :: os => do
    let s ← run s o
    runAll s os

/-- A handler is called: it is noted, and then come its operations. -/
def begin (s : St) (c : Call) : St := { s with log := .call c :: s.log, plan := s.plan.tail }

def call (s : St) (c : Call) : M St := runAll (begin s c) (s.plan.headD [])

def callOpt (s : St) (c : Nat → Call) : Option Nat → M St
  | none => .ok s
  | some h => call s (c h)

/-! ## Dispatching -/

/-- mln_event_timer_process, lines 271-319. -/
def timerLoop (now : Nat) : Nat → St → M St
  | 0, _ => .error .fuel
  | n + 1, s =>
    match least (·.endTm) s.timers with
    | none => .ok s
    | some t =>
      if t.endTm > now then .ok s
      else do
        let s := { s with timers := s.timers.filter (·.id != t.id) }
        let s ← callOpt s (.timer t.id) t.h
        if s.isBreak then .ok s else timerLoop now n s

def timerProcess (n : Nat) (s : St) : M St := timerLoop s.now n s

/-- If the descriptor was cleared or the loop is to end, nothing is active, lines 1247, 1264 and 1280. -/
def hush (s : St) (id : Nat) : M St := do
  let d ← deref s id
  .ok (if d.isClear || s.isBreak then put s id { d with act := {} } else s)

/-- Lines 1262, 1278 and 1294. -/
def done (k : Kind) (s : St) (id : Nat) : M St := do
  let d ← deref s id
  .ok (put s id { d with act := d.act.drop k })

/-- One of the three parts of mln_event_active_fd_process, lines 1247-1294. -/
def part (k : Kind) (s : St) (id : Nat) : M St := do
  let s ← hush s id
  let d ← deref s id
  if d.act.get k then do
    let s ← callOpt s (.event k d.fd) (d.h k)
    done k s id
  else .ok s

/-- The end of the processing of a descriptor, lines 1296-1298 and 1371-1373. -/
def finish (s : St) (id : Nat) : M St := do
  let d ← deref s id
  let s := put s id { d with inProcess := false }
  if d.isClear then clrSet s d.fd else .ok s

/-- The start of it, lines 1232-1246. -/
def start (s : St) (id : Nat) : M St := do
  let s ← untime { s with active := s.active.erase id } id
  let d ← deref s id
  .ok (put s id { d with inActive := false, inProcess := true })

/-- One turn of mln_event_active_fd_process, lines 1231-1298. -/
def activeStep (s : St) (id : Nat) : M St := do
  let s ← start s id
  let s ← part .recv s id
  let s ← part .send s id
  let s ← part .error s id
  finish s id

/-- mln_event_active_fd_process, lines 1218-1311. -/
def activeLoop : Nat → St → M St
  | 0, _ => .error .fuel
  | n + 1, s =>
    match s.active with
    | [] => .ok s
    | id :: _ => do
      let s ← activeStep s id
      if s.isBreak then .ok s else activeLoop n s

def activeProcess (n : Nat) (s : St) : M St := activeLoop n s

/-- The next timeout is looked at, lines 1341-1346: its descriptor is no longer active. -/
def unlist (s : St) (id : Nat) : M St := do
  let d ← deref s id
  .ok (if d.inActive then put { s with active := s.active.erase id } id { d with inActive := false } else s)

/-- The timeout is taken out, lines 1353-1356. -/
def expire (s : St) (id : Nat) : M St := do
  let d ← deref s id
  .ok (put { s with timeouts := s.timeouts.erase id } id { d with inProcess := true, timed := false, endUs := 0 })

def deadline (s : St) (id : Nat) : Nat := ((s.heap id).map (·.endUs)).getD 0

/-- mln_event_fd_timeout_process, lines 1313-1381. -/
def timeoutLoop (now : Nat) : Nat → St → M St
  | 0, _ => .error .fuel
  | n + 1, s =>
    match least (deadline s) s.timeouts with
    | none => .ok s
    | some id => do
      let s ← unlist s id
      let d ← deref s id
      if d.endUs > now then .ok s
      else do
        let s ← expire s id
        let s ← callOpt s (.timeout d.fd) d.tmo
        let s ← finish s id
        if s.isBreak then .ok s else timeoutLoop now n s

def timeoutProcess (n : Nat) (s : St) : M St := timeoutLoop s.now n s

/-! ## Waiting -/

/-- What epoll reports: EPOLLIN, EPOLLOUT, EPOLLERR and EPOLLHUP. -/
structure Report where
  fd : Nat
  inn : Bool := false
  out : Bool := false
  err : Bool := false
  hup : Bool := false
deriving DecidableEq, Repr

/-- epoll reports only registrations that are on, EPOLLIN and EPOLLOUT only if asked for; EPOLLERR and
EPOLLHUP always. -/
def Report.legal (s : St) (e : Report) : Bool :=
  match s.regs e.fd with
  | none => false
  | some r => r.on && (!e.inn || r.mask.r) && (!e.out || r.mask.s) && (e.inn || e.out || e.err || e.hup)

/-- One of the three parts of lines 856-918 for a descriptor that is neither active nor processed: the
bit is set in active_flag; with the oneshot bit the event is taken out of `flag`. -/
def mark (k : Kind) (d : Desc) : Desc :=
  if d.one.get k then { d with act := d.act.add k, one := d.one.drop k, flag := d.flag.drop k }
  else { d with act := d.act.add k }

def Report.has (e : Report) : Kind → Bool
  | .recv => e.inn
  | .send => e.out
  | .error => e.err

def maskOf (k : Kind) : Mask := ({} : Mask).add k

/-- The same for one that is active or processed: a oneshot event is asked for again. -/
def again (e : Report) (s : St) (id : Nat) (k : Kind) : M St := do
  let d ← deref s id
  if e.has k && d.one.get k && !d.act.get k then appendSet s id d.fd (maskOf k) true .unmodified (d.h k) true
  else .ok s

def markAll (e : Report) (d : Desc) : Desc :=
  let d := if e.inn then mark .recv d else d
  let d := if e.out then mark .send d else d
  if e.err then mark .error d else d

/-- Whether a oneshot event came. -/
def hit (e : Report) (d : Desc) : Bool := e.inn && d.one.r || e.out && d.one.s || e.err && d.one.e

/-- Lines 922-946: the descriptor becomes active, and after a oneshot event epoll gets what is left. -/
def arrive (s : St) (id : Nat) (e : Report) (d : Desc) : St :=
  let d' := { markAll e d with inActive := true }
  let s := put { s with active := s.active ++ [id] } id d'
  if hit e d then ctl s true d'.fd { mask := d'.flag, oneshot := d'.one.any, id := id } else s

/-- One turn of the loop over the events, lines 847-947. -/
def take (s : St) (id : Nat) (e : Report) : M St := do
  let d ← deref s id
  if d.isClear then .ok s
  else if d.inActive || d.inProcess then do
    let s ← again e s id .recv
    let s ← again e s id .send
    again e s id .error
  else .ok (arrive s id e d)

/-- epoll_wait and what is done with one of its events.  epoll reports a descriptor once at a time, and what
is done with an event changes only the registration of its own descriptor, so that the events may be taken
one after the other.  A oneshot registration is switched off. -/
def serve (s : St) (e : Report) : M St :=
  match s.regs e.fd with
  | none => .ok s
  | some r =>
    if e.legal s then
      take { s with regs := upd s.regs e.fd (some (if r.oneshot then { r with on := false } else r)) } r.id e
    else .ok s

def serveAll (s : St) : List Report → M St
  | [] => .ok s
  | e :: es => do
    let s ← serve s e
    serveAll s es

/-- What happens from outside in a round: whether the lock of the descriptors is taken when active ones
are to be processed, the time that passes in epoll_wait, and what it reports. -/
structure Env where
  busy : Bool := false
  elapsed : Nat := 0
  reports : List Report := []

/-- The active descriptors are processed unless the lock is taken, lines 1226-1229. -/
def activePhase (n : Nat) (busy : Bool) (s : St) : M St := if busy then .ok s else activeProcess n s

/-- One round of mln_event_dispatch, lines 810-949, without the callback; it ends early if `isBreak` is
set. -/
def round (n : Nat) (E : Env) (s : St) : M St := do
  if s.isBreak then .ok s
  else
    let s ← timerProcess n s
    if s.isBreak then .ok s
    else
      let s ← activePhase n E.busy s
      if s.isBreak then .ok s
      else
        let s ← timeoutProcess n s
        if s.isBreak then .ok s
        else
          let s ← timerProcess n s
          if s.isBreak then .ok s
          else
            let s ← run s (.tick E.elapsed)
            serveAll s E.reports

/-- mln_event_dispatch: rounds until `isBreak` is set. -/
def dispatch (n : Nat) : List Env → St → M St
  | [], s => .ok s
  | E :: Es, s => do
    let s ← round n E s
    dispatch n Es s

/-- What a program does with an event object: calls of its functions and of mln_event_dispatch. -/
inductive Item where
  | op (o : Op)
  | dispatch (Es : List Env)

def program (n : Nat) : List Item → St → M St
  | [], s => .ok s
  | .op o :: is, s => do
    let s ← run s o
    program n is s
  | .dispatch Es :: is, s => do
    let s ← dispatch n Es s
    program n is s

/-- mln_event_new, lines 80-185, with what the handlers are going to do. -/
def new (plan : List (List Op)) : St := { plan := plan }

end Verif.Event
