/-
Model of src/mln_iothread.c: mln_iothread_send (lines 82-130), mln_iothread_recv
(lines 132-173), mln_iothread_msg_new (176-194), mln_iothread_msg_free (196-204).

Threads are numbered; one step of a thread is one access to shared data (taking or
giving back a mutex, one change of a message chain, one byte on the socket pair, one
handler call).  Messages are numbered in the order of allocation and a number is never
given out twice, so a use of a freed message can be told.  Undefined behaviour (a use
of a freed message) is `none`; a thread that waits for a mutex stays where it is.

Simplifications: the message chains are lists (the chain macros are modelled and proved
in Chain.lean); the handler is one step that may set `hold`, and it makes no call of this
module; a message mutex may be unlocked by another thread than the one that locked it,
as the code needs it to be; the socket buffer has room whenever the `send` oracle says so.
-/
namespace Verif.IoThread

/-- The receiving side of a message: `to` of mln_iothread_send.  `mln_iothread_recv(t, from)`
serves the messages for the side that is not `from`. -/
inductive Dir where
  | io
  | user
  deriving DecidableEq

/-- The two ends of the socket pair. -/
inductive Fd where
  | ioFd
  | userFd
  deriving DecidableEq

/-- The descriptor mln_iothread_send writes to (lines 91-101). -/
def sendFd : Dir → Fd
  | .io => .userFd
  | .user => .ioFd

/-- The descriptor mln_iothread_recv reads (lines 139-149). -/
def recvFd : Dir → Fd
  | .user => .userFd
  | .io => .ioFd

/-- A byte written to one end arrives at the other (line 33). -/
def peer : Fd → Fd
  | .ioFd => .userFd
  | .userFd => .ioFd

/-- What a thread can call; `send` has the argument `feedback` (a 32-bit number). -/
inductive Call where
  | send (d : Dir) (feedback : Nat)
  | recv (d : Dir)
  | release (m : Nat)
  deriving DecidableEq

/-- The place a thread has reached, with its local variables. -/
inductive PC where
  | idle
  /-- line 109 -/
  | s1 (d : Dir) (m f : Nat)
  /-- line 111 -/
  | s2 (d : Dir) (m f : Nat)
  /-- line 113 -/
  | s3 (d : Dir) (m f : Nat)
  /-- lines 115-116 -/
  | s4 (d : Dir) (m f : Nat)
  /-- line 117 -/
  | s4f (m : Nat)
  /-- line 121 -/
  | s5 (d : Dir) (m f : Nat)
  /-- line 124 -/
  | s6 (m : Nat)
  /-- lines 125-126 -/
  | s7 (m : Nat)
  /-- line 151 -/
  | r1 (d : Dir)
  /-- line 154 -/
  | r2 (d : Dir) (pos : Option Nat) (n : Nat)
  /-- lines 156-157 -/
  | r3 (d : Dir) (pos : Option Nat) (n m : Nat)
  /-- lines 158-164 -/
  | r4 (d : Dir) (pos : Option Nat) (n m : Nat)
  /-- lines 167-168 -/
  | r5 (d : Dir) (pos : Option Nat) (n : Nat)
  /-- lines 170-172 -/
  | r6 (d : Dir) (n : Nat)
  deriving DecidableEq

/-- What can be seen from outside. -/
inductive Ev where
  | sendCall (d : Dir) (m : Nat)
  | sendRet (m : Nat) (r : Nat)
  | handled (d : Dir) (m : Nat) (hold : Bool)
  | released (m : Nat)
  | recvCall (t : Nat) (d : Dir)
  | recvRet (t : Nat) (d : Dir) (n : Nat)
  deriving DecidableEq

structure St where
  /-- `io_lock`, `user_lock`: who has it -/
  lock : Dir → Option Nat
  /-- the message chains -/
  queue : Dir → List Nat
  /-- bytes waiting to be read from each descriptor -/
  pend : Fd → Nat
  /-- number of the next message -/
  next : Nat
  /-- allocated and not freed -/
  alive : Nat → Bool
  /-- `msg->feedback`, one bit (mln_iothread.h:26) -/
  bit : Nat → Bool
  /-- `msg->hold` -/
  hold : Nat → Bool
  /-- `msg->mutex` is locked -/
  mtx : Nat → Bool
  pc : Nat → PC
  /-- newest first -/
  trace : List Ev

def upd {α β : Type} [DecidableEq α] (f : α → β) (a : α) (b : β) : α → β :=
  fun x => if x = a then b else f x

def init : St :=
  { lock := fun _ => none, queue := fun _ => [], pend := fun _ => 0, next := 0,
    alive := fun _ => false, bit := fun _ => false, hold := fun _ => false,
    mtx := fun _ => false, pc := fun _ => .idle, trace := [] }

/-- One step of thread `t`.  `c` is the call it makes if it is in none; `ok` is the answer
of `malloc`/`pthread_mutex_init`, of `send`, or whether the handler sets `hold`. -/
def step (s : St) (t : Nat) (c : Call) (ok : Bool) : Option St :=
  match s.pc t with
  | .idle =>
    match c with
    | .send d f =>
      -- lines 103-107, 176-194: the feedback argument is stored in one bit
      if ok then
        some { s with
          next := s.next + 1
          alive := upd s.alive s.next true
          bit := upd s.bit s.next (f % 2 = 1)
          hold := upd s.hold s.next false
          mtx := upd s.mtx s.next (f ≠ 0)
          pc := upd s.pc t (.s1 d s.next f)
          trace := .sendCall d s.next :: s.trace }
      else some s
    | .recv d => some { s with pc := upd s.pc t (.r1 d), trace := .recvCall t d :: s.trace }
    | .release m =>
      if s.alive m then some { s with mtx := upd s.mtx m false, trace := .released m :: s.trace }
      else none
  | .s1 d m f =>
    if s.lock d = none then
      some { s with lock := upd s.lock d (some t), pc := upd s.pc t (.s2 d m f) }
    else some s
  | .s2 d m f =>
    if s.alive m then
      some { s with queue := upd s.queue d (s.queue d ++ [m]), pc := upd s.pc t (.s3 d m f) }
    else none
  | .s3 d m f =>
    if (s.queue d).head? = (s.queue d).getLast? ∧ (s.queue d).head? = some m then
      if ok then
        some { s with
          pend := upd s.pend (peer (sendFd d)) (s.pend (peer (sendFd d)) + 1)
          pc := upd s.pc t (.s5 d m f) }
      else
        -- line 114
        some { s with queue := upd s.queue d ((s.queue d).erase m), pc := upd s.pc t (.s4 d m f) }
    else some { s with pc := upd s.pc t (.s5 d m f) }
  | .s4 d m f =>
    if s.alive m then
      some { s with
        mtx := if f ≠ 0 then upd s.mtx m false else s.mtx
        lock := upd s.lock d none
        pc := upd s.pc t (.s4f m) }
    else none
  | .s4f m =>
    if s.alive m then
      some { s with
        alive := upd s.alive m false
        pc := upd s.pc t .idle
        trace := .sendRet m 1 :: s.trace }
    else none
  | .s5 d m f =>
    if f ≠ 0 then some { s with lock := upd s.lock d none, pc := upd s.pc t (.s6 m) }
    else
      some { s with
        lock := upd s.lock d none
        pc := upd s.pc t .idle
        trace := .sendRet m 0 :: s.trace }
  | .s6 m =>
    if s.alive m then
      if s.mtx m then some s
      else some { s with mtx := upd s.mtx m true, pc := upd s.pc t (.s7 m) }
    else none
  | .s7 m =>
    if s.alive m then
      some { s with
        mtx := upd s.mtx m false
        alive := upd s.alive m false
        pc := upd s.pc t .idle
        trace := .sendRet m 0 :: s.trace }
    else none
  | .r1 d =>
    if s.lock d = none then
      some { s with lock := upd s.lock d (some t), pc := upd s.pc t (.r2 d (s.queue d).head? 0) }
    else some s
  | .r2 d pos n =>
    match s.queue d with
    | [] => some { s with pc := upd s.pc t (.r5 d pos n) }
    | m :: q =>
      if s.alive m then
        some { s with queue := upd s.queue d q, pc := upd s.pc t (.r3 d pos n m) }
      else none
  | .r3 d pos n m =>
    if s.alive m then
      some { s with
        hold := upd s.hold m ok
        pc := upd s.pc t (.r4 d pos n m)
        trace := .handled d m ok :: s.trace }
    else none
  | .r4 d pos n m =>
    if s.alive m then
      if s.bit m then
        some { s with
          mtx := if s.hold m then s.mtx else upd s.mtx m false
          pc := upd s.pc t (.r2 d pos (n + 1)) }
      else some { s with alive := upd s.alive m false, pc := upd s.pc t (.r2 d pos (n + 1)) }
    else none
  | .r5 d pos n =>
    some { s with
      pend := if pos ≠ (s.queue d).head? then upd s.pend (recvFd d) (s.pend (recvFd d) - 1) else s.pend
      pc := upd s.pc t (.r6 d n) }
  | .r6 d n =>
    some { s with
      lock := upd s.lock d none
      pc := upd s.pc t .idle
      trace := .recvRet t d n :: s.trace }

/-- A schedule: which thread moves, what it calls if it is in no call, and the oracle. -/
def run : St → List (Nat × Call × Bool) → Option St
  | s, [] => some s
  | s, (t, c, ok) :: l => (step s t c ok).bind fun s => run s l

end Verif.IoThread
