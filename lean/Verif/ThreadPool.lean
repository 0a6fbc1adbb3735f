/-
Model of src/mln_thread_pool.c: mln_thread_pool_run (lines 311-343), mln_thread_pool_resource_add
(237-283), mln_thread_pool_resource_remove (285-306), child_thread_launcher (345-397),
mln_thread_quit (399-408), member_join/member_exit/pool_free (75-112, 213-227).

The main thread and any number of children run in any order; one step is taking the mutex, one
critical section with the release of the mutex, one handler call or return, or one access outside the mutex
(`quit = 1` of line 325, `free`).  A thread that waits for the mutex stays where it is.  A use of the
pool after its release, or a failing ASSERT, is `none`.

Simplifications: the chains of members and resources are lists (see Chain.lean); a waiting child may
wake up at any time, with result 0, ETIMEDOUT or another error, whether signalled or not (POSIX
allows this), so the clock and the signals themselves are not modelled; fork in a handler and the atfork
handlers are not modelled; a handler calls nothing of this module but mln_thread_quit, and returns or
ends its thread (`die`: pthread_exit or cancellation).
-/
namespace Verif.ThreadPool

/-- Where a child is. -/
inductive CPC where
  /-- not created, or never started -/
  | unborn
  /-- line 359; the local variable `timeout` -/
  | top (tmo : Bool)
  /-- line 362, has the mutex -/
  | crit (tmo : Bool)
  /-- line 373 -/
  | wait
  /-- line 378, has the mutex -/
  | brk
  /-- line 388, has taken a resource -/
  | got (d : Nat)
  /-- in the handler -/
  | run (d : Nat)
  /-- in mln_thread_quit, line 404 -/
  | quit1 (d : Nat)
  /-- line 405 -/
  | quit2 (d : Nat)
  /-- in member_exit called by the end of the thread in its handler, line 103 -/
  | die1 (d : Nat)
  /-- line 105, has the mutex -/
  | die2 (d : Nat)
  /-- line 109, member_free -/
  | die3 (d : Nat)
  | done
  deriving DecidableEq

/-- Where the main thread is. -/
inductive MPC where
  /-- in its handler -/
  | user
  /-- line 252 -/
  | lockAdd (nul : Bool)
  /-- line 254 -/
  | add (nul : Bool)
  /-- lines 404, 405 -/
  | lockQuit
  | quit
  /-- lines 328, 329 -/
  | loop
  | check
  /-- member_exit, lines 103, 105 -/
  | exit
  | exiting
  /-- pool_free -/
  | free
  | fin
  deriving DecidableEq

/-- What the main thread may do next, and the answers it gets: `go join create` are the results of
malloc in member_join and of pthread_create. -/
inductive MAct where
  | add (nul ok : Bool)
  | quit
  | ret
  | go (join create : Bool)
  deriving DecidableEq

/-- The answer of pthread_cond_timedwait, or what the handler does next. -/
inductive CAct where
  | ok
  | timeout
  | error
  | ret
  | quit
  | die
  deriving DecidableEq

inductive Act where
  | main (a : MAct)
  | child (c : Nat) (a : CAct)
  deriving DecidableEq

/-- The pool, the threads and what happened.  A resource is its number, in the order of addition,
and whether its data is NULL; the main thread is number 0. -/
structure St where
  mutex : Option Nat := none
  queue : List (Nat × Bool) := []
  nRes : Nat := 0
  idle : Nat := 1
  counter : Nat := 1
  quit : Bool := false
  members : List Nat := [0]
  pc : Nat → CPC := fun _ => .unborn
  /-- `tpm->idle` -/
  idl : Nat → Bool := fun _ => true
  mpc : MPC := .user
  nextT : Nat := 1
  nextR : Nat := 0
  freed : Bool := false
  /-- members whose pthread_create failed -/
  lost : List Nat := []
  /-- taken from the queue, in order -/
  removed : List Nat := []
  /-- handed to the handler -/
  handled : List Nat := []
  /-- NULL data, skipped -/
  dropped : List Nat := []
  /-- handed to the free handler -/
  released : List Nat := []
  /-- answers of mln_thread_pool_resource_add -/
  rets : List (Nat × Bool) := []
  nul : Nat → Bool := fun _ => false

def upd {β : Type} (f : Nat → β) (a : Nat) (b : β) : Nat → β := fun x => if x = a then b else f x

/-- mln_thread_pool_new, lines 140-211: all fields as above. -/
def init : St := {}

/-- Lines 254-282, with the mutex. -/
def addBody (max : Nat) (s : St) (nul join create : Bool) : St :=
  let s := { s with
    queue := s.queue ++ [(s.nextR, nul)], nRes := s.nRes + 1, nextR := s.nextR + 1,
    nul := upd s.nul s.nextR nul, mutex := none, mpc := .user }
  -- `max` and `counter` are 32-bit
  if s.idle ≤ 1 ∧ s.counter < (max + 1) % 2 ^ 32 then
    if join then
      let s := { s with counter := s.counter + 1, idle := s.idle + 1, members := s.members ++ [s.nextT],
                        idl := upd s.idl s.nextT true, nextT := s.nextT + 1 }
      if create then
        { s with pc := upd s.pc (s.nextT - 1) (.top false), rets := (s.nextR - 1, true) :: s.rets }
      else { s with lost := (s.nextT - 1) :: s.lost, rets := (s.nextR - 1, false) :: s.rets }
    else { s with rets := (s.nextR - 1, false) :: s.rets }
  else { s with rets := (s.nextR - 1, true) :: s.rets }

/-- One step of the main thread. -/
def stepMain (max : Nat) (s : St) (a : MAct) : Option St :=
  match s.mpc with
  | .user =>
    match a with
    | .add nul ok =>
      -- line 246
      if ok then some { s with mpc := .lockAdd nul } else some s
    | .quit => some { s with mpc := .lockQuit }
    | .ret => some { s with quit := true, mpc := .loop }
    | .go _ _ => some s
  | .lockAdd nul => if s.mutex = none then some { s with mutex := some 0, mpc := .add nul } else some s
  | .add nul =>
    match a with
    | .go join create => some (addBody max s nul join create)
    | _ => some s
  | .lockQuit => if s.mutex = none then some { s with mutex := some 0, mpc := .quit } else some s
  | .quit => some { s with quit := true, mutex := none, mpc := .user }
  | .loop => if s.mutex = none then some { s with mutex := some 0, mpc := .check } else some s
  | .check => if s.counter ≤ 1 then some { s with mutex := none, mpc := .exit } else some { s with mutex := none, mpc := .loop }
  | .exit => if s.mutex = none then some { s with mutex := some 0, mpc := .exiting } else some s
  | .exiting => some { s with members := s.members.erase 0, counter := s.counter - 1, idle := s.idle - 1, mutex := none, mpc := .free }
  | .free =>
    if s.members = [] ∧ s.counter = 0 ∧ s.idle = 0 then
      some { s with released := s.released ++ s.queue.map (·.1), removed := s.removed ++ s.queue.map (·.1), queue := [], nRes := 0,
                    freed := true, mpc := .fin }
    else none
  | .fin => some s

/-- mln_thread_pool_resource_remove, lines 293-300: the skipped resources, the one found, the rest. -/
def take : List (Nat × Bool) → List Nat × Option Nat × List (Nat × Bool)
  | [] => ([], none, [])
  | (d, nul) :: q =>
    if nul then
      let r := take q
      (d :: r.1, r.2.1, r.2.2)
    else ([], some d, q)

/-- member_exit of a child that has the mutex and no data, lines 104-109. -/
def exitC (s : St) (c : Nat) : St :=
  { s with members := s.members.erase c, counter := s.counter - 1, idle := if s.idl c then s.idle - 1 else s.idle,
           mutex := none, pc := upd s.pc c .done }

/-- Lines 362-390, with the mutex. -/
def critBody (s : St) (c : Nat) (tmo : Bool) : St :=
  -- lines 363-366
  let s := if s.idl c then s else { s with idl := upd s.idl c true, idle := s.idle + 1 }
  if s.quit then exitC s c
  else
    let r := take s.queue
    let s := { s with queue := r.2.2, dropped := s.dropped ++ r.1 }
    match r.2.1 with
    | none =>
      let s := { s with removed := s.removed ++ r.1, nRes := s.nRes - r.1.length }
      if tmo then exitC s c else { s with mutex := none, pc := upd s.pc c .wait }
    | some d =>
      { s with removed := s.removed ++ (r.1 ++ [d]), nRes := s.nRes - (r.1.length + 1), idl := upd s.idl c false,
               idle := s.idle - 1, mutex := none, pc := upd s.pc c (.got d) }

/-- One step of child `c`. -/
def stepChild (s : St) (c : Nat) (a : CAct) : Option St :=
  match s.pc c with
  | .unborn => some s
  | .done => some s
  | .die3 d => if s.freed then none else some { s with released := s.released ++ [d], pc := upd s.pc c .done }
  | p =>
    if s.freed then none
    else
      match p with
      | .top tmo => if s.mutex = none then some { s with mutex := some c, pc := upd s.pc c (.crit tmo) } else some s
      | .crit tmo => some (critBody s c tmo)
      | .wait =>
        if s.mutex = none then
          match a with
          | .ok => some { s with mutex := some c, pc := upd s.pc c (.crit false) }
          | .timeout => some { s with mutex := some c, pc := upd s.pc c (.crit true) }
          | .error => some { s with mutex := some c, pc := upd s.pc c .brk }
          | _ => some s
        else some s
      | .brk => some (exitC s c)
      | .got d => some { s with handled := s.handled ++ [d], pc := upd s.pc c (.run d) }
      | .run d =>
        match a with
        | .ret => some { s with pc := upd s.pc c (.top false) }
        | .quit => some { s with pc := upd s.pc c (.quit1 d) }
        | .die => some { s with pc := upd s.pc c (.die1 d) }
        | _ => some s
      | .quit1 d => if s.mutex = none then some { s with mutex := some c, pc := upd s.pc c (.quit2 d) } else some s
      | .quit2 d => some { s with quit := true, mutex := none, pc := upd s.pc c (.run d) }
      | .die1 d => if s.mutex = none then some { s with mutex := some c, pc := upd s.pc c (.die2 d) } else some s
      | .die2 d => some { exitC s c with pc := upd s.pc c (.die3 d) }
      | _ => some s

def step (max : Nat) (s : St) : Act → Option St
  | .main a => stepMain max s a
  | .child c a => stepChild s c a

def run (max : Nat) : St → List Act → Option St
  | s, [] => some s
  | s, a :: l => (step max s a).bind fun s => run max s l

end Verif.ThreadPool
