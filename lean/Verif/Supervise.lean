/-!
# Starting processes and starting them again

`mln_fork_init`, `mln_fork_destroy`, `mln_fork_destroy_all`, the loop of `mln_fork` over `proc_exec`,
`mln_fork_spawn`, `mln_fork_restart`, `do_fork_worker_process`, `do_fork_core` (mln_fork.c:132-176,
219-388), `mln_fork_master_events_set` (mln_fork.c:453-467) and `mln_fork_socketpair_close_handler`
(mln_fork.c:658-689): the list of the processes the master started, the sockets to them and the
events set on them.  The messages on the sockets are in `Verif.Ipc`.

Simplifications.
* The list of processes is a list of entries; an entry is known by its socket.
* The answers of `socketpair`, `fork` and of the child are in `Fk`; which numbers the kernel gives is
  left open there.
* `mln_tcp_conn_init` and `mln_event_fd_set` succeed (if not, the master aborts).
* The lists of arguments of started programs are blocks with a number; `free` takes it from `heap`.
* `rs_clr_handler`, the signals and the trees of handlers are left out.
-/
namespace Verif.Supervise

/-- `mln_fork_t`: socket, process, `etype` (`true`: a program is executed), `stype` (`true`:
M_PST_SUP), the block of the arguments. -/
structure Proc where
  fd : Nat
  pid : Nat
  exec : Bool
  sup : Bool
  args : Option Nat
  deriving DecidableEq, Repr

/-- The list of workers, the descriptors that are open, the sockets with an event and the entry it
was set for, the blocks of arguments. -/
structure St where
  procs : List Proc
  fds : List Nat
  reg : List (Nat × Nat)
  heap : List Nat
  deriving DecidableEq, Repr

/-- What `socketpair`, `fork` and the child do: no sockets; no process; the child ends before it
wrote its byte; the master goes on with the process `pid`; this is the child.  `a` is `fds[0]` and
`b` is `fds[1]`. -/
inductive Fk
  | noPair
  | noFork (a b : Nat)
  | dies (a b : Nat)
  | parent (a b pid : Nat)
  | child (a b : Nat)
  deriving DecidableEq, Repr

/-- What the master sees of a child on the socket: after `k` reads that were interrupted the byte of
the child comes, or the end of the socket, as the child has gone. -/
inductive Life
  | writes (k : Nat)
  | ends (k : Nat)
  deriving DecidableEq, Repr

/-- What the `i`th `read(fds[0], &c, 1)` answers.  At the end of a socket `read` answers 0, however
often it is called. -/
def readAt : Life → Nat → Int
  | .writes k, i => if i < k then -1 else 1
  | .ends k, i => if i < k then -1 else 0

/-- `while (read(fds[0], &c, 1) <= 0);`, mln_fork.c:345-346, from the `i`th call on; `none`: not ended
after so many calls. -/
def wait (r : Nat → Int) : Nat → Nat → Option Nat
  | 0, _ => none
  | fuel + 1, i => if r i ≤ 0 then wait r fuel (i + 1) else some i

/-- The answer for a child with the life `l`, with enough calls for the interrupted ones and one more
(`answer_iff`: no number of calls gives another answer). -/
def answer (a b pid : Nat) (l : Life) : Fk :=
  match l with
  | .writes k | .ends k => if (wait (readAt l) (k + 1) 0).isSome then .parent a b pid else .dies a b

/-- How a call ends: -1 is returned, the process aborts, it never returns (line 345), it goes on as
the master, it goes on as a child, whose socket to the master is `m`. -/
inductive Res
  | fail (s : St)
  | abort
  | hangs
  | master (s : St)
  | child (s : St) (m : Nat)
  deriving DecidableEq, Repr

/-- `mln_fork_destroy`, mln_fork.c:155-169. -/
def destroy (s : St) (p : Proc) (freeArgs : Bool) : St :=
  { s with
    procs := s.procs.erase p
    fds := s.fds.erase p.fd
    heap := match p.args with
      | some a => if freeArgs then s.heap.erase a else s.heap
      | none => s.heap }

/-- `mln_fork_destroy_all`, mln_fork.c:171-176. -/
def destroyAll (s : St) : St := s.procs.foldl (fun s p => destroy s p true) s

/-- `do_fork_core`, mln_fork.c:315-388; `ev`: there is a loop to set an event in. -/
def core (s : St) (exec sup : Bool) (args : Option Nat) (ev : Bool) : Fk → Res
  | .noPair => .fail s
  | .noFork a b => .fail { s with fds := a :: b :: s.fds }
  | .dies _ _ => .hangs
  | .parent a _ pid =>
    .master { s with procs := s.procs ++ [⟨a, pid, exec, sup, args⟩], fds := a :: s.fds, reg := if ev then (a, pid) :: s.reg else s.reg }
  | .child _ b => .child (destroyAll { s with fds := b :: s.fds }) b

/-- `do_fork_worker_process`, mln_fork.c:296-308, for the answers `o`, one for each worker. -/
def startWorkers (s : St) : List Fk → Res
  | [] => .master s
  | o :: r =>
    match core s false true none false o with
    | .fail t => startWorkers t r
    | .master t => startWorkers t r
    | x => x

/-- The programs of `proc_exec`, mln_fork.c:219-258: supervised or not, the block of arguments, the
answer.  A program that could not be started is passed over. -/
def startExecs (s : St) : List (Bool × Nat × Fk) → Res
  | [] => .master s
  | (sup, a, o) :: r =>
    match core { s with heap := a :: s.heap } true sup (some a) false o with
    | .fail t => startExecs t r
    | .master t => startExecs t r
    | x => x

/-- `mln_fork_master_events_set`, mln_fork.c:453-467. -/
def setEvents (s : St) : St := { s with reg := s.procs.map (fun p => (p.fd, p.pid)) ++ s.reg }

/-- `mln_fork_socketpair_close_handler`, mln_fork.c:658-689, for the entry `p`. -/
def closed (s : St) (p : Proc) (o : Fk) : Res :=
  let s := { s with reg := s.reg.filter (fun r => r.1 != p.fd) }
  if p.sup then
    match core (destroy s p false) p.exec p.sup p.args true o with
    | .fail _ => .abort
    | x => x
  else .master (destroy s p true)

/-- The sockets of processes are closed one after another: for each the position of the entry in the
list, and what happens when it is started again.  An event is called for its entry only if it is
registered. -/
def run (s : St) : List (Nat × Fk) → Res
  | [] => .master s
  | (i, o) :: r =>
    match s.procs[i]? with
    | none => run s r
    | some p =>
      if (p.fd, p.pid) ∈ s.reg then
        match closed s p o with
        | .master t => run t r
        | x => x
      else run s r

end Verif.Supervise
