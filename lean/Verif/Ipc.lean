import Verif.Conn
/-
Model of the messages between a process and the processes it started: src/mln_fork.c (lines 390-449,
511-656, 691-934) and src/mln_ipc.c.

Simplifications:
* the connection is the one of Verif.Conn; a node without a buffer stands also for a buffer whose
  `pos` is NULL;
* a u32 is stored least significant byte first;
* a handler is a number; what it does is left out (it does not touch the receive queue), and what is
  kept is the list of the calls: type, bytes, length;
* the trees of handlers are lists of pairs (that the tree finds what was inserted is C22-C24);
* malloc is a list of outcomes, of success once the list is at its end;
* the master and the worker run the same code on `mln_fork_t` and on global variables, so one model
  serves both; the master then closes the connection and the worker exits when the peer is gone;
* fork, exec and signals are left out.
-/
namespace Verif.Ipc
open Conn

/-! ## Handlers -/

/-- A tree of handlers: type and handler (`none` is NULL). -/
abbrev Tree := List (Nat × Option Nat)

/-- mln_rbtree_search. -/
def find (t : Tree) (ty : Nat) : Option (Option Nat) := (t.find? (·.1 = ty)).map (·.2)

/-- mln_fork_master_ipc_handler_set, lines 391-410, and mln_fork_worker_ipc_handler_set,
lines 412-431: the old one is deleted before the node is made.  `ih` and `rn` tell whether the
allocations succeed. -/
def handlerSet (t : Tree) (ty : Nat) (h : Option Nat) (ih rn : Bool) : Int × Tree :=
  if !ih then (-1, t)
  else
    let t := if (find t ty).isSome then t.filter (·.1 ≠ ty) else t
    if !rn then (-1, t) else (0, (ty, h) :: t)

/-- mln_ipc_cb_t: type, handler in the master, handler in the workers. -/
structure Cb where
  type : Nat
  master : Option Nat
  worker : Option Nat
deriving DecidableEq, Repr

/-- mln_ipc_set_process_handlers, src/mln_ipc.c lines 50-59; the allocations succeed as told by the
list. -/
def setHandlers : List Cb → Tree → Tree → List (Bool × Bool) → Int × Tree × Tree
  | [], m, w, _ => (0, m, w)
  | cb :: r, m, w, a =>
    let (r1, m) := handlerSet m cb.type cb.master (a.headD (true, true)).1 (a.headD (true, true)).2
    if r1 < 0 then (-1, m, w)
    else
      let a := a.tail
      let (r2, w) := handlerSet w cb.type cb.worker (a.headD (true, true)).1 (a.headD (true, true)).2
      if r2 < 0 then (-1, m, w) else setHandlers r m w a.tail

/-! ## Numbers -/

/-- The bytes of a u32 in memory. -/
def le32 (n : Nat) : List Byte :=
  [BitVec.ofNat 8 n, BitVec.ofNat 8 (n / 256), BitVec.ofNat 8 (n / 65536), BitVec.ofNat 8 (n / 16777216)]

/-- The u32 of bytes in memory. -/
def ofLe : List Byte → Nat
  | [] => 0
  | b :: r => b.toNat + 256 * ofLe r

/-! ## Taking bytes from the queue -/

/-- mln_ipc_get_buf_with_len, lines 544-550: whether the buffers hold `len` bytes. -/
def enough (len : Nat) : Nat → List Node → Bool
  | _, [] => false
  | size, none :: c => enough len size c
  | size, some b :: c => if size + b.left.length ≥ len then true else enough len (size + b.left.length) c

/-- mln_ipc_get_buf_with_len, lines 552-571: the bytes copied, and the queue. -/
def takeBuf : Nat → List Node → List Byte × List Node
  | _, [] => ([], [])
  | len, none :: c => takeBuf len c
  | len, some b :: c =>
    if b.left.length > len then (b.left.take len, some { b with left := b.left.drop len } :: c)
    else if len - b.left.length = 0 then (b.left, c)
    else
      let (o, q) := takeBuf (len - b.left.length) c
      (b.left ++ o, q)

/-- mln_ipc_get_buf_with_len, lines 536-574; `none` is -1. -/
def getBuf (len : Nat) (q : List Node) : Option (List Byte × List Node) :=
  if enough len 0 q then some (takeBuf len q) else none

/-- mln_ipc_discard_bytes, lines 576-603: what is still to be discarded, and the queue. -/
def discard : Nat → List Node → Nat × List Node
  | size, [] => (size, [])
  | size, none :: c => discard size c
  | size, some b :: c =>
    if b.left.length > size then (0, some { b with left := b.left.drop size } :: c)
    else if size - b.left.length = 0 then (0, c)
    else discard (size - b.left.length) c

/-! ## Messages received -/

/-- A call of a handler: the handler, its type, the bytes and the length. -/
structure Call where
  handler : Nat
  type : Nat
  body : List Byte
  len : Nat
deriving DecidableEq, Repr

/-- The fields of mln_fork_t (include/mln_fork.h lines 59-73), or the global variables of a worker
(lines 21-26): the queue of bytes received, whether `state` is STATE_LENGTH, `msg_len`, whether
`msg_content` is allocated, `error_bytes`; the outcomes of malloc and the calls made. -/
structure St where
  t : Tcp := {}
  inLen : Bool := false
  len : Nat := 0
  have_ : Bool := false
  err : Nat := 0
  mems : List Bool := []
  calls : List Call := []
deriving DecidableEq, Repr

/-- What becomes of the loop: it returned, an access outside of an object, or the fuel was used up. -/
inductive Out where
  | done (s : St)
  | bad
  | fuel
deriving DecidableEq, Repr

/-- One turn of the loop after STATE_LENGTH is reached. -/
inductive Turn where
  | wait (s : St)
  | next (s : St)
  | bad
deriving DecidableEq, Repr

/-- Lines 620-650 and 728-758.  The type is copied from the first four bytes of an object of
`msg_len` bytes. -/
def lengthState (tree : Tree) (s : St) : Turn :=
  let ok := s.have_ || s.mems.headD true
  let mems := if s.have_ then s.mems else s.mems.tail
  if !ok then .next { s with mems := mems, err := s.len, inLen := false }
  else
    match getBuf s.len s.t.rcv with
    | none => .wait { s with mems := mems, have_ := true }
    | some (bs, q) =>
      if s.len < 4 then .bad
      else
        let ty := ofLe (bs.take 4)
        let new := match find tree ty with
          | some (some h) => [{ handler := h, type := ty, body := bs.drop 4, len := s.len - 4 }]
          | _ => []
        .next { s with t := { s.t with rcv := q }, mems := mems, inLen := false, have_ := false,
                       calls := s.calls ++ new }

/-- Lines 612-619 and 720-727: `none` is the return. -/
def idleState (s : St) : Option St :=
  if s.inLen then some s
  else (getBuf 4 s.t.rcv).map fun (bs, q) => { s with t := { s.t with rcv := q }, len := ofLe bs, inLen := true }

/-- mln_ipc_fd_handler_master_process, lines 605-656, and mln_ipc_fd_handler_worker_process,
lines 713-764.  Each turn of the inner loop and of the outer loop takes one of the fuel. -/
def process (tree : Tree) : Nat → St → Out
  | 0, _ => .fuel
  | n + 1, s =>
    if s.err ≠ 0 then
      let (e, q) := discard s.err s.t.rcv
      process tree n { s with err := e, t := { s.t with rcv := q } }
    else
      match idleState s with
      | none => .done s
      | some s =>
        match lengthState tree s with
        | .wait s => .done s
        | .bad => .bad
        | .next s => process tree n s

/-- What becomes of a wakeup: as for the loop, or the connection is given up (the worker is started
again or forgotten; a worker exits). -/
inductive Wake where
  | done (s : St)
  | gone (s : St)
  | bad
  | fuel
deriving DecidableEq, Repr

/-- mln_ipc_fd_handler_master, lines 511-534, and mln_ipc_fd_handler_worker, lines 691-711, on a
socket that does not block; mln_tcp_conn_recv never reports M_C_FINISH. -/
def wake (tree : Tree) (fuel : Nat) (s : St) (rvs : List (Bool × Rv)) : Wake :=
  match recv true false s.t rvs with
  | none => .fuel
  | some (r, t, _) =>
    if r = NOTYET then
      match process tree fuel { s with t := t } with
      | .done s => .done s
      | .bad => .bad
      | .fuel => .fuel
    else .gone { s with t := t }

/-- Wakeups in turn. -/
def wakes (tree : Tree) (fuel : Nat) : St → List (List (Bool × Rv)) → Wake
  | s, [] => .done s
  | s, w :: ws =>
    match wake tree fuel s w with
    | .done s => wakes tree fuel s ws
    | r => r

/-! ## Messages sent -/

/-- mln_ipc_master_send_prepare, lines 766-816, and mln_ipc_worker_send_prepare, lines 852-902, when
the allocations succeed: the buffer queued; `none` is a write outside of it.  `length` is a u32. -/
def sendPrepare (t : Tcp) (type : Nat) (msg : List Byte) : Option Tcp :=
  let length := (4 + msg.length) % 2 ^ 32
  let buflen := length + 4
  if 8 + msg.length > buflen then none
  else some (append t .send [some { left := le32 length ++ le32 type ++ msg, last := true }])

/-- mln_ipc_fd_handler_master_send, lines 818-850, and mln_ipc_fd_handler_worker_send,
lines 904-934: whether the peer is there, and the connection.  `none` is the end of the outcomes or
abort. -/
def sendLoop : Nat → Tcp → List Ev → Option (Bool × Tcp × List Ev)
  | 0, _, _ => none
  | n + 1, t, evs =>
    if t.snd = [] then some (true, { t with sent := [] }, evs)
    else do
      let (r, t, evs) ← send true t evs
      if r = FINISH then sendLoop n t evs
      else if r = NOTYET then some (true, { t with sent := [] }, evs)
      else if r = ERROR then some (false, t, evs)
      else none

end Verif.Ipc
