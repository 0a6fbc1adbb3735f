import Mathlib.Data.List.Basic
/-
Model of src/mln_connection.c: the queues of a TCP connection, sending with writev and sendfile
(`MLN_WRITEV` and `MLN_SENDFILE`, which configure sets on Linux) and receiving.

Simplifications:
* a queue is the list of its nodes; a node is a buffer or none (`c->buf == NULL`);
* a buffer is its flags `in_memory`, `in_file` and `last_in_chain` and the bytes not sent yet: those
  from `left_pos` to `last`, or those of the file from `file_left_pos` to `file_last`;
* the socket is a list of outcomes of the calls; a call that succeeds takes at least one byte and
  at most those offered;
* the part of mln_tcp_conn_send_chain_file for sockets that do not block is left out: it is never
  reached (`send_nonblock` in ConnProps shows that the test in lines 225-228 fails);
* what is freed is left out; lengths stay below 2^31.
-/
namespace Verif.Conn

abbrev Byte := BitVec 8

/-- mln_buf_t. -/
structure Buf where
  inMem : Bool := true
  inFile : Bool := false
  left : List Byte
  last : Bool := false
deriving DecidableEq, Repr

/-- mln_chain_t. -/
abbrev Node := Option Buf

/-- mln_tcp_conn_t: the three queues, and the bytes the socket has taken. -/
structure Tcp where
  snd : List Node := []
  sent : List Node := []
  rcv : List Node := []
  wire : List Byte := []
deriving DecidableEq, Repr

/-- The outcome of writev or sendfile: bytes taken, EINTR, EAGAIN, another error. -/
inductive Ev where
  | took (n : Nat)
  | eintr
  | eagain
  | error
deriving DecidableEq, Repr

/-- Return values, include/mln_connection.h lines 24-27. -/
def FINISH : Nat := 1
def NOTYET : Nat := 2
def ERROR : Nat := 3
def CLOSED : Nat := 4

/-! ## Queues -/

/-- The type of a queue, include/mln_connection.h lines 20-22. -/
inductive Q where
  | send | recv | sent
deriving DecidableEq, Repr

def get (t : Tcp) : Q → List Node
  | .send => t.snd
  | .recv => t.rcv
  | .sent => t.sent

def put (t : Tcp) (q : Q) (l : List Node) : Tcp :=
  match q with
  | .send => { t with snd := l }
  | .recv => { t with rcv := l }
  | .sent => { t with sent := l }

/-- mln_tcp_conn_append_chain, lines 85-116, and mln_tcp_conn_append, lines 118-139. -/
def append (t : Tcp) (q : Q) (c : List Node) : Tcp := put t q (get t q ++ c)

/-- mln_tcp_conn_remove, lines 157-174. -/
def remove (t : Tcp) (q : Q) : List Node × Tcp := (get t q, put t q [])

/-- mln_tcp_conn_pop, lines 176-200, and mln_tcp_conn_pop_inline; `none` is NULL. -/
def pop (t : Tcp) (q : Q) : Option Node × Tcp := ((get t q).head?, put t q (get t q).tail)

/-! ## Sending from memory -/

/-- The loop that fills the vector, lines 263-274 and 318-329, with room for `k` more parts. -/
def gather : Nat → List Node → List (List Byte)
  | _, [] => []
  | 0, _ :: _ => []
  | k + 1, none :: c => gather (k + 1) c
  | k + 1, some b :: c =>
    if !b.inMem then []
    else if b.left = [] then if b.last then [] else gather (k + 1) c
    else b.left :: (if b.last then [] else gather k c)

/-- The loop after `n` bytes were taken, lines 290-311 and 344-364: the queue, the nodes that go to
the queue of those sent, and `is_done`. -/
def advance : Nat → List Node → List Node × List Node × Bool
  | _, [] => ([], [], false)
  | n, none :: c =>
    let (s, d, e) := advance n c
    (s, none :: d, e)
  | n, some b :: c =>
    if !b.inMem then (some b :: c, [], false)
    else if n < b.left.length then (some { b with left := b.left.drop n } :: c, [], b.last)
    else if b.last ∨ n - b.left.length = 0 then (c, [some { b with left := [] }], b.last)
    else
      let (s, d, e) := advance (n - b.left.length) c
      (s, some { b with left := [] } :: d, e)

/-- The bytes a call takes of those offered. -/
def clip (n : Nat) (v : List Byte) : Nat := max 1 (min n v.length)

/-- After `n` bytes were taken of the vector `v`. -/
def took (t : Tcp) (v : List Byte) (n : Nat) : Tcp × Bool :=
  let (s, d, e) := advance n t.snd
  ({ t with snd := s, sent := t.sent ++ d, wire := t.wire ++ v.take n }, e)

/-- mln_tcp_conn_send_chain_memory for sockets that do not block, lines 260-314; `none` is the end
of the outcomes. -/
def memNon : List Ev → Tcp → Option (Int × Tcp × List Ev)
  | [], t => if gather 256 t.snd = [] then some (0, { t with snd := [] }, []) else none
  | ev :: evs, t =>
    if gather 256 t.snd = [] then some (0, { t with snd := [] }, ev :: evs)
    else
      match ev with
      | .eintr => memNon evs t
      | .eagain => some (0, t, evs)
      | .error => some (-1, t, evs)
      | .took n =>
        let v := (gather 256 t.snd).flatten
        if (took t v (clip n v)).2 then some (1, (took t v (clip n v)).1, evs)
        else memNon evs (took t v (clip n v)).1

/-- mln_tcp_conn_send_chain_memory for sockets that block, lines 317-366. -/
def memBlk : List Ev → Tcp → Option (Int × Tcp × List Ev)
  | [], t => if gather 256 t.snd = [] then some (0, { t with snd := [] }, []) else none
  | ev :: evs, t =>
    if gather 256 t.snd = [] then some (0, { t with snd := [] }, ev :: evs)
    else
      match ev with
      | .eintr => memBlk evs t
      | .eagain => some (-1, t, evs)
      | .error => some (-1, t, evs)
      | .took n =>
        let v := (gather 256 t.snd).flatten
        some (if (took t v (clip n v)).2 then 1 else 0, (took t v (clip n v)).1, evs)

/-! ## Sending from files -/

/-- Lines 546-554: nodes with nothing to send; the Boolean says that the end was reached. -/
def skip : List Node → List Node × List Node × Bool
  | [] => ([], [], false)
  | none :: c =>
    let (s, d, e) := skip c
    (s, none :: d, e)
  | some b :: c =>
    if b.left ≠ [] then (some b :: c, [], false)
    else if b.last then (c, [some b], true)
    else
      let (s, d, e) := skip c
      (s, some b :: d, e)

/-- The loop with sendfile for sockets that block, lines 558-573, from the buffer `b` at the head of
the queue with `c` behind it. -/
def sendfile (t : Tcp) (b : Buf) (c : List Node) : List Ev → Option (Int × Tcp × List Ev)
  | [] => none
  | .eintr :: evs => sendfile t b c evs
  | .eagain :: evs => some (-1, { t with snd := some b :: c }, evs)
  | .error :: evs => some (-1, { t with snd := some b :: c }, evs)
  | .took n :: evs =>
    let m := clip n b.left
    let t := { t with wire := t.wire ++ b.left.take m }
    let b := { b with left := b.left.drop m }
    if b.left ≠ [] then sendfile t b c evs
    else some (if b.last then 1 else 0, { t with snd := c, sent := t.sent ++ [some b] }, evs)

/-- mln_tcp_conn_send_chain_file for sockets that block, lines 546-573. -/
def fileBlk (t : Tcp) (evs : List Ev) : Option (Int × Tcp × List Ev) :=
  let (s, d, e) := skip t.snd
  let t := { t with snd := s, sent := t.sent ++ d }
  if e then some (1, t, evs)
  else
    match s with
    | [] => some (0, t, evs)
    | none :: _ => none
    | some b :: c => if !b.inFile then some (0, t, evs) else sendfile t b c evs

/-- The head of the queue is a buffer in a file, in memory. -/
def headFile (t : Tcp) : Bool :=
  match t.snd with
  | some b :: _ => b.inFile
  | _ => false

def headMem (t : Tcp) : Bool :=
  match t.snd with
  | some b :: _ => b.inMem
  | _ => false

/-- Lines 232-234 and 245-247. -/
def value (n : Int) : Nat := if n = 0 then NOTYET else if n > 0 then FINISH else ERROR

/-- mln_tcp_conn_send for sockets that block from the label `me` on, lines 223-247; the fuel bounds
the turns between the labels. -/
def sendBlk : Nat → Tcp → List Ev → Option (Nat × Tcp × List Ev)
  | 0, _, _ => none
  | k + 1, t, evs => do
    let (n, t, evs) ← memBlk evs t
    if n = 0 ∧ headFile t then
      let (n, t, evs) ← fileBlk t evs
      if n = 0 ∧ headMem t then sendBlk k t evs else some (value n, t, evs)
    else some (value n, t, evs)

/-- mln_tcp_conn_send for sockets that do not block; `none` also for the label `fi`. -/
def sendNon (t : Tcp) (evs : List Ev) : Option (Nat × Tcp × List Ev) := do
  let (n, t, evs) ← memNon evs t
  if n = 0 ∧ headFile t then none else some (value n, t, evs)

/-- mln_tcp_conn_send, lines 218-248. -/
def send (nonblock : Bool) (t : Tcp) (evs : List Ev) : Option (Nat × Tcp × List Ev) :=
  if t.snd = [] then some (NOTYET, t, evs)
  else if nonblock then sendNon t evs
  else sendBlk (evs.length + 1) t evs

/-! ## Receiving -/

/-- The outcome of recv. -/
inductive Rv where
  | data (bs : List Byte)
  | closed
  | eintr
  | eagain
  | error
deriving DecidableEq, Repr

/-- What is received by one call with room for 1024 bytes, lines 744-844: the node
appended. -/
def rcvNode (inFile : Bool) (bs : List Byte) : Node :=
  some { inMem := !inFile, inFile := inFile, left := bs.take 1024 }

/-- mln_tcp_conn_recv, lines 711-742.  `mem` tells whether the allocations and the file of a round
succeed (errno is then something else than EINTR and EAGAIN). -/
def recv (nonblock inFile : Bool) : Tcp → List (Bool × Rv) → Option (Nat × Tcp × List (Bool × Rv))
  | _, [] => none
  | t, (false, _) :: rvs => some (ERROR, t, rvs)
  | t, (true, .closed) :: rvs => some (CLOSED, t, rvs)
  | t, (true, .eintr) :: rvs => recv nonblock inFile t rvs
  | t, (true, .eagain) :: rvs => some (NOTYET, t, rvs)
  | t, (true, .error) :: rvs => some (ERROR, t, rvs)
  | t, (true, .data bs) :: rvs =>
    if bs = [] then some (CLOSED, t, rvs)
    else
      let t := { t with rcv := t.rcv ++ [rcvNode inFile bs] }
      if nonblock then recv nonblock inFile t rvs else some (NOTYET, t, rvs)

end Verif.Conn
