/-!
# Messages between threads

Model of src/mln_thread.c: the main thread of the multithread framework passes messages
(`mln_thread_msg_t`) on between its threads.  Every thread has a socket pair; what a thread writes arrives
in the main thread in pieces of any size, is put together, and is queued for the thread whose name it
bears.

Simplifications:
* bytes of a message are symbolic: a byte is the message it belongs to and its place in it (so the model
  knows where messages begin, the code does not); sizeof(mln_thread_msg_t) is 72 on 64-bit machines;
* a message is its number, the names it goes to and comes from, and its other fields as a number;
* the tree of threads is the list of its threads in the order of creation; of threads with the same name
  the first one is found (mln_rbtree.c: RbTree);
* the two kinds of chains of queue entries are lists (mln_utils.h: Chain); an entry is known by its
  number, taking one out of a chain that does not have it is undefined behaviour;
* buffers are as mln_tcp_conn_recv and mln_tcp_conn_send leave them (mln_connection.c: Conn): a received
  buffer is its bytes and how many of them were used; a buffer to send is a message and how much of it was
  written;
* what the sockets do is given with the events: the pieces read, and how reading ends; the outcome of each
  mln_tcp_conn_send; whether each allocation succeeds; mln_event_fd_set succeeds.
-/
namespace Verif.Itc

/-- sizeof(mln_thread_msg_t), include/mln_thread.h:46-62. -/
def W : Nat := 72

/-- `mln_thread_msg_t`, include/mln_thread.h:46-62: `dest`, `src`, and the rest. -/
structure Msg where
  dest : String
  src : Option String
  body : Nat
deriving DecidableEq, Repr

/-- A byte of a message. -/
structure B where
  msg : Msg
  off : Nat
deriving DecidableEq, Repr

/-- The bytes of a message in memory. -/
def enc (m : Msg) : List B := (List.range W).map (B.mk m)

/-- The message in `W` bytes; `none` if they are not the bytes of one message in their order. -/
def dec (l : List B) : Option Msg :=
  match l with
  | [] => none
  | b :: _ => if l = enc b.msg then some b.msg else none

/-- A received buffer: the bytes from `pos` to `last`, and `left_pos - pos`. -/
structure Node where
  data : List B
  used : Nat
deriving DecidableEq, Repr

/-- mln_buf_left_size and what it is the size of. -/
def Node.left (n : Node) : List B := n.data.drop n.used

/-- `mln_thread_msgq_t`, include/mln_thread.h:64-71; `id` stands for its address. -/
structure Tmq where
  id : Nat
  sender : Option Nat
  msg : Msg
deriving DecidableEq, Repr

/-- `mln_thread_t`, include/mln_thread.h:73-89.  `rx` and `tx` are the chains M_C_RECV and M_C_SEND of
`conn`; `name` is the alias; `loc` and `dest` the chains of entries; `armed` tells whether M_EV_SEND is registered for the
socket.  `out` is what was written to the socket, `said` what was read from it since it was opened (not
in the code). -/
structure Th where
  name : String
  restart : Bool
  rx : List Node := []
  tx : List (Msg × Nat) := []
  loc : List Nat := []
  dest : List Tmq := []
  armed : Bool := false
  out : List B := []
  said : List B := []
deriving DecidableEq, Repr

/-- The threads by their address, `thread_tree`, and the number of the next entry. -/
structure St where
  th : Nat → Option Th
  tree : List Nat
  next : Nat

def upd (f : Nat → Option Th) (a : Nat) (t : Option Th) : Nat → Option Th := fun x => if x = a then t else f x

def St.put (s : St) (a : Nat) (t : Th) : St := { s with th := upd s.th a (some t) }

/-- What can go wrong: undefined behaviour with the chains or a thread that is gone (`ub`); a message is
taken from bytes where none begins, or is freed a second time (`garbage`). -/
inductive M (α : Type) where
  | ub
  | garbage
  | ok (a : α)
deriving DecidableEq, Repr

def M.bind {α β : Type} (x : M α) (f : α → M β) : M β :=
  match x with
  | .ub => .ub
  | .garbage => .garbage
  | .ok a => f a

instance : Monad M where
  pure := .ok
  bind := M.bind

/-! ### Putting messages together -/

/-- The first loop of `mln_itc_get_buf_with_len`, mln_thread.c:387-393: the bytes there are. -/
def total : List Node → Nat
  | [] => 0
  | n :: r => n.left.length + total r

/-- The second loop, lines 396-415. -/
def takeN : Nat → List Node → List B × List Node
  | _, [] => ([], [])
  | len, n :: r =>
    if n.left.length > len then (n.left.take len, { n with used := n.used + len } :: r)
    else if len - n.left.length = 0 then (n.left, r)
    else
      let x := takeN (len - n.left.length) r
      (n.left ++ x.1, x.2)

/-- `mln_itc_get_buf_with_len`, mln_thread.c:379-418. -/
def getBuf (rx : List Node) : Option (List B × List Node) := if total rx < W then none else some (takeN W rx)

/-! ### Entries -/

/-- `mln_thread_rbtree_cmp`, mln_thread.c:685-692, gives 0. -/
def named (s : St) (name : String) (a : Nat) : Bool :=
  match s.th a with
  | some t => t.name = name
  | none => false

/-- mln_rbtree_search with the name, mln_thread.c:486-488. -/
def search (s : St) (name : String) : Option Nat := s.tree.find? (named s name)

/-- Whether allocations succeed, one after the other; when the list is empty they do. -/
abbrev Mem := List Bool

def Mem.pop : Mem → Bool × Mem
  | [] => (true, [])
  | b :: m => (b, m)

/-- Lines 496-507: the entry is queued for the thread at address `b`. -/
def enqueue (s : St) (a b : Nat) (q : Tmq) : M St :=
  match s.th b with
  | none => .ub
  | some u =>
    let s := s.put b { u with armed := u.armed || u.dest.isEmpty, dest := u.dest ++ [q] }
    match s.th a with
    | none => .ub
    | some t => .ok { s.put a { t with loc := t.loc ++ [q.id] } with next := s.next + 1 }

/-- Lines 472-493: a message from the thread at address `a`. -/
def route (s : St) (a : Nat) (m : Msg) (mem : Mem) : M (St × Mem) :=
  match mem.pop with
  | (false, mem) => .ok (s, mem)
  | (true, mem) =>
    match mem.pop with
    | (false, mem) => .ok (s, mem)
    | (true, mem) =>
      match s.th a with
      | none => .ub
      | some t =>
        match search s m.dest with
        | none => .ok (s, mem)
        | some b => do
          let s ← enqueue s a b { id := s.next, sender := some a, msg := { m with src := some t.name } }
          .ok (s, mem)

/-- `mln_main_thread_itc_recv_handler_process`, mln_thread.c:457-509; `n` bounds the number of turns. -/
def process : Nat → St → Nat → Mem → M St
  | 0, s, _, _ => .ok s
  | n + 1, s, a, mem =>
    match s.th a with
    | none => .ub
    | some t =>
      match getBuf t.rx with
      | none => .ok s
      | some (bytes, rx) =>
        match dec bytes with
        | none => .garbage
        | some m => do
          let (s, mem) ← route (s.put a { t with rx := rx }) a m mem
          process n s a mem

/-! ### The end of a thread -/

/-- `mln_thread_itc_chain_release_msg` on the received buffers, mln_thread.c:419-426: a message is
cleared at `pos` of each buffer. -/
def release : List Node → M Unit
  | [] => .ok ()
  | n :: r => if n.used = 0 ∧ (dec (n.data.take W)).isSome then release r else .garbage

/-- Lines 151-154: the entries the thread has sent lose their sender. -/
def orphan (s : St) (ids : List Nat) : St :=
  { s with th := fun x => (s.th x).map fun t => { t with dest := t.dest.map fun q => if q.id ∈ ids then { q with sender := none } else q } }

/-- One entry is taken out of the chain of its sender, lines 157-160, 551-552 (msg_local_chain_del). -/
def unlink (s : St) (q : Tmq) : M St :=
  match q.sender with
  | none => .ok s
  | some a =>
    match s.th a with
    | none => .ub
    | some t => if q.id ∈ t.loc then .ok (s.put a { t with loc := t.loc.erase q.id }) else .ub

/-- The first entry for the thread at address `a` is taken out of both chains, lines 156-161, 550-552. -/
def popHead (s : St) (a : Nat) (t : Th) (q : Tmq) (r : List Tmq) : M St := unlink (s.put a { t with dest := r }) q

/-- Lines 156-164: the entries for the thread are thrown away; `n` bounds the number of turns. -/
def dropDest : Nat → St → Nat → M St
  | 0, s, _ => .ok s
  | n + 1, s, a =>
    match s.th a with
    | none => .ub
    | some t =>
      match t.dest with
      | [] => .ok s
      | q :: r => do
        let s ← popHead s a t q r
        dropDest n s a

/-- `mln_thread_clear_msg_queue`, mln_thread.c:147-165. -/
def clearQueue (s : St) (a : Nat) : M St :=
  match s.th a with
  | none => .ub
  | some t =>
    let s := orphan s t.loc
    match s.th a with
    | none => .ub
    | some t => dropDest t.dest.length (s.put a { t with loc := [] }) a

/-- `mln_thread_deal_child_exit`, mln_thread.c:593-652, with `mln_thread_destroy`, lines 115-145, and
`__mln_thread_create`, lines 330-377.  `again` tells whether the new socket pair and thread could be
made. -/
def exit (s : St) (a : Nat) (again : Bool) : M St :=
  match s.th a with
  | none => .ub
  | some t => do
    let s := { s with tree := s.tree.erase a }
    release t.rx
    let s ← clearQueue s a
    match s.th a with
    | none => .ub
    | some t =>
      if t.restart && again then
        .ok { s.put a { t with rx := [], tx := [], armed := false, out := [], said := [] } with tree := s.tree ++ [a] }
      else .ok { s with th := upd s.th a none }

/-! ### The handlers -/

/-- How reading ends: nothing more for now, closed by the thread, an error. -/
inductive End where
  | again
  | closed
  | error
deriving DecidableEq, Repr

/-- `mln_main_thread_itc_recv_handler`, mln_thread.c:431-455. -/
def recv (s : St) (a : Nat) (pieces : List (List B)) (e : End) (renew : Bool) (mem : Mem) : M St :=
  match s.th a with
  | none => .ub
  | some t =>
    let t := { t with rx := t.rx ++ pieces.map fun p => { data := p, used := 0 }, said := t.said ++ pieces.flatten }
    let s := s.put a t
    match e with
    | .again => process (total t.rx + 1) s a mem
    | _ => exit s a renew

/-- The outcome of a mln_tcp_conn_send: all was written; only `k` bytes were; an error. -/
inductive Out where
  | full
  | part (k : Nat)
  | error
deriving DecidableEq, Repr

/-- `mln_main_thread_itc_send_handler`, mln_thread.c:511-591.  When the list of outcomes is empty, all is
written.  `n` bounds the number of turns. -/
def send : Nat → St → Nat → List Out → Bool → Mem → M St
  | 0, s, _, _, _, _ => .ok s
  | n + 1, s, a, outs, renew, mem =>
    match s.th a with
    | none => .ub
    | some t =>
      match t.tx with
      | (m, k) :: r =>
        match outs with
        | [] => send n (s.put a { t with tx := r, out := t.out ++ (enc m).drop k }) a [] renew mem
        | .full :: outs => send n (s.put a { t with tx := r, out := t.out ++ (enc m).drop k }) a outs renew mem
        | .part j :: _ =>
          let j := min j (W - k - 1)
          .ok (s.put a { t with tx := (m, k + j) :: r, out := t.out ++ ((enc m).drop k).take j, armed := true })
        | .error :: _ => exit s a renew
      | [] =>
        match t.dest with
        | [] => .ok s
        | q :: r => do
          let s ← popHead s a t q r
          match s.th a with
          | none => .ub
          | some t =>
            match mem.pop with
            | (false, mem) => send n s a outs renew mem
            | (true, mem) => send n (s.put a { t with tx := [(q.msg, 0)] }) a outs renew mem

/-- The event loop calls the send handler; the event was registered for one time. -/
def sendEv (s : St) (a : Nat) (outs : List Out) (renew : Bool) (mem : Mem) : M St :=
  match s.th a with
  | none => .ub
  | some t => send (2 * (t.tx.length + t.dest.length) + 1) (s.put a { t with armed := false }) a outs renew mem

/-- What the event loop does next. -/
inductive Ev where
  | recv (a : Nat) (pieces : List (List B)) (e : End) (renew : Bool) (mem : Mem)
  | send (a : Nat) (outs : List Out) (renew : Bool) (mem : Mem)
  | create (a : Nat) (name : String) (restart : Bool)

/-- Handlers are called for threads that are there (M_EV_CLR in `mln_thread_deal_child_exit`), the send
handler if it is registered; `mln_thread_create`, mln_thread.c:284-317. -/
def step (s : St) : Ev → M St
  | .recv a pieces e renew mem => if (s.th a).isSome then recv s a pieces e renew mem else .ok s
  | .send a outs renew mem =>
    match s.th a with
    | some t => if t.armed then sendEv s a outs renew mem else .ok s
    | none => .ok s
  | .create a name restart => if (s.th a).isSome then .ok s else .ok { s.put a { name, restart } with tree := s.tree ++ [a] }

def run (s : St) : List Ev → M St
  | [] => .ok s
  | e :: es => do
    let s ← step s e
    run s es

/-- No threads. -/
def St.init : St := { th := fun _ => none, tree := [], next := 0 }

end Verif.Itc
