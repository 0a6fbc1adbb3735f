import Verif.WebSocket
/-!
# Messages of a WebSocket, and the content it owns

mln_websocket.c: mln_websocket_text_generate (488-517), mln_websocket_binary_generate (519-548),
mln_websocket_close_generate (550-578), mln_websocket_ping_generate (580-606),
mln_websocket_pong_generate (608-634), mln_websocket_reset (112-145), mln_websocket_destroy (96-103), and
what mln_websocket_parse (765-) does with the content it replaces (905-911).

Simplifications.
* Memory is a list of blocks; a block is what the caller holds or what mln_websocket_parse allocated
  for a content.  Allocations do not fail.  There is no extension handler, and the fields, the uri, the arguments
  and the key of the handshake are left out.
* mln_websocket_generate and mln_websocket_parse are those of `Verif.WebSocket`; when a frame is not
  complete the status, which may have been written, is that from before.
-/
namespace Verif.WsSend
open Verif.WebSocket

/-- Blocks: address and bytes. -/
abbrev Mem := List (Nat × List Nat)

/-- mln_websocket_t: the fields of frames (their `content` is not used), `content`, `content_len` and
`content_free`; and the memory. -/
structure S where
  ws : Ws
  ptr : Option Nat
  len : Nat
  own : Bool
  mem : Mem
  deriving DecidableEq

/-- The fields of mln_websocket_init, lines 51-62. -/
def fresh : Ws := ⟨false, false, false, false, 0, false, 0, 0, none⟩

/-- mln_websocket_init. -/
def init (m : Mem) : S := ⟨fresh, none, 0, false, m⟩

/-- mln_alloc_free; `none` for what is not a block. -/
def free (m : Mem) : Option Nat → Option Mem
  | none => some m
  | some a => if m.lookup a = none then none else some (m.filter (·.1 ≠ a))

/-- `if (content_free) free`, lines 496-499 and others. -/
def drop (s : S) : Option S :=
  if s.own then (free s.mem s.ptr).map fun m => { s with mem := m, own := false } else some s

/-- The bytes mln_websocket_generate reads; `none` if they are not in a block. -/
def data (s : S) : Option (Option (List Nat)) :=
  match s.ptr with
  | none => some none
  | some a =>
    if s.len = 0 then some (some [])
    else (s.mem.lookup a).bind fun b => if s.len ≤ b.length then some (some (b.take s.len)) else none

/-- The common part of the functions, e.g. lines 496-516. -/
def emit (s : S) (p : Option Nat) (n : Nat) (fin : Bool) (op : Nat) (client : Bool) (key : Nat) : Option (Except Ret (List Nat) × S) := do
  let s ← drop s
  let s := { s with
    ptr := p, len := n, own := false,
    ws := { s.ws with fin := fin, rsv1 := false, rsv2 := false, rsv3 := false, opcode := op, maskbit := client, key := if client then key else s.ws.key } }
  let c ← data s
  let r ← generate { s.ws with content := c } n
  some (r, s)

/-- What is called. -/
inductive Op
  /-- mln_websocket_text_generate and mln_websocket_binary_generate -/
  | data (binary : Bool) (p : Option Nat) (n : Nat) (new fin client server : Bool) (key : Nat)
  /-- mln_websocket_ping_generate and mln_websocket_pong_generate -/
  | control (pong client server : Bool) (key : Nat)
  /-- mln_websocket_close_generate; `n` is the length of the reason -/
  | close (p : Option Nat) (n : Nat) (client server : Bool) (key : Nat)
  /-- mln_websocket_parse; `a` is the address of the content -/
  | parse (a : Nat) (input : List (List Nat))
  /-- mln_websocket_reset -/
  | reset

/-- One call: what is sent, and what is left. -/
def step (sh : Nat → Nat → Nat) (s : S) : Op → Option (Except Ret (List Nat) × S)
  | .data bin p n new fin client server key =>
    if client ∧ server then some (.error .error, s)
    else emit s p n fin (if new then (if bin then 2 else 1) else 0) client key
  | .control pong client server key =>
    if client ∧ server then some (.error .error, s) else emit s none 0 true (if pong then 10 else 9) client key
  | .close p n client server key =>
    if client ∧ server then some (.error .error, s) else emit s p (if p = none then 0 else n) true 8 client key
  | .parse a input => do
    let r ← WebSocket.parse sh s.ws input
    match r with
    | .error e => some (.error e, s)
    | .ok (w, _) => do
      let s ← drop s
      match w.content with
      | none => some (.ok [], { s with ws := w, ptr := none, len := 0 })
      | some c => some (.ok [], { s with ws := w, ptr := some a, len := c.length, own := true, mem := (a, c) :: s.mem })
  | .reset => do
    let s ← drop s
    some (.ok [], { s with ws := fresh, ptr := none, len := 0 })

/-- Calls one after the other: all that is sent. -/
def run (sh : Nat → Nat → Nat) : List Op → S → Option (List Nat × S)
  | [], s => some ([], s)
  | o :: os, s => do
    let (r, s) ← step sh s o
    let (b, s) ← run sh os s
    some ((match r with | .ok c => c | .error _ => []) ++ b, s)

/-- mln_websocket_destroy. -/
def destroy (s : S) : Option Mem := (drop s).map S.mem

/-- A receiver: `k` frames. -/
def receive (sh : Nat → Nat → Nat) : Nat → Ws → List (List Nat) → Option (List Ws)
  | 0, _, _ => some []
  | k + 1, w, input =>
    match WebSocket.parse sh w input with
    | some (.ok (w, input)) => (receive sh k w input).map (w :: ·)
    | _ => none

end Verif.WsSend
