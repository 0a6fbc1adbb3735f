import Verif.Asn1

/-
Model of the frame functions of src/mln_websocket.c: mln_websocket_generate and
mln_websocket_parse, and the frame fields of mln_websocket_t.

Received data is the list of the chain's buffers, each as its bytes from left_pos to end (a node
without buffer is an empty one).  `none` is a read or write outside a buffer.  There is no
extension handler, and allocations succeed.  Left shifts that C leaves undefined (bytes shifted
by 32 or more, or into the sign bit and then widened, in the 64-bit length) yield an arbitrary
64-bit value given by the oracle `sh` of `Asn1.shl`.
-/

namespace Verif.WebSocket

/-- The frame fields of mln_websocket_t, include/mln_websocket.h 60-83; `content = none` is a
null pointer. -/
structure Ws where
  fin : Bool
  rsv1 : Bool
  rsv2 : Bool
  rsv3 : Bool
  opcode : Nat
  maskbit : Bool
  key : Nat
  status : Nat
  content : Option (List Nat)
  deriving DecidableEq

/-- Return codes other than M_WS_RET_OK. -/
inductive Ret where
  | error
  | notyet
  deriving DecidableEq

/-- tmpkey[i % 4], lines 740-743 and 930-933. -/
def keyByte (m i : Nat) : Nat := (m >>> (24 - 8 * (i % 4))) &&& 0xff

/-- The loops over the content, lines 750-752 and 941-943: bytes combined with the key from
position `i` on. -/
def maskFrom (m : Nat) : Nat → List Nat → List Nat
  | _, [] => []
  | i, c :: cs => (c ^^^ keyByte m i) :: maskFrom m (i + 1) cs

/-- The first byte of a frame, lines 711-716. -/
def byte1 (w : Ws) : Nat :=
  (((((if w.fin then 0x80 else 0) ||| (if w.rsv1 then 0x40 else 0)) ||| (if w.rsv2 then 0x20 else 0)) ||| (if w.rsv3 then 0x10 else 0)) ||| (w.opcode &&& 0xf))

/-- mln_websocket_generate, lines 644-763; `clen` is the content length.  `none` when the bytes
written are not those allocated. -/
def generate (w : Ws) (clen0 : Nat) : Option (Except Ret (List Nat)) :=
  if w.content = none ∧ clen0 ≠ 0 then some (.error .error)
  else
    let clen := if w.opcode = 8 then clen0 + 2 else clen0
    if (w.opcode = 8 ∨ w.opcode = 9 ∨ w.opcode = 10) ∧ clen > 125 then some (.error .error)
    else
      let size := 2 + (if clen > 125 then (if clen >>> 16 ≠ 0 then 8 else 2) else 0) + clen + (if w.maskbit then 4 else 0)
      let payload := if clen > 125 then (if clen >>> 16 ≠ 0 then 127 else 126) else clen
      let ext := if payload = 126 then [clen >>> 8 &&& 0xff, clen &&& 0xff]
        else if payload = 127 then
          [clen >>> 56 &&& 0xff, clen >>> 48 &&& 0xff, clen >>> 40 &&& 0xff, clen >>> 32 &&& 0xff, clen >>> 24 &&& 0xff, clen >>> 16 &&& 0xff, clen >>> 8 &&& 0xff, clen &&& 0xff]
        else []
      let pc := (w.content.getD []).take clen0
      let st := if w.opcode = 8 then [w.status >>> 8 &&& 0xff, w.status &&& 0xff] else []
      let body := if w.maskbit then
          [w.key >>> 24 &&& 0xff, w.key >>> 16 &&& 0xff, w.key >>> 8 &&& 0xff, w.key &&& 0xff] ++ maskFrom w.key 0 st ++ maskFrom w.key st.length pc
        else st ++ pc
      let out := [byte1 w, (if w.maskbit then 0x80 else 0) ||| (payload &&& 0x7f)] ++ ext ++ body
      if out.length = size then some (.ok out) else none

/-- Position in the received data: what is left of the current buffer, and the later ones. -/
abbrev Pos := List Nat × List (List Nat)

/-- The loops at again127, again126, againm, against and againc, lines 790-903: because
`tmp = p - end` is negative or zero, a non-empty rest of the buffer counts as enough for any
field, an empty one moves on to the next non-empty buffer, which then counts as enough.
Outer `none`: read past the end of the buffer; inner `none`: M_WS_RET_NOTYET. -/
def field (n : Nat) : Pos → Option (Option (List Nat × Pos))
  | ([], rest) =>
    if n = 0 then some (some ([], [], rest))
    else match rest.dropWhile (·.isEmpty) with
      | [] => some none
      | b :: bs => if n ≤ b.length then some (some (b.take n, b.drop n, bs)) else none
  | (cur, rest) => if n ≤ cur.length then some (some (cur.take n, cur.drop n, rest)) else none

/-- The first loop, lines 772-787: one byte, from whichever buffer has it. -/
def byte : Pos → Option (Nat × Pos)
  | (c :: cur, rest) => some (c, cur, rest)
  | ([], rest) =>
    match rest.dropWhile (·.isEmpty) with
    | (c :: cs) :: bs => some (c, cs, bs)
    | _ => none

/-- mln_websocket_parse, lines 765-973: the new fields and the data left. -/
def parse (sh : Nat → Nat → Nat) (w : Ws) (input : List (List Nat)) : Option (Except Ret (Ws × List (List Nat))) := do
  match byte ([], input) with
  | none => some (.error .notyet)
  | some (b1, pos) =>
  match byte pos with
  | none => some (.error .notyet)
  | some (b2, pos) =>
  let len := b2 &&& 0x7f
  match ← (if len = 127 then field 8 pos else if len = 126 then field 2 pos else some (some ([], pos))) with
  | none => some (.error .notyet)
  | some (l, pos) =>
  let len := if len = 127 then Asn1.lenVal sh l 0 else if len = 126 then Asn1.lenVal sh l 0 else len
  match ← (if b2 &&& 0x80 ≠ 0 then field 4 pos else some (some ([], pos))) with
  | none => some (.error .notyet)
  | some (k, pos) =>
  let key := k.foldl (fun a q => (a <<< 8) ||| q) 0
  let isClose := b1 &&& 0xf = 8 ∧ len > 1
  match ← (if len ≠ 0 ∧ isClose then field 2 pos else some (some ([], pos))) with
  | none => some (.error .notyet)
  | some (s, pos) =>
  let status := if len ≠ 0 then (if isClose then s.foldl (fun a q => (a <<< 8) ||| q) 0 else 0) else w.status
  let clen := if isClose then len - 2 else len
  match ← (if len ≠ 0 then field clen pos else some (some ([], pos))) with
  | none => some (.error .notyet)
  | some (c, pos) =>
  let masked := b2 &&& 0x80 ≠ 0
  let unmaskStatus := masked ∧ b1 &&& 0xf = 8 ∧ status ≠ 0
  let status' := if unmaskStatus then (((status >>> 8 &&& 0xff) ^^^ keyByte key 0) <<< 8) ||| ((status &&& 0xff) ^^^ keyByte key 1) else status
  let c := if masked then maskFrom key (if unmaskStatus then 2 else 0) c else c
  some (.ok ({
    fin := b1 &&& 0x80 ≠ 0, rsv1 := b1 &&& 0x40 ≠ 0, rsv2 := b1 &&& 0x20 ≠ 0, rsv3 := b1 &&& 0x10 ≠ 0,
    opcode := b1 &&& 0xf, maskbit := masked, key := if masked then key else 0, status := status',
    content := if len ≠ 0 then some c else none }, (pos.1 :: pos.2).dropWhile (·.isEmpty)))

/-- mln_websocket_close_generate, lines 550-578: the argument `status` is not used. -/
def closeGenerate (w : Ws) (reason : Option (List Nat)) (_status : Nat) (client server : Bool) (newKey : Nat) : Option (Except Ret (List Nat)) :=
  if client ∧ server then some (.error .error)
  else
    let w := { w with content := reason, fin := true, rsv1 := false, rsv2 := false, rsv3 := false, opcode := 8 }
    let w := if client then { w with maskbit := true, key := newKey } else { w with maskbit := false }
    generate w ((reason.getD []).length)

end Verif.WebSocket
