import Verif.BigEndianProps

/-
Model of the forward error correction, /repo/src/mln_fec.c.

A packet is its list of bytes; `packlen[i]` is its length.  mln_bigendian_encode and
mln_bigendian_decode are `BigEndian.be` and `BigEndian.val` (their macros are modelled in
Verif/BigEndian.lean, encode_spec and decode_spec there).  Reads behind a packet or the array of
packets, writes behind a buffer and shifts by a negative count or by 64 and more are undefined
behaviour: the result is `none`.

Simplifications: allocations succeed; the results are lists.
-/
namespace Verif.Fec

export Verif.BigEndian (Byte U64 be val)

abbrev Packet := List Byte

/-- `long` with `short` xored in from the front. -/
def xorInto : List Byte → List Byte → List Byte
  | l, [] => l
  | [], _ :: _ => []
  | x :: l, y :: s => (x ^^^ y) :: xorInto l s

/-- mln_fec_xor, lines 28-57. -/
def fxor (a b : List Byte) : List Byte := if a.length > b.length then xorInto a b else xorInto b a

/-- Bytes `i` .. `i + k - 1` as a number. -/
def num (p : List Byte) (i k : Nat) : Nat := val ((p.drop i).take k)

/-- The sequence number, e.g. lines 157-158. -/
def seqNo (p : Packet) : Nat := num p 2 2

/-- The bit string of a packet, lines 117-121 and 379-383. -/
def bits (p : Packet) : List Byte := p.take 8 ++ be (BitVec.ofNat 64 (p.length - 12)) 2

/-- mln_fec_generate_fecpacket_fecheader, lines 97-144. -/
def fecHeader (ps : List Packet) : List Byte :=
  let r := ps.foldl (fun t p => fxor (bits p) t) (List.replicate 10 0)
  let p0 := ps.headD []
  [(r.getD 0 0 &&& 0x3f) ||| (if ps.length > 16 then 0x40 else 0), r.getD 1 0, p0.getD 2 0, p0.getD 3 0,
    r.getD 4 0, r.getD 5 0, r.getD 6 0, r.getD 7 0, r.getD 8 0, r.getD 9 0]

/-- The loops of lines 184-188 and 192-196: `top` is 47 or 15. -/
def maskOf (top base : Nat) : List Packet → U64 → Option U64
  | [], m => some m
  | p :: ps, m =>
    let s : Int := top - ((seqNo p : Int) - base)
    if s < 0 ∨ 64 ≤ s then none else maskOf top base ps (m ||| ((1 : U64) <<< s.toNat))

/-- mln_fec_generate_fecpacket_fecbody, lines 146-207. -/
def fecBody (ps : List Packet) : Option (List Byte) :=
  let base := seqNo (ps.headD [])
  let last := seqNo (ps.getLastD [])
  let r := ps.foldl (fun t p => fxor p t) [0]
  let long : Bool := ps.length > 16 ∨ (last : Int) - base > 16
  match maskOf (if long then 47 else 15) base ps 0 with
  | none => none
  | some m => some (be (BitVec.ofNat 64 r.length) 2 ++ be m (if long then 6 else 2) ++ r.drop 12)

/-- mln_fec_generate_fecpacket, lines 209-253: `pt`, `sq` are `fec->pt` and `fec->seq_no`. -/
def generate (pt sq : Nat) (ps : List Packet) : Option Packet :=
  match fecBody ps with
  | none => none
  | some b =>
    let body := fecHeader ps ++ b
    let len := 12 + body.length
    let mod := len % 4
    if len + mod > 1472 then none
    else
      some ([if mod = 0 then 0x80 else 0xa0, BitVec.ofNat 8 pt] ++ be (BitVec.ofNat 64 sq) 2 ++ ((ps.getLastD []).drop 4).take 8 ++ body ++
        if mod = 0 then [] else List.replicate (mod - 1) 0 ++ [BitVec.ofNat 8 mod])

/-- The loop of lines 291-297; reading behind `packets` is undefined. -/
def groups (pt g : Nat) : Nat → Nat → List Packet → Option (List Packet × Nat)
  | _, sq, [] => some ([], sq)
  | 0, _, _ :: _ => none
  | fuel + 1, sq, ps =>
    if ps.length < g then none
    else
      match generate pt sq (ps.take g) with
      | none => none
      | some f =>
        match groups pt g fuel ((sq + 1) % 65536) (ps.drop g) with
        | none => none
        | some (fs, sq) => some (f :: fs, sq)

/-- mln_fec_encode, lines 255-304: `some none` is the error EINVAL, otherwise the packets and the next
`seq_no`. -/
def encode (pt sq : Nat) (ps : List Packet) (g : Nat) : Option (Option (List Packet × Nat)) :=
  if ps = [] ∨ g > 48 ∨ g = 0 then some none
  else if ps.any (fun p => p.length < 12 ∨ p.length > 1442) then some none
  else (groups pt g ps.length sq ps).map some

/-- Is this a FEC packet?  Lines 362, 463, 515. -/
def isFec (pt : Nat) (p : Packet) : Bool := (p.getD 1 0 &&& 0x7f).toNat == pt

/-- The mask bit `is_long`, lines 318-321. -/
def isLong (f : Packet) : Bool := (f.getD 12 0 &&& 0x40) != 0

/-- The loops of lines 361-390 and 462-485: `k` adds a packet to the accumulator. -/
def loop (pt base : Nat) (long : Bool) (k : List Byte → Packet → List Byte) : List Packet → U64 → List Byte → Option (List Byte × U64)
  | [], m, acc => some (acc, m)
  | p :: ps, m, acc =>
    if isFec pt p then loop pt base long k ps m acc
    else if seqNo p < base then loop pt base long k ps m acc
    else
      let s : Int := (if long then 47 else 15) - ((seqNo p : Int) - base)
      if s < 0 then none
      else if m &&& ((1 : U64) <<< s.toNat) = 0 then loop pt base long k ps m acc
      else loop pt base long k ps (m &&& ~~~((1 : U64) <<< s.toNat)) (k acc p)

/-- The loop of lines 396-404: the lowest bit of the mask, and the bits above it. -/
def lowest : Nat → Nat → U64 → Nat × U64
  | 0, i, m => (i, m)
  | fuel + 1, i, m => if m = 0 then (i, m) else if m &&& 1 ≠ 0 then (i, m >>> 1) else lowest fuel (i + 1) (m >>> 1)

/-- The mask of a FEC packet, lines 328-335. -/
def maskIn (f : Packet) : U64 := BitVec.ofNat 64 (num f 24 (if isLong f then 6 else 2))

inductive Header where
  /-- errno = EFAULT -/
  | fail
  /-- `*blen = 0` -/
  | nothing
  /-- the first 12 bytes, and `body_len` -/
  | ok (h : List Byte) (bodyLen : Nat)
deriving DecidableEq, Repr

/-- mln_fec_decode_header, lines 338-434. -/
def decHeader (pt : Nat) (f : Packet) (ps : List Packet) : Option Header :=
  let base := num f 14 2
  match loop pt base (isLong f) (fun t p => fxor t (bits p)) ps (maskIn f) (List.replicate 10 0) with
  | none => none
  | some (res, m) =>
    if m = 0 then some .nothing
    else
      let (i, m') := lowest 64 0 m
      if m' ≠ 0 then some .fail
      else
        let sn := ((if isLong f then 47 else 15) + 65536 - i + base) % 65536
        let r := fxor res ((f.drop 12).take 10)
        some (.ok ([(r.getD 0 0 &&& 0x3f) ||| 0x80, r.getD 1 0] ++ be (BitVec.ofNat 64 sn) 2 ++ [r.getD 4 0, r.getD 5 0, r.getD 6 0, r.getD 7 0] ++ (f.drop 8).take 4) (num r 8 2))

/-- mln_fec_decode_body, lines 436-490: the bytes put behind the header. -/
def decBody (pt : Nat) (f : Packet) (ps : List Packet) (bodyLen : Nat) : Option (List Byte) :=
  let base := num f 14 2
  let protect := num f 22 2
  let off := if isLong f then 30 else 26
  if protect > 1472 ∨ off < f.length ∧ (protect < 12 ∨ f.length < off + (protect - 12)) then none
  else
    let body := ((List.replicate 12 0 ++ if off < f.length then (f.drop off).take (protect - 12) else []) ++ List.replicate 1472 0).take protect
    match loop pt base (isLong f) (fun t p => fxor t (p.take protect)) ps (maskIn f) body with
    | none => none
    | some (res, _) => if res.length < 12 + bodyLen ∨ 1472 < 12 + bodyLen then none else some ((res.drop 12).take bodyLen)

inductive Res where
  /-- NULL with errno -/
  | fail
  /-- a result without packets -/
  | nothing
  | packet (p : Packet)
deriving DecidableEq, Repr

/-- mln_fec_decode, lines 492-580. -/
def decode (pt : Nat) (ps : List Packet) : Option Res :=
  if ps = [] then some .fail
  else if ps.any (fun p => p.length < 12 ∨ p.length > 1472 ∨ isFec pt p ∧ (p.length < 26 ∨ isLong p ∧ p.length < 30)) then some .fail
  else
    match ps.filter (isFec pt) with
    | [] => some .nothing
    | [f] =>
      match decHeader pt f ps with
      | none => none
      | some .fail => some .fail
      | some .nothing => some .nothing
      | some (.ok h n) => (decBody pt f ps n).map (fun b => .packet (h ++ b))
    | _ => some .fail

end Verif.Fec
