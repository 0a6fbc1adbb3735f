/-
Model of /repo/src/mln_base64.c: mln_base64_encode (lines 12-56) and
mln_base64_decode (lines 104-154).  The pool variants (lines 58-102, 156-206) have the
same bodies up to the allocator.

Bytes are `BitVec 8`.  Reads of `in[]`, `ascii[]`, `base_map[]` and writes of `o[]` are
checked; `none` is undefined behaviour.  `calloc` is assumed to succeed; lengths are
mathematical integers (no 64-bit wrap: the buffers could not exist).
The loops carry fuel (`none` when exhausted); the theorems show it is never exhausted.
-/
namespace Verif.Base64

abbrev Byte := BitVec 8

/-- base_map, line 10 (64 letters and the terminating NUL). -/
def baseMap : List Byte :=
  ("ABCDEFGHIJKLMNOPQRSTUVWXYZabcdefghijklmnopqrstuvwxyz0123456789+/".toList.map
    fun c => BitVec.ofNat 8 c.toNat) ++ [0]

/-- `base_map[x]`. -/
def bm (x : Byte) : Option Byte := baseMap[x.toNat]?

def eq' : Byte := BitVec.ofNat 8 '='.toNat

/-- `o[j] = x`. -/
def put (o : List Byte) (j : Nat) (x : Byte) : Option (List Byte) :=
  if j < o.length then some (o.set j x) else none

/-- Encoding loop, lines 26-53. -/
def encLoop (inp : List Byte) : Nat → Nat → Nat → Nat → List Byte → Option (List Byte)
  | 0, _, _, _, _ => none
  | fuel + 1, i, state, j, o =>
    if i < inp.length then do
      let a ← inp[i]?
      if state = 0 then
        let c ← bm ((a >>> 2) &&& 0x3f)
        let o ← put o j c
        encLoop inp fuel i 1 (j + 1) o
      else if state = 1 then
        if i + 1 ≥ inp.length then
          let c ← bm ((a &&& 0x3) <<< 4)
          let o ← put o j c
          let o ← put o (j + 1) eq'
          let o ← put o (j + 2) eq'
          some o
        else
          let b ← inp[i + 1]?
          let c ← bm (((a &&& 0x3) <<< 4) ||| ((b >>> 4) &&& 0xf))
          let o ← put o j c
          encLoop inp fuel (i + 1) 2 (j + 1) o
      else
        if i + 1 ≥ inp.length then
          let c ← bm ((a &&& 0xf) <<< 2)
          let o ← put o j c
          let o ← put o (j + 1) eq'
          some o
        else
          let b ← inp[i + 1]?
          let c ← bm (((a &&& 0xf) <<< 2) ||| ((b >>> 6) &&& 0x3))
          let o ← put o j c
          let c ← bm (b &&& 0x3f)
          let o ← put o (j + 1) c
          encLoop inp fuel (i + 2) 0 (j + 2) o
    else some o

/-- *outlen, lines 18-19. -/
def encLen (n : Nat) : Nat := if n % 3 ≠ 0 then n / 3 * 4 + 4 else n / 3 * 4

/-- mln_base64_encode, lines 12-56: the buffer `*out` (`*outlen + 1` bytes). -/
def encodeBuf (inp : List Byte) : Option (List Byte) :=
  encLoop inp (inp.length + 1) 0 0 0 (List.replicate (encLen inp.length + 1) 0)

/-- The caller's view: the `*outlen` bytes of the result. -/
def encode (inp : List Byte) : Option (List Byte) :=
  (encodeBuf inp).map fun o => o.take (encLen inp.length)

/-- ascii[], lines 110-115. -/
def ascii : List Byte :=
  (List.range 64).foldl (fun t i => t.set ((baseMap.getD i 0).toNat) (BitVec.ofNat 8 i)) (List.replicate 256 0)

/-- `ascii[c]`. -/
def as (c : Byte) : Option Byte := ascii[c.toNat]?

/-- Decoding loop, lines 125-151. -/
def decLoop (inp : List Byte) : Nat → Nat → Nat → Nat → List Byte → Option (List Byte)
  | 0, _, _, _, _ => none
  | fuel + 1, i, state, j, o =>
    if i < inp.length then do
      let a ← inp[i]?
      let v ← as a
      if state = 0 then
        let o ← put o j (v <<< 2)
        decLoop inp fuel (i + 1) 1 j o
      else if state = 1 then
        let x ← o[j]?
        let o ← put o j (x ||| ((v >>> 4) &&& 0x3))
        decLoop inp fuel i 2 (j + 1) o
      else if state = 2 then
        let o ← put o j ((v &&& 0xf) <<< 4)
        decLoop inp fuel (i + 1) 3 j o
      else if state = 3 then
        if a = eq' then some o
        else
          let x ← o[j]?
          let o ← put o j (x ||| ((v >>> 2) &&& 0xf))
          decLoop inp fuel i 4 (j + 1) o
      else if state = 4 then
        let o ← put o j ((v &&& 0x3) <<< 6)
        decLoop inp fuel (i + 1) 5 j o
      else
        if a = eq' then some o
        else
          let x ← o[j]?
          let o ← put o j (x ||| (v &&& 0x3f))
          decLoop inp fuel (i + 1) 0 (j + 1) o
    else some o

/-- Result of mln_base64_decode: failure code, or the decoded `*outlen` bytes. -/
inductive Res where
  | fail
  | ok (out : List Byte)
deriving DecidableEq

/-- Lines 117-119: *outlen; reads `in[inlen-1]` and `in[inlen-2]` (offsets that wrap
below zero are outside the input, so `none`). -/
def decLen (inp : List Byte) : Option Nat :=
  if inp.length < 2 then none
  else do
    let x ← inp[inp.length - 1]?
    let y ← inp[inp.length - 2]?
    let n := inp.length / 4 * 3
    let n := if x = eq' then n - 1 else n
    some (if y = eq' then n - 1 else n)

/-- mln_base64_decode, lines 104-154. -/
def decode (inp : List Byte) : Option Res :=
  if inp.length % 4 ≠ 0 then some .fail
  else do
    let n ← decLen inp
    let o ← decLoop inp (2 * inp.length + 1) 0 0 0 (List.replicate (n + 1) 0)
    some (.ok (o.take n))

end Verif.Base64
