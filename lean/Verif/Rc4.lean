/-
Model of /repo/src/mln_rc.c (RC4).

Buffers (`s`, `key`, `data`) are byte lists; every read and write is checked and `none` is
an access outside the buffer or the division by zero of `i % len` with `len = 0`.
`mln_u32_t i, j, t` are `Nat`s: they are reduced modulo 256 before each use, and the sums
stay far below 2^32 (`k[i]` holds a byte value).
-/
namespace Verif.Rc4

abbrev Byte := BitVec 8

/-- Checked store. -/
def wr (l : List Byte) (i : Nat) (v : Byte) : Option (List Byte) := if i < l.length then some (l.set i v) else none

/-- First loop of mln_rc4_init, lines 18-21 (`i` counts up from 0 to `n`): fills `s` and
returns it with the array `k`. -/
def fill (key : List Byte) (len : Nat) : Nat → List Byte → Option (List Byte × List Byte)
  | 0, s => some (s, [])
  | n + 1, s => do
    let (s, k) ← fill key len n s
    let s ← wr s n (BitVec.ofNat 8 n)
    if len = 0 then none
    else
      let b ← key[n % len]?
      some (s, k ++ [b])

/-- `tmp = s[i]; s[i] = s[j]; s[j] = tmp` (lines 24-26 and 44-46). -/
def swap (s : List Byte) (i j : Nat) : Option (List Byte) := do
  let tmp ← s[i]?
  let x ← s[j]?
  let s ← wr s i x
  wr s j tmp

/-- Second loop of mln_rc4_init, lines 22-27: state after `n` rounds, with `j`. -/
def mix (k : List Byte) : Nat → List Byte → Option (List Byte × Nat)
  | 0, s => some (s, 0)
  | n + 1, s => do
    let (s, j) ← mix k n s
    let a ← s[n]?
    let b ← k[n]?
    let j := (j + a.toNat + b.toNat) % 256
    let s ← swap s n j
    some (s, j)

/-- mln_rc4_init, lines 10-28. -/
def init (s key : List Byte) (len : Nat) : Option (List Byte) := do
  let (s, k) ← fill key len 256 s
  let (s, _) ← mix k 256 s
  some s

/-- Loop of mln_rc4_calc, lines 40-49: `n` bytes remain, the next is at index `k`. -/
def calcLoop : Nat → Nat → Nat → Nat → List Byte → List Byte → Option (List Byte)
  | 0, _, _, _, _, data => some data
  | n + 1, k, i, j, st, data => do
    let i := (i + 1) % 256
    let a ← st[i]?
    let j := (j + a.toNat) % 256
    let st ← swap st i j
    let x ← st[i]?
    let y ← st[j]?
    let t := (x.toNat + y.toNat) % 256
    let z ← st[t]?
    let d ← data[k]?
    let data ← wr data k (d ^^^ z)
    calcLoop n (k + 1) i j st data

/-- mln_rc4_calc, lines 30-50: `memcpy(stmp, s, 256)`, then the loop.  The caller's `s` is
not written. -/
def calc_ (s data : List Byte) (len : Nat) : Option (List Byte) :=
  if s.length < 256 then none else calcLoop len 0 0 0 (s.take 256) data

end Verif.Rc4
