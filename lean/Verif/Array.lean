/-
Model of /repo/src/mln_array.c (mln_array_t, /repo/include/mln_array.h lines 15-28).

The element storage is a list of bytes whose length is the allocated size; an access
outside it is undefined behaviour (`none`).  `mln_size_t` arithmetic is modulo 2^64.
`malloc`/`pool_alloc` is an arbitrary function of time and size that fails or returns
a block of exactly the requested number of arbitrary bytes.  The calls of the element
destructor are recorded as the bytes of the element it is called on.
The growth loop of `mln_array_alloc` need not terminate, so it carries fuel; `none`
with every fuel means that the call never returns.
Following each push, the model performs the caller's write of the new element(s) into
the slot that was returned.
-/
namespace Verif.Array

abbrev Byte := UInt8

structure Arr where
  elts   : List Byte
  size   : Nat
  nalloc : Nat
  nelts  : Nat

structure M where
  arr   : Arr
  clock : Nat
  log   : List (List Byte)

abbrev Malloc := Nat → Nat → Option (List Byte)

def W : Nat := 2 ^ 64

/-- `memcpy(buf + off, v, v.length)`. -/
def writeAt (buf : List Byte) (off : Nat) (v : List Byte) : Option (List Byte) :=
  if off + v.length ≤ buf.length then some (buf.take off ++ v ++ buf.drop (off + v.length)) else none

/-- The `n` bytes at `off`. -/
def readAt (buf : List Byte) (off n : Nat) : Option (List Byte) :=
  if off + n ≤ buf.length then some ((buf.drop off).take n) else none

/-- Growth loop, mln_array.c lines 143-145: `while (n + nelts > num) num <<= 1`. -/
def growLoop (need : Nat) : Nat → Nat → Option Nat
  | 0, _ => none
  | fuel + 1, num => if need > num then growLoop need fuel (num * 2 % W) else some num

/-- mln_array_alloc, mln_array.c lines 140-163. -/
def alloc (A : Malloc) (fuel : Nat) (m : M) (n : Nat) : Option (Int × M) := do
  let num ← growLoop ((n + m.arr.nelts) % W) fuel m.arr.nalloc
  match A m.clock (num * m.arr.size % W) with
  | none => some (-1, { m with clock := m.clock + 1 })
  | some blk => do
    let src ← readAt m.arr.elts 0 (m.arr.nelts * m.arr.size % W)
    let blk ← writeAt blk 0 src
    some (0, { m with clock := m.clock + 1, arr := { m.arr with elts := blk, nalloc := num } })

/-- mln_array_init / mln_array_pool_init, mln_array.c lines 13-42. -/
def init (A : Malloc) (fuel : Nat) (clock : Nat) (size nalloc : Nat) : Option (Int × M) :=
  alloc A fuel { arr := { elts := [], size := size, nalloc := nalloc, nelts := 0 }, clock := clock, log := [] } nalloc

/-- mln_array_push, mln_array.c lines 120-126: the offset of the returned slot. -/
def push (A : Malloc) (fuel : Nat) (m : M) : Option (Option Nat × M) := do
  let (r, m) ← if m.arr.nelts ≥ m.arr.nalloc then alloc A fuel m 1 else some (0, m)
  if r < 0 then some (none, m)
  else
    let off := m.arr.nelts * m.arr.size % W
    some (some off, { m with arr := { m.arr with nelts := (m.arr.nelts + 1) % W } })

/-- mln_array_pushn, mln_array.c lines 128-138. -/
def pushn (A : Malloc) (fuel : Nat) (m : M) (n : Nat) : Option (Option Nat × M) := do
  let (r, m) ← if (m.arr.nelts + n) % W > m.arr.nalloc then alloc A fuel m n else some (0, m)
  if r < 0 then some (none, m)
  else
    let off := m.arr.nelts * m.arr.size % W
    some (some off, { m with arr := { m.arr with nelts := (m.arr.nelts + n) % W } })

/-- mln_array_pop, mln_array.c lines 165-172 (destructor given). -/
def pop (m : M) : Option M :=
  if m.arr.nelts = 0 then some m
  else do
    let e ← readAt m.arr.elts ((m.arr.nelts - 1) * m.arr.size % W) m.arr.size
    some { m with log := m.log ++ [e], arr := { m.arr with nelts := m.arr.nelts - 1 } }

/-- Destructor loop of mln_array_reset/destroy/free, mln_array.c lines 79-83, 94-98,
112-116: `for (p = elts; p < pend; p += size) free(p)`; `k` counts the elements left,
which for `size > 0` is exactly the number of iterations. -/
def freeLoop (a : Arr) : Nat → Nat → Option (List (List Byte))
  | 0, _ => some []
  | k + 1, p => do
    let e ← readAt a.elts p a.size
    let r ← freeLoop a k (p + a.size)
    some (e :: r)

/-- mln_array_reset, mln_array.c lines 109-118 (also the destructor part of
mln_array_destroy and mln_array_free). -/
def reset (m : M) : Option M := do
  let l ← freeLoop m.arr m.arr.nelts 0
  some { m with log := m.log ++ l, arr := { m.arr with nelts := 0 } }

/-- A call together with the caller's store into the returned slot. -/
inductive Op where
  | push (e : List Byte)
  | pushn (es : List (List Byte))
  | pop
  | reset
  | read (i : Nat)

inductive Out where
  | ok
  | null
  | elem (e : List Byte)
deriving DecidableEq

def store (r : Option Nat × M) (v : List Byte) : Option (Out × M) :=
  match r with
  | (none, m) => some (.null, m)
  | (some off, m) => do
    let b ← writeAt m.arr.elts off v
    some (.ok, { m with arr := { m.arr with elts := b } })

def step (A : Malloc) (fuel : Nat) (m : M) : Op → Option (Out × M)
  | .push e => (push A fuel m).bind fun r => store r e
  | .pushn es => (pushn A fuel m es.length).bind fun r => store r es.flatten
  | .pop => (pop m).map fun m => (.ok, m)
  | .reset => (reset m).map fun m => (.ok, m)
  | .read i => (readAt m.arr.elts (i * m.arr.size % W) m.arr.size).map fun e => (.elem e, m)

def run (A : Malloc) (fuel : Nat) (m : M) : List Op → Option (List Out × M)
  | [] => some ([], m)
  | op :: ops => do
    let (o, m) ← step A fuel m op
    let (os, m) ← run A fuel m ops
    some (o :: os, m)

end Verif.Array
