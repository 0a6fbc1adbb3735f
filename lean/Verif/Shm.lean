/-
Model of the shared-memory pool, /repo/src/mln_alloc.c (the functions named mln_alloc_shm_* and
mln_alloc_free_shm).

Addresses are numbers below 2^64; sizes are those of the 64-bit Linux build: sizeof
mln_alloc_t = 2048, mln_alloc_shm_t = 4144, mln_alloc_blk_t = 56.  The chain of mln_alloc_shm_t is a
list.  The header of each block that is handed out (mln_alloc_blk_t) is a record in the list `blks`
of the shared-memory block it lies in; a pointer given to free that has no such record is undefined
behaviour (`none`).  The theorems of Verif/ShmProps.lean show that headers, bitmaps and the bytes
of the caller never overlap, so the records cannot be destroyed by a caller that stays inside
its blocks.  Locking is left to Verif/Alloc.lean; mmap is not modelled.
-/
namespace Verif.Shm

/-- 2^64. -/
abbrev W : Nat := 18446744073709551616

/-- mln_alloc_blk_t of a live block, mln_alloc.h lines 50-60. -/
structure Blk where
  /-- address of the header; the caller gets `addr + 56` -/
  addr : Nat
  /-- `blk_size` -/
  size : Nat
  /-- `padding` -/
  pad : Nat
deriving DecidableEq, Repr

/-- mln_alloc_shm_t, mln_alloc.h lines 82-96. -/
structure As where
  addr : Nat
  size : Nat
  nfree : Nat
  base : Nat
  large : Bool
  bitmap : List (BitVec 8)
  blks : List Blk
deriving DecidableEq, Repr

/-- mln_alloc_t of a shared-memory pool, mln_alloc.h lines 98-118. -/
structure Pool where
  mem : Nat
  cap : Nat
  as : List As
deriving DecidableEq, Repr

/-- The number of 64-byte units for a request, lines 573 and 619. -/
def need (size : Nat) : Nat := (size + 56 + 63) / 64

/-- The loop over the bits of one byte, lines 588-604: the state is `none` for `save == NULL` and
otherwise `save`, `s`, `j`.  `j` stops at 0, where the loop ends. -/
def bitLoop (b : BitVec 8) (pos n : Nat) : Nat → Option (Nat × Nat × Nat) → Option (Nat × Nat × Nat)
  | 0, st => st
  | i + 1, st =>
    if b.getLsbD i = false then
      let t := st.getD (pos, i, n)
      if t.2.2 - 1 = 0 then some (t.1, t.2.1, 0)
      else bitLoop b pos n i (some (t.1, t.2.1, t.2.2 - 1))
    else bitLoop b pos n i none

/-- The loop over the bytes, lines 578-611. -/
def byteLoop (n : Nat) : List (BitVec 8) → Nat → Option (Nat × Nat × Nat) → Option (Nat × Nat)
  | [], _, _ => none
  | b :: bm, pos, st =>
    if b = 0xff then byteLoop n bm (pos + 1) none
    else
      match bitLoop b pos n 8 st with
      | some (sv, s, 0) => some (sv, s)
      | st' => byteLoop n bm (pos + 1) st'

/-- mln_alloc_shm_allowed, lines 568-613: `Boff` and `boff`. -/
def allowed (a : As) (size : Nat) : Option (Nat × Nat) :=
  if need size > a.nfree then none else byteLoop (need size) a.bitmap 0 none

/-- `*p |= 1 << i` or `*p &= ~(1 << i)`. -/
def setBit (v : Bool) (i : Nat) (b : BitVec 8) : BitVec 8 :=
  if v then b ||| (1#8 <<< i) else b &&& ~~~(1#8 <<< i)

/-- The loop of lines 635-643 (`v`: set) and 664-672 (clear).  A byte beyond the bitmap is
undefined behaviour; clearing would stop there. -/
def runLoop (v : Bool) : Nat → List (BitVec 8) → Nat → Nat → Option (List (BitVec 8))
  | 0, bm, _, _ => some bm
  | n + 1, bm, p, i =>
    if p < bm.length then
      let bm := bm.modify p (setBit v i)
      if n = 0 then some bm
      else if i = 0 then runLoop v n bm (p + 1) 7 else runLoop v n bm p (i - 1)
    else none

/-- mln_alloc_shm_set_bitmap, lines 615-646: the pointer returned and the new state. -/
def setBitmap (a : As) (Boff boff size : Nat) : Option (Nat × As) := do
  let addr := a.addr + (Boff * 8 + (7 - boff)) * 64
  let bm ← runLoop true (need size) a.bitmap Boff boff
  some (addr + 56,
    { a with
      bitmap := bm
      nfree := a.nfree - need size
      blks := ⟨addr, size, Boff % 65536 * 256 + boff % 256⟩ :: a.blks })

/-- The bitmap of a new block, lines 66-78: the first 65 bits are set. -/
def freshMap : List (BitVec 8) := List.replicate 8 0xff ++ 0x80 :: List.replicate 4087 0

/-- The mln_alloc_shm_t written at `p`, lines 42-49 and 71-82. -/
def fresh (size : Nat) (large : Bool) (p : Nat) : As :=
  if large then { addr := p, size, nfree := 1, base := 1, large, bitmap := [], blks := [] }
  else { addr := p, size, nfree := size / 64 - 65, base := size / 64 - 65, large, bitmap := freshMap, blks := [] }

/-- The search for a gap, lines 34-40, and the insertion before the block that ends it, lines
50-64: the chain before the new block, the address, the chain behind it. -/
def place (size hi : Nat) : Nat → List As → Option (List As × Nat × List As)
  | p, [] => if (hi + W - p) % W < size then none else some ([], p, [])
  | p, t :: ts =>
    if (t.addr + W - p) % W ≥ size then some ([], p, t :: ts)
    else
      match place size hi (t.addr + t.size) ts with
      | none => none
      | some (l, q, r) => some (t :: l, q, r)

/-- The loop over the chain, lines 527-531: the first block that has room. -/
def pick (size : Nat) : List As → Option (List As × As × (Nat × Nat) × List As)
  | [] => none
  | a :: as =>
    match allowed a size with
    | some o => some ([], a, o, as)
    | none =>
      match pick size as with
      | none => none
      | some (l, x, o, r) => some (a :: l, x, o, r)

/-- mln_alloc_shm_m, lines 512-535, with mln_alloc_shm_large_m, lines 537-554, and
mln_alloc_shm_new_block, lines 556-566. -/
def alloc (s : Pool) (size : Nat) : Option (Option Nat × Pool) :=
  if size > 1572864 then
    match place ((size + 4200) % W) (s.mem + s.cap) (s.mem + 2048) s.as with
    | none => some (none, s)
    | some (l, p, r) =>
      let a := fresh ((size + 4200) % W) true p
      some (some (p + 4200), { s with as := l ++ { a with nfree := 0, blks := [⟨p + 4144, size, 0⟩] } :: r })
  else
    match pick size s.as with
    | some (l, a, (B, b), r) => do
      let (q, a) ← setBitmap a B b size
      some (some q, { s with as := l ++ a :: r })
    | none =>
      match place 2097152 (s.mem + s.cap) (s.mem + 2048) s.as with
      | none => some (none, s)
      | some (l, p, r) => do
        let a := fresh 2097152 false p
        let (B, b) ← allowed a size
        let (q, a) ← setBitmap a B b size
        some (some q, { s with as := l ++ a :: r })

/-- mln_alloc_free_shm on one block of the chain, lines 648-677: `none` if the block goes out of the
chain. -/
def freeIn (a : As) (b : Blk) : Option (Option As) :=
  if a.large then some none
  else do
    let n := need b.size
    let bm ← runLoop false n a.bitmap (b.pad / 256 % 65536) (b.pad % 256)
    let a := { a with bitmap := bm, nfree := a.nfree + n, blks := a.blks.erase b }
    if a.nfree = a.base then some none else some (some a)

/-- mln_alloc_free_shm, lines 648-677: the header before `ptr` leads to its mln_alloc_shm_t. -/
def freeAs (ptr : Nat) : List As → Option (List As)
  | [] => none
  | a :: as =>
    match a.blks.find? (fun b => b.addr + 56 == ptr) with
    | some b => (freeIn a b).map (fun o => o.toList ++ as)
    | none => (freeAs ptr as).map (a :: ·)

/-- mln_alloc_free of a pointer into a shared-memory pool, lines 445-455. -/
def free (s : Pool) (ptr : Nat) : Option Pool :=
  (freeAs ptr s.as).map (fun as => { s with as })

/-- mln_alloc_shm_init, lines 83-144: refused below the minimum. -/
def init (mem cap : Nat) : Option Pool :=
  if cap < 2097152 + 1024 then none else some ⟨mem, cap, []⟩

/-- mln_alloc_shm_count_bits, lines 679-684. -/
def countBits (n : BitVec 8) : BitVec 8 :=
  let n := n - ((n >>> 1) &&& 0x55)
  let n := (n &&& 0x33) + ((n >>> 2) &&& 0x33)
  (n + (n >>> 4)) &&& 0x0f

/-- mln_alloc_available_capacity of a shared-memory pool, lines 686-704. -/
def available (s : Pool) : Nat :=
  let sum := (s.as.map (fun a => (a.bitmap.map (fun b => (countBits b).toNat)).sum)).sum
  (32768 + W - sum % W) % W * 64 % W

end Verif.Shm
