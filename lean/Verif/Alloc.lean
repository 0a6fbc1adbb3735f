import Verif.Shm

/-
Model of the memory pool, /repo/src/mln_alloc.c.

A pool takes its chunks from its parent: another pool, a shared-memory pool (Verif/Shm.lean), or
malloc.  `Mem` is a pool with all its ancestors.  Addresses are numbers below 2^64, sizes those of
the 64-bit Linux build: sizeof mln_alloc_blk_t = 56, mln_alloc_chunk_t = 88.  Arithmetic on sizes
is modulo 2^64.

malloc and calloc: the address comes from outside (`Ans.addr`); it is taken if it is not 0, is a
multiple of 16 and the block fits between the live ones, and the call fails otherwise.  `Ans.lock`
is the outcome of locking a shared-memory parent.  Freeing what is not live is undefined behaviour
(`none`), and so is a failing ASSERT.

Simplifications: the chunk lists of all managers and the list of large chunks are one list
(`chunks`, the manager in `cls`); a chunk holds the headers of its blocks; the list of used blocks is
not kept, as it serves nothing, a block has the flag `used` (`in_used`).  The headers live in
memory next to the bytes of the caller; that no caller staying inside its blocks can change them is
proved (meta_safe).  Zeroing by mln_alloc_c is not modelled.  Ghosts: `req` (what the caller asked
for), `leak` (what was charged to the pool and not taken back).
-/
namespace Verif.Alloc

export Verif.Shm (W)

/-- mln_alloc_blk_t, mln_alloc.h lines 50-60. -/
structure Blk where
  /-- address of the header; the caller gets `addr + 56` -/
  addr : Nat
  size : Nat
  used : Bool
  req : Nat
deriving DecidableEq, Repr

/-- mln_alloc_chunk_t, mln_alloc.h lines 62-70; `cls` is the index of `mgr`, `none` for a large
chunk. -/
structure Chunk where
  addr : Nat
  size : Nat
  refer : Nat
  count : Nat
  cls : Option Nat
  blks : List Blk
deriving DecidableEq, Repr

/-- mln_alloc_t of a pool that is not in shared memory, mln_alloc.h lines 98-118. -/
structure Pool where
  cap : Nat
  inUsed : Nat
  /-- `mgr_tbl[c].free_head` .. `free_tail`: addresses of headers -/
  free : Nat → List Nat
  chunks : List Chunk
  leak : Nat

/-- A pool and where its memory comes from. -/
inductive Mem where
  /-- malloc, with the blocks that are live -/
  | heap (live : List (Nat × Nat))
  | shm (s : Shm.Pool)
  | pool (p : Pool) (up : Mem)

/-- What the outside answers during one call. -/
structure Ans where
  addr : Nat
  lock : Bool

/-- The sum of bits of lines 189-192. -/
def onesN (k : Nat) : Nat := (List.range k).foldl (fun a j => a ||| (1 <<< j)) 0

/-- `blk_size` of an even manager, lines 188-197. -/
def evenSize (i : Nat) : Nat := onesN (i / 2 + 4) + 1

/-- mln_alloc_mgr_table_init, lines 184-206: `mgr_tbl[i].blk_size`. -/
def tbl (i : Nat) : Nat :=
  if i % 2 = 0 then evenSize i else (evenSize (i + 1) + evenSize (i - 1)) >>> 1

/-- mln_alloc_get_mgr_by_size, lines 369-393; bsr is the position of the highest bit. -/
def clsOf (size : Nat) : Option Nat :=
  if size > tbl 34 then none
  else if size ≤ tbl 0 then some 0
  else
    let off := (Nat.log2 size - 4) * 2
    if tbl off ≥ size then some off
    else if tbl (off + 1) ≥ size then some (off + 1)
    else some (off + 2)

/-- `((x + 3) >> 2) << 2`. -/
def up4 (x : Nat) : Nat := (x + 3) / 4 * 4

/-- The distance of the blocks in a chunk, lines 306-307. -/
def span (c : Nat) : Nat := up4 (56 + tbl c)

/-- The size of a chunk, lines 309-310. -/
def chunkSz (c : Nat) : Nat := up4 (88 + 4 * span c)

/-- The size of a large chunk, lines 267-268. -/
def largeSz (size : Nat) : Nat := (size + 56 + 88 + 3) % W / 4 * 4

/-- mln_alloc_init, lines 146-182. -/
def empty (cap : Nat) : Pool := { cap, inUsed := 0, free := fun _ => [], chunks := [], leak := 0 }

/-- `f` with `x` at `k`. -/
def upd {α : Type} (f : Nat → α) (k : Nat) (x : α) : Nat → α := fun i => if i = k then x else f i

/-- The charge against the capacity, lines 270-275 and 312-318. -/
def charge (p : Pool) (n : Nat) : Option Pool :=
  if p.cap = 0 then some p
  else if (n + p.inUsed) % W > p.cap then none
  else some { p with inUsed := (p.inUsed + n) % W }

/-- What stays charged when the parent has no memory (nothing takes the charge back). -/
def lose (p : Pool) (n : Nat) : Pool := if p.cap = 0 then p else { p with leak := p.leak + n }

/-- Is the parent in shared memory and its lock not to be had?  Lines 278-281, 321-324. -/
def noLock (ans : Ans) : Mem → Bool
  | .shm _ => !ans.lock
  | _ => false

/-- Two regions have no byte in common. -/
def Sep (x y : Nat × Nat) : Prop := x.1 + x.2 ≤ y.1 ∨ y.1 + y.2 ≤ x.1

instance (x y : Nat × Nat) : Decidable (Sep x y) := by unfold Sep; infer_instance

/-- A block out of the free list of manager `c`, lines 359-365 (label `out`). -/
def take (p : Pool) (c n : Nat) : Option (Nat × Pool) :=
  match (p.free c).getLast? with
  | none => none
  | some b =>
    some (b + 56, { p with
      free := upd p.free c (p.free c).dropLast
      chunks := p.chunks.map (fun ch =>
        if ch.blks.any (fun x => x.addr == b) then
          { ch with refer := ch.refer + 1, blks := ch.blks.map (fun x => if x.addr == b then { x with used := true, req := n } else x) }
        else ch) })

/-- The loop at the label `oom`, lines 332-337: the first manager from `c` on with a free block. -/
def oom (p : Pool) (n : Nat) : Nat → Nat → Option (Nat × Pool)
  | _, 0 => none
  | c, k + 1 => if p.free c ≠ [] then take p c n else oom p n (c + 1) k

/-- A new chunk at `q` for manager `c`, lines 339-357. -/
def grow (p : Pool) (c q : Nat) : Pool :=
  let blk (i : Nat) : Blk := { addr := q + 88 + i * span c, size := tbl c, used := false, req := 0 }
  { p with
    free := upd p.free c (p.free c ++ [q + 88, q + 88 + span c, q + 88 + 2 * span c, q + 88 + 3 * span c])
    chunks := p.chunks ++ [{ addr := q, size := chunkSz c, refer := 0, count := 0, cls := some c, blks := [blk 0, blk 1, blk 2, blk 3] }] }

/-- The chunk of a large block at `q`, lines 290-301. -/
def largeChunk (q n : Nat) : Chunk :=
  { addr := q, size := largeSz n, refer := 1, count := 0, cls := none, blks := [⟨q + 88, (largeSz n + W - 144) % W, true, n⟩] }

/-- mln_alloc_m, lines 249-367. -/
def alloc (ans : Ans) : Mem → Nat → Option (Option Nat × Mem)
  | .heap L, n =>
    if ans.addr ≠ 0 ∧ ans.addr % 16 = 0 ∧ ans.addr + n < W ∧ ∀ x ∈ L, x.1 ≠ ans.addr ∧ Sep x (ans.addr, n) then
      some (some ans.addr, .heap ((ans.addr, n) :: L))
    else some (none, .heap L)
  | .shm s, n => (Shm.alloc s n).map (fun r => (r.1, .shm r.2))
  | .pool p up, n =>
    match clsOf n with
    | none =>
      match charge p (largeSz n) with
      | none => some (none, .pool p up)
      | some p1 =>
        if noLock ans up then some (none, .pool (lose p1 (largeSz n)) up)
        else
          match alloc ans up (largeSz n) with
          | none => none
          | some (none, up) => some (none, .pool (lose p1 (largeSz n)) up)
          | some (some q, up) =>
            some (some (q + 88 + 56), .pool { p1 with chunks := p1.chunks ++ [largeChunk q n] } up)
    | some c =>
      if p.free c = [] then
        match charge p (chunkSz c) with
        | none =>
          match oom p n c (35 - c) with
          | none => some (none, .pool p up)
          | some (r, p) => some (some r, .pool p up)
        | some p1 =>
          if noLock ans up then some (none, .pool (lose p1 (chunkSz c)) up)
          else
            match alloc ans up (chunkSz c) with
            | none => none
            | some (none, up) =>
              match oom (lose p1 (chunkSz c)) n c (35 - c) with
              | none => some (none, .pool (lose p1 (chunkSz c)) up)
              | some (r, p) => some (some r, .pool p up)
            | some (some q, up) => (take (grow p1 c q) c n).map (fun r => (some r.1, .pool r.2 up))
      else (take p c n).map (fun r => (some r.1, .pool r.2 up))

/-- The end of mln_alloc_free for a chunk that goes back, lines 473-476 and 504-507. -/
def uncharge (p : Pool) (n : Nat) : Option Pool :=
  if p.cap = 0 then some p
  else if p.inUsed < n then none
  else some { p with inUsed := p.inUsed - n }

/-- mln_alloc_free, lines 431-510. -/
def free (ans : Ans) : Mem → Nat → Option Mem
  | .heap L, ptr => if ∃ x ∈ L, x.1 = ptr then some (.heap (L.filter (fun x => x.1 != ptr))) else none
  | .shm s, ptr => (Shm.free s ptr).map .shm
  | .pool p up, ptr =>
    match p.chunks.find? (fun ch => ch.blks.any (fun x => x.addr + 56 == ptr && x.used)) with
    | none => none
    | some ch =>
      match ch.cls with
      | none =>
        let p1 := { p with chunks := p.chunks.filter (fun x => x.addr != ch.addr) }
        if noLock ans up then some (.pool (lose p1 ch.size) up)
        else
          match free ans up ch.addr with
          | none => none
          | some up => (uncharge p1 ch.size).map (fun p => .pool p up)
      | some c =>
        let ch1 := { ch with
          refer := ch.refer - 1
          count := if ch.refer - 1 = 0 then ch.count + 1 else ch.count
          blks := ch.blks.map (fun x => if x.addr + 56 == ptr then { x with used := false } else x) }
        if ch.refer - 1 = 0 ∧ ch.count + 1 > 1023 then
          let p1 := { p with
            free := upd p.free c ((p.free c ++ [ptr - 56]).filter (fun b => !ch.blks.any (fun x => x.addr == b)))
            chunks := p.chunks.filter (fun x => x.addr != ch.addr) }
          if noLock ans up then some (.pool (lose p1 ch.size) up)
          else
            match free ans up ch.addr with
            | none => none
            | some up => (uncharge p1 ch.size).map (fun p => .pool p up)
        else
          some (.pool { p with
            free := upd p.free c (p.free c ++ [ptr - 56])
            chunks := p.chunks.map (fun x => if x.addr = ch.addr then ch1 else x) } up)

/-- Give the chunks in the list back to the parent, lines 218-229. -/
def freeAll (ans : Ans) : List Chunk → Mem → Option Mem
  | [], up => some up
  | ch :: l, up => (free ans up ch.addr).bind (freeAll ans l)

/-- mln_alloc_destroy of a pool with a parent or from malloc, lines 208-247, without the last step
that frees the mln_alloc_t itself.  If the lock is not to be had nothing happens. -/
def destroy (ans : Ans) : Mem → Option Mem
  | .pool p up => if noLock ans up then some (.pool p up) else freeAll ans p.chunks up
  | m => some m

/-- `blk_size` in the header before `ptr`; `none`: there is no block. -/
def blkSize : Mem → Nat → Option Nat
  | .heap _, _ => none
  | .shm s, ptr => ((s.as.flatMap (·.blks)).find? (fun b => b.addr + 56 == ptr)).map (·.size)
  | .pool p _, ptr => ((p.chunks.flatMap (·.blks)).find? (fun b => b.addr + 56 == ptr && b.used)).map (·.size)

/-- Ghost: the caller of a block now counts on `n` bytes. -/
def setReq (m : Mem) (ptr n : Nat) : Mem :=
  match m with
  | .pool p up => .pool { p with chunks := p.chunks.map (fun ch =>
      { ch with blks := ch.blks.map (fun x => if x.addr + 56 == ptr && x.used then { x with req := n } else x) }) } up
  | m => m

/-- mln_alloc_re, lines 407-429, of a block of the pool itself.  Result: the returned pointer, the
memcpy done (from, to, length), the pool. -/
def realloc (ans : Ans) (m : Mem) (ptr n : Nat) : Option (Option Nat × Option (Nat × Nat × Nat) × Mem) :=
  if n = 0 then (free ans m ptr).map (fun m => (none, none, m))
  else
    match blkSize m ptr with
    | none => none
    | some bs =>
      if bs ≥ n then some (some ptr, none, setReq m ptr n)
      else
        match alloc ans m n with
        | none => none
        | some (none, m) => some (none, none, m)
        | some (some q, m) => (free ans m ptr).map (fun m => (some q, some (ptr, q, bs), m))

/-- mln_alloc_re, lines 407-429, of a block of another pool `o`. -/
def reallocFrom (ans : Ans) (o m : Mem) (ptr n : Nat) : Option (Option Nat × Option (Nat × Nat × Nat) × Mem × Mem) :=
  if n = 0 then (free ans o ptr).map (fun o => (none, none, o, m))
  else
    match blkSize o ptr with
    | none => none
    | some bs =>
      match alloc ans m n with
      | none => none
      | some (none, m) => some (none, none, o, m)
      | some (some q, m) => (free ans o ptr).map (fun o => (some q, some (ptr, q, bs), o, m))

/-- mln_alloc_available_capacity of such a pool, line 689. -/
def available (p : Pool) : Nat := if p.cap = 0 then W - 1 else (p.cap + W - p.inUsed) % W

end Verif.Alloc
