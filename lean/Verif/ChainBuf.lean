import Mathlib.Data.List.Basic
/-!
# Buffers and chains of buffers

mln_chain.c: mln_buf_new (9-23), mln_chain_new (25-30), mln_buf_pool_release (32-70), mln_chain_pool_release (72-79),
mln_chain_pool_release_all (81-89).

Simplifications.
* The heap is the list of the things that can be freed: blocks and mappings by their addresses, open files, and the
  structures of buffers and of nodes of chains by their numbers.  Addresses are numbers, `none` is NULL.
* A chain is the list of its nodes (no cycles).
* The library is built with MLN_MMAP.  A mapping is given back as a whole: munmap of a part of it, which the system
  allows, is `none` too, so nothing is claimed about it.
* `none` is freeing a thing that is not there, or following NULL.
-/
namespace Verif.ChainBuf

/-- What mln_alloc_free (mln_chain.c lines 37, 52, 54, 59, 65, 69, 78), munmap (45, 47) and mln_file_close (64) take. -/
inductive Res
  | blk (a : Nat)
  | map (a len : Nat)
  | file (f : Nat)
  | buf (n : Nat)
  | node (n : Nat)
  deriving DecidableEq

/-- mln_buf_t, mln_chain.h lines 14-35: the members that are used here.  `shadow` says that
the pointer is not NULL. -/
structure Buf where
  id : Nat
  shadow : Bool := false
  temporary : Bool := false
  inMemory : Bool := false
  mmap : Bool := false
  inFile : Bool := false
  start : Option Nat := none
  stop : Nat := 0
  pos : Nat := 0
  last : Nat := 0
  file : Nat := 0

/-- mln_chain_t, mln_chain.h lines 37-40. -/
structure Node where
  id : Nat
  buf : Option Buf

/-- mln_alloc_free, munmap and mln_file_close as called in mln_chain.c lines 32-79. -/
def free (h : List Res) (r : Res) : Option (List Res) := if r ∈ h then some (h.erase r) else none

/-- mln_buf_new, mln_chain.c lines 9-23: the structure is filled without a look at the result of the allocation. -/
def bufNew (ok : Bool) (h : List Res) (n : Nat) : Option (Buf × List Res) :=
  if ok = false then none else some ({ id := n }, .buf n :: h)

/-- mln_chain_new, mln_chain.c lines 25-30. -/
def chainNew (ok : Bool) (h : List Res) (n : Nat) : Option (Node × List Res) :=
  if ok = false then none else some (⟨n, none⟩, .node n :: h)

/-- The memory that lines 42-58 of mln_chain.c give back. -/
def memory (b : Buf) : Res :=
  if b.mmap then
    match b.start with
    | some s => .map s (b.stop - s)
    | none => .map b.pos (b.last - b.pos)
  else
    match b.start with
    | some s => .blk s
    | none => .blk b.pos

/-- mln_buf_pool_release, mln_chain.c lines 32-70. -/
def bufRelease (h : List Res) (b : Buf) : Option (List Res) :=
  if b.shadow || b.temporary then free h (.buf b.id)
  else if b.inMemory then (free h (memory b)).bind fun h => free h (.buf b.id)
  else if b.inFile then (free h (.file b.file)).bind fun h => free h (.buf b.id)
  else free h (.buf b.id)

/-- mln_chain_pool_release, mln_chain.c lines 72-79. -/
def nodeRelease (h : List Res) (c : Node) : Option (List Res) :=
  match c.buf with
  | some b => (bufRelease h b).bind fun h => free h (.node c.id)
  | none => free h (.node c.id)

/-- mln_chain_pool_release_all, mln_chain.c lines 81-89. -/
def releaseAll : List Res → List Node → Option (List Res)
  | h, [] => some h
  | h, c :: cs => (nodeRelease h c).bind fun h => releaseAll h cs

end Verif.ChainBuf
