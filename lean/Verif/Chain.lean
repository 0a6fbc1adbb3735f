/-
Model of the intrusive doubly linked chain generated by MLN_CHAIN_FUNC_DEFINE,
/repo/include/mln_utils.h lines 112-142, at pointer level.

A pointer is an `Option Nat` (`none` = NULL).  The heap maps addresses to nodes;
an unmapped address is not allocated.  Dereferencing NULL or an unallocated address
is undefined behaviour and makes the whole operation `none`.
-/
namespace Verif.Chain

abbrev Ptr := Option Nat

/-- A chain node: the two link fields and the rest of the structure (`data`). -/
structure Node (δ : Type) where
  data : δ
  prev : Ptr
  next : Ptr
deriving DecidableEq

abbrev Heap (δ : Type) := Nat → Option (Node δ)

def Heap.upd {δ} (h : Heap δ) (p : Nat) (n : Option (Node δ)) : Heap δ :=
  fun q => if q = p then n else h q

@[simp] theorem Heap.upd_apply {δ} (h : Heap δ) (p : Nat) (n : Option (Node δ)) (q : Nat) :
    h.upd p n q = if q = p then n else h q := rfl

/-- `p->next = v`. -/
def setNext {δ} (h : Heap δ) (p : Ptr) (v : Ptr) : Option (Heap δ) := do
  let a ← p
  let n ← h a
  some (h.upd a (some { n with next := v }))

/-- `p->prev = v`. -/
def setPrev {δ} (h : Heap δ) (p : Ptr) (v : Ptr) : Option (Heap δ) := do
  let a ← p
  let n ← h a
  some (h.upd a (some { n with prev := v }))

/-- `p->next`. -/
def getNext {δ} (h : Heap δ) (p : Ptr) : Option Ptr := do
  let a ← p
  let n ← h a
  some n.next

/-- `p->prev`. -/
def getPrev {δ} (h : Heap δ) (p : Ptr) : Option Ptr := do
  let a ← p
  let n ← h a
  some n.prev

/-- The memory a chain operation sees: the heap and the two variables `*head`, `*tail`. -/
structure C (δ : Type) where
  heap : Heap δ
  head : Ptr
  tail : Ptr

/-- prefix##_chain_add, mln_utils.h lines 113-122. -/
def add {δ} (c : C δ) (node : Nat) : Option (C δ) := do
  let h ← setNext c.heap (some node) none
  if c.head = none then
    let h ← setPrev h (some node) c.tail
    some { heap := h, head := some node, tail := some node }
  else
    let h ← setNext h c.tail (some node)
    let h ← setPrev h (some node) c.tail
    some { heap := h, head := c.head, tail := some node }

/-- prefix##_chain_del, mln_utils.h lines 124-142. -/
def del {δ} (c : C δ) (node : Nat) : Option (C δ) := do
  let c1 ←
    if c.head = some node then
      if c.tail = some node then
        some { c with head := none, tail := none }
      else do
        let hd ← getNext c.heap (some node)
        let h ← setPrev c.heap hd none
        some { c with heap := h, head := hd }
    else
      if c.tail = some node then do
        let tl ← getPrev c.heap (some node)
        let h ← setNext c.heap tl none
        some { c with heap := h, tail := tl }
      else do
        let p ← getPrev c.heap (some node)
        let n ← getNext c.heap (some node)
        let h ← setNext c.heap p n
        let n' ← getNext h (some node)
        let p' ← getPrev h (some node)
        let h ← setPrev h n' p'
        some { c with heap := h }
  let h ← setNext c1.heap (some node) none
  let h ← setPrev h (some node) none
  some { c1 with heap := h }

/-- A call on a chain. -/
inductive Op where
  | add (n : Nat)
  | del (n : Nat)

def step {δ} (c : C δ) : Op → Option (C δ)
  | .add n => add c n
  | .del n => del c n

def run {δ} (c : C δ) : List Op → Option (C δ)
  | [] => some c
  | op :: ops => (step c op).bind fun c => run c ops

end Verif.Chain
