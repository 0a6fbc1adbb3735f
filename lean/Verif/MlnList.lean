import Verif.Chain
/-
Model of the doubly linked list with a sentinel: /repo/src/mln_list.c and
/repo/include/mln_list.h, at pointer level.

The head of a list is the field `prev` of its sentinel and the tail the field `next`
(mln_list.h lines 14-15), so `*head` and `*tail` of the generated chain functions
(mln_utils.h lines 112-142) are fields of a node of the same heap.  They are read and written
there every time the code does so.  Dereferencing NULL or an address that is not allocated makes
the operation `none`.
-/
namespace Verif.MlnList
open Verif.Chain

/-- mln_list_add, mln_list.c lines 12-14, with prefix##_chain_add, mln_utils.h lines 113-122. -/
def add {δ} (h : Heap δ) (sent node : Nat) : Option (Heap δ) := do
  let h ← setNext h (some node) none
  let head ← getPrev h (some sent)
  let h ←
    if head = none then setPrev h (some sent) (some node)
    else do
      let tail ← getNext h (some sent)
      setNext h tail (some node)
  let tail ← getNext h (some sent)
  let h ← setPrev h (some node) tail
  setNext h (some sent) (some node)

/-- The first part of prefix##_chain_del, mln_utils.h lines 125-140. -/
def unlink {δ} (h : Heap δ) (sent node : Nat) : Option (Heap δ) := do
  let head ← getPrev h (some sent)
  let tail ← getNext h (some sent)
  if head = some node then
    if tail = some node then do
      let h ← setNext h (some sent) none
      setPrev h (some sent) none
    else do
      let nx ← getNext h (some node)
      let h ← setPrev h (some sent) nx
      let hd ← getPrev h (some sent)
      setPrev h hd none
  else
    if tail = some node then do
      let pv ← getPrev h (some node)
      let h ← setNext h (some sent) pv
      let tl ← getNext h (some sent)
      setNext h tl none
    else do
      let p ← getPrev h (some node)
      let n ← getNext h (some node)
      let h ← setNext h p n
      let n ← getNext h (some node)
      let p ← getPrev h (some node)
      setPrev h n p

/-- mln_list_remove, mln_list.c lines 16-18, with prefix##_chain_del, mln_utils.h lines 124-142. -/
def remove {δ} (h : Heap δ) (sent node : Nat) : Option (Heap δ) := do
  let h ← unlink h sent node
  let h ← setNext h (some node) none
  setPrev h (some node) none

/-- mln_list_head, mln_list.h line 14. -/
def head {δ} (h : Heap δ) (sent : Nat) : Option Ptr := getPrev h (some sent)

/-- mln_list_tail, mln_list.h line 15. -/
def tail {δ} (h : Heap δ) (sent : Nat) : Option Ptr := getNext h (some sent)

/-- The sentinel after `mln_list_t sentinel = mln_list_null();` (mln_list.h line 18). -/
def init {δ} (h : Heap δ) (sent : Nat) (d : δ) : Heap δ := h.upd sent (some ⟨d, none, none⟩)

/-- A call: on which list, and what. -/
def step {δ} (h : Heap δ) (c : Nat × Op) : Option (Heap δ) :=
  match c.2 with
  | .add n => add h c.1 n
  | .del n => remove h c.1 n

def run {δ} (h : Heap δ) : List (Nat × Op) → Option (Heap δ)
  | [] => some h
  | c :: cs => (step h c).bind fun h => run h cs

end Verif.MlnList
