import Mathlib.Data.List.Basic
/-!
# Adding to a chain, and the sizes of buffers

mln_chain.h: mln_chain_add (51-59), mln_buf_size (42-44), mln_buf_left_size (47-49).

Simplifications.
* Nodes are numbers, `none` is NULL; `next` is the member of all nodes.
* Positions in memory and in files are integers; the differences do not overflow.
-/
namespace Verif.ChainAdd

/-- The nodes in memory, and the two variables given to mln_chain_add (mln_chain.h lines 37-40, 51). -/
structure S where
  next : Nat → Option Nat
  head : Option Nat
  tail : Option Nat

/-- mln_chain_add, mln_chain.h lines 51-59: `none` is following NULL. -/
def add (s : S) (c : Nat) : Option S :=
  match s.head with
  | none => some { s with head := some c, tail := some c }
  | some _ =>
    match s.tail with
    | none => none
    | some t => some { s with next := fun x => if x = t then some c else s.next x, tail := some c }

/-- mln_chain_add (mln_chain.h lines 51-59) for several nodes, one after the other. -/
def addAll : S → List Nat → Option S
  | s, [] => some s
  | s, c :: cs => (add s c).bind fun s => addAll s cs

/-- The members of mln_buf_t that the sizes need, mln_chain.h lines 14-35. -/
structure Buf where
  inFile : Bool
  leftPos : Int
  pos : Int
  last : Int
  fileLeftPos : Int
  filePos : Int
  fileLast : Int

/-- mln_buf_size, mln_chain.h lines 42-44. -/
def size : Option Buf → Int
  | none => 0
  | some b => if b.inFile then b.fileLast - b.filePos else b.last - b.pos

/-- mln_buf_left_size, mln_chain.h lines 47-49. -/
def leftSize : Option Buf → Int
  | none => 0
  | some b => if b.inFile then b.fileLast - b.fileLeftPos else b.last - b.leftPos

end Verif.ChainAdd
