import Verif.Chain
/-
Model of the red-black tree, /repo/src/mln_rbtree.c and /repo/include/mln_rbtree.h, at pointer
level.

A node is an address (`Nat`); the address 0 stands for the sentinel `&t->nil`, which lies inside
the tree structure.  The fields parent, left, right and color of all nodes are kept in functions
from addresses (`Mem`), the field `data` in another one; the fields prev and next are the chain
of Verif/Chain.lean, with the same addresses.  Loops carry a fuel, `none` when it is used up.

Not modelled: pools, `nofree` and the freeing of nodes; the counter nr_node does not wrap.
-/
namespace Verif.RbTree

/-- enum rbtree_color, mln_rbtree.h lines 23-26. -/
inductive Color where
  | red
  | black
deriving DecidableEq, Repr

/-- The fields of struct mln_rbtree_node_s (mln_rbtree.h lines 36-45) that make up the tree, and
`t->root`. -/
structure Mem where
  parent : Nat → Nat
  left : Nat → Nat
  right : Nat → Nat
  color : Nat → Color
  root : Nat

def upd {β} (f : Nat → β) (i : Nat) (v : β) : Nat → β := fun j => if j = i then v else f j

/-- `n->parent = v` and the like. -/
def Mem.setParent (m : Mem) (i v : Nat) : Mem := { m with parent := upd m.parent i v }
def Mem.setLeft (m : Mem) (i v : Nat) : Mem := { m with left := upd m.left i v }
def Mem.setRight (m : Mem) (i v : Nat) : Mem := { m with right := upd m.right i v }
def Mem.setColor (m : Mem) (i : Nat) (c : Color) : Mem := { m with color := upd m.color i c }
def Mem.setRoot (m : Mem) (v : Nat) : Mem := { m with root := v }

/-- mln_rbtree_left_rotate, mln_rbtree.h lines 74-87. -/
def leftRotate (m : Mem) (n : Nat) : Mem :=
  if m.right n = 0 then m
  else
    let tmp := m.right n
    let m := m.setRight n (m.left tmp)
    let m := if m.left tmp ≠ 0 then m.setParent (m.left tmp) n else m
    let m := m.setParent tmp (m.parent n)
    let m := if m.parent n = 0 then m.setRoot tmp
      else if n = m.left (m.parent n) then m.setLeft (m.parent n) tmp
      else m.setRight (m.parent n) tmp
    let m := m.setLeft tmp n
    m.setParent n tmp

/-- mln_rbtree_right_rotate, mln_rbtree.h lines 90-103. -/
def rightRotate (m : Mem) (n : Nat) : Mem :=
  if m.left n = 0 then m
  else
    let tmp := m.left n
    let m := m.setLeft n (m.right tmp)
    let m := if m.right tmp ≠ 0 then m.setParent (m.right tmp) n else m
    let m := m.setParent tmp (m.parent n)
    let m := if m.parent n = 0 then m.setRoot tmp
      else if n = m.right (m.parent n) then m.setRight (m.parent n) tmp
      else m.setLeft (m.parent n) tmp
    let m := m.setRight tmp n
    m.setParent n tmp

/-- rbtree_insert_fixup, lines 112-125: the body of the loop when the parent is a left child.
Returns the memory and the new `n`. -/
def insFixL (m : Mem) (n : Nat) : Mem × Nat :=
  let tmp := m.right (m.parent (m.parent n))
  if m.color tmp = .red then
    let m := m.setColor (m.parent n) .black
    let m := m.setColor tmp .black
    let m := m.setColor (m.parent (m.parent n)) .red
    (m, m.parent (m.parent n))
  else
    let q := if n = m.right (m.parent n) then (leftRotate m (m.parent n), m.parent n) else (m, n)
    let m := q.1
    let n := q.2
    let m := m.setColor (m.parent n) .black
    let m := m.setColor (m.parent (m.parent n)) .red
    (rightRotate m (m.parent (m.parent n)), n)

/-- rbtree_insert_fixup, lines 127-140: the other half. -/
def insFixR (m : Mem) (n : Nat) : Mem × Nat :=
  let tmp := m.left (m.parent (m.parent n))
  if m.color tmp = .red then
    let m := m.setColor (m.parent n) .black
    let m := m.setColor tmp .black
    let m := m.setColor (m.parent (m.parent n)) .red
    (m, m.parent (m.parent n))
  else
    let q := if n = m.left (m.parent n) then (rightRotate m (m.parent n), m.parent n) else (m, n)
    let m := q.1
    let n := q.2
    let m := m.setColor (m.parent n) .black
    let m := m.setColor (m.parent (m.parent n)) .red
    (leftRotate m (m.parent (m.parent n)), n)

/-- rbtree_insert_fixup, mln_rbtree.h lines 106-144. -/
def insertFixup : Nat → Mem → Nat → Option Mem
  | 0, _, _ => none
  | k + 1, m, n =>
    if m.color (m.parent n) = .red then
      let r := if m.parent n = m.left (m.parent (m.parent n)) then insFixL m n else insFixR m n
      insertFixup k r.1 r.2
    else some (m.setColor m.root .black)

/-- rbtree_transplant, mln_rbtree.c lines 171-179. -/
def transplant (m : Mem) (u v : Nat) : Mem :=
  let m := if m.parent u = 0 then m.setRoot v
    else if u = m.left (m.parent u) then m.setLeft (m.parent u) v
    else m.setRight (m.parent u) v
  m.setParent v (m.parent u)

/-- rbtree_minimum, mln_rbtree.c lines 163-168. -/
def minimum : Nat → Mem → Nat → Option Nat
  | 0, _, _ => none
  | k + 1, m, n => if m.left n ≠ 0 then minimum k m (m.left n) else some n

/-- The loop of mln_rbtree_successor, lines 128-131. -/
def succUp : Nat → Mem → Nat → Nat → Option Nat
  | 0, _, _, _ => none
  | k + 1, m, n, tmp => if tmp ≠ 0 ∧ n = m.right tmp then succUp k m tmp (m.parent tmp) else some tmp

/-- mln_rbtree_successor, mln_rbtree.c lines 123-133. -/
def successor (fuel : Nat) (m : Mem) (n : Nat) : Option Nat :=
  if n ≠ 0 ∧ m.right n ≠ 0 then minimum fuel m (m.right n) else succUp fuel m n (m.parent n)

/-- rbtree_delete_fixup, mln_rbtree.c lines 227-248: the body of the loop when `n` is a left
child.  Returns the memory and the new `n`. -/
def delFixL (m : Mem) (n : Nat) : Mem × Nat :=
  let tmp := m.right (m.parent n)
  let q := if m.color tmp = .red then
      let m := m.setColor tmp .black
      let m := m.setColor (m.parent n) .red
      let m := leftRotate m (m.parent n)
      (m, m.right (m.parent n))
    else (m, tmp)
  let m := q.1
  let tmp := q.2
  if m.color (m.left tmp) = .black ∧ m.color (m.right tmp) = .black then
    let m := m.setColor tmp .red
    (m, m.parent n)
  else
    let q := if m.color (m.right tmp) = .black then
        let m := m.setColor (m.left tmp) .black
        let m := m.setColor tmp .red
        let m := rightRotate m tmp
        (m, m.right (m.parent n))
      else (m, tmp)
    let m := q.1
    let tmp := q.2
    let m := m.setColor tmp (m.color (m.parent n))
    let m := m.setColor (m.parent n) .black
    let m := m.setColor (m.right tmp) .black
    let m := leftRotate m (m.parent n)
    (m, m.root)

/-- rbtree_delete_fixup, mln_rbtree.c lines 250-271: the other half. -/
def delFixR (m : Mem) (n : Nat) : Mem × Nat :=
  let tmp := m.left (m.parent n)
  let q := if m.color tmp = .red then
      let m := m.setColor tmp .black
      let m := m.setColor (m.parent n) .red
      let m := rightRotate m (m.parent n)
      (m, m.left (m.parent n))
    else (m, tmp)
  let m := q.1
  let tmp := q.2
  if m.color (m.right tmp) = .black ∧ m.color (m.left tmp) = .black then
    let m := m.setColor tmp .red
    (m, m.parent n)
  else
    let q := if m.color (m.left tmp) = .black then
        let m := m.setColor (m.right tmp) .black
        let m := m.setColor tmp .red
        let m := leftRotate m tmp
        (m, m.left (m.parent n))
      else (m, tmp)
    let m := q.1
    let tmp := q.2
    let m := m.setColor tmp (m.color (m.parent n))
    let m := m.setColor (m.parent n) .black
    let m := m.setColor (m.left tmp) .black
    let m := rightRotate m (m.parent n)
    (m, m.root)

/-- rbtree_delete_fixup, mln_rbtree.c lines 221-275. -/
def deleteFixup : Nat → Mem → Nat → Option Mem
  | 0, _, _ => none
  | k + 1, m, n =>
    if n ≠ m.root ∧ m.color n = .black then
      let r := if n = m.left (m.parent n) then delFixL m n else delFixR m n
      deleteFixup k r.1 r.2
    else some (m.setColor n .black)

/-- The part of mln_rbtree_delete that works on the tree, mln_rbtree.c lines 185-211. -/
def unlink (fuel : Nat) (m : Mem) (n : Nat) : Option Mem := do
  let (m, x, yColor) ←
    if m.left n = 0 then
      let x := m.right n
      some (transplant m n (m.right n), x, m.color n)
    else if m.right n = 0 then
      let x := m.left n
      some (transplant m n (m.left n), x, m.color n)
    else do
      let y ← minimum fuel m (m.right n)
      let yColor := m.color y
      let x := m.right y
      let m :=
        if m.parent y = n then m.setParent x y
        else
          let m := transplant m y (m.right y)
          let m := m.setRight y (m.right n)
          m.setParent (m.right y) y
      let m := transplant m n y
      let m := m.setLeft y (m.left n)
      let m := m.setParent (m.left y) y
      let m := m.setColor y (m.color n)
      some (m, x, yColor)
  let m ← if yColor = .black then deleteFixup fuel m x else some m
  let m := m.setRight n 0
  let m := m.setLeft n 0
  some (m.setParent n 0)

/-- struct rbtree_s, mln_rbtree.h lines 47-61. -/
structure Tree (α : Type) where
  m : Mem
  data : Nat → α
  min : Nat
  chain : Chain.C Unit
  iter : Option Nat
  nr : Nat
  del : Bool

/-- mln_rbtree_new, mln_rbtree.c lines 41-52.  The memory is arbitrary but for the sentinel. -/
def new {α} (m : Mem) (data : Nat → α) (h : Chain.Heap Unit) : Tree α :=
  { m := { parent := upd m.parent 0 0, left := upd m.left 0 0, right := upd m.right 0 0, color := upd m.color 0 .black, root := 0 },
    data := data, min := 0, chain := ⟨h, none, none⟩, iter := none, nr := 0, del := false }

/-- The search for a place in mln_rbtree_insert, lines 93-97.  `y` is the node above `x`. -/
def descend {α} (cmp : α → α → Int) (data : Nat → α) (m : Mem) (node : Nat) : Nat → Nat → Nat → Option Nat
  | 0, _, _ => none
  | k + 1, y, x =>
    if x ≠ 0 then
      descend cmp data m node k x (if cmp (data node) (data x) < 0 then m.left x else m.right x)
    else some y

/-- mln_rbtree_insert, mln_rbtree.c lines 89-109; mln_rbtree_inline_insert (mln_rbtree.h lines
148-169) is the same code. -/
def insert {α} (cmp : α → α → Int) (t : Tree α) (node : Nat) : Option (Tree α) := do
  let y ← descend cmp t.data t.m node (t.nr + 1) 0 t.m.root
  let m := t.m.setParent node y
  let m := if y = 0 then m.setRoot node
    else if cmp (t.data node) (t.data y) < 0 then m.setLeft y node
    else m.setRight y node
  let m := m.setRight node 0
  let m := m.setLeft node 0
  let m := m.setColor node .red
  let m ← insertFixup (t.nr + 2) m node
  let min := if t.min = 0 then node else if cmp (t.data node) (t.data t.min) < 0 then node else t.min
  let chain ← Chain.add t.chain node
  some { t with m := m, min := min, nr := t.nr + 1, chain := chain }

/-- The loop of mln_rbtree_search, lines 115-118. -/
def searchFrom {α} (cmp : α → α → Int) (t : Tree α) (key : α) : Nat → Nat → Option Nat
  | 0, _ => none
  | k + 1, x =>
    if x ≠ 0 ∧ cmp key (t.data x) ≠ 0 then
      searchFrom cmp t key k (if cmp key (t.data x) < 0 then t.m.left x else t.m.right x)
    else some x

/-- mln_rbtree_search, mln_rbtree.c lines 112-120 (and mln_rbtree_inline_search). -/
def search {α} (cmp : α → α → Int) (t : Tree α) (key : α) : Option Nat :=
  searchFrom cmp t key (t.nr + 1) t.m.root

/-- mln_rbtree_delete, mln_rbtree.c lines 182-218. -/
def delete {α} (t : Tree α) (n : Nat) : Option (Tree α) := do
  let min ← if n = t.min then successor (t.nr + 1) t.m n else some t.min
  let m ← unlink (t.nr + 2) t.m n
  let (iter, del) ←
    if t.iter = some n then do
      let nx ← Chain.getNext t.chain.heap (some n)
      some (nx, true)
    else some (t.iter, t.del)
  let chain ← Chain.del t.chain n
  some { t with m := m, min := min, nr := t.nr - 1, iter := iter, del := del, chain := chain }

/-- mln_rbtree_min, lines 278-280. -/
def getMin {α} (t : Tree α) : Nat := t.min

/-- mln_rbtree_node_num, mln_rbtree.h line 253. -/
def nodeNum {α} (t : Tree α) : Nat := t.nr

/-- The loop of mln_rbtree_iterate, lines 287-296.  The handler is any function on the tree that
may fail (abort); `none` is undefined behaviour or too little fuel. -/
def iterateFrom {α} {σ : Type} (handler : Tree α → Nat → σ → Option (Tree α × σ × Bool)) : Nat → Tree α → σ → Option (Tree α × σ × Int)
  | 0, _, _ => none
  | k + 1, t, s =>
    match t.iter with
    | none => some (t, s, 0)
    | some n => do
      let (t, s, abort) ← handler t n s
      if abort then some (t, s, -1)
      else if t.del then iterateFrom handler k { t with del := false } s
      else do
        let nx ← Chain.getNext t.chain.heap t.iter
        iterateFrom handler k { t with iter := nx } s

/-- mln_rbtree_iterate, mln_rbtree.c lines 283-298. -/
def iterate {α} {σ : Type} (handler : Tree α → Nat → σ → Option (Tree α × σ × Bool)) (fuel : Nat) (t : Tree α) (s : σ) : Option (Tree α × σ × Int) :=
  iterateFrom handler fuel { t with iter := t.chain.head } s

end Verif.RbTree
