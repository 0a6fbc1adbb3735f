/-
Model of the Fibonacci heap, /repo/src/mln_fheap.c and /repo/include/mln_fheap.h.

A node is a tree: its fields and the ring of its children.  A ring (left/right pointers) is the
list of its members from the node the head pointer shows on; parent pointers are the nesting.
`lt p1 p2` is "the comparison function returns 0".  A key is a value; `copy` overwrites it.
`none` is undefined behaviour.
-/
namespace Verif.Fheap

/-- The fields of a node, include/mln_fheap.h lines 52-61; `id` is its address. -/
structure Info (α : Type) where
  id : Nat
  key : α
  degree : Nat
  mark : Bool
deriving Repr, DecidableEq

inductive T (α : Type) where
  | mk (i : Info α) (kids : List (T α))

namespace T
variable {α : Type}
def info : T α → Info α | mk i _ => i
def kids : T α → List (T α) | mk _ k => k
def id (t : T α) : Nat := t.info.id
def key (t : T α) : α := t.info.key
def degree (t : T α) : Nat := t.info.degree
def mark (t : T α) : Bool := t.info.mark
end T

/-- mln_fheap_t without the callbacks. -/
structure Heap (α : Type) where
  roots : List (T α)
  min : Option Nat
  num : Nat

/-- mln_fheap_new, mln_fheap.c lines 15-64. -/
def new {α : Type} : Heap α := ⟨[], none, 0⟩

variable {α : Type}

/-! ## Rings -/

/-- mln_fheap_add_child, mln_fheap.h lines 79-91: the node goes left of the head. -/
def addChild (ring : List (T α)) (t : T α) : List (T α) := ring ++ [t]

/-- mln_fheap_del_child, lines 93-112. -/
def delChild (ring : List (T α)) (i : Nat) : List (T α) := ring.filter (fun t => t.id ≠ i)

/-- What a pointer to a member of the ring shows. -/
def get (ring : List (T α)) (i : Nat) : Option (T α) := ring.find? (fun t => t.id = i)

/-- A change of a member of the ring. -/
def set (ring : List (T α)) (t : T α) : List (T α) := ring.map (fun s => if s.id = t.id then t else s)

/-- `w->right`. -/
def right (ring : List (T α)) (i : Nat) : Option Nat :=
  match ring.dropWhile (fun t => t.id ≠ i) with
  | _ :: b :: _ => some b.id
  | [_] => ring.head?.map T.id
  | [] => none

/-! ## Consolidation -/

/-- mln_fheap_link, lines 114-124: `y` becomes a child of `x`. -/
def link (ring : List (T α)) (y x : T α) : List (T α) :=
  set (delChild ring y.id) (.mk { x.info with degree := x.degree + 1 } (addChild x.kids (.mk { y.info with mark := false } y.kids)))

/-- The inner loop of mln_fheap_consolidate, lines 140-151: ring, `w` and table afterwards.
`x` is a pointer, `table` has 65 entries. -/
def inner (lt : α → α → Bool) : Nat → List (T α) → Nat → Nat → Nat → List (Option Nat) → Option (List (T α) × Nat × List (Option Nat))
  | 0, _, _, _, _, _ => none
  | fuel + 1, ring, w, x, d, table => do
    match ← table[d]? with
    | none => some (ring, w, table.set d (some x))
    | some y => do
      let ty ← get ring y
      let tx ← get ring x
      let (tx, ty) := if lt ty.key tx.key then (ty, tx) else (tx, ty)
      let w ← if ty.id = w then right ring w else some w
      inner lt fuel (link ring ty tx) w tx.id (d + 1) (table.set d none)

/-- The outer loop, lines 134-153. -/
def outer (lt : α → α → Bool) : Nat → List (T α) → Nat → Nat → List (Option Nat) → Option (List (T α) × List (Option Nat))
  | 0, _, _, _, _ => none
  | fuel + 1, ring, w, mark, table =>
    if ring.head?.map T.id = some w ∧ mark ≠ 0 then some (ring, table)
    else do
      let mark := if ring.head?.map T.id = some w then mark + 1 else mark
      let tx ← get ring w
      let r ← right ring w
      let (ring, w, table) ← inner lt 66 ring r w tx.degree table
      outer lt fuel ring w mark table

/-- The last loop, lines 157-169: the new ring and the new minimum. -/
def collect (lt : α → α → Bool) (ring : List (T α)) : List (Option Nat) → List (T α) → Option (T α) → Option (List (T α) × Option (T α))
  | [], new, min => some (new, min)
  | none :: table, new, min => collect lt ring table new min
  | some i :: table, new, min => do
    let t ← get ring i
    let min := match min with
      | none => t
      | some m => if lt t.key m.key then t else m
    collect lt (delChild ring i) table (addChild new t) (some min)

/-- mln_fheap_consolidate, lines 126-171: the new ring and `min`. -/
def consolidate (lt : α → α → Bool) (ring : List (T α)) : Option (List (T α) × Option Nat) :=
  match ring with
  | [] => some ([], none)
  | t :: _ => do
    let (ring, table) ← outer lt (ring.length + 1) ring t.id 0 (List.replicate 65 none)
    let (new, min) ← collect lt ring table [] none
    some (new, min.map T.id)

/-! ## The operations -/

/-- mln_fheap_insert, mln_fheap.c lines 66-77: the node has no children. -/
def insert (lt : α → α → Bool) (h : Heap α) (n : Info α) : Option (Heap α) :=
  let roots := addChild h.roots (.mk n [])
  match h.min with
  | none => some ⟨roots, some n.id, h.num + 1⟩
  | some m => do
    let tm ← get roots m
    some ⟨roots, some (if lt n.key tm.key then n.id else m), h.num + 1⟩

/-- mln_fheap_extract_min, lines 79-98: the node (with its fields as they are left) and the
heap. -/
def extractMin (lt : α → α → Bool) (h : Heap α) : Option (Option (Info α) × Heap α) :=
  match h.min with
  | none => some (none, h)
  | some z => do
    let tz ← get h.roots z
    let ring := h.roots ++ tz.kids
    let r ← right ring z
    let ring := delChild ring z
    if r = z then some (some tz.info, ⟨ring, none, h.num - 1⟩)
    else do
      let (ring, min) ← consolidate lt ring
      some (some tz.info, ⟨ring, min, h.num - 1⟩)

/-- One step from a node to its parent: the parent's fields and the siblings of the node. -/
structure Frame (α : Type) where
  parent : Info α
  lefts : List (T α)
  rights : List (T α)

/-- Put a node back below its ancestors. -/
def up (t : T α) : List (Frame α) → T α
  | [] => t
  | f :: fs => up (.mk f.parent (f.lefts ++ t :: f.rights)) fs

mutual
/-- Follow a pointer to a node in a tree: the node and its ancestors, the nearest first. -/
def findT (i : Nat) : T α → Option (T α × List (Frame α))
  | .mk n kids =>
    if n.id = i then some (.mk n kids, [])
    else
      match findL i kids with
      | none => none
      | some (t, fs, l, r) => some (t, fs ++ [⟨n, l, r⟩])
/-- The same in a ring: also what is left and right of the tree. -/
def findL (i : Nat) : List (T α) → Option (T α × List (Frame α) × List (T α) × List (T α))
  | [] => none
  | t :: ts =>
    match findT i t with
    | some (x, fs) => some (x, fs, [], ts)
    | none =>
      match findL i ts with
      | none => none
      | some (x, fs, l, r) => some (x, fs, t :: l, r)
end

/-- mln_fheap_cascading_cut, mln_fheap.h lines 184-199, with the mln_fheap_cut of lines 173-182:
`y` with its ancestors; the whole tree, and the trees cut from it in order.  Both functions are
called right after a child of `y` was cut. -/
def cascade (y : T α) : List (Frame α) → T α × List (T α)
  | [] => (y, [])
  | f :: fs =>
    if y.mark = false then (up (.mk { y.info with mark := true } y.kids) (f :: fs), [])
    else
      let (t, cuts) := cascade (.mk { f.parent with degree := f.parent.degree - 1 } (f.lefts ++ f.rights)) fs
      (t, .mk { y.info with mark := false } y.kids :: cuts)

/-- mln_fheap_decrease_key, mln_fheap.c lines 105-110: the root ring after `x` has its new key;
`path` are its ancestors, `l` and `r` the roots on both sides. -/
def moved (lt : α → α → Bool) (x : T α) (path : List (Frame α)) (l r : List (T α)) : List (T α) :=
  match path with
  | [] => l ++ x :: r
  | f :: fs =>
    if lt x.key f.parent.key then
      let c := cascade (.mk { f.parent with degree := f.parent.degree - 1 } (f.lefts ++ f.rights)) fs
      (l ++ c.1 :: r) ++ .mk { x.info with mark := false } x.kids :: c.2
    else l ++ up x path :: r

/-- mln_fheap_decrease_key, mln_fheap.c lines 100-113: the result and the heap. -/
def decreaseKey (lt : α → α → Bool) (h : Heap α) (node : Nat) (key : α) : Option (Int × Heap α) := do
  let (x, path, l, r) ← findL node h.roots
  if lt x.key key then some (-1, h)
  else do
    let x : T α := .mk { x.info with key := key } x.kids
    let roots := moved lt x path l r
    let m ← h.min
    if node = m then some (0, { h with roots := roots })
    else do
      let tm ← get roots m
      some (0, { h with roots := roots, min := some (if lt key tm.key then node else m) })

/-- mln_fheap_delete, lines 115-118. -/
def delete (lt : α → α → Bool) (h : Heap α) (node : Nat) (minVal : α) : Option (Option (Info α) × Heap α) := do
  let (_, h) ← decreaseKey lt h node minVal
  extractMin lt h

/-- The loop of mln_fheap_free, lines 120-130: the nodes freed, in order. -/
def drain (lt : α → α → Bool) : Nat → Heap α → Option (List (Info α))
  | 0, _ => none
  | fuel + 1, h => do
    match ← extractMin lt h with
    | (none, _) => some []
    | (some n, h) => do
      let l ← drain lt fuel h
      some (n :: l)

/-- mln_fheap_node_new, lines 133-150 (and mln_fheap_node_init). -/
def node (i : Nat) (key : α) : Info α := ⟨i, key, 0, false⟩

/-- mln_event_fd_timeout_set of a descriptor that has a timeout, /repo/src/mln_event.c lines
681-686: the heap node of the descriptor is deleted, the new end time set, and the same node
inserted again, its degree and mark as the extraction left them.  `none` also if another node was
extracted: then the node would be inserted while it is still in the heap. -/
def retime (lt : α → α → Bool) (h : Heap α) (i : Nat) (minVal key : α) : Option (Heap α) := do
  match ← delete lt h i minVal with
  | (some n, h) => if n.id = i then insert lt h { n with key := key } else none
  | (none, _) => none

end Verif.Fheap
