import Verif.ChainProps
/-
Model of /repo/src/mln_stack.c and /repo/include/mln_stack.h at pointer level, on the
chain model of mln_utils.h.

The allocator is an arbitrary function `A` of the time (a counter) and the heap that
either fails or returns an address that is not allocated.  `free` unmaps the address;
touching it afterwards is undefined behaviour (`none`).  The calls of the user's free
handler are recorded in `log`.  The copy handler is a partial function of its argument
(`none` = it returned NULL) and may depend on the time.
Loops follow pointers, so they carry a fuel argument; running out of fuel is `none`,
and the theorems show that any fuel larger than the number of nodes suffices.
-/
namespace Verif.Stack
open Verif.Chain

/-- Heap of stack nodes (mln_stack.h lines 15-19), clock, and free-handler log. -/
structure M (δ : Type) where
  heap  : Heap δ
  clock : Nat
  log   : List δ

/-- mln_stack_t, mln_stack.h lines 21-29 (the unused free_head/free_tail are omitted). -/
structure S where
  bottom : Ptr
  top    : Ptr
  nr     : Nat
deriving DecidableEq

abbrev Alloc (δ : Type) := Nat → Heap δ → Option Nat

/-- mln_stack_node_init, mln_stack.c lines 24-31. -/
def nodeInit {δ} (A : Alloc δ) (m : M δ) (x : δ) : Option Nat × M δ :=
  match A m.clock m.heap with
  | none => (none, { m with clock := m.clock + 1 })
  | some p => (some p, { m with clock := m.clock + 1, heap := m.heap.upd p (some ⟨x, none, none⟩) })

/-- mln_stack_node_destroy, mln_stack.c lines 33-41; `fh` = free handler is not NULL. -/
def nodeDestroy {δ} (m : M δ) (fh : Bool) (sn : Nat) : Option (M δ) := do
  let n ← m.heap sn
  some { m with heap := m.heap.upd sn none, log := if fh then m.log ++ [n.data] else m.log }

/-- mln_stack_init, mln_stack.c lines 46-58. -/
def init : S := { bottom := none, top := none, nr := 0 }

/-- mln_stack_push, mln_stack.c lines 85-92. -/
def push {δ} (A : Alloc δ) (m : M δ) (st : S) (x : δ) : Option (Int × M δ × S) :=
  match nodeInit A m x with
  | (none, m) => some (-1, m, st)
  | (some sn, m) => do
    let c ← add ⟨m.heap, st.bottom, st.top⟩ sn
    some (0, { m with heap := c.heap }, { bottom := c.head, top := c.tail, nr := st.nr + 1 })

/-- mln_stack_pop, mln_stack.c lines 97-105. -/
def pop {δ} (m : M δ) (st : S) : Option (Option δ × M δ × S) :=
  match st.top with
  | none => some (none, m, st)
  | some sn => do
    let c ← del ⟨m.heap, st.bottom, st.top⟩ sn
    let n ← c.heap sn
    let m ← nodeDestroy { m with heap := c.heap } false sn
    some (some n.data, m, { bottom := c.head, top := c.tail, nr := st.nr - 1 })

/-- `mln_stack_top`, mln_stack.h line 32. -/
def top {δ} (m : M δ) (st : S) : Option (Option δ) :=
  match st.top with
  | none => some none
  | some a => (m.heap a).map fun n => some n.data

/-- Loop of mln_stack_destroy, mln_stack.c lines 65-68. -/
def destroyLoop {δ} (fh : Bool) : Nat → M δ → S → Option (M δ)
  | 0, _, _ => none
  | fuel + 1, m, st =>
    match st.bottom with
    | none => some m
    | some sn => do
      let c ← del ⟨m.heap, st.bottom, st.top⟩ sn
      let m ← nodeDestroy { m with heap := c.heap } fh sn
      destroyLoop fh fuel m { st with bottom := c.head, top := c.tail }

/-- mln_stack_destroy, mln_stack.c lines 60-70. -/
def destroy {δ} (fh : Bool) (fuel : Nat) (m : M δ) (st : S) : Option (M δ) := destroyLoop fh fuel m st

/-- Lines 117-120 of mln_stack.c: the pointer itself without a copy handler, else its result. -/
def copyOf {δ} (copy : Option (Nat → δ → Option δ)) (t : Nat) (x : δ) : Option δ :=
  match copy with
  | none => some x
  | some f => f t x

/-- Loop of mln_stack_dup, mln_stack.c lines 116-132.  `copy = none` means the copy
handler is NULL; otherwise it maps time and element to a copy or NULL. -/
def dupLoop {δ} (A : Alloc δ) (fh : Bool) (copy : Option (Nat → δ → Option δ)) (fuel0 : Nat) :
    Nat → M δ → Ptr → S → Option (Option S × M δ)
  | 0, _, _, _ => none
  | fuel + 1, m, scan, ns =>
    match scan with
    | none => some (some ns, m)
    | some a => do
      let n ← m.heap a
      let data := copyOf copy m.clock n.data
      let m := { m with clock := m.clock + 1 }
      match data with
      | none => do
        let m ← destroy fh fuel0 m ns
        some (none, m)
      | some d => do
        let (r, m, ns) ← push A m ns d
        if r < 0 then do
          let m := if fh then { m with log := m.log ++ [d] } else m
          let m ← destroy fh fuel0 m ns
          some (none, m)
        else do
          let n ← m.heap a
          dupLoop A fh copy fuel0 fuel m n.next ns

/-- mln_stack_dup, mln_stack.c lines 111-134 (malloc of the stack header succeeds). -/
def dup {δ} (A : Alloc δ) (fh : Bool) (copy : Option (Nat → δ → Option δ)) (fuel : Nat) (m : M δ) (st : S) :
    Option (Option S × M δ) :=
  dupLoop A fh copy fuel fuel m st.bottom init

/-- mln_stack_iterate, mln_stack.c lines 139-148; `Bool` = handler result negative. -/
def iterLoop {δ σ} (m : M δ) (h : σ → δ → σ × Bool) : Nat → Ptr → σ → Option (σ × Int)
  | 0, _, _ => none
  | fuel + 1, p, s =>
    match p with
    | none => some (s, 0)
    | some a => do
      let n ← m.heap a
      let (s', neg) := h s n.data
      if neg then some (s', -1) else iterLoop m h fuel n.prev s'

def iterate {δ σ} (m : M δ) (st : S) (h : σ → δ → σ × Bool) (fuel : Nat) (s : σ) : Option (σ × Int) :=
  iterLoop m h fuel st.top s

end Verif.Stack
