/-
Model of the ring-buffer queue, /repo/src/mln_queue.c and /repo/include/mln_queue.h.

The storage `q->queue` (a `calloc`ed array of `qlen` pointers) is `mem : List α`;
the pointers `head` and `tail` are offsets into it.  Every access to the storage goes
through `load`/`store`, which return `none` outside the array: `none` is undefined
behaviour, kept distinct from all regular results.  `α` is the type of the stored
`void *` values; the NULL that the code returns for "no element" is the inner `none`.
Not modelled: failure of `malloc`/`calloc`.
-/
namespace Verif.Queue

/-- /repo/include/mln_queue.h lines 16-23 (`mln_queue_t`, without the handler). -/
structure Q (α : Type) where
  mem  : List α
  head : Nat
  tail : Nat
  qlen : Nat
  nr   : Nat

/-- `*p` for a pointer into the storage. -/
def load {α} (q : Q α) (p : Nat) : Option α := q.mem[p]?

/-- `*p = x` for a pointer into the storage. -/
def store {α} (q : Q α) (p : Nat) (x : α) : Option (Q α) :=
  if p < q.mem.length then some { q with mem := q.mem.set p x } else none

/-- mln_queue_init, mln_queue.c lines 8-23.  `null` is the content left by `calloc`. -/
def init {α} (null : α) (qlen : Nat) : Q α :=
  { mem := List.replicate qlen null, head := 0, tail := 0, qlen := qlen, nr := 0 }

/-- mln_queue_append, mln_queue.c lines 40-47. Returns `(-1 ? , q)`. -/
def append {α} (q : Q α) (x : α) : Option (Int × Q α) :=
  if q.nr ≥ q.qlen then some (-1, q)
  else do
    let q1 ← store q q.tail x
    let t := q1.tail + 1
    let t := if t = q1.qlen then 0 else t
    some (0, { q1 with tail := t, nr := q1.nr + 1 })

/-- mln_queue_get, mln_queue.c lines 49-52. -/
def get {α} (q : Q α) : Option (Option α) :=
  if q.nr = 0 then some none else (load q q.head).map some

/-- mln_queue_remove, mln_queue.c lines 54-59. -/
def remove {α} (q : Q α) : Q α :=
  if q.nr = 0 then q
  else
    let h := q.head + 1
    let h := if h ≥ q.qlen then 0 else h
    { q with head := h, nr := q.nr - 1 }

/-- mln_queue_search, mln_queue.c lines 61-67. -/
def search {α} (q : Q α) (index : Nat) : Option (Option α) :=
  if index ≥ q.nr then some none
  else
    let ptr := q.head + index
    let ptr := if ptr ≥ q.qlen then ptr - q.qlen else ptr
    (load q ptr).map some

/-- Loop of mln_queue_iterate, mln_queue.c lines 75-82; `n` is `nr_element - i`.
The handler may have any effect on a user state `σ`; its `Bool` says "negative". -/
def iterLoop {α σ} (q : Q α) (h : σ → α → σ × Bool) : Nat → Nat → σ → Option (σ × Int)
  | 0, _, s => some (s, 0)
  | n + 1, scan, s => do
    let x ← load q scan
    let (s', neg) := h s x
    if neg then some (s', -1)
    else
      let scan := scan + 1
      let scan := if scan ≥ q.qlen then 0 else scan
      iterLoop q h n scan s'

/-- mln_queue_iterate, mln_queue.c lines 69-84 (handler not NULL). -/
def iterate {α σ} (q : Q α) (h : σ → α → σ × Bool) (s : σ) : Option (σ × Int) :=
  iterLoop q h q.nr q.head s

/-- Loop of mln_queue_destroy, mln_queue.c lines 27-34 (free handler not NULL):
the list of pointers passed to the free handler, in call order. -/
def destroyLoop {α} (q : Q α) : Nat → Nat → Option (List α)
  | 0, _ => some []
  | n + 1, head => do
    let x ← load q head
    let h := head + 1
    let h := if h ≥ q.qlen then 0 else h
    let r ← destroyLoop q n h
    some (x :: r)

/-- mln_queue_destroy, mln_queue.c lines 25-38. -/
def destroy {α} (q : Q α) : Option (List α) := destroyLoop q q.nr q.head

/-- Loop of mln_queue_free_index, mln_queue.c lines 94-100; `n` is `end - i`.
Returns the storage and the final `pos`. -/
def freeLoop {α} : Nat → Nat → Nat → Q α → Option (Nat × Q α)
  | 0, pos, _, q => some (pos, q)
  | n + 1, pos, next, q => do
    let next := next + 1
    let next := if next ≥ q.qlen then 0 else next
    let x ← load q next
    let q ← store q pos x
    let pos := pos + 1
    let pos := if pos ≥ q.qlen then 0 else pos
    freeLoop n pos next q

/-- mln_queue_free_index, mln_queue.c lines 86-105.  Returns the new queue and the
pointers passed to the free handler. -/
def freeIndex {α} (q : Q α) (index : Nat) : Option (List α × Q α) :=
  if index ≥ q.nr then some ([], q)
  else do
    let pos := q.head + index
    let pos := if pos ≥ q.qlen then pos - q.qlen else pos
    let save ← load q pos
    let (pos, q) ← freeLoop (q.nr - index) pos pos q
    some ([save], { q with tail := pos, nr := q.nr - 1 })

/-- An API call. -/
inductive Op (α : Type) where
  | append (x : α)
  | get
  | remove
  | search (i : Nat)
  | freeIndex (i : Nat)

/-- What a call shows to the caller. -/
inductive Out (α : Type) where
  | code (c : Int)
  | ptr (p : Option α)
  | unit
  | freed (l : List α)
deriving DecidableEq

/-- One API call on the model. -/
def step {α} (q : Q α) : Op α → Option (Out α × Q α)
  | .append x => (append q x).map fun r => (.code r.1, r.2)
  | .get => (get q).map fun r => (.ptr r, q)
  | .remove => some (.unit, remove q)
  | .search i => (search q i).map fun r => (.ptr r, q)
  | .freeIndex i => (freeIndex q i).map fun r => (.freed r.1, r.2)

/-- A history of API calls: all observable results, and the final state. -/
def run {α} (q : Q α) : List (Op α) → Option (List (Out α) × Q α)
  | [] => some ([], q)
  | op :: ops => do
    let (o, q) ← step q op
    let (os, q) ← run q ops
    some (o :: os, q)

end Verif.Queue
