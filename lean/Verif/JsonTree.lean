import Verif.LangKey
import Verif.RbTreeProps
/-!
# JSON objects and arrays as a program uses them

mln_json.c: mln_json_obj_update (85-125), mln_json_obj_search (127-143), mln_json_obj_remove (145-168),
mln_json_object_iterate (1428-1447), mln_json_array_search, mln_json_array_length, mln_json_array_append,
mln_json_array_update, mln_json_array_remove (182-230); mln_json.h: the macro mln_json_array_iterate (206-219).

Simplifications.
* Allocations succeed, and the values given have the types that the functions ask for.
* The pair with number n is the n-th that was made; the tree compares the keys, the values are beside it.
* A value that is given to an object or an array belongs to it; nobody else frees it, and it is not one that is
  already in it.
-/
namespace Verif.JsonTree
open Verif.RbTree

/-- An object: the tree of the keys and the values of the pairs. -/
structure Obj (α V : Type) where
  t : Tree α
  vals : Nat → Option V
  next : Nat

/-- mln_json_obj_init, lines 64-83. -/
def empty {α V : Type} (d : α) : Obj α V := ⟨LangKey.empty d, fun _ => none, 0⟩

/-- What a program calls. -/
inductive Op (α V : Type)
  | update (k : α) (v : V)
  | search (k : α)
  | remove (k : α)
  | iterate
  deriving DecidableEq

/-- What it gets: nothing, a value or NULL, the pairs that the handler saw. -/
inductive Res (α V : Type)
  | unit
  | val (v : Option V)
  | pairs (l : List (α × Option V))
  deriving DecidableEq

/-- mln_json_object_iterator, lines 1439-1447, with a handler that notes the pairs. -/
def see {α : Type} (t : Tree α) (n : Nat) (l : List Nat) : Option (Tree α × List Nat × Bool) := some (t, l ++ [n], false)

/-- One call. -/
def step {α V : Type} (cmp : α → α → Int) (j : Obj α V) : Op α V → Option (Res α V × Obj α V)
  | .update k v => do
    let x ← RbTree.search cmp j.t k
    if x = 0 then do
      let n := j.next + 1
      let t ← RbTree.insert cmp { j.t with data := upd j.t.data n k } n
      some (.unit, ⟨t, upd j.vals n (some v), n⟩)
    else some (.unit, { j with t := { j.t with data := upd j.t.data x k }, vals := upd j.vals x (some v) })
  | .search k => do
    let x ← RbTree.search cmp j.t k
    some (.val (if x = 0 then none else j.vals x), j)
  | .remove k => do
    let x ← RbTree.search cmp j.t k
    if x = 0 then some (.unit, j)
    else do
      let t ← RbTree.delete j.t x
      some (.unit, { j with t := t })
  | .iterate => do
    let r ← RbTree.iterate see (nodeNum j.t + 1) j.t []
    some (.pairs (r.2.1.map fun n => (j.t.data n, j.vals n)), j)

/-- The calls of a program. -/
def run {α V : Type} (cmp : α → α → Int) : Obj α V → List (Op α V) → Option (List (Res α V) × Obj α V)
  | j, [] => some ([], j)
  | j, o :: os => do
    let (r, j) ← step cmp j o
    let (rs, j) ← run cmp j os
    some (r :: rs, j)

/-! ## Arrays -/

/-- What a program calls on an array. -/
inductive AOp (V : Type)
  | append (v : V)
  | update (v : V) (i : Nat)
  | search (i : Nat)
  | remove (i : Nat)
  | length

/-- What it gets. -/
inductive ARes (V : Type)
  | unit
  | rc (n : Int)
  | val (v : Option V)
  | num (n : Nat)
  deriving DecidableEq

/-- mln_json_array_append (196-209), mln_json_array_update (211-222), mln_json_array_search (182-188),
mln_json_array_remove (224-230, where the index is looked at by an ASSERT only, which is nothing in a build
without debugging, and mln_array_pop, mln_array.c 165-172, drops the last element), mln_json_array_length (190-193). -/
def astep {V : Type} (l : List V) : AOp V → ARes V × List V
  | .append v => (.rc 0, l ++ [v])
  | .update v i => if i ≥ l.length then (.rc (-1), l) else (.rc 0, l.set i v)
  | .search i => (.val (if i ≥ l.length then none else l[i]?), l)
  | .remove _ => (.unit, l.take (l.length - 1))
  | .length => (.num l.length, l)

/-- The loop of mln_json_array_iterate, mln_json.h lines 212-215, from `rc`: `it` is the handler, which may change
its data.  The result is the value of the macro, the elements that the handler got, and the data. -/
def aloop {V σ : Type} (it : V → σ → Int × σ) : Int → List V → σ → Int × List V × σ
  | rc, [], d => (rc, [], d)
  | _, v :: vs, d =>
    let r := it v d
    if r.1 ≠ 0 then (r.1, [v], r.2)
    else
      let q := aloop it r.1 vs r.2
      (q.1, v :: q.2.1, q.2.2)

/-- mln_json_array_iterate, mln_json.h lines 206-219, on an array. -/
def aiterate {V σ : Type} (it : V → σ → Int × σ) (l : List V) (d : σ) : Int × List V × σ := aloop it (-1) l d

end Verif.JsonTree
