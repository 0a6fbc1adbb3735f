import Verif.Str
import Verif.RbTree

/-!
# The key tree of the arrays of scripts

`mln_lang_array_get_other`, src/mln_lang.c:2920-2966, on the red-black tree of RbTree: keys that are strings, compared
by `mln_lang_array_elem_key_cmp` → `mln_lang_var_cmp` → `mln_lang_val_cmp`, mln_lang.c:2822-2828, 2680-2712 →
mln_string_strcmp.

Simplifications: the tree node with address n is the n-th one made; allocations succeed; all keys are strings with
buffers of their own.
-/
namespace Verif.LangKey

open Verif.RbTree

/-- An empty key tree (mln_lang_array_new, mln_lang.c:2769-2775); every address can be allocated. -/
def empty {α : Type} (d : α) : Tree α :=
  RbTree.new ⟨fun _ => 0, fun _ => 0, fun _ => 0, fun _ => .black, 0⟩ (fun _ => d) fun _ => some ⟨(), none, none⟩

/-- `a[k]`: the element found, or a new one (mln_lang.c:2943-2960). -/
def touch {α : Type} (cmp : α → α → Int) (t : Tree α) (k : α) : Option (Tree α × Nat) := do
  let x ← search cmp t k
  if x ≠ 0 then some (t, x) else
  let n := t.nr + 1
  let t' ← insert cmp { t with data := upd t.data n k } n
  some (t', n)

/-- A sequence of index expressions: the elements they give. -/
def touches {α : Type} (cmp : α → α → Int) (t : Tree α) : List α → Option (List Nat)
  | [] => some []
  | k :: ks => do
    let (t', x) ← touch cmp t k
    let xs ← touches cmp t' ks
    some (x :: xs)

/-- The comparison of string keys. -/
def cmpStr (a b : List Str.Byte) : Int := (Str.strcmp false a b).getD 0

end Verif.LangKey
