import Verif.Gc
/-!
# What the garbage collector of the script language sees

mln_lang.c: the collection between the turns of a job (894), mln_lang_gc_item_root_setter (7799-7820),
mln_lang_gc_item_member_setter (7687-7706), mln_lang_gc_item_member_setter_recursive (7714-7741) and its two
handlers (7743-7791), mln_lang_gc_item_clean_searcher (7822-7929).

Simplifications.
* An array or object is its item of the collector (`gc_item`), a number.  All of them belong to the collector
  of the job.
* The trees of members and elements are lists in the order of the iteration.
* Reference counts are left out: an item is suspected or not, as the collector sees it (mln_lang.c 2498, 2797
  set the mark when one of several references is dropped).
* What mln_gc_collect does is that of `Verif.Gc`, apart from the two handlers, which are here different
  functions; a reference that is dropped when mln_gc_clean_add refuses (7852-7859) is recorded in `cut`.
* Of the recursion `none` is running out of fuel.
-/
namespace Verif.LangGc
open Verif.Gc

/-- A value, mln_lang.h: an object or array, a function with what it captured (`closure`), or another one. -/
inductive Val
  | other
  | box (x : Item)
  | func (caps : List Val)

/-- An object with its members, an array with its elements, each with a key and a value or without. -/
inductive Cell
  | obj (members : List Val)
  | array (elems : List (Option Val × Option Val))

/-- The tests of the type, e.g. lines 7751-7757: objects and arrays only. -/
def Val.item : Val → Option Item
  | .box x => some x
  | _ => none

/-- The items the handlers go through: lines 7743-7759 and 7843-7871 for objects, 7761-7791 and 7873-7929 for
arrays. -/
def kids : Cell → List Item
  | .obj ms => ms.filterMap Val.item
  | .array es => es.flatMap fun e => (e.1.bind Val.item).toList ++ (e.2.bind Val.item).toList

/-- mln_lang_gc_item_member_setter_recursive, lines 7714-7741, with the handlers: the calls of
mln_gc_collect_add in order, and the tree `visited`. -/
def visit (h : Item → Cell) : Nat → List Item × List Item → Item → Option (List Item × List Item)
  | 0, _, _ => none
  | fuel + 1, st, x =>
    if x ∈ st.2 then some st
    else (kids (h x)).foldlM (fun st y => visit h fuel (st.1 ++ [y], st.2) y) (st.1, x :: st.2)

/-- mln_lang_gc_item_member_setter, lines 7687-7706. -/
def members (h : Item → Cell) (fuel : Nat) (x : Item) : List Item := ((visit h fuel ([], []) x).map Prod.fst).getD []

/-- mln_lang_gc_item_root_setter, lines 7799-7820: the variables of the symbol table. -/
def roots (syms : List Val) : List Item := syms.filterMap Val.item

/-- mln_gc_collect, mln_gc.c 154-224, with the handlers of the language. -/
def collect (h : Item → Cell) (syms : List Val) (fuel : Nat) (s : St) : Option Result :=
  if s.items.any fun x => (visit h fuel ([], []) x).isNone then none
  else
    let s := (roots syms).foldl collectAdd (enlist s s.items)
    match mark (members h fuel) fuel 0 true s with
    | none => none
    | some s =>
      let r := pick s s.proc
      match clean (fun x => kids (h x)) fuel 0 { r.1 with proc := r.2 } [] with
      | none => none
      | some (s, cut) =>
        let r := sweep s s.proc
        some { st := { r.1 with proc := [] }, freed := r.2, cut := cut }

end Verif.LangGc
