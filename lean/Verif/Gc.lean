/-
Model of the garbage collector, /repo/src/mln_gc.c.

An item is a number (its address).  `items` is the chain of a collector, `proc` its working chain
(proc_head .. proc_tail), both in order; the flags of the items are functions, as items of other
collectors take part.  An item is on the working chain iff its proc_prev or proc_next is set or it is the
only element, which is what lines 129-131, 143-145 and 158-160 test: `x ∈ proc` (an item that is on the working
chain of another collector at the same time is not covered).

The callbacks are modelled by what they do to the collector: `root_setter` calls mln_gc_collect_add for
`roots`, `member_setter` calls it for the members of its item, `clean_searcher` calls mln_gc_clean_add for
the members of its item; a result -1 makes the user drop that reference (as mln_lang.c 7852-7859 does), which
is recorded in `cut`.  Calls of mln_gc_remove from within callbacks are not covered; so `gc->del` stays 0.
Loops carry fuel, `none` is running out of it.
-/
namespace Verif.Gc

abbrev Item := Nat

/-- mln_gc_t and the flags of mln_gc_item_t, include/mln_gc.h lines 36-65. -/
structure St where
  items : List Item
  proc : List Item
  susp : Item → Bool
  credit : Item → Bool
  inc : Item → Bool
  vis : Item → Bool

def upd (f : Item → Bool) (i : Item) (b : Bool) : Item → Bool := fun j => if j = i then b else f j

/-- mln_gc_new, lines 52-79, with the flags of the items there are. -/
def new (susp : Item → Bool) : St := ⟨[], [], susp, fun _ => false, fun _ => false, fun _ => false⟩

/-- mln_gc_add, lines 95-103 (and mln_gc_item_new, lines 28-42). -/
def add (s : St) (x : Item) : St :=
  { s with items := s.items ++ [x], susp := upd s.susp x false, credit := upd s.credit x false, inc := upd s.inc x false, vis := upd s.vis x false }

/-- mln_gc_suspect, lines 105-108. -/
def suspect (s : St) (x : Item) : St := { s with susp := upd s.susp x true }

/-- mln_gc_merge, lines 110-123: `dest`, and the chain of the other collector. -/
def merge (s : St) : List Item → St
  | [] => s
  | x :: src => merge { s with items := s.items ++ [x] } src

/-- mln_gc_remove outside of a collection, lines 226-243. -/
def remove (s : St) (x : Item) : St := { s with items := s.items.erase x }

/-- mln_gc_collect_add, lines 125-138. -/
def collectAdd (s : St) (x : Item) : St :=
  if x ∈ s.proc then { s with credit := upd s.credit x true }
  else { s with proc := s.proc ++ [x], inc := upd s.inc x true }

/-- The loop of lines 157-162. -/
def enlist (s : St) : List Item → St
  | [] => s
  | x :: l => if x ∈ s.proc then enlist s l else enlist { s with proc := s.proc ++ [x] } l

/-- The loops of lines 165-175, from position `i` of the working chain. -/
def mark (mem : Item → List Item) : Nat → Nat → Bool → St → Option St
  | 0, _, _, _ => none
  | fuel + 1, i, done, s =>
    match s.proc[i]? with
    | none => if done then some s else mark mem fuel 0 true s
    | some x =>
      if s.susp x && !s.credit x || s.vis x then mark mem fuel (i + 1) done s
      else
        let s := (mem x).foldl collectAdd s
        mark mem fuel (i + 1) false { s with vis := upd s.vis x true }

/-- The loop of lines 177-196: the second result is the new working chain. -/
def pick (s : St) : List Item → St × List Item
  | [] => (s, [])
  | x :: l =>
    if s.inc x then pick { s with inc := upd s.inc x false, vis := upd s.vis x false, credit := upd s.credit x false } l
    else if s.credit x then pick { s with credit := upd s.credit x false, vis := upd s.vis x false } l
    else if !s.susp x then pick { s with vis := upd s.vis x false, credit := upd s.credit x false } l
    else ((pick s l).1, x :: (pick s l).2)

/-- mln_gc_clean_add, lines 140-152, called by `clean_searcher` for the member `y` of `x`. -/
def cleanAdd (x : Item) (sc : St × List (Item × Item)) (y : Item) : St × List (Item × Item) :=
  if y ∈ sc.1.proc then (sc.1, sc.2 ++ [(x, y)])
  else ({ sc.1 with proc := sc.1.proc ++ [y], inc := upd sc.1.inc y true }, sc.2)

/-- The loop of lines 200-212.  (`gc->iter->next` in line 202 is not the working chain; that case, `none` here, is
never reached, as the proofs show.) -/
def clean (mem : Item → List Item) : Nat → Nat → St → List (Item × Item) → Option (St × List (Item × Item))
  | 0, _, _, _ => none
  | fuel + 1, i, s, cut =>
    match s.proc[i]? with
    | none => some (s, cut)
    | some x =>
      if s.vis x then none
      else
        let (s, cut) := (mem x).foldl (cleanAdd x) (s, cut)
        clean mem fuel (i + 1) { s with vis := upd s.vis x true } cut

/-- The loop of lines 213-223: the second result is what is freed, in order.  The flags of a freed item are
gone with it; the model clears them. -/
def sweep (s : St) : List Item → St × List Item
  | [] => (s, [])
  | x :: l =>
    if s.inc x then sweep { s with inc := upd s.inc x false, vis := upd s.vis x false } l
    else
      let r := sweep { s with items := s.items.erase x, vis := upd s.vis x false } l
      (r.1, x :: r.2)

structure Result where
  st : St
  freed : List Item
  cut : List (Item × Item)

/-- mln_gc_collect, lines 154-224.  (`roots` is empty if there is no root.) -/
def collect (mem : Item → List Item) (roots : List Item) (fuel : Nat) (s : St) : Option Result :=
  let s := roots.foldl collectAdd (enlist s s.items)
  match mark mem fuel 0 true s with
  | none => none
  | some s =>
    let r := pick s s.proc
    match clean mem fuel 0 { r.1 with proc := r.2 } [] with
    | none => none
    | some (s, cut) =>
      let r := sweep s s.proc
      some { st := { r.1 with proc := [] }, freed := r.2, cut := cut }

end Verif.Gc
