import Verif.RbTree
/-
Model of the parser generator: the calculation of the nullable tokens, FIRST sets, states and
lookaheads in /repo/src/mln_parser_generator.c, and the construction of the table and the parser
itself, macros of /repo/include/mln_parser_generator.h.

A token of a grammar is its type number; a production is its left token and the list of its right
tokens.  A set of tokens (a red-black tree keyed by the type, walked in the order of insertion) is
the list of its members in that order.  The tree of the states is the tree of Verif/RbTree.lean,
because its comparison is not an order; the node of the state with id `i` has the address `i + 1`.
Two tokens are compared by their addresses: `addr` gives them, `addr none` being the address of the
variable `first_input` (mln_parser_generator.h line 680).

Loops carry a fuel; `none` (or `Res.fuel`) when it is used up.  The allocator does not fail.

Not modelled: reading the productions' texts (the lexer is Verif/Lex.lean) and numbering the names;
FOLLOW sets, which are calculated but not used; the repair of syntax errors (err_process), which
cannot make the parser succeed, since `failed` is never reset; lines, files and messages.
-/
namespace Verif.Pg

def upd {β} (f : Nat → β) (i : Nat) (v : β) : Nat → β := fun j => if j = i then v else f j

/-- mln_pg_rule_t, mln_parser_generator.h lines 50-54. -/
structure Rule where
  left : Nat
  rights : List Nat
deriving DecidableEq, Repr

/-- `tk->is_nonterminal`, set by pg_create_token (mln_parser_generator.h lines 414-429) for the
left tokens. -/
def isNt (g : List Rule) (t : Nat) : Bool := g.any (fun r => r.left == t)

/-- The fields is_nullable and first_set of all tokens, and the variables `map` and `change` of
mln_pg_calc_nullable and mln_pg_calc_first. -/
structure Work where
  map : List Bool
  nl : Nat → Bool
  fs : Nat → List Nat
  change : Bool

/-- `map[k] = 1` for the rules with the token on their right: the loops over right_rule_index,
mln_parser_generator.c lines 332-335 and 400-404. -/
def mark (g : List Rule) (t : Nat) (map : List Bool) : List Bool :=
  (map.zip g).map (fun p => p.1 || p.2.rights.contains t)

/-- Lines 319-329: a terminal is put into its own FIRST set. -/
def addSelf (g : List Rule) (fs : Nat → List Nat) (t : Nat) : Nat → List Nat :=
  if isNt g t || (fs t).contains t then fs else upd fs t (fs t ++ [t])

/-- The body of the loop over the rules in mln_pg_calc_nullable, lines 311-339. -/
def nullRule (g : List Rule) (w : Work) (i : Nat) : Work :=
  if w.map.getD i false = false then w
  else
    let w := { w with map := w.map.set i false }
    match g[i]? with
    | none => w
    | some r =>
      if w.nl r.left then w
      else
        let n := (r.rights.filter w.nl).length
        let w := { w with fs := r.rights.foldl (addSelf g) w.fs }
        if n = r.rights.length then
          { w with map := mark g r.left w.map, change := true, nl := upd w.nl r.left true }
        else w

/-- The loop `while (change)` of mln_pg_calc_nullable, lines 308-340. -/
def nullRounds (g : List Rule) : Nat → Work → Option Work
  | 0, _ => none
  | n + 1, w =>
    if w.change then nullRounds g n ((List.range g.length).foldl (nullRule g) { w with change := false })
    else some w

/-- mln_pg_calc_nullable, lines 297-342.  mln_pg_token_new has left the tokens not nullable and
their sets empty. -/
def calcNullable (g : List Rule) (fuel : Nat) : Option Work :=
  nullRounds g fuel { map := g.map (fun _ => true), nl := fun _ => false, fs := fun _ => [], change := true }

/-- mln_pg_calc_first_rbtree_iterate_handler, lines 384-406. -/
def addFirst (g : List Rule) (left : Nat) (w : Work) (x : Nat) : Work :=
  if (w.fs left).contains x then w
  else { w with fs := upd w.fs left (w.fs left ++ [x]), change := true, map := mark g left w.map }

/-- The loop over the right tokens in mln_pg_calc_first, lines 363-378. -/
def firstRights (g : List Rule) (left : Nat) : List Nat → Work → Work
  | [], w => w
  | t :: ts, w =>
    let w := (w.fs t).foldl (addFirst g left) w
    if w.nl t then firstRights g left ts w else w

/-- The body of the loop over the rules, lines 360-378. -/
def firstRule (g : List Rule) (w : Work) (i : Nat) : Work :=
  if w.map.getD i false = false then w
  else
    let w := { w with map := w.map.set i false }
    match g[i]? with
    | none => w
    | some r => firstRights g r.left r.rights w

/-- The loop `while (change)` of mln_pg_calc_first, lines 357-380. -/
def firstRounds (g : List Rule) : Nat → Work → Option Work
  | 0, _ => none
  | n + 1, w =>
    if w.change then firstRounds g n ((List.range g.length).foldl (firstRule g) { w with change := false })
    else some w

/-- mln_pg_calc_first, lines 347-382. -/
def calcFirst (g : List Rule) (fuel : Nat) (w : Work) : Option Work :=
  firstRounds g fuel { w with map := g.map (fun _ => true), change := true }

/-- mln_pg_item_t, mln_parser_generator.h lines 56-64; `goto` is goto_id, `none` for -1 (set by
mln_pg_item_new); the field `read` is only printed. -/
structure Item where
  rule : Nat
  pos : Nat
  la : List Nat
  goto : Option Nat
deriving DecidableEq, Repr

def Item.key (it : Item) : Nat × Nat := (it.rule, it.pos)

/-- mln_pg_state_t, mln_parser_generator.h lines 66-75: `input` (`none` is first_input) and the
chain of the items; nr_item is its length. -/
structure State where
  input : Option Nat
  items : List Item
deriving DecidableEq, Repr

/-- `item->rule->rights[item->pos]`, `none` when `item->rule->nr_right == item->pos`. -/
def next? (g : List Rule) (it : Item) : Option Nat := g[it.rule]?.bind (fun r => r.rights[it.pos]?)

/-- Insertion of the members of a set into another (mln_pg_closure_rbtree_iterate_handler, lines
582-599; mln_pg_goto_la_iterate_handler, lines 796-813); whether something was new. -/
def addAll (la : List Nat) (xs : List Nat) : List Nat × Bool :=
  xs.foldl (fun p x => if p.1.contains x then p else (p.1 ++ [x], true)) (la, false)

/-- The tokens that mln_pg_closure puts into the lookahead set of the items for the token behind
the dot of `it`: lines 537-561. -/
def follow (g : List Rule) (w : Work) (it : Item) : List Nat :=
  match g[it.rule]?.bind (fun r => r.rights[it.pos + 1]?) with
  | some nx => if w.nl nx then w.fs nx ++ it.la else w.fs nx
  | none => it.la

/-- The body of the loop over the rules in mln_pg_closure, lines 522-562, for the item number
`k` with the token `tk` behind its dot and the rule number `i`. -/
def closeRule (g : List Rule) (w : Work) (k tk : Nat) (p : List Item × Bool) (i : Nat) : List Item × Bool :=
  match g[i]? with
  | none => p
  | some r =>
    if r.left ≠ tk then p
    else
      let items := if p.1.any (fun it => it.key == (i, 0)) then p.1 else p.1 ++ [{ rule := i, pos := 0, la := [], goto := none }]
      match items[k]? with
      | none => (items, p.2)
      | some it =>
        let xs := follow g w it
        let j := items.findIdx (fun it => it.key == (i, 0))
        match items[j]? with
        | none => (items, p.2)
        | some new =>
          let q := addAll new.la xs
          (items.set j { new with la := q.1 }, p.2 || q.2)

/-- The loop over the items in mln_pg_closure, lines 518-563; new items are put at the end of the
chain and so are visited too. -/
def closePass (g : List Rule) (w : Work) : Nat → Nat → List Item × Bool → Option (List Item × Bool)
  | 0, _, _ => none
  | n + 1, k, p =>
    match p.1[k]? with
    | none => some p
    | some it =>
      match next? g it with
      | none => closePass g w n (k + 1) p
      | some tk =>
        if isNt g tk then closePass g w n (k + 1) ((List.range g.length).foldl (closeRule g w k tk) p)
        else closePass g w n (k + 1) p

/-- The loop `while (change)`. -/
def closeRounds (g : List Rule) (w : Work) (fuel : Nat) : Nat → List Item → Option (List Item)
  | 0, _ => none
  | n + 1, items => do
    let p ← closePass g w fuel 0 (items, false)
    if p.2 then closeRounds g w fuel n p.1 else some p.1

/-- mln_pg_closure, lines 506-567. -/
def closure (g : List Rule) (w : Work) (fuel : Nat) (items : List Item) : Option (List Item) :=
  closeRounds g w fuel fuel items

/-- What mln_pg_calc_info_cmp looks at. -/
structure Key where
  input : Option Nat
  items : List (Nat × Nat)
deriving DecidableEq, Repr

def State.key (s : State) : Key := { input := s.input, items := s.items.map Item.key }

/-- mln_pg_calc_info_cmp, mln_parser_generator.c lines 268-292. -/
def cmp (addr : Option Nat → Nat) (a b : Key) : Int :=
  if addr a.input > addr b.input then 1
  else if addr a.input < addr b.input then -1
  else if a.items.length > b.items.length then 1
  else if a.items.length < b.items.length then -1
  else
    let n := (a.items.filter (fun x => b.items.contains x)).length
    if a.items.length > n then 1
    else if n = a.items.length then 0
    else -1

/-- The variables of mln_pg_goto: the tree, the chain of the states (in the order of their ids) and
the queue of the states to be worked on, as ids. -/
structure Gen where
  tree : RbTree.Tree Key
  states : List State
  queue : List Nat

/-- The loop over the items before `save`, lines 668-681, and the test behind it: whether `save` is
left out.  The list is the items before `save`, the nearest first. -/
def skips (g : List Rule) (tk : Nat) : List Item → Nat → Nat → Bool
  | [], e, c => e == c && e != 0
  | it :: l, e, c =>
    match next? g it with
    | none => skips g tk l (e + 1) (c + 1)
    | some x => if x = tk then true else skips g tk l e (c + 1)

/-- The items of the new state before the closure, lines 689-709. -/
def kernel (g : List Rule) (tk : Nat) (items : List Item) : List Item :=
  (items.filter (fun it => next? g it = some tk)).map (fun it => { rule := it.rule, pos := it.pos + 1, la := it.la, goto := none })

/-- mln_pg_state_duplicate, lines 764-794, without the queue: the lookaheads of `src` are added to
those of `dest`. -/
def mergeItem (src : List Item) (d : Item) : Item × Bool :=
  match src.find? (fun s => s.key == d.key) with
  | none => (d, false)
  | some s => let q := addAll d.la s.la; ({ d with la := q.1 }, q.2)

/-- Lines 738-743: goto_id is set for `save` and the items behind it with the same next token. -/
def setGoto (g : List Rule) (k tk id : Nat) (items : List Item) : List Item :=
  items.take k ++ (items.drop k).map (fun it => if next? g it = some tk then { it with goto := some id } else it)

/-- Putting a new state into the tree (lines 727-735). -/
def addState (addr : Option Nat → Nat) (gen : Gen) (s : State) : Option Gen := do
  let id := gen.states.length
  let tree ← RbTree.insert (cmp addr) { gen.tree with data := upd gen.tree.data (id + 1) s.key } (id + 1)
  some { tree := tree, states := gen.states ++ [s], queue := gen.queue ++ [id] }

/-- Lines 717-736: the new state, or the state found in the tree; its id. -/
def place (addr : Option Nat → Nat) (gen : Gen) (s : State) : Option (Gen × Nat) := do
  let x ← RbTree.search (cmp addr) gen.tree s.key
  if x = 0 then
    let id := gen.states.length
    let gen ← addState addr gen s
    some (gen, id)
  else do
    let d ← gen.states[x - 1]?
    let ms := d.items.map (mergeItem s.items)
    let queue := if ms.any (·.2) && !gen.queue.contains (x - 1) then gen.queue ++ [x - 1] else gen.queue
    some ({ gen with states := gen.states.set (x - 1) { d with items := ms.map (·.1) }, queue := queue }, x - 1)

/-- The body of the loop over the items of the state `sid`, lines 666-743, for the item number
`k`. -/
def gotoItem (g : List Rule) (w : Work) (addr : Option Nat → Nat) (fuel : Nat) (gen : Gen) (sid k : Nat) : Option Gen := do
  let s ← gen.states[sid]?
  let save ← s.items[k]?
  match next? g save with
  | none => some gen
  | some tk =>
    if skips g tk (s.items.take k).reverse 0 0 then some gen
    else do
      let items ← closure g w fuel (kernel g tk (s.items.drop k))
      let (gen, id) ← place addr gen { input := some tk, items := items }
      let s ← gen.states[sid]?
      some { gen with states := gen.states.set sid { s with items := setGoto g k tk id s.items } }

/-- The loop over the items of a state, line 665. -/
def gotoItems (g : List Rule) (w : Work) (addr : Option Nat → Nat) (fuel sid : Nat) : List Nat → Gen → Option Gen
  | [], gen => some gen
  | k :: ks, gen => do
    let gen ← gotoItem g w addr fuel gen sid k
    gotoItems g w addr fuel sid ks gen

/-- The loop over the queue, lines 664-745. -/
def gotoLoop (g : List Rule) (w : Work) (addr : Option Nat → Nat) (fuel : Nat) : Nat → Gen → Option Gen
  | 0, _ => none
  | n + 1, gen =>
    match gen.queue with
    | [] => some gen
    | sid :: q => do
      let s ← gen.states[sid]?
      let gen ← gotoItems g w addr fuel sid (List.range s.items.length) { gen with queue := q }
      gotoLoop g w addr fuel n gen

/-- The tree made by mln_pg_calc_info_init, lines 234-255. -/
def newTree : RbTree.Tree Key :=
  RbTree.new ⟨fun _ => 0, fun _ => 0, fun _ => 0, fun _ => .black, 0⟩ (fun _ => ⟨none, []⟩) (fun _ => some ⟨(), none, none⟩)

/-- mln_pg_goto, lines 628-748: the states with their items.  The first state is put into the
empty tree before its closure is made, which makes no difference. -/
def calcGoto (g : List Rule) (w : Work) (addr : Option Nat → Nat) (fuel : Nat) : Option (List State) := do
  let items ← closure g w fuel [{ rule := 0, pos := 0, la := [], goto := none }]
  let gen ← addState addr { tree := newTree, states := [], queue := [] } { input := none, items := items }
  let gen ← gotoLoop g w addr fuel fuel gen
  some gen.states

/-- The kinds of entries, M_PG_ERROR (0) to M_PG_ACCEPT, mln_parser_generator.h lines 21-24. -/
inductive Kind where
  | error
  | shift
  | reduce
  | accept
deriving DecidableEq, Repr

/-- mln_shift_t, mln_parser_generator.h lines 77-83; `index` is `none` for -1. -/
structure Entry where
  index : Option Nat
  kind : Kind
  rule : Nat
  nargs : Nat
  left : Nat
deriving DecidableEq, Repr

def noEntry : Entry := { index := some 0, kind := .error, rule := 0, nargs := 0, left := 0 }

/-- PREFIX_reduce_iterate_handler, mln_parser_generator.h lines 258-287. -/
def putReduce (it : Item) (r : Rule) (p : (Nat → Entry) × Bool) (x : Nat) : (Nat → Entry) × Bool :=
  let e := p.1 x
  (upd p.1 x { index := some it.rule, kind := .reduce, rule := it.rule, nargs := r.rights.length, left := r.left },
    p.2 || (e.kind != .error && (e.kind != .reduce || e.index != some it.rule)))

/-- The body of the loop over the items in PREFIX_build_shift_tbl, lines 321-354. -/
def putItem (g : List Rule) (eof : Nat) (p : (Nat → Entry) × Bool) (it : Item) : (Nat → Entry) × Bool :=
  match g[it.rule]? with
  | none => p
  | some r =>
    match r.rights[it.pos]? with
    | none => it.la.foldl (putReduce it r) p
    | some tk =>
      let kind := if tk = eof then Kind.accept else .shift
      let e := p.1 tk
      (upd p.1 tk { index := it.goto, kind := kind, rule := it.rule, nargs := r.rights.length, left := r.left },
        p.2 || (e.kind != .error && (e.kind != kind || e.index != it.goto)))

/-- The row of a state, and whether there was a conflict. -/
def putState (g : List Rule) (eof : Nat) (s : State) : (Nat → Entry) × Bool :=
  s.items.foldl (putItem g eof) (fun _ => noEntry, false)

abbrev Table := List (Nat → Entry)

/-- PREFIX_build_shift_tbl, lines 289-362; `none` when there was a conflict. -/
def build (g : List Rule) (eof : Nat) (ss : List State) : Option Table :=
  if ss.any (fun s => (putState g eof s).2) then none else some (ss.map (fun s => (putState g eof s).1))

/-- PREFIX_parser_generate, lines 635-698, after the productions are read: `some none` is the
result NULL for a conflict, `none` that the fuel did not suffice. -/
def generate (g : List Rule) (eof : Nat) (addr : Option Nat → Nat) (fuel : Nat) : Option (Option Table) := do
  let w ← calcNullable g fuel
  let w ← calcFirst g fuel w
  let ss ← calcGoto g w addr fuel
  some (build g eof ss)

/-! ### The parser -/

/-- mln_factor_t, mln_parser_generator.h lines 113-121: token_type, data, cur_state. -/
structure Factor (D : Type) where
  type : Nat
  data : Option D
  st : Nat
deriving DecidableEq, Repr

/-- One of the parser's three machines: the fields cur_… or old_… of mln_parser_t,
mln_parser_generator.h lines 123-142. -/
structure Side (D : Type) where
  stack : List (Factor D)
  la : Option (Factor D)
  state : Nat
  red : Bool
deriving DecidableEq, Repr

/-- A token of the text: its type and the data of its factor (the token itself). -/
structure Tok (D : Type) where
  type : Nat
  data : D
deriving DecidableEq, Repr

/-- Results of the parts of the parser: `bad` is undefined behaviour or abort(). -/
inductive Res (α : Type) where
  | ok (a : α)
  | bad
  | fuel
deriving DecidableEq, Repr

/-- M_P_QLEN, line 26. -/
def qlen : Nat := 16

/-- The entry looked at by the loop of PREFIX_sys_parse, lines 903-910. -/
def entry? {D} (tbl : Table) (s : Side D) : Option Entry :=
  (if s.red then s.stack.head?.map (·.type) else s.la.map (·.type)).bind (fun col => tbl[s.state]?.map (fun row => row col))

/-- `*state` after the factors of a production are popped, lines 1171-1183. -/
def popState {D} (n : Nat) (s : Side D) : Nat :=
  match (s.stack.take n).getLast? with
  | none => s.state
  | some f => f.st

/-- PREFIX_sys_parse (lines 854-985) for the machine that calls the productions' functions, type
M_P_OLD_STACK, from the loop on, with PREFIX_shift (lines 1207-1267) and PREFIX_reduce_launcher
(lines 1150-1205).  `f` is the functions of the productions (and NULL, which leaves the data NULL):
number of the production, data of the right factors, user's data; `none` is a negative result.  The
result of PREFIX_sys_parse is not used by its callers, so it is not kept.  A shift to state -1 is
`bad`, since the next thing the machine does is to look into row -1 of the table. -/
def oldRun {D U} (tbl : Table) (f : Nat → List (Option D) → U → U × Option (Option D)) (done : Bool) :
    Nat → Side D → List (Factor D) → U → Res (Side D × List (Factor D) × U)
  | 0, _, _, _ => .fuel
  | n + 1, s, q, u =>
    match entry? tbl s with
    | none => .bad
    | some e =>
      match e.kind with
      | .shift =>
        match e.index with
        | none => .bad
        | some idx =>
          if s.red then oldRun tbl f done n { s with state := idx, red := false } q u
          else
            match s.la with
            | none => .bad
            | some la =>
              let stack := { la with st := s.state } :: s.stack
              match q with
              | [] => .ok ({ s with stack := stack, la := none }, [], u)
              | x :: q =>
                let s := { s with stack := stack, la := some x, state := idx }
                if done then oldRun tbl f done n s q u else .ok (s, q, u)
      | .reduce =>
        if s.stack.length < e.nargs then .bad
        else
          let st := popState e.nargs s
          let rest := s.stack.drop e.nargs
          match f e.rule ((s.stack.take e.nargs).reverse.map (·.data)) u with
          | (u, none) => .ok ({ s with stack := rest, state := st }, q, u)
          | (u, some d) => oldRun tbl f done n { s with stack := { type := e.left, data := d, st := st } :: rest, state := st, red := true } q u
      | .error => .ok (s, q, u)
      | .accept => .ok (s, q, u)

/-- The beginning of PREFIX_sys_parse, lines 889-891: with an empty stack the lookahead is taken
from the queue. -/
def oldParse {D U} (tbl : Table) (f : Nat → List (Option D) → U → U × Option (Option D)) (done : Bool) (fuel : Nat) (s : Side D) (q : List (Factor D)) (u : U) :
    Res (Side D × List (Factor D) × U) :=
  if s.stack.isEmpty then oldRun tbl f done fuel { s with la := q.head? } q.tail u else oldRun tbl f done fuel s q u

/-- The results of PREFIX_parse: the data of the top of old_stack (`none`: NULL) and the user's data
afterwards; NULL after an error. -/
inductive Out (D U : Type) where
  | value (d : Option D) (u : U)
  | null
  | bad
  | fuel
deriving DecidableEq, Repr

/-- PREFIX_sys_parse for the machine that reads the text, type M_P_CUR_STACK, from the loop on, and
the rest of PREFIX_parse (lines 842-851).  `toks` is what the lexer will deliver, after which it
fails. -/
def curRun {D U} (tbl : Table) (f : Nat → List (Option D) → U → U × Option (Option D)) :
    Nat → Side D → List (Tok D) → Side D → List (Factor D) → U → Out D U
  | 0, _, _, _, _, _ => .fuel
  | n + 1, s, toks, o, q, u =>
    match entry? tbl s with
    | none => .bad
    | some e =>
      match e.kind with
      | .shift =>
        match e.index with
        | none => .bad
        | some idx =>
          if s.red then curRun tbl f n { s with state := idx, red := false } toks o q u
          else
            match s.la with
            | none => .bad
            | some la =>
              let stack := { la with st := s.state } :: s.stack
              if q.length = qlen then .null
              else
                let q := q ++ [{ la with st := s.state }]
                match (if q.length = qlen then oldParse tbl f false n o q u else .ok (o, q, u)) with
                | .bad => .bad
                | .fuel => .fuel
                | .ok (o, q, u) =>
                  match toks with
                  | [] => .null
                  | t :: toks =>
                    curRun tbl f n { s with stack := stack, la := some { type := t.type, data := some t.data, st := s.state }, state := idx } toks o q u
      | .reduce =>
        if s.stack.length < e.nargs then .bad
        else
          let st := popState e.nargs s
          curRun tbl f n { s with stack := { type := e.left, data := none, st := st } :: s.stack.drop e.nargs, state := st, red := true } toks o q u
      | .error => .null
      | .accept =>
        match s.la with
        | none => .bad
        | some la =>
          if q.length = qlen then .null
          else
            match oldParse tbl f true n o (q ++ [{ la with st := s.state }]) u with
            | .bad => .bad
            | .fuel => .fuel
            | .ok (o, _, u) => .value (o.stack.head?.bind (·.data)) u

/-- PREFIX_parse, lines 825-851. -/
def parse {D U} (tbl : Table) (f : Nat → List (Option D) → U → U × Option (Option D)) (fuel : Nat) (toks : List (Tok D)) (u : U) : Out D U :=
  match toks with
  | [] => .null
  | t :: toks =>
    curRun tbl f fuel { stack := [], la := some { type := t.type, data := some t.data, st := 0 }, state := 0, red := false } toks
      { stack := [], la := none, state := 0, red := false } [] u

end Verif.Pg
