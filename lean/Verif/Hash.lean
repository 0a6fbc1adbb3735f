/-
Model of the hash table, /repo/src/mln_hash.c.

Entries are numbered; `ent` gives the fields of an entry.  The two doubly linked lists an entry
is in (the chain of its bucket, the iteration chain of the table) are lists of numbers: chain_add
appends and chain_del removes the node (the pointer manipulation of MLN_CHAIN_FUNC_DEFINE is
modelled and verified in Verif/Chain.lean).  An entry is allocated as long as it is in `order`.
A bucket array is identified by its generation `gen`; a pointer to a bucket (`mgr`) is the pair of
generation and index, and using one of an older generation is a use after free.  `none` is
undefined behaviour.  `nr_nodes`, `threshold` and the local `len` are 32-bit.  Only the malloc
variant (`pool == NULL`) is modelled; each allocation is a Boolean argument (did it succeed).
The hash function, the comparator and mln_prime_generate are parameters.
-/
namespace Verif.Hash

/-- 2^32. -/
abbrev U : Nat := 4294967296

/-- The attributes of a table that do not change, mln_hash.h lines 67-86. -/
structure Cfg (K : Type) where
  /-- The handler `hash`; it sees the current bucket count. -/
  hash : Nat → K → Nat
  /-- The handler `cmp`. -/
  cmp : K → K → Bool
  /-- mln_prime_generate. -/
  prime : Nat → Nat
  expandable : Bool
  calcPrime : Bool
  hasKeyFreer : Bool
  hasValFreer : Bool

/-- mln_hash_flag_t, mln_hash.h lines 23-28. -/
inductive Flag
  | none | val | key | kv
deriving DecidableEq, Repr

/-- mln_hash_entry_t, mln_hash.h lines 43-54. -/
structure Ent (K V : Type) where
  key : K
  val : V
  mgr : Nat × Nat
  flag : Flag
  removed : Bool

/-- mln_hash_t, mln_hash.h lines 61-80.  `log`: arguments of the freer handlers, newest first. -/
structure St (K V : Type) where
  ent : Nat → Ent K V
  gen : Nat
  len : Nat
  tbl : Nat → List Nat
  nr : Nat
  thr : Nat
  order : List Nat
  iter : Option Nat
  fresh : Nat
  log : List (K ⊕ V)

variable {K V : Type}

def upd {β : Type} (f : Nat → β) (i : Nat) (v : β) : Nat → β := fun j => if j = i then v else f j

/-- mln_hash_new_fast, lines 150-184 (mln_hash_init_fast, mln_hash_init and mln_hash_new are the
same assignments), when the allocations succeed; `ent0` is whatever memory holds. -/
def new (c : Cfg K) (ent0 : Nat → Ent K V) (base : Nat) : Option (St K V) :=
  let len := if c.calcPrime then c.prime (base % U) else base
  if len = 0 then none
  else some { ent := ent0, gen := 0, len := len, tbl := fun _ => [], nr := 0
              thr := (if c.calcPrime then c.prime (len * 2 % U) else len * 2 % U)
              order := [], iter := .none, fresh := 0, log := [] }

/-- `h->tbl[h->hash(h, key)]`; the index is 32-bit.  `none`: outside the array. -/
def index (c : Cfg K) (s : St K V) (k : K) : Option Nat :=
  if c.hash s.len k % U < s.len then some (c.hash s.len k % U) else none

/-- The loop `for (he = mgr->head; ...) if (h->cmp(h, key, he->key)) break;`, e.g. lines 228-230. -/
def findIn (c : Cfg K) (s : St K V) (k : K) (l : List Nat) : Option Nat :=
  l.find? fun id => c.cmp k (s.ent id).key

/-- mln_move_hash_entry, lines 319-336: the entries of the old buckets, in order. -/
def move (c : Cfg K) (s : St K V) : List Nat → Option (St K V)
  | [] => some s
  | id :: rest => do
    let i ← index c s (s.ent id).key
    move c { s with tbl := upd s.tbl i (s.tbl i ++ [id]) } rest

/-- The entries of the first `n` buckets, bucket by bucket. -/
def entries (tbl : Nat → List Nat) : Nat → List Nat
  | 0 => []
  | n + 1 => entries tbl n ++ tbl n

/-- mln_hash_reduce, lines 275-295. -/
def reduce (c : Cfg K) (s : St K V) (ok : Bool) : Option (St K V) :=
  let l := if c.calcPrime then c.prime (s.thr / 4) else s.thr / 4
  let l := if l = 0 then 1 else l
  if ok then
    move c { s with len := l, tbl := fun _ => [], gen := s.gen + 1
                    thr := (if c.calcPrime then c.prime (s.thr / 2) else s.thr / 2) } (entries s.tbl (s.len % U))
  else some s

/-- mln_hash_expand, lines 297-317. -/
def expand (c : Cfg K) (s : St K V) (ok : Bool) : Option (St K V) :=
  let len := s.len % U
  let l := if c.calcPrime then c.prime (len * 2 % U) else (len * 2 + (U - 1)) % U
  if ok then
    move c { s with len := l, tbl := fun _ => [], gen := s.gen + 1
                    thr := (if c.calcPrime then c.prime (s.thr * 2 % U) else (s.thr * 2 + (U - 1)) % U) } (entries s.tbl len)
  else some s

/-- The two tests at the start of mln_hash_insert, lines 259-264 (and lines 243-248). -/
def resize (c : Cfg K) (s : St K V) (okE okR : Bool) : Option (St K V) := do
  let s ← if c.expandable = true ∧ s.nr > s.thr then expand c s okE else some s
  if c.expandable = true ∧ s.nr ≤ s.thr / 8 then reduce c s okR else some s

/-- mln_hash_entry_new and the two chain_add, lines 267-271: `mgr` is the bucket. -/
def link (s : St K V) (mgr : Nat × Nat) (k : K) (v : V) : Option (St K V) :=
  if mgr.1 = s.gen then
    some { s with ent := upd s.ent s.fresh ⟨k, v, mgr, .none, false⟩
                  tbl := upd s.tbl mgr.2 (s.tbl mgr.2 ++ [s.fresh])
                  order := s.order ++ [s.fresh], nr := (s.nr + 1) % U, fresh := s.fresh + 1 }
  else none

/-- mln_hash_insert, lines 258-273; the Boolean is success. -/
def insert (c : Cfg K) (s : St K V) (k : K) (v : V) (okE okR ok : Bool) : Option (St K V × Bool) := do
  let s ← resize c s okE okR
  let i ← index c s k
  if ok then do
    let s ← link s (s.gen, i) k v
    some (s, true)
  else some (s, false)

/-- mln_hash_update, lines 222-256; result: success, and what is stored back through the two
pointer arguments. -/
def update (c : Cfg K) (s : St K V) (k : K) (v : V) (okE okR ok : Bool) : Option (St K V × Bool × Option (K × V)) := do
  let i ← index c s k
  match findIn c s k (s.tbl i) with
  | some id =>
    some ({ s with ent := upd s.ent id { s.ent id with removed := false, key := k, val := v } }, true,
      some ((s.ent id).key, (s.ent id).val))
  | none => do
    let mgr := (s.gen, i)
    let s ← resize c s okE okR
    if ok then do
      let s ← link s mgr k v
      some (s, true, none)
    else some (s, false, some (k, v))

/-- mln_hash_change_value, lines 338-351. -/
def changeValue (c : Cfg K) (s : St K V) (k : K) (v : V) : Option (St K V × Option V) := do
  let i ← index c s k
  match findIn c s k (s.tbl i) with
  | some id => some ({ s with ent := upd s.ent id { s.ent id with val := v } }, some (s.ent id).val)
  | none => some (s, none)

/-- mln_hash_search, lines 353-362. -/
def search (c : Cfg K) (s : St K V) (k : K) : Option (Option V) := do
  let i ← index c s k
  match findIn c s k (s.tbl i) with
  | some id => some (if (s.ent id).removed then none else some (s.ent id).val)
  | none => some none

/-- mln_hash_search_iterator, lines 364-388.  The context is the rest of the chain from the entry
it points to (`none`: the NULL pointer, also for an empty rest). -/
def searchIter (c : Cfg K) (s : St K V) (k : K) (ctx : Option (List Nat)) : Option (Option V × Option (List Nat)) := do
  let l ← match ctx with
    | some l => some l
    | none => do
      let i ← index c s k
      some (s.tbl i)
  match l.dropWhile (fun id => ! c.cmp k (s.ent id).key) with
  | [] => some (none, none)
  | id :: rest =>
    if (s.ent id).removed then some (none, none)
    else some (some (s.ent id).val, if rest = [] then none else some rest)

/-- mln_hash_key_exist, lines 490-498. -/
def keyExist (c : Cfg K) (s : St K V) (k : K) : Option Bool := do
  let i ← index c s k
  some ((s.tbl i).any fun id => ! (s.ent id).removed && c.cmp k (s.ent id).key)

/-- mln_hash_entry_free, lines 436-460: the freer calls. -/
def freeCalls (c : Cfg K) (e : Ent K V) (flg : Flag) : List (K ⊕ V) :=
  match flg with
  | .val => if c.hasValFreer then [.inr e.val] else []
  | .key => if c.hasKeyFreer then [.inl e.key] else []
  | .kv => (if c.hasKeyFreer then [.inl e.key] else []) ++ (if c.hasValFreer then [.inr e.val] else [])
  | .none => []

/-- chain_del from both chains, `--nr_nodes`, entry_free: lines 409-412 and 480-483.  `mgr` is the
bucket whose head and tail are used. -/
def unlink (c : Cfg K) (s : St K V) (id : Nat) (mgr : Nat × Nat) (flg : Flag) : Option (St K V) :=
  if mgr.1 = s.gen then
    some { s with tbl := upd s.tbl mgr.2 ((s.tbl mgr.2).erase id), order := s.order.erase id
                  nr := (s.nr + (U - 1)) % U, log := freeCalls c (s.ent id) flg ++ s.log }
  else none

/-- mln_hash_remove, lines 390-413. -/
def remove (c : Cfg K) (s : St K V) (k : K) (flg : Flag) : Option (St K V) := do
  let i ← index c s k
  match findIn c s k (s.tbl i) with
  | none => some s
  | some id =>
    if s.iter = some id then
      some { s with ent := upd s.ent id { s.ent id with flag := flg, removed := true } }
    else unlink c s id (s.gen, i) flg

/-- mln_hash_reset, lines 500-515. -/
def reset (c : Cfg K) (s : St K V) (flg : Flag) : St K V :=
  { s with tbl := fun i => if i < s.len then [] else s.tbl i, nr := 0, order := [], iter := none
           log := ((entries s.tbl s.len).reverse.flatMap fun id => freeCalls c (s.ent id) flg) ++ s.log }

/-- The freer calls of mln_hash_destroy and mln_hash_free, lines 186-220, newest first. -/
def destroyLog (c : Cfg K) (s : St K V) (flg : Flag) : List (K ⊕ V) :=
  ((entries s.tbl s.len).reverse.flatMap fun id => freeCalls c (s.ent id) flg) ++ s.log

/-- `he->iter_next`. -/
def nextOf : List Nat → Nat → Option Nat
  | a :: b :: l, id => if a = id then some b else nextOf (b :: l) id
  | _, _ => none

/-- What a handler does to the table when it is called for an entry. -/
inductive Act (K V : Type)
  /-- mln_hash_remove. -/
  | remove (k : K) (flg : Flag)
  /-- mln_hash_insert with the outcomes of its allocations. -/
  | insert (k : K) (v : V) (okE okR ok : Bool)
  /-- mln_hash_change_value. -/
  | change (k : K) (v : V)

def act (c : Cfg K) (s : St K V) : Act K V → Option (St K V)
  | .remove k flg => remove c s k flg
  | .insert k v okE okR ok => (insert c s k v okE okR ok).map (·.1)
  | .change k v => (changeValue c s k v).map (·.1)

def acts (c : Cfg K) (s : St K V) : List (Act K V) → Option (St K V)
  | [] => some s
  | a :: l => do acts c (← act c s a) l

/-- A handler with its `udata` of type `D`: from the data, the key and the value, the calls it
makes, its new data, and whether it returns a negative value. -/
abbrev Handler (K V D : Type) := D → K → V → List (Act K V) × D × Bool

/-- mln_hash_iterate, lines 462-488: `he` is the pointer, `vis` the entries the handler was
called for (newest first).  The Boolean is the result (true: 0, false: -1). -/
def iterLoop (c : Cfg K) {D : Type} (hd : Handler K V D) : Nat → St K V → Option Nat → D → List Nat →
    Option (St K V × D × List Nat × Bool)
  | 0, _, _, _, _ => none
  | _ + 1, s, none, d, vis => some ({ s with iter := none }, d, vis, true)
  | fuel + 1, s, some id, d, vis =>
    if id ∈ s.order then
      let nxt := nextOf s.order id
      let s := { s with iter := some id }
      if (s.ent id).removed then iterLoop c hd fuel s nxt d vis
      else
        let r := hd d (s.ent id).key (s.ent id).val
        match acts c s r.1 with
        | none => none
        | some s =>
          if r.2.2 then some ({ s with iter := none }, r.2.1, id :: vis, false)
          else if id ∈ s.order then
            if (s.ent id).removed then
              match unlink c s id (s.ent id).mgr (s.ent id).flag with
              | none => none
              | some s => iterLoop c hd fuel s nxt r.2.1 (id :: vis)
            else iterLoop c hd fuel s nxt r.2.1 (id :: vis)
          else none
    else none

def iterate (c : Cfg K) {D : Type} (hd : Handler K V D) (fuel : Nat) (s : St K V) (d : D) :
    Option (St K V × D × List Nat × Bool) :=
  iterLoop c hd fuel s s.order.head? d []

end Verif.Hash
