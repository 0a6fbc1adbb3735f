import Verif.HashProps
import Mathlib.Data.List.Perm.Subperm
/-
More about the hash table (Verif/Hash.lean): all values of a key, what is freed, resetting, and
entries that are marked as removed.
-/
namespace Verif.Hash
variable {K V : Type}

/-! ### All values of a key -/

/-- The loop `do { val = mln_hash_search_iterator(h, key, &ctx); ... } while (ctx != NULL);` (as in
mln_http_field_iterator): the values that are not NULL. -/
def collect (c : Cfg K) (s : St K V) (k : K) : Nat → Option (List Nat) → Option (List V)
  | 0, _ => none
  | n + 1, ctx =>
    (searchIter c s k ctx).bind fun r =>
      match r.2 with
      | none => some r.1.toList
      | some l => (collect c s k n (some l)).map (r.1.toList ++ ·)

/-- The first `n` results of the loop `while ((val = mln_hash_search_iterator(h, key, &ctx)) != NULL)`
if it is not left. -/
def calls (c : Cfg K) (s : St K V) (k : K) : Nat → Option (List Nat) → Option (List (Option V))
  | 0, _ => some []
  | n + 1, ctx => (searchIter c s k ctx).bind fun r => (calls c s k n r.2).map (r.1 :: ·)

theorem filter_dropWhile_not (p : Nat → Bool) (l : List Nat) : l.filter p = (l.dropWhile (fun x => ! p x)).filter p := by
  induction l with
  | nil => rfl
  | cons a l ih =>
    cases h : p a with
    | true => simp [List.dropWhile, h]
    | false => simp [List.dropWhile, h, ih]

theorem dropWhile_nil (p : Nat → Bool) (l : List Nat) (h : l.dropWhile p = []) : ∀ x ∈ l, p x = true := by
  induction l with
  | nil => intro x hx; cases hx
  | cons a l ih =>
    cases ha : p a with
    | false => simp [List.dropWhile, ha] at h
    | true =>
      simp only [List.dropWhile, ha] at h
      intro x hx
      rcases List.mem_cons.1 hx with rfl | hx
      · exact ha
      · exact ih h x hx

theorem collect_some (c : Cfg K) (s : St K V) (k : K) (hr : ∀ id ∈ s.order, (s.ent id).removed = false) : ∀ (n : Nat) (l : List Nat), (∀ id ∈ l, id ∈ s.order) → l.length < n →
    collect c s k n (some l) = some ((l.filter (fun id => c.cmp k (s.ent id).key)).map (fun id => (s.ent id).val)) := by
  intro n
  induction n with
  | zero => intro l _ h; omega
  | succ n ih =>
    intro l hl hn
    rw [collect]
    simp only [searchIter, Option.bind_eq_bind, Option.bind_some]
    rw [filter_dropWhile_not]
    have hsuf := List.dropWhile_suffix (l := l) (fun id => ! c.cmp k (s.ent id).key)
    have hhd := List.head?_dropWhile_not (fun id => ! c.cmp k (s.ent id).key) l
    cases hd : l.dropWhile (fun id => ! c.cmp k (s.ent id).key) with
    | nil => simp
    | cons id rest =>
      rw [hd] at hsuf hhd
      have hid : c.cmp k (s.ent id).key = true := by simpa using hhd
      have hmem : ∀ j ∈ id :: rest, j ∈ s.order := fun j hj => hl j (hsuf.subset hj)
      have hlen := hsuf.length_le
      simp only [List.length_cons] at hlen
      simp only [hr id (hmem id (by simp)), Bool.false_eq_true, if_false, Option.bind_some]
      by_cases hrest : rest = []
      · subst hrest
        simp [hid]
      · simp only [if_neg hrest]
        rw [ih rest (fun j hj => hmem j (by simp [hj])) (by omega)]
        simp [hid]

/-- **All values of a key**: in every state between calls, going on while the context is not NULL
gives every value of the key exactly once, in the order of insertion. -/
theorem iterator_all (c : Cfg K) (hc : c.Ok) (s : St K V) (h : Inv c s) (k : K) (n : Nat) (hn : s.order.length < n) :
    collect c s k n none = some (((abs s).filter (fun p => c.cmp k p.1)).map (·.2)) := by
  have hlt := hc.hash_lt s.len k h.core.len0
  have hb : ∀ id ∈ s.tbl (c.hash s.len k), id ∈ s.order := fun id hid => (h.core.mem _ hlt id hid).1
  have hlen : (s.tbl (c.hash s.len k)).length ≤ s.order.length := ((h.core.bnodup _ hlt).subperm hb).length_le
  have e : collect c s k n none = collect c s k n (some (s.tbl (c.hash s.len k))) := by
    cases n with
    | zero => rfl
    | succ n => simp [collect, searchIter, index_ok c hc s h.core.len0 h.core.lenU]
  rw [e, collect_some c s k h.clean.rem n _ hb (by omega), h.core.bucket k]
  unfold abs
  rw [List.filter_map, List.map_map]
  rfl

/-- **Refuted: going on until NULL is returned.**  If the last entry of the bucket has the key, the
context is NULL behind it, and the next call begins again: no call ever returns NULL. -/
theorem iterator_endless (c : Cfg K) (hc : c.Ok) (s : St K V) (h : Inv c s) (k : K) (id : Nat) (hl : (s.tbl (c.hash s.len k)).getLast? = some id)
    (hk : c.cmp k (s.ent id).key = true) (n : Nat) : ∃ l, calls c s k n none = some l ∧ l.length = n ∧ none ∉ l := by
  have hlt := hc.hash_lt s.len k h.core.len0
  have hb : ∀ id ∈ s.tbl (c.hash s.len k), id ∈ s.order := fun id hid => (h.core.mem _ hlt id hid).1
  -- a call from a list that ends with the entry
  have one : ∀ l : List Nat, (∀ j ∈ l, j ∈ s.order) → l.getLast? = some id → ∃ v, searchIter c s k (some l) = some (some v, none) ∨
      ∃ l', searchIter c s k (some l) = some (some v, some l') ∧ (∀ j ∈ l', j ∈ s.order) ∧ l'.getLast? = some id := by
    intro l hlo hla
    simp only [searchIter, Option.bind_eq_bind, Option.bind_some]
    have hsuf := List.dropWhile_suffix (l := l) (fun id => ! c.cmp k (s.ent id).key)
    cases hd : l.dropWhile (fun id => ! c.cmp k (s.ent id).key) with
    | nil =>
      have := dropWhile_nil _ _ hd id (List.mem_of_getLast? hla)
      simp [hk] at this
    | cons j rest =>
      rw [hd] at hsuf
      have hmem : ∀ i ∈ j :: rest, i ∈ s.order := fun i hi => hlo i (hsuf.subset hi)
      simp only [h.clean.rem j (hmem j (by simp)), Bool.false_eq_true, if_false]
      refine ⟨(s.ent j).val, ?_⟩
      by_cases hrest : rest = []
      · simp [hrest]
      · right
        refine ⟨rest, by simp [hrest], fun i hi => hmem i (by simp [hi]), ?_⟩
        obtain ⟨pre, hp⟩ := hsuf
        rw [← hp] at hla
        obtain ⟨a, r, rfl⟩ := List.exists_cons_of_ne_nil hrest
        rw [List.getLast?_append] at hla
        simp only [List.getLast?_cons_cons] at hla
        cases hq : (a :: r).getLast? with
        | none => simp at hq
        | some z => rw [hq] at hla; simpa using hla
  have start : searchIter c s k none = searchIter c s k (some (s.tbl (c.hash s.len k))) := by
    simp [searchIter, index_ok c hc s h.core.len0 h.core.lenU]
  have main : ∀ n (ctx : Option (List Nat)), (ctx = none ∨ ∃ l, ctx = some l ∧ (∀ j ∈ l, j ∈ s.order) ∧ l.getLast? = some id) →
      ∃ l, calls c s k n ctx = some l ∧ l.length = n ∧ none ∉ l := by
    intro n
    induction n with
    | zero => intro ctx _; exact ⟨[], rfl, rfl, by simp⟩
    | succ n ih =>
      intro ctx hctx
      obtain ⟨l, e, h1, h2⟩ : ∃ l, searchIter c s k ctx = searchIter c s k (some l) ∧ (∀ j ∈ l, j ∈ s.order) ∧ l.getLast? = some id := by
        rcases hctx with rfl | ⟨l, rfl, h1, h2⟩
        · exact ⟨_, start, hb, hl⟩
        · exact ⟨l, rfl, h1, h2⟩
      obtain ⟨v, hv | ⟨l', hv, h3, h4⟩⟩ := one l h1 h2
      · obtain ⟨m, hm, hm2, hm3⟩ := ih none (.inl rfl)
        exact ⟨some v :: m, by simp [calls, e, hv, hm], by simp [hm2], by simp [hm3]⟩
      · obtain ⟨m, hm, hm2, hm3⟩ := ih (some l') (.inr ⟨l', rfl, h3, h4⟩)
        exact ⟨some v :: m, by simp [calls, e, hv, hm], by simp [hm2], by simp [hm3]⟩
  exact main n none (.inl rfl)

/-! ### What is freed -/

/-- The calls of the freers that a flag asks for. -/
def freed (c : Cfg K) (flg : Flag) (p : K × V) : List (K ⊕ V) :=
  (if c.hasKeyFreer = true ∧ (flg = .key ∨ flg = .kv) then [.inl p.1] else []) ++ (if c.hasValFreer = true ∧ (flg = .val ∨ flg = .kv) then [.inr p.2] else [])

theorem freeCalls_freed (c : Cfg K) (e : Ent K V) (flg : Flag) : freeCalls c e flg = freed c flg (e.key, e.val) := by
  cases flg <;> simp [freeCalls, freed]

/-- **Removal frees what the flag says**: the pair removed is the first one with the key, its key
and its value are passed to the freers as the flag asks, once, and nothing is freed when there is
no such pair. -/
theorem remove_frees (c : Cfg K) (hc : c.Ok) (s : St K V) (h : Inv c s) (k : K) (flg : Flag) :
    ∃ s', remove c s k flg = some s' ∧ Inv c s' ∧ abs s' = (abs s).eraseP (fun p => c.cmp k p.1) ∧
      s'.log = (match first c (abs s) k with | none => [] | some p => freed c flg p) ++ s.log := by
  obtain ⟨s1, e1, q1, a1⟩ := step_ok c hc s h (.remove k flg) trivial
  have e2 : remove c s k flg = some s1 := by
    simp only [step] at e1
    cases hr : remove c s k flg with
    | none => rw [hr] at e1; cases e1
    | some x => rw [hr] at e1; simp only [Option.map_some, Option.some.injEq, Prod.mk.injEq] at e1; rw [e1.1]
  refine ⟨s1, e2, q1, a1, ?_⟩
  rw [first_spec]
  simp only [remove, index_ok c hc s h.core.len0 h.core.lenU, Option.bind_eq_bind, Option.bind_some, findIn_spec c s h.core] at e2
  cases hf : s.order.find? (fun id => c.cmp k (s.ent id).key) with
  | none =>
    rw [hf] at e2
    simp only [Option.some.injEq] at e2
    rw [← e2]; rfl
  | some id =>
    have hid := List.mem_of_find?_eq_some hf
    have hkk : c.cmp k (s.ent id).key = true := by have := List.find?_some hf; simpa using this
    obtain ⟨s2, e, q, en, od, it, _, gn, ln, lg⟩ := unlink_ok c hc s h.core id hid flg
    rw [hf] at e2
    simp only [h.clean.iter, hc.cong s.len _ _ hkk, reduceCtorEq, if_false, e, Option.some.injEq] at e2
    rw [← e2, lg, freeCalls_freed]
    rfl

theorem entries_perm (c : Cfg K) (hc : c.Ok) (s : St K V) (h : Core c s) : (entries s.tbl s.len).reverse.Perm s.order := by
  refine (List.reverse_perm _).trans ?_
  have hn : (entries s.tbl s.len).Nodup := by
    refine entries_nodup _ _ h.bnodup ?_
    intro a ha b hb hab id h1 h2
    exact hab ((h.mem a ha id h1).2.symm.trans (h.mem b hb id h2).2)
  rw [List.perm_ext_iff_of_nodup hn h.nodup]
  intro id
  rw [mem_entries]
  constructor
  · rintro ⟨i, hi, hm⟩; exact (h.mem i hi id hm).1
  · intro hm
    have : id ∈ (s.tbl (c.hash s.len (s.ent id).key)).filter (fun j => c.cmp (s.ent id).key (s.ent j).key) := by
      rw [h.bucket, List.mem_filter]
      exact ⟨hm, hc.refl _⟩
    exact ⟨_, hc.hash_lt _ _ h.len0, (List.mem_filter.1 this).1⟩

/-- **mln_hash_reset** leaves an empty table that can be used on (every later call behaves as on an
empty table, by `step_ok`), with the same number of buckets, and frees of every pair what the flag
asks for, once. -/
theorem reset_empty (c : Cfg K) (hc : c.Ok) (s : St K V) (h : Inv c s) (flg : Flag) :
    Inv c (reset c s flg) ∧ abs (reset c s flg) = [] ∧ (reset c s flg).nr = 0 ∧ (reset c s flg).len = s.len ∧
    (reset c s flg).log.Perm ((abs s).flatMap (freed c flg) ++ s.log) := by
  refine ⟨⟨⟨h.core.len0, h.core.lenU, List.nodup_nil, by simp [reset], by simp [reset], ?_, ?_, ?_, h.core.thrU⟩, ⟨rfl, by simp [reset]⟩, by intro _; simp [MgrOk, reset]⟩, rfl, rfl, rfl, ?_⟩
  · intro k
    have := hc.hash_lt s.len k h.core.len0
    simp [reset, this]
  · intro i hi id hid
    simp only [reset] at hi hid
    rw [if_pos hi] at hid
    cases hid
  · intro i hi
    simp only [reset] at hi ⊢
    rw [if_pos hi]
    exact List.nodup_nil
  · simp only [reset]
    refine List.Perm.append_right _ ?_
    have := (entries_perm c hc s h.core).flatMap_right (fun id => freeCalls c (s.ent id) flg)
    refine this.trans ?_
    unfold abs
    rw [List.flatMap_map]
    simp only [freeCalls_freed]
    exact List.Perm.refl _

/-! ### Entries marked as removed -/

/-- Entries that are marked as removed (left behind by a handler that removed an entry and stopped,
see `iterate_remove_stop`) are not shown to a handler again: in every state whose order has no
duplicates, a handler that changes nothing sees exactly the other entries, in order. -/
theorem iterate_skips (c : Cfg K) {D : Type} (hd : Handler K V D) (hk : ∀ d k v, (hd d k v).1 = [] ∧ (hd d k v).2.2 = false) (s : St K V) (hn : s.order.Nodup) (d : D) :
    ∃ d', iterate c hd (s.order.length + 1) s d = some ({ s with iter := none }, d', (s.order.filter (fun id => ! (s.ent id).removed)).reverse, true) := by
  have main : ∀ (suf pre : List Nat) (it : Option Nat) (d : D) (vis : List Nat), s.order = pre ++ suf →
      ∃ d', iterLoop c hd (suf.length + 1) { s with iter := it } suf.head? d vis =
        some ({ s with iter := none }, d', (suf.filter (fun id => ! (s.ent id).removed)).reverse ++ vis, true) := by
    intro suf
    induction suf with
    | nil => intro pre it d vis _; exact ⟨d, rfl⟩
    | cons id suf ih =>
      intro pre it d vis ho
      have hid : id ∈ s.order := by rw [ho]; simp
      have hnx : nextOf s.order id = suf.head? := by
        have := hn; rw [ho] at this
        rw [ho]; exact nextOf_mid pre suf id this
      simp only [List.head?_cons, iterLoop, if_pos hid, hnx, List.length_cons]
      cases hr : (s.ent id).removed with
      | true =>
        obtain ⟨d', e⟩ := ih (pre ++ [id]) (some id) d vis (by simp [ho])
        refine ⟨d', ?_⟩
        simp only [if_true]
        rw [e]
        simp [hr]
      | false =>
        obtain ⟨h1, h2⟩ := hk d (s.ent id).key (s.ent id).val
        obtain ⟨d', e⟩ := ih (pre ++ [id]) (some id) (hd d (s.ent id).key (s.ent id).val).2.1 (id :: vis) (by simp [ho])
        refine ⟨d', ?_⟩
        simp only [Bool.false_eq_true, if_false, h1, acts, h2, if_pos hid, hr]
        rw [e]
        simp [hr]
  obtain ⟨d', e⟩ := main s.order [] s.iter d [] rfl
  exact ⟨d', by unfold iterate; rw [show s = { s with iter := s.iter } from rfl] at *; simpa using e⟩

/-! ### Concrete cases -/

/-- Two values of a key, with another key between in the same bucket. -/
example : ((new (exCfg false) ex0 2).bind fun s => (run (exCfg false) s
    [.insert 1 10 true true true, .insert 3 30 true true true, .insert 1 11 true true true, .insert 5 50 true true true]).bind fun p =>
      collect (exCfg false) p.1 1 9 none) = some [10, 11] := by decide +kernel

/-- One entry: the loop until NULL goes round. -/
example : ((new (exCfg false) ex0 2).bind fun s => (run (exCfg false) s [.insert 1 10 true true true]).bind fun p => calls (exCfg false) p.1 1 5 none) =
    some [some 10, some 10, some 10, some 10, some 10] := by decide +kernel

/-- Reset with M_HASH_F_VAL, then used again. -/
example : ((new (exCfg false) ex0 2).bind fun s => (run (exCfg false) s [.insert 1 10 true true true, .insert 2 20 true true true]).bind fun p =>
    (run (exCfg false) (reset (exCfg false) p.1 .val) [.insert 7 70 true true true]).map fun q => (abs q.1, q.1.nr, q.1.log)) =
      some ([(7, 70)], 1, [.inr 10, .inr 20]) := by decide +kernel

end Verif.Hash
