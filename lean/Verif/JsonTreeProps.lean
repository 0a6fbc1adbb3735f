import Verif.JsonTree
import Verif.LangKeyProps
import Verif.ConfApiProps
import Verif.JsonSafeProps
/-!
# JSON objects are finite maps, and arrays
-/
namespace Verif.JsonTree
open Verif.RbTree Verif.LangKey

/-! ## Specification -/

/-- A finite map in the order in which the keys came. -/
abbrev Fmap (α V : Type) := List (α × V)

/-- The value of a key. -/
def lookup {α V : Type} [DecidableEq α] (k : α) : Fmap α V → Option V
  | [] => none
  | e :: m => if e.1 = k then some e.2 else lookup k m

/-- Give a key a value: a key that is there keeps its place. -/
def put {α V : Type} [DecidableEq α] (k : α) (v : V) : Fmap α V → Fmap α V
  | [] => [(k, v)]
  | e :: m => if e.1 = k then (k, v) :: m else e :: put k v m

/-- What a call gives, and the map after it. -/
def spec {α V : Type} [DecidableEq α] (m : Fmap α V) : Op α V → Res α V × Fmap α V
  | .update k v => (.unit, put k v m)
  | .search k => (.val (lookup k m), m)
  | .remove k => (.unit, m.filter fun e => e.1 ≠ k)
  | .iterate => (.pairs (m.map fun e => (e.1, some e.2)), m)

def specRun {α V : Type} [DecidableEq α] : Fmap α V → List (Op α V) → List (Res α V) × Fmap α V
  | m, [] => ([], m)
  | m, o :: os => ((spec m o).1 :: (specRun (spec m o).2 os).1, (specRun (spec m o).2 os).2)

/-- The value that was last given to a key in the calls and not removed. -/
def last {α V : Type} [DecidableEq α] (k : α) : Option V → List (Op α V) → Option V
  | c, [] => c
  | c, .update k' v :: os => last k (if k' = k then some v else c) os
  | c, .remove k' :: os => last k (if k' = k then none else c) os
  | c, _ :: os => last k c os

/-! ## The trees -/

section
variable {α V : Type} {cmp : α → α → Int}

/-- A pair with its number. -/
abbrev Entry (α V : Type) := Nat × α × V

/-- The tree holds the pairs. -/
structure Rel (cmp : α → α → Int) (j : Obj α V) (es : List (Entry α V)) : Prop where
  inv : ∃ s, Inv cmp j.t s ∧ s.queue = es.map Prod.fst
  data : ∀ e ∈ es, j.t.data e.1 = e.2.1
  heap : ∀ i, (j.t.chain.heap i).isSome
  iter : j.t.iter = none
  del : j.t.del = false
  vals : ∀ e ∈ es, j.vals e.1 = some e.2.2
  range : ∀ e ∈ es, e.1 ≤ j.next ∧ e.1 ≠ 0
  nodup : (es.map Prod.fst).Nodup
  keys : (es.map fun e => e.2.1).Nodup

theorem entry_of {es : List (Entry α V)} {n : Nat} (h : n ∈ es.map Prod.fst) : ∃ e ∈ es, e.1 = n := by simpa using h

variable [DecidableEq α]

theorem lookup_none {k : α} {m : Fmap α V} (h : ∀ e ∈ m, e.1 ≠ k) : lookup k m = none := by
  induction m with
  | nil => rfl
  | cons e m ih => rw [lookup, if_neg (h e (by simp)), ih fun x hx => h x (by simp [hx])]

theorem lookup_mid {k : α} {a b : Fmap α V} {v : V} (h : ∀ e ∈ a, e.1 ≠ k) : lookup k (a ++ (k, v) :: b) = some v := by
  induction a with
  | nil => simp [lookup]
  | cons e m ih => rw [List.cons_append, lookup, if_neg (h e (by simp)), ih fun x hx => h x (by simp [hx])]

theorem put_new {k : α} {v : V} {m : Fmap α V} (h : ∀ e ∈ m, e.1 ≠ k) : put k v m = m ++ [(k, v)] := by
  induction m with
  | nil => rfl
  | cons e m ih => rw [put, if_neg (h e (by simp)), ih fun x hx => h x (by simp [hx])]; rfl

theorem put_mid {k : α} {v w : V} {a b : Fmap α V} (h : ∀ e ∈ a, e.1 ≠ k) : put k v (a ++ (k, w) :: b) = a ++ (k, v) :: b := by
  induction a with
  | nil => simp [put]
  | cons e m ih => rw [List.cons_append, put, if_neg (h e (by simp)), ih fun x hx => h x (by simp [hx])]; rfl

theorem filter_mid {k : α} {w : V} {a b : Fmap α V} (h : ∀ e ∈ a ++ b, e.1 ≠ k) : (a ++ (k, w) :: b).filter (fun e => e.1 ≠ k) = a ++ b := by
  rw [List.filter_append, List.filter_cons_of_neg (by simp), ← List.filter_append, List.filter_eq_self.2]
  intro e he
  simpa using h e he

omit [DecidableEq α] in
/-- What the search of the tree gives. -/
theorem find_rel (o : CmpOrd cmp) (ez : ∀ a b, cmp a b = 0 ↔ a = b) {j : Obj α V} {es : List (Entry α V)} (h : Rel cmp j es) (k : α) :
    ∃ x, RbTree.search cmp j.t k = some x ∧ ((x = 0 ∧ ∀ e ∈ es, e.2.1 ≠ k) ∨
      ∃ a b v, es = a ++ (x, k, v) :: b ∧ x ≠ 0 ∧ (∀ e ∈ a ++ b, e.2.1 ≠ k) ∧ ∀ e ∈ a ++ b, e.1 ≠ x) := by
  obtain ⟨s, hi, hq⟩ := h.inv
  obtain ⟨x, hx, hc⟩ := search_nr o hi k
  refine ⟨x, hx, ?_⟩
  rcases hc with ⟨rfl, hn⟩ | ⟨hm, he⟩
  · refine .inl ⟨rfl, fun e he hk => hn e.1 (by rw [hq]; exact List.mem_map_of_mem he) ?_⟩
    rw [← hi.data, h.data e he, hk]; exact (ez k k).2 rfl
  · rw [hq] at hm
    obtain ⟨⟨n, k', v⟩, hem, rfl⟩ := entry_of hm
    rw [← hi.data, h.data _ hem, ez] at he
    simp only at he
    subst he
    obtain ⟨a, b, rfl⟩ := List.append_of_mem hem
    have h1 := h.keys
    have h2 := h.nodup
    refine .inr ⟨a, b, v, rfl, (h.range _ hem).2, ?_, ?_⟩
    · intro e he
      rw [List.map_append, List.map_cons, List.nodup_append, List.nodup_cons] at h1
      rcases List.mem_append.1 he with he | he
      · exact h1.2.2 _ (List.mem_map_of_mem (f := fun e : Entry α V => e.2.1) he) _ (by simp)
      · exact fun hc => h1.2.1.1 (List.mem_map.2 ⟨e, he, hc⟩)
    · intro e he
      rw [List.map_append, List.map_cons, List.nodup_append, List.nodup_cons] at h2
      rcases List.mem_append.1 he with he | he
      · exact h2.2.2 _ (List.mem_map_of_mem he) _ (by simp)
      · exact fun hc => h2.2.1.1 (List.mem_map.2 ⟨e, he, hc⟩)

omit [DecidableEq α] in
theorem keys_ne {k : α} {es : List (Entry α V)} (h : ∀ e ∈ es, e.2.1 ≠ k) : ∀ e ∈ es.map Prod.snd, e.1 ≠ k := by
  intro e he
  obtain ⟨x, hx, rfl⟩ := List.mem_map.1 he
  exact h x hx

theorem step_rel (o : CmpOrd cmp) (ez : ∀ a b, cmp a b = 0 ↔ a = b) {j : Obj α V} {es : List (Entry α V)} (h : Rel cmp j es) (op : Op α V) :
    ∃ j' es', step cmp j op = some ((spec (es.map Prod.snd) op).1, j') ∧ es'.map Prod.snd = (spec (es.map Prod.snd) op).2 ∧ Rel cmp j' es' := by
  obtain ⟨s, hi, hq⟩ := h.inv
  cases op with
  | update k v =>
    obtain ⟨x, hx, ⟨rfl, hn⟩ | ⟨a, b, w, rfl, h0, hk, hne⟩⟩ := find_rel o ez h k
    · have hfresh : ∀ e ∈ es, e.1 ≠ j.next + 1 := fun e he => by have := (h.range e he).1; omega
      have hf : j.next + 1 ∉ s.queue := by
        rw [hq]; intro hm
        obtain ⟨e, he, h1⟩ := entry_of hm
        exact hfresh e he h1
      have h1 := assign_ok hi k hf
      obtain ⟨t', e1, e2, e3, e4, e5⟩ := insert_ok o h1 (n := j.next + 1) (by omega) hf (h.heap _)
      refine ⟨⟨t', upd j.vals (j.next + 1) (some v), j.next + 1⟩, es ++ [(j.next + 1, k, v)], ?_, ?_, ?_⟩
      · rw [step]; simp [hx, e1, spec]
      · rw [spec, put_new (keys_ne hn)]; simp
      · refine ⟨⟨_, e2, by simp [specStep, hq]⟩, ?_, fun i => (e5 i).2 (h.heap i), e3.trans h.iter, e4.trans h.del, ?_, ?_, ?_, ?_⟩
        · intro e he
          show t'.data e.1 = _
          rw [e2.data]
          show upd s.data _ k e.1 = _
          rcases List.mem_append.1 he with he | he
          · rw [upd, if_neg (hfresh e he), ← hi.data]; exact h.data e he
          · rw [List.mem_singleton.1 he]; exact if_pos rfl
        · intro e he
          show upd j.vals _ (some v) e.1 = _
          rcases List.mem_append.1 he with he | he
          · rw [upd, if_neg (hfresh e he)]; exact h.vals e he
          · rw [List.mem_singleton.1 he]; exact if_pos rfl
        · intro e he
          show e.1 ≤ j.next + 1 ∧ e.1 ≠ 0
          rcases List.mem_append.1 he with he | he
          · have := h.range e he; omega
          · rw [List.mem_singleton.1 he]; simp
        · rw [List.map_append, List.nodup_append]
          refine ⟨h.nodup, by simp, ?_⟩
          intro a ha b hb
          simp at hb
          obtain ⟨e, he, rfl⟩ := entry_of ha
          rw [hb]; exact hfresh e he
        · rw [List.map_append, List.nodup_append]
          refine ⟨h.keys, by simp, ?_⟩
          intro a ha b hb
          simp at hb
          obtain ⟨e, he, rfl⟩ := List.mem_map.1 ha
          rw [hb]; exact hn e he
    · have hmem : (x, k, w) ∈ a ++ (x, k, w) :: b := by simp
      have hdat : upd j.t.data x k = j.t.data := by
        funext i
        rw [upd]
        split
        · rename_i e; rw [e]; exact (h.data _ hmem).symm
        · rfl
      have hor : ∀ y ∈ a ++ (x, k, v) :: b, y = (x, k, v) ∨ y ∈ a ++ b := by
        intro y hy
        simp only [List.mem_append, List.mem_cons] at hy ⊢
        tauto
      have hsub : ∀ y ∈ a ++ b, y ∈ a ++ (x, k, w) :: b := fun y hy => by
        rcases List.mem_append.1 hy with hy | hy <;> simp [hy]
      have hka : ∀ e ∈ a, e.2.1 ≠ k := fun e he => hk e (by simp [he])
      refine ⟨{ j with vals := upd j.vals x (some v) }, a ++ (x, k, v) :: b, ?_, ?_, ?_⟩
      · rw [step, hx]; simp [h0, spec, hdat]
      · rw [spec, List.map_append, List.map_append, List.map_cons, List.map_cons]
        exact (put_mid (keys_ne hka)).symm
      · refine ⟨⟨s, hi, by rw [hq]; simp⟩, ?_, h.heap, h.iter, h.del, ?_, ?_, by simpa using h.nodup, by simpa using h.keys⟩
        · intro y hy
          rcases hor y hy with rfl | hy
          · exact h.data (x, k, w) hmem
          · exact h.data y (hsub y hy)
        · intro y hy
          show upd j.vals x (some v) y.1 = _
          rcases hor y hy with rfl | hy
          · exact if_pos rfl
          · rw [upd, if_neg (hne y hy)]; exact h.vals y (hsub y hy)
        · intro y hy
          rcases hor y hy with rfl | hy
          · exact h.range (x, k, w) hmem
          · exact h.range y (hsub y hy)
  | search k =>
    obtain ⟨x, hx, ⟨rfl, hn⟩ | ⟨a, b, w, rfl, h0, hk, hne⟩⟩ := find_rel o ez h k
    · refine ⟨j, es, ?_, rfl, h⟩
      rw [step, spec, lookup_none (keys_ne hn)]; simp [hx]
    · refine ⟨j, _, ?_, rfl, h⟩
      have hv := h.vals (x, k, w) (by simp)
      have hka : ∀ e ∈ a, e.2.1 ≠ k := fun e he => hk e (by simp [he])
      rw [step, spec, List.map_append, List.map_cons]
      dsimp only
      rw [lookup_mid (keys_ne hka)]
      simp [hx, h0, hv]
  | remove k =>
    obtain ⟨x, hx, ⟨rfl, hn⟩ | ⟨a, b, w, rfl, h0, hk, hne⟩⟩ := find_rel o ez h k
    · refine ⟨j, es, ?_, ?_, h⟩
      · rw [step]; simp [hx, spec]
      · rw [spec]
        exact (List.filter_eq_self.2 fun e he => by simpa using keys_ne hn e he).symm
    · have hm0 : x ∈ s.queue := by rw [hq]; simp
      obtain ⟨t', e1, e2, e3, e4, e5⟩ := delete_ok hi hm0
      have hnd := h.nodup
      have her : ((a ++ (x, k, w) :: b).map Prod.fst).erase x = (a ++ b).map Prod.fst := by
        have hxa : x ∉ a.map Prod.fst := fun hc => by
          obtain ⟨e, he, h1⟩ := entry_of hc
          exact hne e (by simp [he]) h1
        rw [List.map_append, List.map_cons, List.erase_append_right _ hxa, List.erase_cons_head, ← List.map_append]
      have hsub : ∀ y ∈ a ++ b, y ∈ a ++ (x, k, w) :: b := fun y hy => by
        rcases List.mem_append.1 hy with hy | hy <;> simp [hy]
      refine ⟨{ j with t := t' }, a ++ b, ?_, ?_, ?_⟩
      · rw [step]; simp [hx, h0, e1, spec]
      · rw [spec, List.map_append, List.map_append, List.map_cons]
        refine (filter_mid ?_).symm
        rw [← List.map_append]
        exact keys_ne hk
      · refine ⟨⟨_, e2, ?_⟩, ?_, fun i => (e5 i).2 (h.heap i), ?_, ?_, fun y hy => h.vals y (hsub y hy), fun y hy => h.range y (hsub y hy), ?_, ?_⟩
        · show s.queue.erase x = _
          rw [hq, her]
        · intro y hy
          show t'.data y.1 = _
          rw [e2.data]
          show s.data y.1 = _
          rw [← hi.data]
          exact h.data y (hsub y hy)
        · rw [e3, h.iter]; simp
        · rw [e4, h.iter]; simpa using h.del
        · rw [← her]; exact hnd.erase _
        · have := h.keys
          refine this.sublist (List.Sublist.map _ ?_)
          exact List.Sublist.append (List.Sublist.refl _) (List.sublist_cons_self _ _)
  | iterate =>
    obtain ⟨t', ht⟩ := ConfApi.iterate_put hi h.del
    refine ⟨j, es, ?_, rfl, h⟩
    have hsee : (see : RbTree.Tree α → Nat → List Nat → _) = ConfApi.put := rfl
    rw [step, hsee, ht, hq, spec]
    simp only [Option.bind_eq_bind, Option.bind_some, List.map_map]
    congr 3
    refine List.map_congr_left fun e he => ?_
    simp [h.data e he, h.vals e he]

omit [DecidableEq α] in
theorem rel_empty (cmp : α → α → Int) (v : α) : Rel (V := V) cmp (empty v) [] :=
  ⟨⟨S.empty fun _ => v, new_inv cmp _ _ _, rfl⟩, by simp, fun _ => rfl, rfl, rfl, by simp, by simp, by simp, by simp⟩

theorem run_rel (o : CmpOrd cmp) (ez : ∀ a b, cmp a b = 0 ↔ a = b) (os : List (Op α V)) : ∀ {j : Obj α V} {es : List (Entry α V)}, Rel cmp j es →
    ∃ j' es', run cmp j os = some ((specRun (es.map Prod.snd) os).1, j') ∧ es'.map Prod.snd = (specRun (es.map Prod.snd) os).2 ∧ Rel cmp j' es' := by
  induction os with
  | nil => intro j es h; exact ⟨j, es, rfl, rfl, h⟩
  | cons op os ih =>
    intro j es h
    obtain ⟨j1, es1, e1, m1, h1⟩ := step_rel o ez h op
    obtain ⟨j2, es2, e2, m2, h2⟩ := ih h1
    refine ⟨j2, es2, ?_, ?_, h2⟩
    · rw [run, e1]; simp [e2, specRun, m1]
    · rw [m2, specRun, m1]

theorem lookup_put (k q : α) (v : V) (m : Fmap α V) : lookup q (put k v m) = if k = q then some v else lookup q m := by
  induction m with
  | nil => simp [put, lookup]
  | cons e m ih =>
    rw [put]
    by_cases h : e.1 = k
    · rw [if_pos h, lookup, lookup, h]
      by_cases hq : k = q <;> simp [hq]
    · rw [if_neg h, lookup, lookup, ih]
      by_cases hq : e.1 = q
      · have : k ≠ q := fun e' => h (hq.trans e'.symm)
        simp [hq, this]
      · simp [hq]

theorem lookup_filter (k q : α) (m : Fmap α V) : lookup q (m.filter fun e => e.1 ≠ k) = if k = q then none else lookup q m := by
  induction m with
  | nil => simp [lookup]
  | cons e m ih =>
    by_cases h : e.1 = k
    · rw [List.filter_cons_of_neg (by simp [h]), ih, lookup, h]
      by_cases hq : k = q <;> simp [hq]
    · rw [List.filter_cons_of_pos (by simp [h]), lookup, lookup, ih]
      by_cases hq : e.1 = q
      · have : k ≠ q := fun e' => h (hq.trans e'.symm)
        simp [hq, this]
      · simp [hq]

theorem lookup_last (q : α) (os : List (Op α V)) : ∀ m : Fmap α V, lookup q (specRun m os).2 = last q (lookup q m) os := by
  induction os with
  | nil => intro m; rfl
  | cons op os ih =>
    intro m
    rw [specRun, ih]
    cases op with
    | update k v => rw [spec, lookup_put, last]
    | search k => rfl
    | remove k => rw [spec, lookup_filter, last]
    | iterate => rfl

end

/-! ## Properties -/

def noKey : Txt := ⟨[], by simp [Verif.Str.Ascii]⟩

/-- C325: with 7-bit keys every sequence of mln_json_obj_update, mln_json_obj_search, mln_json_obj_remove and
mln_json_object_iterate gives what a finite map in the order of the first insertions gives. -/
theorem map_partial {V : Type} (os : List (Op Txt V)) :
    ∃ j, run cmpTxt (empty noKey) os = some ((specRun [] os).1, j) := by
  obtain ⟨j, _, e, _⟩ := run_rel cmpTxt_ord cmpTxt_zero os (rel_empty (V := V) cmpTxt noKey)
  exact ⟨j, e⟩

/-- A search after the calls gives the value last given to the key. -/
theorem search_partial {V : Type} (os : List (Op Txt V)) (k : Txt) :
    ∃ rs j, run cmpTxt (empty noKey) (os ++ [.search k]) = some (rs ++ [.val (last k none os)], j) ∧ rs.length = os.length := by
  obtain ⟨j, h⟩ := map_partial (os ++ [.search k])
  refine ⟨(specRun [] os).1, j, ?_, ?_⟩
  · rw [h]
    have : ∀ m : Fmap Txt V, (specRun m (os ++ [.search k])).1 = (specRun m os).1 ++ [.val (lookup k (specRun m os).2)] := by
      clear h
      induction os with
      | nil => intro m; rfl
      | cons op os ih => intro m; simp only [List.cons_append, specRun, ih]
    rw [this, lookup_last]
    rfl
  · have : ∀ m : Fmap Txt V, (specRun m os).1.length = os.length := by
      clear h
      induction os with
      | nil => intro m; rfl
      | cons op os ih => intro m; simp [specRun, ih]
    exact this _

/-- The objects of Verif/Json.lean, which the decoder makes and the encoder writes, are these maps. -/
theorem json_update {D : Type} (m : Fmap (List Verif.Str.Byte) (Json.Json D)) (k : List Verif.Str.Byte) (v : Json.Json D) :
    Json.update m k v = some (put k v m) ∧ Json.search m k = some (lookup k m) := by
  induction m with
  | nil => exact ⟨rfl, rfl⟩
  | cons e m ih =>
    obtain ⟨r, h1, h2⟩ := Verif.Str.strcmp_zero k e.1
    rw [Json.update, Json.search, h1, put, lookup]
    dsimp only
    by_cases h : r = 0
    · have := (h2.1 h).symm
      simp [h, this]
    · have : e.1 ≠ k := fun e' => h (h2.2 e'.symm)
      simp [h, this, ih.1, ih.2]

/-- For keys in UTF-8 this fails: the comparison does not order them, and a key that was given a value is not found. -/
theorem key_lost_refuted : ((run cmpStr (empty []) (badKeys.map (fun k => Op.update k ()) ++ [.search [97, 98, 99, 48]])).bind fun r => r.1.getLast?) = some (.val none) := by decide +kernel

/-! ## Arrays -/

/-- C326: a handler that gives 0 sees all elements of an array that is not empty, and the iteration succeeds. -/
theorem iterate_partial {V σ : Type} (it : V → σ → Int × σ) (hit : ∀ v d, (it v d).1 = 0) (vs : List V) (h : vs ≠ []) (d : σ) :
    aiterate it vs d = (0, vs, vs.foldl (fun d v => (it v d).2) d) := by
  have : ∀ (vs : List V) (rc : Int) (d : σ), aloop it rc vs d = (if vs = [] then rc else 0, vs, vs.foldl (fun d v => (it v d).2) d) := by
    intro vs
    induction vs with
    | nil => intro rc d; rfl
    | cons v vs ih =>
      intro rc d
      rw [aloop]
      simp only [hit, ne_eq, not_true_eq_false, if_false, ih]
      simp
  rw [aiterate, this, if_neg h]

/-- The iteration over an empty array fails, whatever the handler. -/
theorem iterate_refuted {V σ : Type} (it : V → σ → Int × σ) (d : σ) : aiterate it [] d = (-1, [], d) := rfl

/-- A handler that stops at an element: those before it and itself are seen, and its value is given. -/
theorem iterate_stop {V σ : Type} (it : V → σ → Int × σ) (a b : List V) (v : V) (d : σ)
    (ha : ∀ x ∈ a, ∀ d, (it x d).1 = 0) (hv : (it v (a.foldl (fun d v => (it v d).2) d)).1 ≠ 0) :
    aiterate it (a ++ v :: b) d = ((it v (a.foldl (fun d v => (it v d).2) d)).1, a ++ [v], (it v (a.foldl (fun d v => (it v d).2) d)).2) := by
  have : ∀ (a : List V) (rc : Int) (d : σ), (∀ x ∈ a, ∀ d, (it x d).1 = 0) → (it v (a.foldl (fun d v => (it v d).2) d)).1 ≠ 0 →
      aloop it rc (a ++ v :: b) d = ((it v (a.foldl (fun d v => (it v d).2) d)).1, a ++ [v], (it v (a.foldl (fun d v => (it v d).2) d)).2) := by
    intro a
    induction a with
    | nil => intro rc d _ hv; simp only [List.foldl_nil] at hv; simp [aloop, hv]
    | cons x a ih =>
      intro rc d ha hv
      have := ih (it x d).1 (it x d).2 (fun y hy => ha y (by simp [hy])) hv
      rw [List.cons_append, aloop]
      simp only [ha x (by simp) d, ne_eq, not_true_eq_false, if_false]
      rw [ha x (by simp) d] at this
      rw [this]
      simp
  exact this a (-1) d ha hv

/-- Appending, replacing and reading elements: the array is a list. -/
theorem array_list {V : Type} (l : List V) (v : V) (i k : Nat) :
    ((astep (astep l (.append v)).2 (.search k)).1 = .val (if k = l.length then some v else l[k]?)) ∧
    ((astep (astep l (.append v)).2 .length).1 = .num (l.length + 1)) ∧
    ((astep l (.update v i)).1 = .rc (if i < l.length then 0 else -1)) ∧
    ((astep (astep l (.update v i)).2 (.search k)).1 = .val (if i = k ∧ k < l.length then some v else l[k]?)) ∧
    ((astep (astep l (.update v i)).2 .length).1 = .num l.length) := by
  refine ⟨?_, ?_, ?_, ?_, ?_⟩
  · simp only [astep, List.length_append, List.length_singleton]
    by_cases h : k ≥ l.length + 1
    · rw [if_pos h, if_neg (by omega), List.getElem?_eq_none (by omega)]
    · rw [if_neg h]
      by_cases h' : k = l.length
      · subst h'; simp
      · rw [if_neg h', List.getElem?_append_left (by omega)]
  · simp [astep]
  · by_cases h : i < l.length
    · simp [astep, h, Nat.not_le.2 h]
    · simp [astep, h, Nat.le_of_not_lt h]
  · by_cases h : i < l.length
    · have h' : ¬i ≥ l.length := by omega
      simp only [astep, if_neg h', List.length_set]
      by_cases hk : k ≥ l.length
      · rw [if_pos hk, if_neg (by omega), List.getElem?_eq_none hk]
      · rw [if_neg hk, List.getElem?_set]
        by_cases e : i = k
        · subst e; simp [h]
        · simp [e]
    · have h' : i ≥ l.length := by omega
      simp only [astep, if_pos h']
      by_cases hk : k ≥ l.length
      · rw [if_pos hk, if_neg (by omega), List.getElem?_eq_none hk]
      · rw [if_neg hk, if_neg (by omega)]
  · by_cases h : i ≥ l.length <;> simp [astep, h]

/-- mln_json_array_remove with the index of the last element removes it. -/
theorem remove_partial {V : Type} (l : List V) (i : Nat) (h : i + 1 = l.length) : (astep l (.remove i)).2 = l.eraseIdx i := by
  simp only [astep]
  rw [← h, Nat.add_sub_cancel, List.eraseIdx_eq_take_drop_succ, List.drop_eq_nil_of_le (by omega), List.append_nil]

/-- With any other index of an array of different elements the element stays and the last one is lost. -/
theorem remove_refuted {V : Type} (l : List V) (i : Nat) (h : i + 1 < l.length) (hn : l.Nodup) :
    (astep l (.remove i)).2 ≠ l.eraseIdx i ∧ (astep (astep l (.remove i)).2 (.search i)).1 = .val l[i]? := by
  have h2 : (astep (astep l (.remove i)).2 (.search i)).1 = .val l[i]? := by
    simp only [astep, List.length_take]
    rw [if_neg (by omega), List.getElem?_take_of_lt (by omega)]
  refine ⟨fun hc => ?_, h2⟩
  rw [hc] at h2
  simp only [astep, List.length_eraseIdx_of_lt (show i < l.length by omega)] at h2
  rw [if_neg (by omega), List.getElem?_eraseIdx_of_ge (by omega), List.getElem?_eq_getElem h, List.getElem?_eq_getElem (show i < l.length by omega)] at h2
  simp only [ARes.val.injEq, Option.some.injEq] at h2
  exact List.pairwise_iff_getElem.1 hn i (i + 1) (by omega) h (by omega) h2.symm

/-! ## Examples -/

def ka : Txt := ⟨[98], by simp [Verif.Str.Ascii]⟩
def kb : Txt := ⟨[97], by simp [Verif.Str.Ascii]⟩

-- the pairs come in the order of insertion, a new value keeps the place of the key
example : ((run cmpTxt (empty noKey) [.update ka 1, .update kb 2, .update ka 3, .iterate, .remove ka, .search ka, .search kb]).map Prod.fst) =
    some [.unit, .unit, .unit, .pairs [(ka, some 3), (kb, some 2)], .unit, .val none, .val (some 2)] := by decide +kernel

example : aiterate (fun v (d : List Nat) => (if v = 3 then 7 else 0, d ++ [v])) [1, 3, 5] [] = (7, [1, 3], [1, 3]) := by decide

example : (astep [1, 2, 3] (.remove 0)).2 = [1, 2] := by decide

end Verif.JsonTree
