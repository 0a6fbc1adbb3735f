import Verif.PgTableProps
import Mathlib.Data.List.Nodup
/-
The item sets of the parser generator are closed (C238).
-/
namespace Verif.Pg

/-- Spec: a set of items is closed: for every item with a token behind its dot and every production
of that token there is the item at the beginning of the production, and its lookahead holds every
token that the generator takes to follow there. -/
def Closed (g : List Rule) (w : Work) (items : List Item) : Prop :=
  ∀ it ∈ items, ∀ tk, next? g it = some tk → ∀ i r, g[i]? = some r → r.left = tk → ∃ new ∈ items, new.key = (i, 0) ∧ ∀ x ∈ follow g w it, x ∈ new.la

theorem addAll_fold (xs : List Nat) : ∀ (p : List Nat × Bool),
    (∀ x, x ∈ (xs.foldl (fun p x => if p.1.contains x then p else (p.1 ++ [x], true)) p).1 ↔ x ∈ p.1 ∨ x ∈ xs) ∧
    ((xs.foldl (fun p x => if p.1.contains x then p else (p.1 ++ [x], true)) p).2 = false → p.2 = false ∧ (xs.foldl (fun p x => if p.1.contains x then p else (p.1 ++ [x], true)) p).1 = p.1) := by
  induction xs with
  | nil => intro p; simp
  | cons y xs ih =>
    intro p
    rw [List.foldl_cons]
    split
    · rename_i hc
      obtain ⟨a, b⟩ := ih p
      refine ⟨fun x => ?_, b⟩
      rw [a x]
      have : y ∈ p.1 := by simpa using hc
      constructor
      · rintro (h | h) <;> simp [h]
      · rintro (h | h)
        · exact .inl h
        · rcases List.mem_cons.mp h with e | e
          · subst e; exact .inl this
          · exact .inr e
    · obtain ⟨a, b⟩ := ih (p.1 ++ [y], true)
      refine ⟨fun x => ?_, fun h => ?_⟩
      · rw [a x]; simp [or_assoc]
      · exact absurd (b h).1 (by simp)

theorem addAll_mem (la xs : List Nat) (x : Nat) : x ∈ (addAll la xs).1 ↔ x ∈ la ∨ x ∈ xs := (addAll_fold xs (la, false)).1 x

theorem addAll_same (la xs : List Nat) (h : (addAll la xs).2 = false) : (addAll la xs).1 = la := ((addAll_fold xs (la, false)).2 h).2

/-- What a step that changes no lookahead leaves behind. -/
theorem closeRule_false {g : List Rule} {w : Work} {k tk : Nat} {p : List Item × Bool} {i : Nat} {it : Item} (hk : p.1[k]? = some it) (h : (closeRule g w k tk p i).2 = false) :
    p.2 = false ∧ p.1 <+: (closeRule g w k tk p i).1 ∧
    ∀ r, g[i]? = some r → r.left = tk → ∃ new ∈ (closeRule g w k tk p i).1, new.key = (i, 0) ∧ ∀ x ∈ follow g w it, x ∈ new.la := by
  cases hr : g[i]? with
  | none => simp only [closeRule, hr] at h ⊢; exact ⟨h, List.prefix_rfl, fun r h => by cases h⟩
  | some r =>
    by_cases hl : r.left = tk
    · obtain ⟨items, hitems⟩ : ∃ items, items = (if p.1.any (fun it => it.key == (i, 0)) then p.1 else p.1 ++ [{ rule := i, pos := 0, la := [], goto := none }]) := ⟨_, rfl⟩
      have hpre : p.1 <+: items := by
        rw [hitems]; split
        · exact List.prefix_rfl
        · exact List.prefix_append _ _
      have hex : ∃ y ∈ items, (y.key == (i, 0)) = true := by
        rw [hitems]; split
        · rename_i hc; exact List.any_eq_true.mp hc
        · exact ⟨{ rule := i, pos := 0, la := [], goto := none }, by simp, by simp [Item.key]⟩
      have hki : items[k]? = some it := by
        obtain ⟨t, ht⟩ := hpre
        rw [← ht, List.getElem?_append_left (List.getElem?_eq_some_iff.mp hk).1, hk]
      have hj : items.findIdx (fun it => it.key == (i, 0)) < items.length := List.findIdx_lt_length.mpr hex
      have hjk : (items[items.findIdx (fun it => it.key == (i, 0))]).key = (i, 0) := by
        have := List.findIdx_getElem (w := hj) (p := fun it : Item => it.key == (i, 0))
        simpa using this
      have e : closeRule g w k tk p i = (items.set (items.findIdx (fun it => it.key == (i, 0))) { items[items.findIdx (fun it => it.key == (i, 0))] with la := (addAll items[items.findIdx (fun it => it.key == (i, 0))].la (follow g w it)).1 },
          p.2 || (addAll items[items.findIdx (fun it => it.key == (i, 0))].la (follow g w it)).2) := by
        unfold closeRule
        simp only [hr, hl, ne_eq, not_true_eq_false, if_false]
        rw [← hitems]
        simp only [hki, List.getElem?_eq_getElem hj]
      rw [e] at h ⊢
      simp only [Bool.or_eq_false_iff] at h
      obtain ⟨h1, h2⟩ := h
      have h3 := addAll_same _ _ h2
      have hself : items.set (items.findIdx (fun it => it.key == (i, 0))) { items[items.findIdx (fun it => it.key == (i, 0))] with la := (addAll items[items.findIdx (fun it => it.key == (i, 0))].la (follow g w it)).1 } = items := by
        rw [h3]
        exact List.set_getElem_self hj
      simp only [hself]
      refine ⟨h1, hpre, fun r' _ _ => ⟨_, List.getElem_mem hj, hjk, fun x hx => ?_⟩⟩
      rw [← h3]
      exact (addAll_mem _ _ x).mpr (.inr hx)
    · simp only [closeRule, hr, ne_eq, hl, not_false_eq_true, if_true] at h ⊢
      refine ⟨h, List.prefix_rfl, fun r' h' hl' => ?_⟩
      cases h'
      exact absurd hl' hl

theorem closeRules_false {g : List Rule} {w : Work} {k tk : Nat} {it : Item} : ∀ (l : List Nat) (p : List Item × Bool), p.1[k]? = some it → (l.foldl (closeRule g w k tk) p).2 = false →
    p.2 = false ∧ p.1 <+: (l.foldl (closeRule g w k tk) p).1 ∧
    ∀ i ∈ l, ∀ r, g[i]? = some r → r.left = tk → ∃ new ∈ (l.foldl (closeRule g w k tk) p).1, new.key = (i, 0) ∧ ∀ x ∈ follow g w it, x ∈ new.la := by
  intro l
  induction l with
  | nil => intro p hk h; exact ⟨h, List.prefix_rfl, fun i hi => by cases hi⟩
  | cons j l ih =>
    intro p hk h
    rw [List.foldl_cons] at h ⊢
    -- the item is where it was whether or not the step changed something
    by_cases hf : (closeRule g w k tk p j).2 = false
    · obtain ⟨a, b, c⟩ := closeRule_false hk hf
      have hk' : (closeRule g w k tk p j).1[k]? = some it := by
        obtain ⟨t, ht⟩ := b
        rw [← ht, List.getElem?_append_left (List.getElem?_eq_some_iff.mp hk).1, hk]
      obtain ⟨a', b', c'⟩ := ih _ hk' h
      refine ⟨a, b.trans b', fun i hi r hr hl => ?_⟩
      rcases List.mem_cons.mp hi with e | e
      · subst e
        obtain ⟨new, m, x⟩ := c r hr hl
        exact ⟨new, b'.subset m, x⟩
      · exact c' i e r hr hl
    · exfalso
      have stay : ∀ (l : List Nat) (p : List Item × Bool), p.2 = true → (l.foldl (closeRule g w k tk) p).2 = true := by
        intro l
        induction l with
        | nil => intro p h; exact h
        | cons j l ih =>
          intro p hp
          rw [List.foldl_cons]
          refine ih _ ?_
          unfold closeRule
          split
          · exact hp
          · split
            · exact hp
            · simp only
              split
              · exact hp
              · split
                · exact hp
                · simp [hp]
      rw [stay l _ (by simpa using hf)] at h
      cases h

/-- One pass over the items. -/
theorem closePass_false {g : List Rule} {w : Work} : ∀ (n k : Nat) (p p' : List Item × Bool), closePass g w n k p = some p' → p'.2 = false →
    p.2 = false ∧ p.1 <+: p'.1 ∧
    ∀ (j : Nat) (it : Item), k ≤ j → p'.1[j]? = some it → ∀ tk, next? g it = some tk → ∀ i r, g[i]? = some r → r.left = tk → ∃ new ∈ p'.1, new.key = (i, 0) ∧ ∀ x ∈ follow g w it, x ∈ new.la := by
  intro n
  induction n with
  | zero => intro k p p' h; cases h
  | succ n ih =>
    intro k p p' h hf
    rw [closePass] at h
    cases hk : p.1[k]? with
    | none =>
      simp only [hk, Option.some.injEq] at h
      subst h
      refine ⟨hf, List.prefix_rfl, fun j it hj hit => ?_⟩
      have := List.getElem?_eq_none_iff.mp hk
      have := (List.getElem?_eq_some_iff.mp hit).1
      omega
    | some it0 =>
      simp only [hk] at h
      -- the rest of the pass, and what is known of the item itself
      have fin : ∀ q : List Item × Bool, closePass g w n (k + 1) q = some p' →
          (q.2 = false → p.2 = false ∧ p.1 <+: q.1 ∧ ∀ tk, next? g it0 = some tk → ∀ i r, g[i]? = some r → r.left = tk → ∃ new ∈ q.1, new.key = (i, 0) ∧ ∀ x ∈ follow g w it0, x ∈ new.la) →
          p.2 = false ∧ p.1 <+: p'.1 ∧
          ∀ (j : Nat) (it : Item), k ≤ j → p'.1[j]? = some it → ∀ tk, next? g it = some tk → ∀ i r, g[i]? = some r → r.left = tk → ∃ new ∈ p'.1, new.key = (i, 0) ∧ ∀ x ∈ follow g w it, x ∈ new.la := by
        intro q hq hp
        obtain ⟨a, b, c⟩ := ih (k + 1) q p' hq hf
        obtain ⟨a', b', c'⟩ := hp a
        refine ⟨a', b'.trans b, fun j it hj hit => ?_⟩
        by_cases e : j = k
        · subst e
          have : it = it0 := by
            obtain ⟨t, ht⟩ := b'.trans b
            rw [← ht, List.getElem?_append_left (List.getElem?_eq_some_iff.mp hk).1, hk] at hit
            exact (Option.some.inj hit).symm
          subst this
          intro tk htk i r hr hl
          obtain ⟨new, m, x⟩ := c' tk htk i r hr hl
          exact ⟨new, b.subset m, x⟩
        · exact c j it (by omega) hit
      cases hn : next? g it0 with
      | none =>
        simp only [hn] at h
        exact fin p h (fun hp => ⟨hp, List.prefix_rfl, fun tk h => by rw [hn] at h; cases h⟩)
      | some tk =>
        simp only [hn] at h
        split at h
        · refine fin _ h (fun hp => ?_)
          obtain ⟨a, b, c⟩ := closeRules_false _ p hk hp
          refine ⟨a, b, fun tk' htk' i r hr hl => ?_⟩
          rw [hn] at htk'
          cases htk'
          exact c i (List.mem_range.mpr (List.getElem?_eq_some_iff.mp hr).1) r hr hl
        · rename_i hnt
          refine fin p h (fun hp => ⟨hp, List.prefix_rfl, fun tk' htk' i r hr hl => ?_⟩)
          rw [hn] at htk'
          cases htk'
          exact absurd (List.any_eq_true.mpr ⟨r, List.mem_of_getElem? hr, by simp [hl]⟩) hnt

/-- **C238.** What mln_pg_closure makes of a set of items is closed. -/
theorem closure_closed (g : List Rule) (w : Work) (fuel : Nat) (items items' : List Item) (h : closure g w fuel items = some items') : Closed g w items' := by
  unfold closure at h
  generalize hn : fuel = n at h
  have : ∀ (m : Nat) (items : List Item), closeRounds g w n m items = some items' → Closed g w items' := by
    intro m
    induction m with
    | zero => intro items h; cases h
    | succ m ih =>
      intro items h
      rw [closeRounds] at h
      obtain ⟨p, hp, h⟩ := Option.bind_eq_some_iff.1 h
      split at h
      · exact ih p.1 h
      · rename_i hc
        cases h
        intro it hit
        obtain ⟨j, hj⟩ := List.getElem?_of_mem hit
        exact (closePass_false n 0 (items, false) p hp (by simpa using hc)).2.2 j it (Nat.zero_le _) hj
  exact this n items h

/-- Items that differ in nothing the closure looks at. -/
theorem Closed.map {g : List Rule} {w : Work} {items : List Item} (h : Closed g w items) (F : Item → Item) (hF : ∀ it, (F it).key = it.key ∧ (F it).la = it.la) : Closed g w (items.map F) := by
  intro it hit tk htk i r hr hl
  obtain ⟨it0, m, rfl⟩ := List.mem_map.mp hit
  obtain ⟨new, hm, hk, hx⟩ := h it0 m tk (by rw [← htk]; exact (next_key (hF it0).1).symm) i r hr hl
  refine ⟨F new, List.mem_map.mpr ⟨new, hm, rfl⟩, (hF new).1.trans hk, fun x hxm => ?_⟩
  rw [(hF new).2]
  refine hx x ?_
  have e := (hF it0).1
  simp only [Item.key, Prod.mk.injEq] at e
  unfold follow at hxm ⊢
  rw [e.1, e.2, (hF it0).2] at hxm
  exact hxm

theorem setGoto_closed {g : List Rule} {w : Work} {items : List Item} (h : Closed g w items) (k tk id : Nat) : Closed g w (setGoto g k tk id items) := by
  intro it hit t ht i r hr hl
  have back : ∃ it0 ∈ items, it0.key = it.key ∧ it0.la = it.la := by
    rcases setGoto_mem hit with h | ⟨it0, m, _, rfl⟩
    · exact ⟨it, h, rfl, rfl⟩
    · exact ⟨it0, m, rfl, rfl⟩
  obtain ⟨it0, m, ek, el⟩ := back
  obtain ⟨new, hm, hk, hx⟩ := h it0 m t (by rw [← ht]; exact next_key ek) i r hr hl
  have fwd : ∃ new' ∈ setGoto g k tk id items, new'.key = new.key ∧ new'.la = new.la := by
    unfold setGoto
    rw [← List.take_append_drop k items] at hm
    rcases List.mem_append.mp hm with h | h
    · exact ⟨new, List.mem_append_left _ h, rfl, rfl⟩
    · refine ⟨if next? g new = some tk then { new with goto := some id } else new, List.mem_append_right _ (List.mem_map.mpr ⟨new, h, rfl⟩), ?_, ?_⟩ <;> split <;> rfl
  obtain ⟨new', hm', hk', hl'⟩ := fwd
  refine ⟨new', hm', hk'.trans hk, fun x hxm => ?_⟩
  rw [hl']
  refine hx x ?_
  simp only [Item.key, Prod.mk.injEq] at ek
  unfold follow at hxm ⊢
  rw [ek.1, ek.2, el]
  exact hxm

/-- Lookaheads of a closed set with the same items may be added. -/
theorem merge_closed {g : List Rule} {w : Work} {d src : List Item} (hd : Closed g w d) (hs : Closed g w src) (hnd : (src.map Item.key).Nodup)
    (hk : ∀ x, x ∈ d.map Item.key ↔ x ∈ src.map Item.key) : Closed g w (d.map fun it => (mergeItem src it).1) := by
  have unique : ∀ s ∈ src, src.find? (fun y => y.key == s.key) = some s := by
    intro s hm
    have hsome : (src.find? (fun y => y.key == s.key)).isSome = true := by
      rw [List.find?_isSome]; exact ⟨s, hm, by simp⟩
    obtain ⟨y, hy⟩ := Option.isSome_iff_exists.mp hsome
    have hyk : y.key = s.key := by simpa using List.find?_some hy
    have hym := List.mem_of_find?_eq_some hy
    rw [hy]
    congr 1
    exact (List.inj_on_of_nodup_map hnd) hym hm hyk
  have la : ∀ it ∈ d, ∃ s ∈ src, s.key = it.key ∧ ∀ x, x ∈ (mergeItem src it).1.la ↔ x ∈ it.la ∨ x ∈ s.la := by
    intro it hit
    obtain ⟨s, hm, he⟩ := List.mem_map.mp ((hk it.key).mp (List.mem_map.mpr ⟨it, hit, rfl⟩))
    refine ⟨s, hm, he, fun x => ?_⟩
    have : src.find? (fun y => y.key == it.key) = some s := by rw [← he]; exact unique s hm
    simp only [mergeItem, this]
    exact addAll_mem _ _ x
  intro it hit tk htk i r hr hl
  obtain ⟨it0, m, rfl⟩ := List.mem_map.mp hit
  have hkey := (mergeItem_key src it0).1
  obtain ⟨s, sm, sk, sla⟩ := la it0 m
  have htk0 : next? g it0 = some tk := by rw [← htk]; exact (next_key hkey).symm
  obtain ⟨n1, m1, k1, x1⟩ := hd it0 m tk htk0 i r hr hl
  obtain ⟨n2, m2, k2, x2⟩ := hs s sm tk (by rw [← htk0]; exact next_key sk) i r hr hl
  obtain ⟨s', sm', sk', sla'⟩ := la n1 m1
  have : s' = n2 := (List.inj_on_of_nodup_map hnd) sm' m2 (by rw [sk', k1, k2])
  subst this
  refine ⟨(mergeItem src n1).1, List.mem_map.mpr ⟨n1, m1, rfl⟩, (mergeItem_key src n1).1.trans k1, fun x hx => ?_⟩
  rw [sla']
  -- the followers come from one of the two lookaheads
  have split : x ∈ follow g w it0 ∨ x ∈ follow g w s := by
    simp only [Item.key, Prod.mk.injEq] at hkey sk
    unfold follow at hx ⊢
    rw [hkey.1, hkey.2] at hx
    rw [sk.1, sk.2]
    split at hx
    · split at hx
      · rename_i hnl
        rw [if_pos hnl, if_pos hnl]
        rcases List.mem_append.mp hx with h | h
        · exact .inl (List.mem_append_left _ h)
        · rcases (sla x).mp h with h | h
          · exact .inl (List.mem_append_right _ h)
          · exact .inr (List.mem_append_right _ h)
      · rename_i hnl
        rw [if_neg hnl]; exact .inl hx
    · exact (sla x).mp hx
  rcases split with h | h
  · exact .inl (x1 x h)
  · exact .inr (x2 x h)

/-! ### The states -/

theorem place_closed {g : List Rule} {w : Work} {addr : Option Nat → Nat} (ha : ∀ a b, addr a = addr b → a = b) {gen gen' : Gen} (h : Inv g gen)
    (hc : ∀ st ∈ gen.states, Closed g w st.items) {s : State} {id : Nat} (hnd : s.key.items.Nodup) (hs : Closed g w s.items) (he : place addr gen s = some (gen', id)) :
    ∀ st ∈ gen'.states, Closed g w st.items := by
  unfold place at he
  obtain ⟨x, hx, he⟩ := Option.bind_eq_some_iff.1 he
  split at he
  · simp only at he
    obtain ⟨gen1, h1, he⟩ := Option.bind_eq_some_iff.1 he
    cases he
    unfold addState at h1
    simp only at h1
    obtain ⟨t, ht, h1⟩ := Option.bind_eq_some_iff.1 h1
    cases h1
    intro st hst
    rcases List.mem_append.mp hst with m | m
    · exact hc st m
    · simp only [List.mem_singleton] at m; subst m; exact hs
  · rename_i hx0
    obtain ⟨d, hd, he⟩ := Option.bind_eq_some_iff.1 he
    simp only [Option.some.injEq, Prod.mk.injEq] at he
    obtain ⟨rfl, rfl⟩ := he
    have hkd : (gen.states.map State.key)[x - 1]? = some d.key := by rw [List.getElem?_map, hd]; rfl
    obtain ⟨k1, k2⟩ := h.keys (x - 1) d.key hkd
    have hx1 : x - 1 + 1 = x := by omega
    rw [hx1] at k2
    have hcmp := (searchFrom_cmp _ hx).resolve_left hx0
    rw [k2] at hcmp
    obtain ⟨c1, c2⟩ := cmp_eq_zero ha hcmp hnd
    intro st hst
    rcases List.mem_or_eq_of_mem_set hst with m | m
    · exact hc st m
    · subst m
      simp only [List.map_map]
      exact merge_closed (hc d (List.mem_of_getElem? hd)) hs hnd c2

theorem gotoItem_closed {g : List Rule} {w : Work} {addr : Option Nat → Nat} {fuel : Nat} (hw : ∀ x, Terms g (w.fs x)) (ha : ∀ a b, addr a = addr b → a = b) {gen gen' : Gen} (h : Inv g gen)
    (hc : ∀ st ∈ gen.states, Closed g w st.items) {sid k : Nat} (he : gotoItem g w addr fuel gen sid k = some gen') : ∀ st ∈ gen'.states, Closed g w st.items := by
  unfold gotoItem at he
  obtain ⟨s, hs, he⟩ := Option.bind_eq_some_iff.1 he
  obtain ⟨save, hsave, he⟩ := Option.bind_eq_some_iff.1 he
  split at he
  · cases he; exact hc
  · rename_i tk htk
    split at he
    · cases he; exact hc
    · obtain ⟨items, hcl, he⟩ := Option.bind_eq_some_iff.1 he
      obtain ⟨⟨gen1, id⟩, hpl, he⟩ := Option.bind_eq_some_iff.1 he
      simp only at he
      obtain ⟨s1, hs1, he⟩ := Option.bind_eq_some_iff.1 he
      cases he
      have hsk : (gen.states.map State.key)[sid]? = some s.key := by rw [List.getElem?_map, hs]; rfl
      have hnd : (items.map Item.key).Nodup := by
        refine (closeRounds_ext hw _ hcl).nodup (kernel_nodup ?_)
        refine List.Nodup.sublist ((List.drop_sublist k s.items).map _) ?_
        exact (h.keys sid s.key hsk).1.nodup
      have hp := place_closed ha h hc (s := { input := some tk, items := items }) hnd (closure_closed g w fuel _ items hcl) hpl
      intro st hst
      rcases List.mem_or_eq_of_mem_set hst with m | m
      · exact hp st m
      · subst m
        exact setGoto_closed (hp s1 (List.mem_of_getElem? hs1)) k tk id

theorem gotoItems_closed {g : List Rule} {eof s0 : Nat} {w : Work} {addr : Option Nat → Nat} {fuel sid : Nat} (G : GrammarOk g eof s0) (hw : ∀ x, Terms g (w.fs x)) (ha : ∀ a b, addr a = addr b → a = b) (ks : List Nat) :
    ∀ {gen gen' : Gen}, Inv g gen → gen.states ≠ [] → (∀ st ∈ gen.states, Closed g w st.items) → gotoItems g w addr fuel sid ks gen = some gen' → ∀ st ∈ gen'.states, Closed g w st.items := by
  induction ks with
  | nil => intro gen gen' h h0 hc he; cases he; exact hc
  | cons k ks ih =>
    intro gen gen' h h0 hc he
    rw [gotoItems] at he
    obtain ⟨gen1, h1, he⟩ := Option.bind_eq_some_iff.1 he
    obtain ⟨a, b⟩ := gotoItem_inv G hw ha h h0 h1
    exact ih a b (gotoItem_closed hw ha h hc h1) he

theorem gotoLoop_closed {g : List Rule} {eof s0 : Nat} {w : Work} {addr : Option Nat → Nat} {fuel : Nat} (G : GrammarOk g eof s0) (hw : ∀ x, Terms g (w.fs x)) (ha : ∀ a b, addr a = addr b → a = b) (n : Nat) :
    ∀ {gen gen' : Gen}, Inv g gen → gen.states ≠ [] → (∀ st ∈ gen.states, Closed g w st.items) → gotoLoop g w addr fuel n gen = some gen' → ∀ st ∈ gen'.states, Closed g w st.items := by
  induction n with
  | zero => intro gen gen' h h0 hc he; cases he
  | succ n ih =>
    intro gen gen' h h0 hc he
    rw [gotoLoop] at he
    split at he
    · cases he; exact hc
    · rename_i sid q hq
      obtain ⟨s, hs, he⟩ := Option.bind_eq_some_iff.1 he
      obtain ⟨gen1, h1, he⟩ := Option.bind_eq_some_iff.1 he
      obtain ⟨a, b⟩ := gotoItems_inv G hw ha _ (gen := { gen with queue := q }) ⟨h.keys, h.sts⟩ h0 h1
      exact ih a b (gotoItems_closed G hw ha _ (gen := { gen with queue := q }) ⟨h.keys, h.sts⟩ h0 hc h1) he

/-- **C238.** Every state that the generator ends with is closed, whatever lookaheads were added to
it after it was made. -/
theorem states_closed (g : List Rule) (eof s0 : Nat) (w : Work) (addr : Option Nat → Nat) (fuel : Nat) (G : GrammarOk g eof s0) (hw : ∀ x, Terms g (w.fs x)) (ha : ∀ a b, addr a = addr b → a = b)
    (ss : List State) (he : calcGoto g w addr fuel = some ss) : ∀ st ∈ ss, Closed g w st.items := by
  unfold calcGoto at he
  obtain ⟨items, hcl, he⟩ := Option.bind_eq_some_iff.1 he
  obtain ⟨gen, hadd, he⟩ := Option.bind_eq_some_iff.1 he
  obtain ⟨gen1, hgo, he⟩ := Option.bind_eq_some_iff.1 he
  cases he
  have hext := closeRounds_ext hw _ hcl
  have h1 := addState_inv (g := g) (gen := { tree := newTree, states := [], queue := [] }) ⟨by intro i k h; simp at h, by simp⟩ (s := { input := none, items := items })
    ⟨fun x hx ru _ => by
      obtain ⟨extra, e1, e2⟩ := hext.keys
      simp only [State.key, e1] at hx
      rcases List.mem_append.1 hx with hx | hx
      · simp [Item.key] at hx; subst hx; simp
      · simp [(e2 x hx).1], by simp [State.key], hext.nodup (by simp), by simp, fun _ x hx => by
      obtain ⟨extra, e1, e2⟩ := hext.keys
      simp only [State.key, e1] at hx
      rcases List.mem_append.1 hx with hx | hx
      · simp [Item.key] at hx; subst hx; rfl
      · exact (e2 x hx).1⟩
    ⟨hext.la (by intro it hit; simp at hit; subst hit; intro x hx; cases hx), fun it hit j hj => by
      rw [hext.goto (by simp) it hit] at hj; cases hj⟩ hadd
  refine gotoLoop_closed G hw ha _ h1.1 (by rw [h1.2]; simp) ?_ hgo
  rw [h1.2]
  intro st hst
  simp only [List.nil_append, List.mem_singleton] at hst
  subst hst
  exact closure_closed g w fuel _ items hcl

/-- **C237, C238** for the tables handed out: behind the table stand closed sets of items, and its
rows do what every one of these items says. -/
theorem generate_serves (g : List Rule) (eof s0 : Nat) (addr : Option Nat → Nat) (fuel : Nat) (G : GrammarOk g eof s0) (ha : ∀ a b, addr a = addr b → a = b)
    (tbl : Table) (h : generate g eof addr fuel = some (some tbl)) :
    ∃ (w : Work) (ss : List State), tbl.length = ss.length ∧ (∀ st ∈ ss, Closed g w st.items) ∧
      ∀ (i : Nat) (s : State) (row : Nat → Entry), ss[i]? = some s → tbl[i]? = some row → ∀ it ∈ s.items, Serves g eof row it := by
  unfold generate at h
  obtain ⟨w1, h1, h⟩ := Option.bind_eq_some_iff.1 h
  obtain ⟨w2, h2, h⟩ := Option.bind_eq_some_iff.1 h
  obtain ⟨ss, h3, h⟩ := Option.bind_eq_some_iff.1 h
  have t1 := nullRounds_terms _ (by intro x y hy; cases hy) h1
  have t2 := firstRounds_terms _ (w := { w1 with map := g.map (fun _ => true), change := true }) t1 h2
  obtain ⟨a, b⟩ := table_serves g eof ss tbl (Option.some.inj h)
  exact ⟨w2, ss, a, states_closed g eof s0 w2 addr fuel G t2 ha ss h3, b⟩

/-- `start: S EOF`, `S: S a S`, `S: b`: the text b a b a b can be read in two ways. -/
def ambG : List Rule := [⟨10, [11, 0]⟩, ⟨11, [11, 1, 11]⟩, ⟨11, [2]⟩]

example : (generate ambG 0 adr 60).map (·.isSome) = some false := by decide +kernel
example : ∃ ss, statesOf ambG 60 = some ss ∧ ∃ s ∈ ss, Conflict ambG 0 s.items := by
  have h : ((statesOf ambG 60).map fun ss => (build ambG 0 ss).isSome) = some false := by decide +kernel
  obtain ⟨ss, e, h⟩ := Option.map_eq_some_iff.mp h
  exact ⟨ss, e, (refused_iff_conflict ambG 0 ss).mp (by simpa using h)⟩

/-- The first state of the grammar for sums and products. -/
example : ((statesOf exprG 60).bind (·[0]?)).map (fun s => s.items.map (fun it => (it.rule, it.pos, it.la)))
    = some [(0, 0, []), (1, 0, [0, 3]), (2, 0, [0, 3]), (3, 0, [0, 3, 4]), (4, 0, [0, 3, 4]), (5, 0, [0, 3, 4])] := by decide +kernel

end Verif.Pg
