import Verif.PgCloseProps
/-
The goto states of the parser generator are complete (C243): when mln_pg_goto is done, a state
that an item goes to holds the item with the dot moved on, with all of its lookaheads.
-/
namespace Verif.Pg

/-- Every item is still there, with at least its lookaheads. -/
def Grew (a b : List Item) : Prop := ∀ it ∈ a, ∃ it' ∈ b, it'.key = it.key ∧ ∀ x ∈ it.la, x ∈ it'.la

theorem Grew.refl (a : List Item) : Grew a a := fun it h => ⟨it, h, rfl, fun _ h => h⟩

theorem Grew.trans {a b c : List Item} (h : Grew a b) (k : Grew b c) : Grew a c := by
  intro it hit
  obtain ⟨i1, m1, k1, l1⟩ := h it hit
  obtain ⟨i2, m2, k2, l2⟩ := k i1 m1
  exact ⟨i2, m2, k2.trans k1, fun x hx => l2 x (l1 x hx)⟩

theorem closeRule_grew (g : List Rule) (w : Work) (k tk : Nat) (p : List Item × Bool) (i : Nat) : Grew p.1 (closeRule g w k tk p i).1 := by
  unfold closeRule
  split
  · exact .refl _
  · split
    · exact .refl _
    · simp only
      have h1 : Grew p.1 (if p.1.any (fun it => it.key == (i, 0)) then p.1 else p.1 ++ [{ rule := i, pos := 0, la := [], goto := none }]) := by
        split
        · exact .refl _
        · exact fun it h => ⟨it, List.mem_append_left _ h, rfl, fun _ h => h⟩
      refine h1.trans ?_
      generalize (if p.1.any (fun it => it.key == (i, 0)) then p.1 else p.1 ++ [{ rule := i, pos := 0, la := [], goto := none }]) = items
      split
      · exact .refl _
      · rename_i itk _
        split
        · exact .refl _
        · rename_i new hnew
          intro it hit
          obtain ⟨m, hm⟩ := List.getElem?_of_mem hit
          by_cases e : items.findIdx (fun it => it.key == (i, 0)) = m
          · rw [e] at hnew
            rw [hm] at hnew
            have e2 := Option.some.inj hnew
            subst e2
            refine ⟨{ it with la := (addAll it.la (follow g w itk)).1 }, List.mem_iff_getElem?.2 ⟨m, ?_⟩, rfl, fun x hx => (addAll_mem _ _ x).2 (.inl hx)⟩
            rw [List.getElem?_set, if_pos e]
            simp [e, (List.getElem?_eq_some_iff.1 hm).1]
          · exact ⟨it, List.mem_iff_getElem?.2 ⟨m, by rw [List.getElem?_set, if_neg e, hm]⟩, rfl, fun _ h => h⟩

theorem closePass_grew {g : List Rule} {w : Work} (n : Nat) : ∀ {k : Nat} {p p' : List Item × Bool}, closePass g w n k p = some p' → Grew p.1 p'.1 := by
  have fold : ∀ (k tk : Nat) (l : List Nat) (p : List Item × Bool), Grew p.1 (l.foldl (closeRule g w k tk) p).1 := by
    intro k tk l
    induction l with
    | nil => intro p; exact .refl _
    | cons i l ih => intro p; exact (closeRule_grew g w k tk p i).trans (ih _)
  induction n with
  | zero => intro k p p' h; cases h
  | succ n ih =>
    intro k p p' h
    rw [closePass] at h
    split at h
    · cases h; exact .refl _
    · split at h
      · exact ih h
      · split at h
        · exact (fold _ _ _ _).trans (ih h)
        · exact ih h

theorem closure_grew {g : List Rule} {w : Work} {fuel : Nat} {a b : List Item} (h : closure g w fuel a = some b) : Grew a b := by
  unfold closure at h
  generalize hn : fuel = m at h
  have : ∀ (n : Nat) (a : List Item), closeRounds g w m n a = some b → Grew a b := by
    intro n
    induction n with
    | zero => intro a h; cases h
    | succ n ih =>
      intro a h
      rw [closeRounds] at h
      obtain ⟨p, hp, h⟩ := Option.bind_eq_some_iff.1 h
      have := closePass_grew _ hp
      split at h
      · exact this.trans (ih _ h)
      · cases h; exact this
  exact this _ _ h

/-- Nothing is lost from any state. -/
def AllGrew (a b : List State) : Prop := ∀ (j : Nat) (st : State), a[j]? = some st → ∃ st', b[j]? = some st' ∧ Grew st.items st'.items

/-- Spec: where the item goes to, the item with the dot moved on is found with its lookaheads. -/
def GotoOk (ss : List State) (it : Item) : Prop :=
  ∀ j, it.goto = some j → ∃ st, ss[j]? = some st ∧ ∃ new ∈ st.items, new.key = (it.rule, it.pos + 1) ∧ ∀ x ∈ it.la, x ∈ new.la

theorem GotoOk.mono {a b : List State} {it : Item} (h : GotoOk a it) (k : AllGrew a b) : GotoOk b it := by
  intro j hj
  obtain ⟨st, h1, new, h2, h3, h4⟩ := h j hj
  obtain ⟨st', k1, k2⟩ := k j st h1
  obtain ⟨new', k3, k4, k5⟩ := k2 new h2
  exact ⟨st', k1, new', k3, k4.trans h3, fun x hx => k5 x (h4 x hx)⟩

/-- An item has a goto only if the first item with the same next token is not left out. -/
def GotoFrom (g : List Rule) (items : List Item) : Prop :=
  ∀ it ∈ items, it.goto ≠ none → ∀ tk, next? g it = some tk →
    ∃ (k : Nat) (save : Item), items[k]? = some save ∧ next? g save = some tk ∧ skips g tk (items.take k).reverse 0 0 = false

theorem skips_keys (g : List Rule) (tk : Nat) : ∀ (l l' : List Item) (e c : Nat), l.map Item.key = l'.map Item.key → skips g tk l e c = skips g tk l' e c := by
  intro l
  induction l with
  | nil => intro l' e c h; cases l' with
    | nil => rfl
    | cons => simp at h
  | cons a l ih =>
    intro l' e c h
    cases l' with
    | nil => simp at h
    | cons b l' =>
      simp only [List.map_cons, List.cons.injEq] at h
      rw [skips, skips, next_key (g := g) h.1]
      cases next? g b with
      | none => exact ih _ _ _ h.2
      | some x => simp only; rw [ih _ e (c + 1) h.2]

theorem skips_false {g : List Rule} {tk : Nat} : ∀ {l : List Item} {e c : Nat}, skips g tk l e c = false → ∀ it ∈ l, next? g it ≠ some tk := by
  intro l
  induction l with
  | nil => intro e c _ it h; cases h
  | cons a l ih =>
    intro e c h it hit
    rw [skips] at h
    cases hn : next? g a with
    | none =>
      rw [hn] at h
      rcases List.mem_cons.1 hit with rfl | m
      · rw [hn]; simp
      · exact ih h it m
    | some x =>
      rw [hn] at h
      simp only at h
      split at h
      · cases h
      · rename_i hx
        rcases List.mem_cons.1 hit with rfl | m
        · rw [hn]; simp [hx]
        · exact ih h it m

/-- Only the keys and gotos matter for `GotoFrom`. -/
theorem GotoFrom.congr {g : List Rule} {a b : List Item} (h : GotoFrom g a) (hk : b.map Item.key = a.map Item.key)
    (hg : ∀ it ∈ b, it.goto ≠ none → ∀ tk, next? g it = some tk → (∃ it0 ∈ a, it0.key = it.key ∧ it0.goto ≠ none) ∨
      ∃ (k : Nat) (save : Item), b[k]? = some save ∧ next? g save = some tk ∧ skips g tk (b.take k).reverse 0 0 = false) : GotoFrom g b := by
  intro it hit hgo tk htk
  rcases hg it hit hgo tk htk with ⟨it0, m0, k0, g0⟩ | h1
  · obtain ⟨k, save, h1, h2, h3⟩ := h it0 m0 g0 tk (by rw [next_key k0]; exact htk)
    have hb : (b.map Item.key)[k]? = some save.key := by rw [hk, List.getElem?_map, h1]; rfl
    rw [List.getElem?_map] at hb
    obtain ⟨sb, hb1, hb2⟩ := Option.map_eq_some_iff.1 hb
    refine ⟨k, sb, hb1, by rw [next_key hb2]; exact h2, ?_⟩
    rw [← h3]
    refine skips_keys g tk _ _ 0 0 ?_
    rw [List.map_reverse, List.map_reverse, List.map_take, List.map_take, hk]
  · exact h1

theorem find_unique {src : List Item} (hnd : (src.map Item.key).Nodup) {s : Item} (hs : s ∈ src) {k : Nat × Nat} (hk : s.key = k) : src.find? (fun y => y.key == k) = some s := by
  have hsome : (src.find? (fun y => y.key == k)).isSome = true := by
    rw [List.find?_isSome]; exact ⟨s, hs, by simp [hk]⟩
  obtain ⟨y, hy⟩ := Option.isSome_iff_exists.1 hsome
  have h1 := List.find?_some hy
  have h2 := List.mem_of_find?_eq_some hy
  simp only [beq_iff_eq] at h1
  rw [hy, List.inj_on_of_nodup_map hnd h2 hs (h1.trans hk.symm)]

theorem mergeItem_grew (src : List Item) (d : Item) : (∀ x ∈ d.la, x ∈ (mergeItem src d).1.la) ∧ ((mergeItem src d).2 = false → (mergeItem src d).1 = d) := by
  unfold mergeItem
  split
  · exact ⟨fun _ h => h, fun _ => rfl⟩
  · rename_i s _
    exact ⟨fun x hx => (addAll_mem _ _ x).2 (.inl hx), fun h => by simp only at h ⊢; rw [addAll_same _ _ h]⟩

/-- What happens when a state is looked up and put into the chain or merged. -/
theorem place_spec {g : List Rule} {addr : Option Nat → Nat} (ha : ∀ a b, addr a = addr b → a = b) {gen gen' : Gen} (h : Inv g gen) {s : State} {id : Nat} (hnd : s.key.items.Nodup)
    (hf : ∀ st ∈ gen.states, GotoFrom g st.items) (hgo : ∀ it ∈ s.items, it.goto = none) (he : place addr gen s = some (gen', id)) :
    AllGrew gen.states gen'.states ∧ (∀ i, i ∉ gen'.queue → gen'.states[i]? = gen.states[i]?) ∧ (∃ st, gen'.states[id]? = some st ∧ Grew s.items st.items) ∧
      (∀ i ∈ gen.queue, i ∈ gen'.queue) ∧ (∀ st ∈ gen'.states, GotoFrom g st.items) ∧
      (∀ (i : Nat) (st : State), gen.states[i]? = some st → ∃ st', gen'.states[i]? = some st' ∧ st'.key = st.key) := by
  unfold place at he
  obtain ⟨x, hx, he⟩ := Option.bind_eq_some_iff.1 he
  split at he
  · simp only at he
    obtain ⟨gen1, h1, he⟩ := Option.bind_eq_some_iff.1 he
    cases he
    unfold addState at h1
    simp only at h1
    obtain ⟨t, ht, h1⟩ := Option.bind_eq_some_iff.1 h1
    cases h1
    have old : ∀ (i : Nat) (st : State), gen.states[i]? = some st → (gen.states ++ [s])[i]? = some st := by
      intro i st hi
      rw [List.getElem?_append_left (List.getElem?_eq_some_iff.1 hi).1, hi]
    refine ⟨fun j st hj => ⟨st, old j st hj, .refl _⟩, ?_, ⟨s, by simp, .refl _⟩, fun i hi => List.mem_append_left _ hi, ?_, fun i st hi => ⟨st, old i st hi, rfl⟩⟩
    · intro i hi
      simp only [List.mem_append, List.mem_singleton, not_or] at hi
      by_cases hlt : i < gen.states.length
      · exact List.getElem?_append_left hlt
      · rw [List.getElem?_eq_none (by omega : gen.states.length ≤ i), List.getElem?_eq_none]
        have := hi.2
        simp only [List.length_append, List.length_singleton]
        omega
    · intro st hst
      rcases List.mem_append.mp hst with m | m
      · exact hf st m
      · simp only [List.mem_singleton] at m; subst m
        intro it hit hne
        exact absurd (hgo it hit) hne
  · rename_i hx0
    obtain ⟨d, hd, he⟩ := Option.bind_eq_some_iff.1 he
    simp only [Option.some.injEq, Prod.mk.injEq] at he
    obtain ⟨rfl, rfl⟩ := he
    have hkd : (gen.states.map State.key)[x - 1]? = some d.key := by rw [List.getElem?_map, hd]; rfl
    obtain ⟨k1, k2⟩ := h.keys (x - 1) d.key hkd
    have hx1 : x - 1 + 1 = x := by omega
    rw [hx1] at k2
    have hcmp := (searchFrom_cmp _ hx).resolve_left hx0
    rw [k2] at hcmp
    obtain ⟨c1, c2⟩ := cmp_eq_zero ha hcmp hnd
    have hlt : x - 1 < gen.states.length := (List.getElem?_eq_some_iff.1 hd).1
    have hkeys : ((d.items.map (mergeItem s.items)).map (·.1)).map Item.key = d.items.map Item.key := by
      rw [List.map_map, List.map_map]
      exact List.map_congr_left (fun it _ => (mergeItem_key s.items it).1)
    have hgrew : Grew d.items ((d.items.map (mergeItem s.items)).map (·.1)) := by
      intro it hit
      exact ⟨(mergeItem s.items it).1, by rw [List.map_map]; exact List.mem_map.2 ⟨it, hit, rfl⟩, (mergeItem_key s.items it).1, (mergeItem_grew s.items it).1⟩
    have get : ∀ i, i ≠ x - 1 → (gen.states.set (x - 1) { d with items := (d.items.map (mergeItem s.items)).map (·.1) })[i]? = gen.states[i]? := by
      intro i hi
      rw [List.getElem?_set, if_neg (fun e => hi e.symm)]
    have getx : (gen.states.set (x - 1) { d with items := (d.items.map (mergeItem s.items)).map (·.1) })[x - 1]? = some { d with items := (d.items.map (mergeItem s.items)).map (·.1) } := by
      rw [List.getElem?_set, if_pos rfl, if_pos hlt]
    refine ⟨?_, ?_, ⟨_, getx, ?_⟩, ?_, ?_, ?_⟩
    · intro j st hj
      by_cases e : j = x - 1
      · subst e
        rw [hd] at hj; cases hj
        exact ⟨_, getx, hgrew⟩
      · exact ⟨st, by simp only; rw [get j e]; exact hj, .refl _⟩
    · intro i hi
      by_cases e : i = x - 1
      · subst e
        simp only at hi ⊢
        rw [getx, hd]
        have hany : (d.items.map (mergeItem s.items)).any (·.2) = false := by
          cases ha : (d.items.map (mergeItem s.items)).any (·.2) with
          | false => rfl
          | true =>
            rw [ha] at hi
            simp only [Bool.true_and] at hi
            split at hi
            · simp at hi
            · rename_i hc
              simp only [Bool.not_eq_true', Bool.not_eq_false, List.contains_eq_mem, decide_eq_true_eq] at hc
              exact absurd hc hi
        have : (d.items.map (mergeItem s.items)).map (·.1) = d.items := by
          rw [List.map_map]
          conv => rhs; rw [← List.map_id d.items]
          apply List.map_congr_left
          intro it hit
          have := List.any_eq_false.1 hany (mergeItem s.items it) (List.mem_map.2 ⟨it, hit, rfl⟩)
          exact (mergeItem_grew s.items it).2 (by simpa using this)
        rw [this]
      · exact get i e
    · intro it hit
      have : it.key ∈ d.items.map Item.key := (c2 it.key).2 (List.mem_map.2 ⟨it, hit, rfl⟩)
      obtain ⟨di, hdi, hk⟩ := List.mem_map.1 this
      refine ⟨(mergeItem s.items di).1, by simp only [List.map_map]; exact List.mem_map.2 ⟨di, hdi, rfl⟩, (mergeItem_key s.items di).1.trans hk, ?_⟩
      intro y hy
      unfold mergeItem
      rw [find_unique hnd hit hk.symm]
      exact (addAll_mem _ _ y).2 (.inr hy)
    · intro i hi
      simp only
      split
      · exact List.mem_append_left _ hi
      · exact hi
    · intro st hst
      rcases List.mem_or_eq_of_mem_set hst with m | m
      · exact hf st m
      · subst m
        refine (hf d (List.mem_of_getElem? hd)).congr hkeys ?_
        intro it hit hne tk _
        simp only [List.map_map] at hit
        obtain ⟨d0, m0, rfl⟩ := List.mem_map.1 hit
        have := mergeItem_key s.items d0
        exact .inl ⟨d0, m0, this.1.symm, by simp only [Function.comp] at hne; rw [← this.2]; exact hne⟩
    · intro i st hi
      by_cases e : i = x - 1
      · subst e
        rw [hd] at hi; cases hi
        exact ⟨_, getx, by simp only [State.key]; rw [hkeys]⟩
      · exact ⟨st, by simp only; rw [get i e]; exact hi, rfl⟩

/-- The state of the work: states not in the queue are done; of the state at hand the items with
the next token of one of the first `k` items. -/
structure Todo (g : List Rule) (gen : Gen) (sid k : Nat) : Prop where
  others : ∀ (i : Nat) (st : State), i ∉ gen.queue → i ≠ sid → gen.states[i]? = some st → ∀ it ∈ st.items, GotoOk gen.states it
  this : sid ∉ gen.queue → ∀ st, gen.states[sid]? = some st → ∀ it ∈ st.items, ∀ tk, next? g it = some tk →
    (∃ m, m < k ∧ ∃ a, st.items[m]? = some a ∧ next? g a = some tk) → GotoOk gen.states it
  from_ : ∀ st ∈ gen.states, GotoFrom g st.items

theorem setGoto_grew (g : List Rule) (k tk id : Nat) (items : List Item) : Grew items (setGoto g k tk id items) := by
  intro it hit
  unfold setGoto
  rw [← List.take_append_drop k items] at hit
  rcases List.mem_append.1 hit with m | m
  · exact ⟨it, List.mem_append_left _ m, rfl, fun _ h => h⟩
  · refine ⟨_, List.mem_append_right _ (List.mem_map.2 ⟨it, m, rfl⟩), ?_, ?_⟩
    · split <;> rfl
    · intro x hx; split <;> exact hx

theorem gotoItem_todo {g : List Rule} {w : Work} {addr : Option Nat → Nat} {fuel : Nat} (hw : ∀ x, Terms g (w.fs x)) (ha : ∀ a b, addr a = addr b → a = b) {gen gen' : Gen} (h : Inv g gen)
    {sid k : Nat} (t : Todo g gen sid k) (he : gotoItem g w addr fuel gen sid k = some gen') :
    Todo g gen' sid (k + 1) ∧ ∀ (i : Nat) (st : State), gen.states[i]? = some st → ∃ st', gen'.states[i]? = some st' ∧ st'.key = st.key := by
  unfold gotoItem at he
  obtain ⟨s, hs, he⟩ := Option.bind_eq_some_iff.1 he
  obtain ⟨save, hsave, he⟩ := Option.bind_eq_some_iff.1 he
  split at he
  · rename_i hn
    cases he
    refine ⟨⟨t.others, ?_, t.from_⟩, fun i st hi => ⟨st, hi, rfl⟩⟩
    intro hq st hst it hit tk htk hm
    obtain ⟨m, hm, a, h1, h2⟩ := hm
    rw [hs] at hst; cases hst
    refine t.this hq s hs it hit tk htk ⟨m, ?_, a, h1, h2⟩
    rcases Nat.lt_succ_iff_lt_or_eq.1 hm with h | rfl
    · exact h
    · rw [hsave] at h1; cases h1; rw [hn] at h2; cases h2
  · rename_i tk htk
    split at he
    · rename_i hsk
      cases he
      refine ⟨⟨t.others, ?_, t.from_⟩, fun i st hi => ⟨st, hi, rfl⟩⟩
      intro hq st hst it hit tk' htk' hm
      obtain ⟨m, hm, a, h1, h2⟩ := hm
      rw [hs] at hst; cases hst
      by_cases hgn : it.goto = none
      · intro j hj; rw [hgn] at hj; cases hj
      · refine t.this hq s hs it hit tk' htk' ?_
        rcases Nat.lt_succ_iff_lt_or_eq.1 hm with h | rfl
        · exact ⟨m, h, a, h1, h2⟩
        · rw [hsave] at h1; cases h1
          rw [htk] at h2; cases h2
          obtain ⟨k0, sv, q1, q2, q3⟩ := t.from_ s (List.mem_of_getElem? hs) it hit hgn tk htk'
          refine ⟨k0, ?_, sv, q1, q2⟩
          rcases Nat.lt_trichotomy k0 m with l | l | l
          · exact l
          · subst l; rw [q3] at hsk; cases hsk
          · refine absurd htk (skips_false q3 save ?_)
            rw [List.mem_reverse]
            exact List.mem_iff_getElem?.2 ⟨m, by rw [List.getElem?_take_of_lt l]; exact hsave⟩
    · rename_i hsk
      have hsk : skips g tk (s.items.take k).reverse 0 0 = false := by simpa using hsk
      obtain ⟨items, hcl, he⟩ := Option.bind_eq_some_iff.1 he
      obtain ⟨⟨gen1, id⟩, hpl, he⟩ := Option.bind_eq_some_iff.1 he
      simp only at he
      obtain ⟨s1, hs1, he⟩ := Option.bind_eq_some_iff.1 he
      cases he
      have hskey : (gen.states.map State.key)[sid]? = some s.key := by rw [List.getElem?_map, hs]; rfl
      have hext := closeRounds_ext hw _ hcl
      have hnd : (items.map Item.key).Nodup := by
        refine hext.nodup (kernel_nodup ?_)
        refine List.Nodup.sublist ((List.drop_sublist k s.items).map _) ?_
        exact (h.keys sid s.key hskey).1.nodup
      have hgo : ∀ it ∈ items, it.goto = none := by
        refine hext.goto ?_
        intro it hit
        unfold kernel at hit
        obtain ⟨it0, h1, rfl⟩ := List.mem_map.1 hit
        rfl
      obtain ⟨p1, p2, ⟨stid, p3, p4⟩, p5, p6, p7⟩ := place_spec ha h (s := { input := some tk, items := items }) hnd t.from_ hgo hpl
      have hgr := closure_grew hcl
      have hk1 : s1.key = s.key := by
        obtain ⟨st', a1, a2⟩ := p7 sid s hs
        rw [hs1] at a1; cases a1; exact a2
      have hki : s1.items.map Item.key = s.items.map Item.key := congrArg Key.items hk1
      have hlt : sid < gen1.states.length := (List.getElem?_eq_some_iff.1 hs1).1
      have get : ∀ i, i ≠ sid → (gen1.states.set sid { s1 with items := setGoto g k tk id s1.items })[i]? = gen1.states[i]? := by
        intro i hi
        rw [List.getElem?_set, if_neg (fun e => hi e.symm)]
      have gets : (gen1.states.set sid { s1 with items := setGoto g k tk id s1.items })[sid]? = some { s1 with items := setGoto g k tk id s1.items } := by
        rw [List.getElem?_set, if_pos rfl, if_pos hlt]
      have hall : AllGrew gen1.states (gen1.states.set sid { s1 with items := setGoto g k tk id s1.items }) := by
        intro j st hj
        by_cases e : j = sid
        · subst e
          rw [hs1] at hj; cases hj
          exact ⟨_, gets, setGoto_grew g k tk id s1.items⟩
        · exact ⟨st, by rw [get j e]; exact hj, .refl _⟩
      have hall0 : AllGrew gen.states (gen1.states.set sid { s1 with items := setGoto g k tk id s1.items }) := by
        intro j st hj
        obtain ⟨st', a1, a2⟩ := p1 j st hj
        obtain ⟨st'', b1, b2⟩ := hall j st' a1
        exact ⟨st'', b1, a2.trans b2⟩
      refine ⟨⟨?_, ?_, ?_⟩, ?_⟩
      · intro i st hq hi hst it hit
        simp only at hst hq ⊢
        rw [get i hi, p2 i hq] at hst
        exact (t.others i st (fun h => hq (p5 i h)) hi hst it hit).mono hall0
      · intro hq st hst it hit tk' htk' hm
        simp only at hst hq ⊢
        rw [gets] at hst; cases hst
        have hs0 : gen1.states[sid]? = some s := by rw [p2 sid hq]; exact hs
        rw [hs1] at hs0
        have e0 := Option.some.inj hs0
        subst e0
        -- nothing was added to the state itself
        obtain ⟨m, hm, a, h1, h2⟩ := hm
        have hak : (s1.items.map Item.key)[m]? = some a.key := by
          rw [← setGoto_keys g k tk id s1.items, List.getElem?_map, h1]; rfl
        rw [List.getElem?_map] at hak
        obtain ⟨a0, ha0, ha1⟩ := Option.map_eq_some_iff.1 hak
        by_cases e : tk' = tk
        · subst e
          -- the items of the group at hand
          have hit2 : ∃ it0 ∈ s1.items, next? g it0 = some tk' ∧ it = { it0 with goto := some id } := by
            unfold setGoto at hit
            rcases List.mem_append.1 hit with m | m
            · exact absurd htk' (skips_false hsk it (List.mem_reverse.2 m))
            · obtain ⟨it0, i1, i2⟩ := List.mem_map.1 m
              split at i2
              · rename_i hn
                exact ⟨it0, List.mem_of_mem_drop i1, hn, i2.symm⟩
              · rename_i hn
                subst i2
                exact absurd htk' hn
          obtain ⟨it0, i1, i2, rfl⟩ := hit2
          intro j hj
          simp only [Option.some.injEq] at hj
          subst hj
          have hd : it0 ∈ s1.items.drop k := by
            rw [← List.take_append_drop k s1.items] at i1
            rcases List.mem_append.1 i1 with m | m
            · exact absurd i2 (skips_false hsk it0 (List.mem_reverse.2 m))
            · exact m
          have hker : ({ rule := it0.rule, pos := it0.pos + 1, la := it0.la, goto := none } : Item) ∈ kernel g tk' (s1.items.drop k) := by
            unfold kernel
            exact List.mem_map.2 ⟨it0, List.mem_filter.2 ⟨hd, by simpa using i2⟩, rfl⟩
          obtain ⟨n1, m1, k1, l1⟩ := hgr _ hker
          obtain ⟨n2, m2, k2, l2⟩ := p4 n1 m1
          obtain ⟨st3, a3, b3⟩ := hall id stid p3
          obtain ⟨n3, m3, k3, l3⟩ := b3 n2 m2
          exact ⟨st3, a3, n3, m3, k3.trans (k2.trans k1), fun x hx => l3 x (l2 x (l1 x hx))⟩
        · have hit0 : it ∈ s1.items := by
            rcases setGoto_mem hit with m | ⟨it0, _, n0, rfl⟩
            · exact m
            · have : next? g it0 = some tk' := htk'
              rw [n0] at this
              exact absurd (Option.some.inj this).symm e
          refine (t.this (fun h => hq (p5 sid h)) s1 hs it hit0 tk' htk' ⟨m, ?_, a0, ha0, by rw [next_key ha1]; exact h2⟩).mono hall0
          rcases Nat.lt_succ_iff_lt_or_eq.1 hm with h | rfl
          · exact h
          · rw [hsave] at ha0; cases ha0
            have : next? g save = some tk' := by rw [next_key ha1]; exact h2
            rw [htk] at this
            exact absurd (Option.some.inj this).symm e
      · intro st hst
        rcases List.mem_or_eq_of_mem_set hst with m | m
        · exact p6 st m
        · subst m
          refine (p6 s1 (List.mem_of_getElem? hs1)).congr (setGoto_keys ..) ?_
          intro it hit hne tk' htk'
          rcases setGoto_mem hit with m | ⟨it0, m0, n0, rfl⟩
          · exact .inl ⟨it, m, rfl, hne⟩
          · right
            have : next? g it0 = some tk' := htk'
            rw [n0] at this; cases this
            have hb : ((setGoto g k tk id s1.items).map Item.key)[k]? = some save.key := by rw [setGoto_keys, hki, List.getElem?_map, hsave]; rfl
            rw [List.getElem?_map] at hb
            obtain ⟨sb, hb1, hb2⟩ := Option.map_eq_some_iff.1 hb
            refine ⟨k, sb, hb1, by rw [next_key hb2]; exact htk, ?_⟩
            rw [← hsk]
            refine skips_keys g tk _ _ 0 0 ?_
            rw [List.map_reverse, List.map_reverse, List.map_take, List.map_take, setGoto_keys, hki]
      · intro i st hi
        obtain ⟨st', a1, a2⟩ := p7 i st hi
        by_cases e : i = sid
        · subst e
          rw [hs1] at a1; cases a1
          exact ⟨_, gets, by simp only [State.key, setGoto_keys]; exact a2⟩
        · exact ⟨st', by simp only; rw [get i e]; exact a1, a2⟩

theorem gotoItems_todo {g : List Rule} {eof s0 : Nat} {w : Work} {addr : Option Nat → Nat} {fuel sid : Nat} (G : GrammarOk g eof s0) (hw : ∀ x, Terms g (w.fs x)) (ha : ∀ a b, addr a = addr b → a = b) (n : Nat) :
    ∀ {k : Nat} {gen gen' : Gen}, Inv g gen → gen.states ≠ [] → Todo g gen sid k → gotoItems g w addr fuel sid (List.range' k n) gen = some gen' →
      Todo g gen' sid (k + n) ∧ ∀ (i : Nat) (st : State), gen.states[i]? = some st → ∃ st', gen'.states[i]? = some st' ∧ st'.key = st.key := by
  induction n with
  | zero => intro k gen gen' h h0 t he; cases he; exact ⟨t, fun i st hi => ⟨st, hi, rfl⟩⟩
  | succ n ih =>
    intro k gen gen' h h0 t he
    rw [List.range'_succ, gotoItems] at he
    obtain ⟨gen1, h1, he⟩ := Option.bind_eq_some_iff.1 he
    obtain ⟨a, b⟩ := gotoItem_inv G hw ha h h0 h1
    obtain ⟨c, d⟩ := gotoItem_todo hw ha h t h1
    obtain ⟨c', d'⟩ := ih a b c he
    refine ⟨by rw [show k + (n + 1) = k + 1 + n by omega]; exact c', fun i st hi => ?_⟩
    obtain ⟨st', e1, e2⟩ := d i st hi
    obtain ⟨st'', e3, e4⟩ := d' i st' e1
    exact ⟨st'', e3, e4.trans e2⟩

theorem gotoLoop_ok {g : List Rule} {eof s0 : Nat} {w : Work} {addr : Option Nat → Nat} {fuel : Nat} (G : GrammarOk g eof s0) (hw : ∀ x, Terms g (w.fs x)) (ha : ∀ a b, addr a = addr b → a = b) (n : Nat) :
    ∀ {gen gen' : Gen}, Inv g gen → gen.states ≠ [] → (∀ st ∈ gen.states, GotoFrom g st.items) →
      (∀ (i : Nat) (st : State), i ∉ gen.queue → gen.states[i]? = some st → ∀ it ∈ st.items, GotoOk gen.states it) → gotoLoop g w addr fuel n gen = some gen' →
      (∀ st ∈ gen'.states, ∀ it ∈ st.items, GotoOk gen'.states it) ∧ ∀ (i : Nat) (st : State), gen.states[i]? = some st → ∃ st', gen'.states[i]? = some st' ∧ st'.key = st.key := by
  induction n with
  | zero => intro gen gen' h h0 hf hc he; cases he
  | succ n ih =>
    intro gen gen' h h0 hf hc he
    rw [gotoLoop] at he
    split at he
    · rename_i hq
      cases he
      refine ⟨?_, fun i st hi => ⟨st, hi, rfl⟩⟩
      intro st hst it hit
      obtain ⟨i, hi⟩ := List.getElem?_of_mem hst
      exact hc i st (by rw [hq]; simp) hi it hit
    · rename_i sid q hq
      obtain ⟨s, hs, he⟩ := Option.bind_eq_some_iff.1 he
      obtain ⟨gen1, h1, he⟩ := Option.bind_eq_some_iff.1 he
      have hI : Inv g { gen with queue := q } := ⟨h.keys, h.sts⟩
      obtain ⟨a, b⟩ := gotoItems_inv G hw ha _ hI h0 h1
      rw [List.range_eq_range'] at h1
      have t0 : Todo g { gen with queue := q } sid 0 := by
        refine ⟨?_, ?_, hf⟩
        · intro i st hi hne hst
          refine hc i st ?_ hst
          rw [hq]
          simp only [List.mem_cons, not_or]
          exact ⟨hne, hi⟩
        · rintro _ st _ it _ tk _ ⟨m, hm, _⟩
          omega
      obtain ⟨t, kk⟩ := gotoItems_todo G hw ha _ hI h0 t0 h1
      suffices hh : _ by
        obtain ⟨r1, r2⟩ := ih a b t.from_ hh he
        refine ⟨r1, fun i st hi => ?_⟩
        obtain ⟨st', e1, e2⟩ := kk i st hi
        obtain ⟨st'', e3, e4⟩ := r2 i st' e1
        exact ⟨st'', e3, e4.trans e2⟩
      intro i st hi hst it hit
      by_cases e : i = sid
      · subst e
        intro j hj
        obtain ⟨_, tk, _, _, htk, _⟩ := (a.sts st (List.mem_of_getElem? hst)).goto it hit j hj
        obtain ⟨st', e1, e2⟩ := kk i s hs
        rw [hst] at e1; cases e1
        obtain ⟨m, hm⟩ := List.getElem?_of_mem hit
        refine t.this hi st hst it hit tk htk ⟨m, ?_, it, hm, htk⟩ j hj
        have l1 := (List.getElem?_eq_some_iff.1 hm).1
        have l2 : (st.items.map Item.key).length = (s.items.map Item.key).length := by
          have := congrArg Key.items e2
          simp only [State.key] at this
          rw [this]
        simp only [List.length_map] at l2
        omega
      · exact t.others i st hi e hst it hit

/-- **C243.** When the generator is done, every item that has a goto state finds there the item with
the dot moved on, with all of its lookaheads, also those that came late by a merge. -/
theorem goto_complete (g : List Rule) (eof s0 : Nat) (w : Work) (addr : Option Nat → Nat) (fuel : Nat) (G : GrammarOk g eof s0) (hw : ∀ x, Terms g (w.fs x)) (ha : ∀ a b, addr a = addr b → a = b)
    (ss : List State) (he : calcGoto g w addr fuel = some ss) :
    (∀ st ∈ ss, ∀ it ∈ st.items, GotoOk ss it) ∧ ∃ st, ss[0]? = some st ∧ ∃ it ∈ st.items, it.key = (0, 0) := by
  unfold calcGoto at he
  obtain ⟨items, hcl, he⟩ := Option.bind_eq_some_iff.1 he
  obtain ⟨gen, hadd, he⟩ := Option.bind_eq_some_iff.1 he
  obtain ⟨gen1, hgo, he⟩ := Option.bind_eq_some_iff.1 he
  cases he
  have hext := closeRounds_ext hw _ hcl
  have h1 := addState_inv (g := g) (gen := { tree := newTree, states := [], queue := [] }) ⟨by intro i k h; simp at h, by simp⟩ (s := { input := none, items := items })
    ⟨fun x hx ru _ => by
      obtain ⟨extra, e1, e2⟩ := hext.keys
      simp only [State.key, e1] at hx
      rcases List.mem_append.1 hx with hx | hx
      · simp [Item.key] at hx; subst hx; simp
      · simp [(e2 x hx).1], by simp [State.key], hext.nodup (by simp), by simp, fun _ x hx => by
      obtain ⟨extra, e1, e2⟩ := hext.keys
      simp only [State.key, e1] at hx
      rcases List.mem_append.1 hx with hx | hx
      · simp [Item.key] at hx; subst hx; rfl
      · exact (e2 x hx).1⟩
    ⟨hext.la (by intro it hit; simp at hit; subst hit; intro x hx; cases hx), fun it hit j hj => by
      rw [hext.goto (by simp) it hit] at hj; cases hj⟩ hadd
  have hq : gen.queue = [0] := by
    unfold addState at hadd
    simp only at hadd
    obtain ⟨t, _, hadd⟩ := Option.bind_eq_some_iff.1 hadd
    cases hadd; rfl
  suffices hh : _ ∧ _ by
    obtain ⟨r1, r2⟩ := gotoLoop_ok G hw ha _ h1.1 (by rw [h1.2]; simp) hh.1 hh.2 hgo
    refine ⟨r1, ?_⟩
    obtain ⟨st, e1, e2⟩ := r2 0 { input := none, items := items } (by rw [h1.2]; rfl)
    obtain ⟨it, m, k, _⟩ := closure_grew hcl _ (List.mem_singleton.2 rfl)
    have : (0, 0) ∈ st.items.map Item.key := by
      have e3 := congrArg Key.items e2
      simp only [State.key] at e3
      rw [e3]
      exact List.mem_map.2 ⟨it, m, k⟩
    obtain ⟨i0, m0, k0⟩ := List.mem_map.1 this
    exact ⟨st, e1, i0, m0, k0⟩
  refine ⟨?_, ?_⟩
  · rw [h1.2]
    intro st hst
    simp only [List.nil_append, List.mem_singleton] at hst
    subst hst
    intro it hit hne
    exact absurd (hext.goto (by simp) it hit) hne
  · intro i st hi hst
    rw [h1.2] at hst
    rw [hq] at hi
    simp at hi
    have := (List.getElem?_eq_some_iff.1 hst).1
    simp at this
    exact absurd this hi

/-! ### Examples -/

/-- The states of the grammar of the library's test: every item with a token to come goes somewhere,
so that the theorem speaks about all of them. -/
example : ((statesOf testG 60).map fun ss => (ss.length, ss.all fun st => st.items.all fun it => match next? testG it with | some tk => tk == 0 || it.goto != none | none => true)) = some (14, true) := by decide +kernel
/-- In the first state the item `10 → . 11 0` goes to a state with `10 → 11 . 0`. -/
example : ((statesOf testG 60).bind fun ss => (ss[0]?).bind fun st => (st.items.find? fun it => it.key = (0, 0)).bind fun it => it.goto.bind fun j => (ss[j]?).map fun st' => st'.items.map Item.key) = some [(0, 1)] := by decide +kernel

end Verif.Pg
