import Verif.PgProps
/-
What a table handed out by the parser generator keeps of the items it was made from (C237), and
that the item sets are complete (C238).
-/
namespace Verif.Pg

/-! ### The table -/

/-- Spec: the row does what the item says: a complete item reduces its production at every token of
its lookahead; another one shifts (accepts, at the end of file) to its goto state. -/
def Serves (g : List Rule) (eof : Nat) (row : Nat → Entry) (it : Item) : Prop :=
  ∀ r, g[it.rule]? = some r →
    match r.rights[it.pos]? with
    | none => ∀ x ∈ it.la, (row x).kind = .reduce ∧ (row x).index = some it.rule
    | some tk => (row tk).kind = (if tk = eof then Kind.accept else .shift) ∧ (row tk).index = it.goto

/-- An entry that is set keeps its kind and index unless a conflict is recorded. -/
def Keeps (p q : (Nat → Entry) × Bool) : Prop :=
  (q.2 = false → p.2 = false) ∧ (q.2 = false → ∀ x, (p.1 x).kind ≠ .error → (q.1 x).kind = (p.1 x).kind ∧ (q.1 x).index = (p.1 x).index)

theorem Keeps.refl (p : (Nat → Entry) × Bool) : Keeps p p := ⟨id, fun _ _ _ => ⟨rfl, rfl⟩⟩

theorem Keeps.trans {p q r : (Nat → Entry) × Bool} (h1 : Keeps p q) (h2 : Keeps q r) : Keeps p r := by
  refine ⟨fun h => h1.1 (h2.1 h), fun h x hx => ?_⟩
  have a := h1.2 (h2.1 h) x hx
  have b := h2.2 h x (by rw [a.1]; exact hx)
  exact ⟨b.1.trans a.1, b.2.trans a.2⟩

theorem putReduce_keeps (it : Item) (r : Rule) (p : (Nat → Entry) × Bool) (x : Nat) : Keeps p (putReduce it r p x) := by
  constructor
  · intro h; simp only [putReduce, Bool.or_eq_false_iff] at h; exact h.1
  · intro h y hy
    simp only [putReduce, Bool.or_eq_false_iff] at h ⊢
    unfold upd
    by_cases e : y = x
    · subst e
      simp only [if_pos]
      have := h.2
      simp only [Bool.and_eq_false_iff, bne_eq_false_iff_eq, Bool.or_eq_false_iff] at this
      rcases this with a | ⟨a, b⟩
      · exact absurd a hy
      · exact ⟨a.symm, b.symm⟩
    · simp [e]

theorem putReduces (it : Item) (r : Rule) : ∀ (l : List Nat) (p : (Nat → Entry) × Bool), Keeps p (l.foldl (putReduce it r) p) ∧
    ((l.foldl (putReduce it r) p).2 = false → ∀ x ∈ l, ((l.foldl (putReduce it r) p).1 x).kind = .reduce ∧ ((l.foldl (putReduce it r) p).1 x).index = some it.rule)
  | [], p => ⟨Keeps.refl p, fun _ x hx => by cases hx⟩
  | x :: l, p => by
    obtain ⟨k, h⟩ := putReduces it r l (putReduce it r p x)
    refine ⟨(putReduce_keeps it r p x).trans k, fun hf y hy => ?_⟩
    simp only [List.foldl_cons] at hf ⊢
    rcases List.mem_cons.mp hy with e | e
    · subst e
      have := k.2 hf y (by simp [putReduce, upd])
      simpa [putReduce, upd] using this
    · exact h hf y e

theorem putItem_keeps (g : List Rule) (eof : Nat) (p : (Nat → Entry) × Bool) (it : Item) :
    Keeps p (putItem g eof p it) ∧ ((putItem g eof p it).2 = false → Serves g eof (putItem g eof p it).1 it) := by
  unfold Serves
  cases hr : g[it.rule]? with
  | none => simp only [putItem, hr]; exact ⟨Keeps.refl p, fun _ r h => by simp at h⟩
  | some r =>
    cases ht : r.rights[it.pos]? with
    | none =>
      have e : putItem g eof p it = it.la.foldl (putReduce it r) p := by simp only [putItem, hr, ht]
      obtain ⟨k, h⟩ := putReduces it r it.la p
      rw [e]
      refine ⟨k, fun hf r' h' => ?_⟩
      cases h'
      simp only [ht]
      exact h hf
    | some tk =>
      simp only [putItem, hr, ht]
      refine ⟨⟨?_, ?_⟩, ?_⟩
      · intro h; simp only [Bool.or_eq_false_iff] at h; exact h.1
      · intro h y hy
        simp only [Bool.or_eq_false_iff] at h
        unfold upd
        by_cases e : y = tk
        · subst e
          simp only [if_pos]
          have := h.2
          simp only [Bool.and_eq_false_iff, bne_eq_false_iff_eq, Bool.or_eq_false_iff] at this
          rcases this with a | ⟨a, b⟩
          · exact absurd a hy
          · exact ⟨a.symm, b.symm⟩
        · simp [e]
      · intro _ r' h'
        cases h'
        simp only [ht]
        simp [upd]

theorem Serves.keeps {g : List Rule} {eof : Nat} {p q : (Nat → Entry) × Bool} {it : Item} (k : Keeps p q) (hf : q.2 = false) (h : Serves g eof p.1 it) : Serves g eof q.1 it := by
  intro r hr
  have := h r hr
  split at this
  · intro x hx
    obtain ⟨a, b⟩ := this x hx
    obtain ⟨c, d⟩ := k.2 hf x (by rw [a]; simp)
    exact ⟨c.trans a, d.trans b⟩
  · obtain ⟨a, b⟩ := this
    obtain ⟨c, d⟩ := k.2 hf _ (by rw [a]; split <;> simp)
    exact ⟨c.trans a, d.trans b⟩

theorem putItems_serves (g : List Rule) (eof : Nat) : ∀ (l : List Item) (p : (Nat → Entry) × Bool), Keeps p (l.foldl (putItem g eof) p) ∧
    ((l.foldl (putItem g eof) p).2 = false → ∀ it ∈ l, Serves g eof (l.foldl (putItem g eof) p).1 it)
  | [], p => ⟨Keeps.refl p, fun _ x hx => by cases hx⟩
  | it :: l, p => by
    obtain ⟨k, h⟩ := putItems_serves g eof l (putItem g eof p it)
    obtain ⟨k1, h1⟩ := putItem_keeps g eof p it
    refine ⟨k1.trans k, fun hf y hy => ?_⟩
    simp only [List.foldl_cons] at hf ⊢
    rcases List.mem_cons.mp hy with e | e
    · subst e
      exact (h1 (k.1 hf)).keeps k hf
    · exact h hf y e

/-- **C237.** In a table that is handed out no item has lost its entry to another one: every row
does what every item of its state says.  (A grammar for which that is impossible is refused.) -/
theorem table_serves (g : List Rule) (eof : Nat) (ss : List State) (tbl : Table) (h : build g eof ss = some tbl) :
    tbl.length = ss.length ∧ ∀ (i : Nat) (s : State) (row : Nat → Entry), ss[i]? = some s → tbl[i]? = some row → ∀ it ∈ s.items, Serves g eof row it := by
  unfold build at h
  split at h
  · cases h
  · rename_i hc
    simp only [Bool.not_eq_true, List.any_eq_false] at hc
    cases h
    refine ⟨by simp, fun i s row hs hrow it hit => ?_⟩
    simp only [List.getElem?_map, hs, Option.map_some, Option.some.injEq] at hrow
    subst hrow
    exact (putItems_serves g eof s.items _).2 (by simpa [putState] using hc s (List.mem_of_getElem? hs)) it hit

/-- Spec: what an item asks of its row at the token `x`. -/
def Asks (g : List Rule) (eof : Nat) (it : Item) (x : Nat) (k : Kind) (i : Option Nat) : Prop :=
  ∃ r, g[it.rule]? = some r ∧
    ((r.rights[it.pos]? = none ∧ x ∈ it.la ∧ k = .reduce ∧ i = some it.rule) ∨ (r.rights[it.pos]? = some x ∧ k = (if x = eof then Kind.accept else .shift) ∧ i = it.goto))

/-- Spec: two items of a state ask for different things at one token. -/
def Conflict (g : List Rule) (eof : Nat) (items : List Item) : Prop :=
  ∃ a ∈ items, ∃ b ∈ items, ∃ x k i k' i', Asks g eof a x k i ∧ Asks g eof b x k' i' ∧ (k, i) ≠ (k', i')

theorem Serves.asks {g : List Rule} {eof : Nat} {row : Nat → Entry} {it : Item} (h : Serves g eof row it) {x : Nat} {k : Kind} {i : Option Nat} (ha : Asks g eof it x k i) :
    (row x).kind = k ∧ (row x).index = i := by
  obtain ⟨r, hr, h1⟩ := ha
  have h2 := h r hr
  rcases h1 with ⟨e, m, rfl, rfl⟩ | ⟨e, rfl, rfl⟩
  · simp only [e] at h2; exact h2 x m
  · simp only [e] at h2; exact h2

/-- Every entry comes from one of the items, and a recorded conflict is one. -/
def FromItems (g : List Rule) (eof : Nat) (items : List Item) (p : (Nat → Entry) × Bool) : Prop :=
  (∀ x, (p.1 x).kind ≠ .error → ∃ it ∈ items, Asks g eof it x (p.1 x).kind (p.1 x).index) ∧ (p.2 = true → Conflict g eof items)

theorem FromItems.mono {g : List Rule} {eof : Nat} {l l' : List Item} {p : (Nat → Entry) × Bool} (h : FromItems g eof l p) (hs : ∀ x ∈ l, x ∈ l') : FromItems g eof l' p := by
  refine ⟨fun x hx => ?_, fun hp => ?_⟩
  · obtain ⟨it, m, a⟩ := h.1 x hx; exact ⟨it, hs it m, a⟩
  · obtain ⟨a, ha, b, hb, c⟩ := h.2 hp; exact ⟨a, hs a ha, b, hs b hb, c⟩

theorem putReduces_from (g : List Rule) (eof : Nat) (items : List Item) (it : Item) (hit : it ∈ items) (r : Rule) (hr : g[it.rule]? = some r) (hn : r.rights[it.pos]? = none) :
    ∀ (l : List Nat), (∀ x ∈ l, x ∈ it.la) → ∀ p, FromItems g eof items p → FromItems g eof items (l.foldl (putReduce it r) p)
  | [], _, p, h => h
  | x :: l, hl, p, h => by
    rw [List.foldl_cons]
    refine putReduces_from g eof items it hit r hr hn l (fun y hy => hl y (List.mem_cons_of_mem _ hy)) _ ?_
    have ask : Asks g eof it x .reduce (some it.rule) := ⟨r, hr, .inl ⟨hn, hl x (List.mem_cons_self ..), rfl, rfl⟩⟩
    constructor
    · intro y hy
      by_cases e : y = x
      · subst e; simp only [putReduce, upd, if_pos]; exact ⟨it, hit, ask⟩
      · simp only [putReduce, upd, if_neg e] at hy ⊢; exact h.1 y hy
    · intro hp
      simp only [putReduce, Bool.or_eq_true, Bool.and_eq_true, bne_iff_ne, ne_eq] at hp
      rcases hp with hp | ⟨h1, h2⟩
      · exact h.2 hp
      · obtain ⟨b, hb, ab⟩ := h.1 x h1
        refine ⟨b, hb, it, hit, x, _, _, _, _, ab, ask, ?_⟩
        intro c
        simp only [Prod.mk.injEq] at c
        rcases h2 with h2 | h2
        · exact h2 c.1
        · exact h2 c.2

theorem putItem_from (g : List Rule) (eof : Nat) (items : List Item) (it : Item) (hit : it ∈ items) (p : (Nat → Entry) × Bool) (h : FromItems g eof items p) :
    FromItems g eof items (putItem g eof p it) := by
  cases hr : g[it.rule]? with
  | none => simp only [putItem, hr]; exact h
  | some r =>
    cases ht : r.rights[it.pos]? with
    | none =>
      simp only [putItem, hr, ht]
      exact putReduces_from g eof items it hit r hr ht it.la (fun x hx => hx) p h
    | some tk =>
      have ask : Asks g eof it tk (if tk = eof then Kind.accept else .shift) it.goto := ⟨r, hr, .inr ⟨ht, rfl, rfl⟩⟩
      simp only [putItem, hr, ht]
      constructor
      · intro y hy
        by_cases e : y = tk
        · subst e; simp only [upd, if_pos]; exact ⟨it, hit, ask⟩
        · simp only [upd, if_neg e] at hy ⊢; exact h.1 y hy
      · intro hp
        simp only [Bool.or_eq_true, Bool.and_eq_true, bne_iff_ne, ne_eq] at hp
        rcases hp with hp | ⟨h1, h2⟩
        · exact h.2 hp
        · obtain ⟨b, hb, ab⟩ := h.1 tk h1
          refine ⟨b, hb, it, hit, tk, _, _, _, _, ab, ask, ?_⟩
          intro c
          simp only [Prod.mk.injEq] at c
          rcases h2 with h2 | h2
          · exact h2 c.1
          · exact h2 c.2

theorem putItems_from (g : List Rule) (eof : Nat) (items : List Item) : ∀ (l : List Item), (∀ x ∈ l, x ∈ items) → ∀ p, FromItems g eof items p →
    FromItems g eof items (l.foldl (putItem g eof) p)
  | [], _, _, h => h
  | it :: l, hl, p, h => by
    rw [List.foldl_cons]
    exact putItems_from g eof items l (fun y hy => hl y (List.mem_cons_of_mem _ hy)) _ (putItem_from g eof items it (hl it (List.mem_cons_self ..)) p h)

/-- **C237**, the other direction: a grammar is refused for a conflict exactly when two items of one
of its states ask for different things at one token. -/
theorem refused_iff_conflict (g : List Rule) (eof : Nat) (ss : List State) : build g eof ss = none ↔ ∃ s ∈ ss, Conflict g eof s.items := by
  constructor
  · intro h
    unfold build at h
    split at h
    · rename_i hc
      obtain ⟨s, hs, h2⟩ := List.any_eq_true.mp hc
      refine ⟨s, hs, ?_⟩
      exact (putItems_from g eof s.items s.items (fun x hx => hx) (fun _ => noEntry, false) ⟨fun x hx => absurd rfl hx, fun h => by cases h⟩).2 h2
    · cases h
  · rintro ⟨s, hs, a, ha, b, hb, x, k, i, k', i', h1, h2, hne⟩
    cases h : build g eof ss with
    | none => rfl
    | some tbl =>
      exfalso
      obtain ⟨hl, h3⟩ := table_serves g eof ss tbl h
      obtain ⟨j, hj, e⟩ := List.getElem_of_mem hs
      have hrow : tbl[j]? = some tbl[j] := List.getElem?_eq_getElem (by omega)
      have hss : ss[j]? = some s := by rw [List.getElem?_eq_getElem hj, e]
      have r1 := (h3 j s _ hss hrow a ha).asks h1
      have r2 := (h3 j s _ hss hrow b hb).asks h2
      exact hne (by rw [← r1.1, ← r1.2, ← r2.1, ← r2.2])

end Verif.Pg
