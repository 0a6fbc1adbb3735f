import Verif.PgProps
/-
Which tokens can be empty and which terminals a token can begin with, as calculated by
mln_pg_calc_nullable and mln_pg_calc_first (Verif/Pg.lean).

Specification: `Derives` of Verif/PgProps.lean, and `Begins` below.
-/
namespace Verif.Pg

/-! ### Specification -/

/-- `Begins g y x`: something derived from the token `y` begins with the terminal `x`. -/
inductive Begins (g : List Rule) : Nat → Nat → Prop
  | self {t} : (∀ r ∈ g, r.left ≠ t) → (∃ r ∈ g, t ∈ r.rights) → Begins g t t
  | rule {r pre y post x} : r ∈ g → r.rights = pre ++ y :: post → Derives g pre [] → Begins g y x → Begins g r.left x

theorem Derives.append {g : List Rule} {xs ws ys vs} (a : Derives g xs ws) (b : Derives g ys vs) : Derives g (xs ++ ys) (ws ++ vs) := by
  induction a with
  | nil => exact b
  | term h _ ih => exact .term h ih
  | rule h d _ _ ih2 => rw [List.append_assoc]; exact .rule h d ih2

theorem derives_nil_iff {g : List Rule} {xs : List Nat} : Derives g xs [] ↔ ∀ x ∈ xs, Derives g [x] [] := by
  constructor
  · intro h
    generalize hw : ([] : List Nat) = ws at h
    induction h with
    | nil => intro x hx; cases hx
    | term => cases hw
    | @rule r vs xs ws hr d e ih1 ih2 =>
      have := List.append_eq_nil_iff.1 hw.symm
      obtain ⟨rfl, rfl⟩ := this
      intro x hx
      rcases List.mem_cons.1 hx with rfl | hx
      · simpa using Derives.rule hr d .nil
      · exact ih2 rfl x hx
  · intro h
    induction xs with
    | nil => exact .nil
    | cons x xs ih =>
      have := (h x (by simp)).append (ih (fun y hy => h y (by simp [hy])))
      simpa using this

/-- What is derived begins with such a terminal. -/
theorem begins_of_derives {g : List Rule} {xs ws : List Nat} (h : Derives g xs ws) : ∀ x us, ws = x :: us → (∀ y ∈ xs, ∃ r ∈ g, y ∈ r.rights ∨ y = r.left) →
    ∃ pre y post, xs = pre ++ y :: post ∧ Derives g pre [] ∧ Begins g y x := by
  induction h with
  | nil => intro x us h; cases h
  | @term t xs ws ht _ _ =>
    intro x us h hg
    cases h
    refine ⟨[], t, xs, rfl, .nil, .self ht ?_⟩
    obtain ⟨r, hr, h | h⟩ := hg t (by simp)
    · exact ⟨r, hr, h⟩
    · exact absurd h.symm (ht r hr)
  | @rule r vs xs ws hr d e ih1 ih2 =>
    intro x us h hg
    cases vs with
    | nil =>
      obtain ⟨pre, y, post, a, b, c⟩ := ih2 x us (by simpa using h) (fun y hy => hg y (by simp [hy]))
      refine ⟨r.left :: pre, y, post, by rw [a]; rfl, ?_, c⟩
      simpa using Derives.rule hr d b
    | cons v vs =>
      simp only [List.cons_append, List.cons.injEq] at h
      obtain ⟨rfl, h⟩ := h
      obtain ⟨pre, y, post, a, b, c⟩ := ih1 v vs rfl (fun y hy => ⟨r, hr, .inl hy⟩)
      exact ⟨[], r.left, xs, rfl, .nil, .rule hr a b c⟩

theorem begins_of_derives_one {g : List Rule} {y x : Nat} {us : List Nat} (h : Derives g [y] (x :: us)) (hy : ∃ r ∈ g, y ∈ r.rights ∨ y = r.left) : Begins g y x := by
  obtain ⟨pre, z, post, a, _, c⟩ := begins_of_derives h x us rfl (by simpa using hy)
  cases pre with
  | nil =>
    simp only [List.nil_append, List.cons.injEq] at a
    rw [a.1]; exact c
  | cons p pre => simp at a

/-! ### Nullable tokens -/

theorem mark_length {g : List Rule} {t map} (h : map.length = g.length) : (mark g t map).length = g.length := by simp [mark, h]

theorem mark_getD {g : List Rule} {t map} (h : map.length = g.length) (j : Nat) :
    (mark g t map).getD j false = (map.getD j false || (g[j]?.any (fun r => r.rights.contains t))) := by
  simp only [mark, List.getD_eq_getElem?_getD, List.getElem?_map]
  by_cases hj : j < g.length
  · have hj' : j < map.length := by omega
    have hz : j < (map.zip g).length := by simp; omega
    rw [List.getElem?_eq_getElem hz, List.getElem_zip]
    simp [hj, hj']
  · have hz : ¬ j < (map.zip g).length := by simp; omega
    have hj' : ¬ j < map.length := by omega
    rw [List.getElem?_eq_none (by omega), List.getElem?_eq_none (l := map) (by omega), List.getElem?_eq_none (l := g) (by omega)]
    rfl

/-- What the worklist stands for while the rules below `i` have been visited in this round. -/
structure NullInv (g : List Rule) (i : Nat) (w : Work) : Prop where
  len : w.map.length = g.length
  sound : ∀ t, w.nl t = true → Derives g [t] []
  todo : ∀ (j : Nat) (r : Rule), g[j]? = some r → (∀ x ∈ r.rights, w.nl x = true) → w.nl r.left = true ∨ w.map.getD j false = true
  quiet : w.change = false → ∀ j, j < i → w.map.getD j false = false

theorem getD_set {l : List Bool} {i j : Nat} (h : i < l.length) : (l.set i false).getD j false = if j = i then false else l.getD j false := by
  simp only [List.getD_eq_getElem?_getD, List.getElem?_set]
  by_cases hij : i = j
  · subst hij; simp [h]
  · have : ¬ j = i := fun e => hij e.symm
    simp [hij, this]

theorem filter_all {p : Nat → Bool} {l : List Nat} : (l.filter p).length = l.length ↔ ∀ x ∈ l, p x = true := by
  rw [List.length_filter_eq_length_iff]

theorem nullRule_inv {g : List Rule} {w : Work} {i : Nat} (hi : i < g.length) (I : NullInv g i w) : NullInv g (i + 1) (nullRule g w i) := by
  have hi' : i < w.map.length := by rw [I.len]; exact hi
  unfold nullRule
  split
  · rename_i hm
    exact ⟨I.len, I.sound, I.todo, fun hc j hj => by
      rcases Nat.lt_succ_iff_lt_or_eq.1 hj with h | rfl
      · exact I.quiet hc j h
      · exact hm⟩
  · simp only [List.getElem?_eq_getElem hi]
    have q0 : w.change = false → ∀ j, j < i + 1 → (w.map.set i false).getD j false = false := fun hc j hj => by
      rw [getD_set hi']
      split
      · rfl
      · exact I.quiet hc j (by omega)
    split
    · rename_i hn
      refine ⟨by simpa using I.len, I.sound, ?_, q0⟩
      intro j r hr hx
      by_cases hj : j = i
      · subst hj
        rw [List.getElem?_eq_getElem hi] at hr
        cases hr
        exact .inl hn
      · rcases I.todo j r hr hx with h | h
        · exact .inl h
        · right
          show (w.map.set i false).getD j false = true
          rw [getD_set hi', if_neg hj]; exact h
    · rename_i hn
      split
      · rename_i hall
        have hall := filter_all.1 hall
        refine ⟨by simp only; rw [mark_length (by simpa using I.len)], ?_, ?_, by simp⟩
        · intro t ht
          simp only [upd] at ht
          split at ht
          · rename_i e
            rw [e]
            have : Derives g g[i].rights [] := derives_nil_iff.2 (fun x hx => I.sound x (hall x hx))
            exact Derives.one (l := g[i].left) (rs := g[i].rights) (List.getElem_mem hi) this
          · exact I.sound t ht
        · intro j r hr hx
          simp only [upd] at hx ⊢
          rw [mark_getD (by simpa using I.len)]
          by_cases hj : j = i
          · subst hj
            rw [List.getElem?_eq_getElem hi] at hr
            cases hr
            exact .inl (by simp)
          · by_cases hold : ∀ x ∈ r.rights, w.nl x = true
            · rcases I.todo j r hr hold with h | h
              · left
                split
                · rfl
                · exact h
              · right
                rw [getD_set hi', if_neg hj, h]; rfl
            · right
              have : g[i].left ∈ r.rights := by
                apply Classical.byContradiction
                intro hno
                apply hold
                intro x hxr
                have := hx x hxr
                split at this
                · rename_i e; rw [e] at hxr; exact absurd hxr hno
                · exact this
              simp [hr, this]
      · rename_i hnot
        refine ⟨by simpa using I.len, I.sound, ?_, q0⟩
        intro j r hr hx
        by_cases hj : j = i
        · subst hj
          rw [List.getElem?_eq_getElem hi] at hr
          cases hr
          exact absurd (filter_all.2 hx) hnot
        · rcases I.todo j r hr hx with h | h
          · exact .inl h
          · right
            show (w.map.set i false).getD j false = true
            rw [getD_set hi', if_neg hj]; exact h

/-- A loop over all the rules. -/
theorem range_induct {α : Type} {P : Nat → α → Prop} {f : α → Nat → α} {n : Nat} {w : α} (h0 : P 0 w) (h : ∀ i w, i < n → P i w → P (i + 1) (f w i)) :
    P n ((List.range n).foldl f w) := by
  induction n with
  | zero => exact h0
  | succ n ih =>
    rw [List.range_succ, List.foldl_append]
    exact h n _ (by omega) (ih (fun i w hi => h i w (by omega)))

theorem nullRound_inv {g : List Rule} {w : Work} (I : NullInv g 0 w) :
    NullInv g g.length ((List.range g.length).foldl (nullRule g) { w with change := false }) := by
  refine range_induct (P := fun i w => NullInv g i w) ?_ (fun i w hi => nullRule_inv hi)
  exact ⟨I.len, I.sound, I.todo, fun _ j hj => absurd hj (Nat.not_lt_zero j)⟩

theorem nullRounds_inv {g : List Rule} (n : Nat) : ∀ {w w' : Work} {i : Nat}, NullInv g i w → (w.change = false → i = g.length) → nullRounds g n w = some w' →
    NullInv g g.length w' ∧ w'.change = false := by
  induction n with
  | zero => intro w w' i _ _ h; cases h
  | succ n ih =>
    intro w w' i I hc h
    rw [nullRounds] at h
    split at h
    · exact ih (nullRound_inv ⟨I.len, I.sound, I.todo, fun _ j hj => absurd hj (Nat.not_lt_zero j)⟩) (fun _ => rfl) h
    · rename_i hn
      cases h
      have hf : w.change = false := by simpa using hn
      rw [hc hf] at I
      exact ⟨I, hf⟩

theorem calcNullable_inv {g : List Rule} {fuel : Nat} {w : Work} (h : calcNullable g fuel = some w) : NullInv g g.length w ∧ w.change = false := by
  refine nullRounds_inv (i := 0) fuel ⟨by simp, by simp, ?_, by simp⟩ (by simp) h
  intro j r hr _
  right
  have := (List.getElem?_eq_some_iff.1 hr).1
  simp [List.getD_eq_getElem?_getD, this]

/-- **Nullable tokens**: for every grammar, the tokens that mln_pg_calc_nullable marks are exactly
those that derive the empty text. -/
theorem nullable_correct {g : List Rule} {fuel : Nat} {w : Work} (h : calcNullable g fuel = some w) (t : Nat) :
    w.nl t = true ↔ Derives g [t] [] := by
  obtain ⟨I, hc⟩ := calcNullable_inv h
  refine ⟨I.sound t, ?_⟩
  have key : ∀ {xs ws}, Derives g xs ws → ws = [] → ∀ x ∈ xs, w.nl x = true := by
    intro xs ws d
    induction d with
    | nil => intro _ x hx; cases hx
    | term => intro h; cases h
    | @rule r vs xs ws hr d e ih1 ih2 =>
      intro hw x hx
      obtain ⟨rfl, rfl⟩ := List.append_eq_nil_iff.1 hw
      rcases List.mem_cons.1 hx with rfl | hx
      · obtain ⟨j, hj, hj'⟩ := List.mem_iff_getElem.1 hr
        have hj2 : g[j]? = some r := by rw [List.getElem?_eq_getElem hj, hj']
        rcases I.todo j r hj2 (ih1 rfl) with h | h
        · exact h
        · rw [I.quiet hc j hj] at h; cases h
      · exact ih2 rfl x hx
  intro d
  exact key d rfl t (by simp)

/-- Rules whose left token is not (yet) known to be nullable. -/
def openRules (g : List Rule) (w : Work) : Nat := (g.filter (fun r => !w.nl r.left)).length

theorem openRules_upd {g : List Rule} {w w' : Work} {r : Rule} (hr : r ∈ g) (hn : w.nl r.left = false) (hw : w'.nl = upd w.nl r.left true) :
    openRules g w' < openRules g w := by
  unfold openRules
  have h1 : g.filter (fun q => !w'.nl q.left) = (g.filter (fun q => !w.nl q.left)).filter (fun q => q.left != r.left) := by
    rw [List.filter_filter]
    apply List.filter_congr
    intro q _
    rw [hw]
    simp only [upd]
    by_cases e : q.left = r.left
    · simp [e]
    · simp [e]
  rw [h1, List.length_filter_lt_length_iff_exists]
  exact ⟨r, by simp [hr, hn], by simp⟩

theorem nullRule_open {g : List Rule} {w : Work} {i : Nat} (hi : i < g.length) :
    openRules g (nullRule g w i) + (if (nullRule g w i).change then 1 else 0) ≤ openRules g w + (if w.change then 1 else 0) := by
  unfold nullRule
  split
  · exact Nat.le_refl _
  · simp only [List.getElem?_eq_getElem hi]
    split
    · exact Nat.le_refl _
    · rename_i hn
      split
      · simp only [if_true]
        have hn' : w.nl g[i].left = false := by simpa using hn
        have := openRules_upd (g := g) (w := w) (w' := { w with
          map := mark g g[i].left (w.map.set i false), nl := upd w.nl g[i].left true, fs := g[i].rights.foldl (addSelf g) w.fs, change := true }) (r := g[i]) (List.getElem_mem hi) hn' rfl
        split <;> omega
      · exact Nat.le_refl _

theorem nullRounds_some {g : List Rule} (n : Nat) : ∀ w : Work, openRules g w + (if w.change then 2 else 1) ≤ n → ∃ w', nullRounds g n w = some w' := by
  induction n with
  | zero => intro w h; split at h <;> omega
  | succ n ih =>
    intro w h
    rw [nullRounds]
    split
    · rename_i hc
      apply ih
      have := range_induct (n := g.length) (w := { w with change := false }) (f := nullRule g)
        (P := fun _ w' => openRules g w' + (if w'.change then 1 else 0) ≤ openRules g w) (Nat.le_refl _)
        (fun i w' hi h => Nat.le_trans (nullRule_open hi) h)
      rw [if_pos hc] at h
      split
      · rename_i hc'; rw [if_pos hc'] at this; omega
      · rename_i hc'; rw [if_neg hc'] at this; omega
    · exact ⟨w, rfl⟩

/-- The loop ends: at most one round for each production and two more. -/
theorem nullable_ends (g : List Rule) : ∃ w, calcNullable g (g.length + 2) = some w := by
  refine nullRounds_some _ _ ?_
  simp only [if_true]
  have : openRules g { map := g.map (fun _ => true), nl := fun _ => false, fs := fun _ => [], change := true } ≤ g.length := List.length_filter_le _ _
  omega

/-! ### FIRST sets -/

/-- `W ≤ W'`: nothing is taken out of the sets. -/
def Grows (f f' : Nat → List Nat) : Prop := ∀ y, ∀ x ∈ f y, x ∈ f' y

theorem addSelf_grows {g : List Rule} {fs} {t} : Grows fs (addSelf g fs t) := by
  intro y x hx
  unfold addSelf
  split
  · exact hx
  · simp only [upd]
    split
    · rename_i e; subst e; simp [hx]
    · exact hx

theorem isNt_false_iff {g : List Rule} {t : Nat} : isNt g t = false ↔ ∀ r ∈ g, r.left ≠ t := by
  simp [isNt]

theorem addSelf_sound {g : List Rule} {fs} {t} (ht : ∃ r ∈ g, t ∈ r.rights) (h : ∀ y, ∀ x ∈ fs y, Begins g y x) : ∀ y, ∀ x ∈ addSelf g fs t y, Begins g y x := by
  intro y x hx
  unfold addSelf at hx
  split at hx
  · exact h y x hx
  · rename_i hn
    simp only [Bool.or_eq_true, not_or, Bool.not_eq_true] at hn
    simp only [upd] at hx
    split at hx
    · rename_i e
      subst e
      rcases List.mem_append.1 hx with hx | hx
      · exact h _ x hx
      · simp only [List.mem_singleton] at hx
        subst hx
        exact .self (isNt_false_iff.1 hn.1) ht
    · exact h y x hx

theorem foldl_addSelf {g : List Rule} (l : List Nat) : ∀ fs, (∀ t ∈ l, ∃ r ∈ g, t ∈ r.rights) → (∀ y, ∀ x ∈ fs y, Begins g y x) →
    Grows fs (l.foldl (addSelf g) fs) ∧ (∀ y, ∀ x ∈ l.foldl (addSelf g) fs y, Begins g y x) ∧
    ∀ t ∈ l, (∀ r ∈ g, r.left ≠ t) → t ∈ l.foldl (addSelf g) fs t := by
  induction l with
  | nil => intro fs _ h; exact ⟨fun y x hx => hx, h, by simp⟩
  | cons a l ih =>
    intro fs hl h
    obtain ⟨i1, i2, i3⟩ := ih (addSelf g fs a) (fun t ht => hl t (by simp [ht])) (addSelf_sound (hl a (by simp)) h)
    refine ⟨fun y x hx => i1 y x (addSelf_grows y x hx), i2, ?_⟩
    intro t ht hn
    rcases List.mem_cons.1 ht with rfl | ht
    · apply i1
      unfold addSelf
      rw [isNt_false_iff.2 hn]
      split
      · rename_i h; simpa using h
      · simp [upd]
    · exact i3 t ht hn

/-- The sets after the rules below `i` have been looked at in some round. -/
structure SelfInv (g : List Rule) (i : Nat) (w : Work) : Prop where
  sound : ∀ y, ∀ x ∈ w.fs y, Begins g y x
  self : ∀ (j : Nat) (r : Rule), j < i → g[j]? = some r → w.nl r.left = true ∨ ∀ t ∈ r.rights, (∀ q ∈ g, q.left ≠ t) → t ∈ w.fs t
  fresh : ∀ j, i ≤ j → j < g.length → w.map.getD j false = true

theorem nullRule_self {g : List Rule} {w : Work} {i k k' : Nat} (hi : i < g.length) (hlen : w.map.length = g.length) (hk : k = i ∧ k' = i + 1 ∨ k = g.length ∧ k' = g.length)
    (I : SelfInv g k w) : SelfInv g k' (nullRule g w i) := by
  have hi' : i < w.map.length := by omega
  have sub : ∀ t ∈ g[i].rights, ∃ r ∈ g, t ∈ r.rights := fun t ht => ⟨g[i], List.getElem_mem hi, ht⟩
  have fr : ∀ (m : List Bool), (∀ j, j ≠ i → w.map.getD j false = true → m.getD j false = true) →
      ∀ j, k' ≤ j → j < g.length → m.getD j false = true := by
    intro m hm j hj hj2
    rcases hk with hk | hk
    · exact hm j (by omega) (I.fresh j (by omega) hj2)
    · omega
  unfold nullRule
  split
  · rename_i hm
    refine ⟨I.sound, ?_, fr _ (fun _ _ h => h)⟩
    intro j r hj hr
    rcases hk with hk | hk
    · exact absurd (I.fresh i (by omega) hi) (by rw [hm]; simp)
    · exact I.self j r (by rw [hk.1]; exact (List.getElem?_eq_some_iff.1 hr).1) hr
  · simp only [List.getElem?_eq_getElem hi]
    have ms : ∀ j, j ≠ i → w.map.getD j false = true → (w.map.set i false).getD j false = true := by
      intro j hj h; rw [getD_set hi', if_neg hj]; exact h
    have old : ∀ j r, j < k' → g[j]? = some r → j ≠ i → w.nl r.left = true ∨ ∀ t ∈ r.rights, (∀ q ∈ g, q.left ≠ t) → t ∈ w.fs t := by
      intro j r hj hr hne
      exact I.self j r (by omega) hr
    split
    · rename_i hn
      refine ⟨I.sound, ?_, fr _ ms⟩
      intro j r hj hr
      by_cases hne : j = i
      · subst hne
        rw [List.getElem?_eq_getElem hi] at hr
        cases hr
        exact .inl hn
      · exact old j r hj hr hne
    · obtain ⟨f1, f2, f3⟩ := foldl_addSelf g[i].rights w.fs sub I.sound
      have slf : ∀ nl' : Nat → Bool, (∀ t, w.nl t = true → nl' t = true) → ∀ (j : Nat) (r : Rule), j < k' → g[j]? = some r →
          nl' r.left = true ∨ ∀ t ∈ r.rights, (∀ q ∈ g, q.left ≠ t) → t ∈ g[i].rights.foldl (addSelf g) w.fs t := by
        intro nl' hnl j r hj hr
        by_cases hne : j = i
        · subst hne
          rw [List.getElem?_eq_getElem hi] at hr
          cases hr
          exact .inr f3
        · rcases old j r hj hr hne with h | h
          · exact .inl (hnl _ h)
          · exact .inr (fun t ht hq => f1 t t (h t ht hq))
      split
      · refine ⟨f2, slf _ ?_, fr _ ?_⟩
        · intro t ht; simp only [upd]; split
          · rfl
          · exact ht
        · intro j hj h
          rw [mark_getD (by simpa using hlen), ms j hj h]; rfl
      · exact ⟨f2, slf _ (fun _ h => h), fr _ ms⟩

theorem nullRule_len {g : List Rule} {w : Work} {i : Nat} (hlen : w.map.length = g.length) : (nullRule g w i).map.length = g.length := by
  unfold nullRule
  split
  · exact hlen
  · split
    · simpa using hlen
    · simp only
      split
      · simpa using hlen
      · split
        · exact mark_length (by simpa using hlen)
        · simpa using hlen

theorem nullRound_self {g : List Rule} {w : Work} {k : Nat} (hlen : w.map.length = g.length) (hk : k = 0 ∨ k = g.length) (I : SelfInv g k w) :
    let w' := (List.range g.length).foldl (nullRule g) { w with change := false }
    w'.map.length = g.length ∧ SelfInv g g.length w' := by
  have I' : SelfInv g k { w with change := false } := ⟨I.sound, I.self, I.fresh⟩
  have := range_induct (n := g.length) (w := { w with change := false }) (f := nullRule g)
    (P := fun i w' => w'.map.length = g.length ∧ SelfInv g (if k = g.length then k else i) w') ⟨hlen, by
      split
      · exact I'
      · rcases hk with h | h
        · rw [h] at I'; exact I'
        · contradiction⟩
    (fun i w' hi h => by
      refine ⟨nullRule_len h.1, ?_⟩
      by_cases hkl : k = g.length
      · have h2 := h.2
        rw [if_pos hkl] at h2 ⊢
        exact nullRule_self hi h.1 (.inr ⟨hkl, hkl⟩) h2
      · have h2 := h.2
        rw [if_neg hkl] at h2 ⊢
        exact nullRule_self hi h.1 (.inl ⟨rfl, rfl⟩) h2)
  refine ⟨this.1, ?_⟩
  have h2 := this.2
  split at h2
  · rename_i e; rwa [e] at h2
  · exact h2

theorem nullRounds_self {g : List Rule} (n : Nat) : ∀ {w w' : Work} {k : Nat}, w.map.length = g.length → (k = 0 ∨ k = g.length) → (w.change = false → k = g.length) →
    SelfInv g k w → nullRounds g n w = some w' → SelfInv g g.length w' := by
  induction n with
  | zero => intro w w' k _ _ _ _ h; cases h
  | succ n ih =>
    intro w w' k hl hk hc I h
    rw [nullRounds] at h
    split at h
    · obtain ⟨a, b⟩ := nullRound_self hl hk I
      exact ih a (.inr rfl) (fun _ => rfl) b h
    · rename_i hn
      cases h
      rw [hc (by simpa using hn)] at I
      exact I

theorem calcNullable_self {g : List Rule} {fuel : Nat} {w : Work} (h : calcNullable g fuel = some w) : SelfInv g g.length w := by
  refine nullRounds_self (k := 0) fuel (by simp) (.inl rfl) (by simp) ⟨by simp, by simp, ?_⟩ h
  intro j _ hj
  simp [List.getD_eq_getElem?_getD, hj]

/-! #### The second loop -/

/-- What happens to the sets while one production is looked at. -/
structure Step (g : List Rule) (left : Nat) (w w' : Work) : Prop where
  len : w'.map.length = g.length
  nl : w'.nl = w.nl
  other : ∀ y, y ≠ left → w'.fs y = w.fs y
  grows : ∀ x ∈ w.fs left, x ∈ w'.fs left
  mono : ∀ j, w.map.getD j false = true → w'.map.getD j false = true
  marked : (w'.fs = w.fs ∧ w'.map = w.map ∧ w'.change = w.change) ∨ (w'.change = true ∧ ∀ (j : Nat) (r : Rule), g[j]? = some r → left ∈ r.rights → w'.map.getD j false = true)

theorem Step.refl {g : List Rule} {left : Nat} {w : Work} (h : w.map.length = g.length) : Step g left w w :=
  ⟨h, rfl, fun _ _ => rfl, fun _ h => h, fun _ h => h, .inl ⟨rfl, rfl, rfl⟩⟩

theorem Step.trans {g : List Rule} {left : Nat} {w w' w'' : Work} (a : Step g left w w') (b : Step g left w' w'') : Step g left w w'' := by
  refine ⟨b.len, b.nl.trans a.nl, fun y h => (b.other y h).trans (a.other y h), fun x h => b.grows x (a.grows x h), fun j h => b.mono j (a.mono j h), ?_⟩
  rcases b.marked with ⟨h1, h2, h3⟩ | h
  · rcases a.marked with ⟨k1, k2, k3⟩ | k
    · exact .inl ⟨h1.trans k1, h2.trans k2, h3.trans k3⟩
    · exact .inr ⟨h3.trans k.1, fun j r hr hl => b.mono j (k.2 j r hr hl)⟩
  · exact .inr h

theorem addFirst_step {g : List Rule} {left x : Nat} {w : Work} (hl : w.map.length = g.length) :
    Step g left w (addFirst g left w x) ∧ x ∈ (addFirst g left w x).fs left := by
  unfold addFirst
  split
  · rename_i h
    exact ⟨.refl hl, by simpa using h⟩
  · refine ⟨⟨mark_length hl, rfl, ?_, ?_, ?_, .inr ⟨rfl, ?_⟩⟩, by simp [upd]⟩
    · intro y hy; simp [upd, hy]
    · intro z hz; simp [upd, hz]
    · intro j hj
      show (mark g left w.map).getD j false = true
      rw [mark_getD hl, hj]; rfl
    · intro j r hr hm
      show (mark g left w.map).getD j false = true
      rw [mark_getD hl]; simp [hr, hm]

theorem foldl_addFirst {g : List Rule} {left : Nat} (l : List Nat) : ∀ {w : Work}, w.map.length = g.length →
    Step g left w (l.foldl (addFirst g left) w) ∧ ∀ x ∈ l, x ∈ (l.foldl (addFirst g left) w).fs left := by
  induction l with
  | nil => intro w hl; exact ⟨.refl hl, by simp⟩
  | cons a l ih =>
    intro w hl
    obtain ⟨s1, m1⟩ := addFirst_step (x := a) (left := left) hl
    obtain ⟨s2, m2⟩ := ih s1.len
    refine ⟨s1.trans s2, ?_⟩
    intro x hx
    rcases List.mem_cons.1 hx with rfl | hx
    · exact s2.grows _ m1
    · exact m2 x hx

theorem Step.all {g : List Rule} {left : Nat} {w w' : Work} (s : Step g left w w') (y : Nat) : ∀ x ∈ w.fs y, x ∈ w'.fs y := by
  by_cases h : y = left
  · subst h; exact s.grows
  · rw [s.other y h]; exact fun x h => h

theorem firstRights_step {g : List Rule} {left : Nat} (ts : List Nat) : ∀ {w : Work}, w.map.length = g.length →
    Step g left w (firstRights g left ts w) ∧
    ∀ pre y post, ts = pre ++ y :: post → (∀ p ∈ pre, w.nl p = true) → ∀ x ∈ w.fs y, x ∈ (firstRights g left ts w).fs left := by
  induction ts with
  | nil =>
    intro w hl
    refine ⟨.refl hl, ?_⟩
    intro pre y post h
    simp at h
  | cons t ts ih =>
    intro w hl
    obtain ⟨s1, m1⟩ := foldl_addFirst (g := g) (left := left) (w.fs t) hl
    rw [firstRights]
    split
    · obtain ⟨s2, m2⟩ := ih s1.len
      refine ⟨s1.trans s2, ?_⟩
      intro pre y post h hp x hx
      cases pre with
      | nil =>
        simp only [List.nil_append, List.cons.injEq] at h
        rw [← h.1] at hx
        exact s2.grows _ (m1 x hx)
      | cons p pre =>
        simp only [List.cons_append, List.cons.injEq] at h
        refine m2 pre y post h.2 ?_ x (s1.all y x hx)
        intro q hq
        rw [s1.nl]
        exact hp q (by simp [hq])
    · rename_i hn
      refine ⟨s1, ?_⟩
      intro pre y post h hp x hx
      cases pre with
      | nil =>
        simp only [List.nil_append, List.cons.injEq] at h
        rw [← h.1] at hx
        exact m1 x hx
      | cons p pre =>
        simp only [List.cons_append, List.cons.injEq] at h
        have := hp p (by simp)
        rw [← h.1] at this
        rw [s1.nl] at hn
        exact absurd this hn

theorem firstRights_sound {g : List Rule} {r : Rule} (hr : r ∈ g) (ts : List Nat) : ∀ (done : List Nat) {w : Work}, r.rights = done ++ ts → Derives g done [] → (∀ t, w.nl t = true → Derives g [t] []) →
    (∀ y, ∀ x ∈ w.fs y, Begins g y x) → ∀ y, ∀ x ∈ (firstRights g r.left ts w).fs y, Begins g y x := by
  have one : ∀ (l : List Nat) (w : Work), (∀ x ∈ l, Begins g r.left x) → (∀ y, ∀ x ∈ w.fs y, Begins g y x) → ∀ y, ∀ x ∈ (l.foldl (addFirst g r.left) w).fs y, Begins g y x := by
    intro l
    induction l with
    | nil => intro w _ h; exact h
    | cons a l ih =>
      intro w hl h
      refine ih _ (fun x hx => hl x (by simp [hx])) ?_
      intro y x hx
      unfold addFirst at hx
      split at hx
      · exact h y x hx
      · simp only [upd] at hx
        split at hx
        · rename_i e
          subst e
          rcases List.mem_append.1 hx with hx | hx
          · exact h _ x hx
          · simp only [List.mem_singleton] at hx
            subst hx
            exact hl _ (by simp)
        · exact h y x hx
  have nlk : ∀ (l : List Nat) (w : Work), (l.foldl (addFirst g r.left) w).nl = w.nl := by
    intro l
    induction l with
    | nil => intro w; rfl
    | cons a l ih =>
      intro w
      rw [List.foldl_cons, ih]
      unfold addFirst
      split <;> rfl
  induction ts with
  | nil => intro done w _ _ _ h; exact h
  | cons t ts ih =>
    intro done w hd hdn hnl h
    rw [firstRights]
    have h1 := one (w.fs t) w (fun x hx => .rule hr hd hdn (h t x hx)) h
    split
    · rename_i hn
      rw [nlk] at hn
      refine ih (done ++ [t]) (by simpa using hd) ?_ ?_ h1
      · have := hdn.append (hnl t hn); simpa using this
      · intro z hz; rw [nlk] at hz; exact hnl z hz
    · exact h1

/-- The worklist of the second loop. -/
structure FirstInv (g : List Rule) (i : Nat) (w : Work) : Prop where
  len : w.map.length = g.length
  todo : ∀ (j : Nat) (r : Rule), g[j]? = some r → w.map.getD j false = false → ∀ pre y post, r.rights = pre ++ y :: post → (∀ p ∈ pre, w.nl p = true) → ∀ x ∈ w.fs y, x ∈ w.fs r.left
  quiet : w.change = false → ∀ j, j < i → w.map.getD j false = false

theorem firstRule_inv {g : List Rule} {w : Work} {i : Nat} (hi : i < g.length) (I : FirstInv g i w) : FirstInv g (i + 1) (firstRule g w i) := by
  have hi' : i < w.map.length := by rw [I.len]; exact hi
  unfold firstRule
  split
  · rename_i hm
    exact ⟨I.len, I.todo, fun hc j hj => by
      rcases Nat.lt_succ_iff_lt_or_eq.1 hj with h | rfl
      · exact I.quiet hc j h
      · exact hm⟩
  · simp only [List.getElem?_eq_getElem hi]
    obtain ⟨s, m⟩ := firstRights_step (g := g) (left := g[i].left) g[i].rights (w := { w with map := w.map.set i false }) (by simpa using I.len)
    refine ⟨s.len, ?_, ?_⟩
    · intro j r hr hm pre y post hrr hp x hx
      rw [s.nl] at hp
      -- the sets that the production reads have not changed
      have same : (firstRights g g[i].left g[i].rights { w with map := w.map.set i false }).fs y = w.fs y := by
        rcases s.marked with ⟨h, _, _⟩ | ⟨_, h⟩
        · rw [h]
        · by_cases hy : y = g[i].left
          · have := h j r hr (by rw [hrr, ← hy]; simp)
            rw [this] at hm; cases hm
          · exact s.other y hy
      rw [same] at hx
      by_cases hj : j = i
      · subst hj
        rw [List.getElem?_eq_getElem hi] at hr
        cases hr
        exact m pre y post hrr hp x hx
      · have hm' : w.map.getD j false = false := by
          cases h : w.map.getD j false with
          | false => rfl
          | true =>
            have := s.mono j (by rw [show ({ w with map := w.map.set i false } : Work).map = w.map.set i false from rfl, getD_set hi', if_neg hj]; exact h)
            rw [this] at hm; cases hm
        exact s.all r.left x (I.todo j r hr hm' pre y post hrr hp x hx)
    · intro hc j hj
      rcases s.marked with ⟨_, h2, h3⟩ | ⟨h, _⟩
      · rw [h2]
        rw [h3] at hc
        show (w.map.set i false).getD j false = false
        rw [getD_set hi']
        split
        · rfl
        · exact I.quiet hc j (by omega)
      · rw [h] at hc; cases hc

theorem firstRounds_inv {g : List Rule} (n : Nat) : ∀ {w w' : Work} {i : Nat}, FirstInv g i w → (w.change = false → i = g.length) → firstRounds g n w = some w' →
    FirstInv g g.length w' ∧ w'.change = false := by
  induction n with
  | zero => intro w w' i _ _ h; cases h
  | succ n ih =>
    intro w w' i I hc h
    rw [firstRounds] at h
    split at h
    · refine ih (range_induct (P := fun i w => FirstInv g i w) ?_ (fun i w hi => firstRule_inv hi)) (fun _ => rfl) h
      exact ⟨I.len, I.todo, fun _ j hj => absurd hj (Nat.not_lt_zero j)⟩
    · rename_i hn
      cases h
      have hf : w.change = false := by simpa using hn
      rw [hc hf] at I
      exact ⟨I, hf⟩

/-- The sets only grow and stay sound; the nullable tokens stay the same. -/
theorem firstRule_keeps {g : List Rule} {w : Work} {i : Nat} (hl : w.map.length = g.length) (hnl : ∀ t, w.nl t = true → Derives g [t] []) (h : ∀ y, ∀ x ∈ w.fs y, Begins g y x) :
    (firstRule g w i).map.length = g.length ∧ (firstRule g w i).nl = w.nl ∧ Grows w.fs (firstRule g w i).fs ∧ ∀ y, ∀ x ∈ (firstRule g w i).fs y, Begins g y x := by
  unfold firstRule
  split
  · exact ⟨hl, rfl, fun y x h => h, h⟩
  · split
    · exact ⟨by simpa using hl, rfl, fun y x h => h, h⟩
    · rename_i r hr
      obtain ⟨s, _⟩ := firstRights_step (g := g) (left := r.left) r.rights (w := { w with map := w.map.set i false }) (by simpa using hl)
      refine ⟨s.len, s.nl, s.all, ?_⟩
      exact firstRights_sound (List.mem_of_getElem? hr) r.rights [] rfl .nil hnl h

theorem firstRounds_keeps {g : List Rule} (n : Nat) : ∀ {w w' : Work}, w.map.length = g.length → (∀ t, w.nl t = true → Derives g [t] []) → (∀ y, ∀ x ∈ w.fs y, Begins g y x) →
    firstRounds g n w = some w' → w'.nl = w.nl ∧ Grows w.fs w'.fs ∧ ∀ y, ∀ x ∈ w'.fs y, Begins g y x := by
  induction n with
  | zero => intro w w' _ _ _ h; cases h
  | succ n ih =>
    intro w w' hl hnl hs h
    rw [firstRounds] at h
    split at h
    · have := range_induct (n := g.length) (w := { w with change := false }) (f := firstRule g)
        (P := fun _ v => v.map.length = g.length ∧ v.nl = w.nl ∧ Grows w.fs v.fs ∧ ∀ y, ∀ x ∈ v.fs y, Begins g y x)
        ⟨hl, rfl, fun y x h => h, hs⟩
        (fun i v hi k => by
          obtain ⟨k1, k2, k3, k4⟩ := k
          obtain ⟨a, b, c, d⟩ := firstRule_keeps (i := i) k1 (by rw [k2]; exact hnl) k4
          exact ⟨a, b.trans k2, fun y x hx => c y x (k3 y x hx), d⟩)
      obtain ⟨k1, k2, k3, k4⟩ := this
      obtain ⟨a, b, c⟩ := ih k1 (by rw [k2]; exact hnl) k4 h
      exact ⟨a.trans k2, fun y x hx => b y x (k3 y x hx), c⟩
    · cases h
      exact ⟨rfl, fun y x h => h, hs⟩

/-- **FIRST sets, nothing wrong in them**: every terminal in the FIRST set of a token begins
something derived from it. -/
theorem first_sound {g : List Rule} {n m : Nat} {w w' : Work} (h : calcNullable g n = some w) (h' : calcFirst g m w = some w') {y x : Nat} (hx : x ∈ w'.fs y) :
    Begins g y x := by
  have S := calcNullable_self h
  exact (firstRounds_keeps m (w := { w with map := g.map (fun _ => true), change := true }) (by simp) (fun t => (nullable_correct h t).1) S.sound h').2.2 y x hx

/-- **FIRST sets, nothing missing**, for the grammars in which every terminal stands in a production
of a token that cannot be empty.  The property asked for is this without the condition; see
`first_missing`. -/
theorem first_complete_partial {g : List Rule} {n m : Nat} {w w' : Work} (h : calcNullable g n = some w) (h' : calcFirst g m w = some w')
    (hg : ∀ r ∈ g, ∀ t ∈ r.rights, (∀ q ∈ g, q.left ≠ t) → ∃ q ∈ g, t ∈ q.rights ∧ ¬ Derives g [q.left] [])
    {y x : Nat} (b : Begins g y x) : x ∈ w'.fs y := by
  have S := calcNullable_self h
  obtain ⟨k1, k2, _⟩ := firstRounds_keeps m (w := { w with map := g.map (fun _ => true), change := true }) (by simp) (fun t => (nullable_correct h t).1) S.sound h'
  obtain ⟨I, hc⟩ := firstRounds_inv (i := 0) m (w := { w with map := g.map (fun _ => true), change := true }) (g := g) (by
    refine ⟨by simp, ?_, by simp⟩
    intro j r hr hm
    have := (List.getElem?_eq_some_iff.1 hr).1
    simp [List.getD_eq_getElem?_getD, this] at hm) (by simp) h'
  induction b with
  | @self t ht hr =>
    obtain ⟨r, hr, htr⟩ := hr
    obtain ⟨q, hq, htq, hne⟩ := hg r hr t htr ht
    obtain ⟨j, hj, hj'⟩ := List.mem_iff_getElem.1 hq
    rcases S.self j q hj (by rw [List.getElem?_eq_getElem hj, hj']) with a | a
    · exact absurd (S.sound |> fun _ => (nullable_correct h _).1 a) hne
    · exact k2 t t (a t htq ht)
  | @rule r pre y post x hr hrr hp _ ih =>
    obtain ⟨j, hj, hj'⟩ := List.mem_iff_getElem.1 hr
    refine I.todo j r (by rw [List.getElem?_eq_getElem hj, hj']) (I.quiet hc j hj) pre y post hrr ?_ x ih
    intro p hpp
    rw [k1]
    exact (nullable_correct h p).2 (derives_nil_iff.1 hp p hpp)

/-- So, for such a grammar, the first token of whatever a token derives is in its set. -/
theorem first_of_text_partial {g : List Rule} {n m : Nat} {w w' : Work} (h : calcNullable g n = some w) (h' : calcFirst g m w = some w')
    (hg : ∀ r ∈ g, ∀ t ∈ r.rights, (∀ q ∈ g, q.left ≠ t) → ∃ q ∈ g, t ∈ q.rights ∧ ¬ Derives g [q.left] [])
    {y x : Nat} {us : List Nat} (hy : ∃ r ∈ g, y ∈ r.rights ∨ y = r.left) (d : Derives g [y] (x :: us)) : x ∈ w'.fs y :=
  first_complete_partial h h' hg (begins_of_derives_one d hy)

/-- Pairs of a left token and a terminal not (yet) in its set. -/
def openPairs (g : List Rule) (fs : Nat → List Nat) : Nat :=
  ((g.map (·.left)).flatMap (fun l => ((g.flatMap (·.rights)).filter (fun x => !(fs l).contains x)))).length

theorem Begins.occurs {g : List Rule} {y x : Nat} (h : Begins g y x) : x ∈ g.flatMap (·.rights) := by
  induction h with
  | self _ h => obtain ⟨r, hr, ht⟩ := h; exact List.mem_flatMap.2 ⟨r, hr, ht⟩
  | rule _ _ _ _ ih => exact ih

theorem sum_lt {l : List Nat} {a b : Nat → Nat} {k : Nat} (hk : k ∈ l) (hle : ∀ x, a x ≤ b x) (hlt : a k < b k) : (l.map a).sum < (l.map b).sum := by
  have le : ∀ m : List Nat, (m.map a).sum ≤ (m.map b).sum := by
    intro m
    induction m with
    | nil => exact Nat.le_refl _
    | cons x m ih => simp only [List.map_cons, List.sum_cons]; have := hle x; omega
  induction l with
  | nil => cases hk
  | cons x l ih =>
    simp only [List.map_cons, List.sum_cons]
    rcases List.mem_cons.1 hk with rfl | h
    · have := le l; omega
    · have := ih h; have := hle x; omega

theorem openPairs_add {g : List Rule} {fs : Nat → List Nat} {l x : Nat} (hl : ∃ r ∈ g, r.left = l) (hx : x ∈ g.flatMap (·.rights)) (hn : x ∉ fs l) :
    openPairs g (upd fs l (fs l ++ [x])) < openPairs g fs := by
  unfold openPairs
  rw [List.length_flatMap, List.length_flatMap]
  obtain ⟨r, hr, rfl⟩ := hl
  have sub : ∀ q, ((g.flatMap (·.rights)).filter (fun y => !(upd fs r.left (fs r.left ++ [x]) q).contains y)) =
      (((g.flatMap (·.rights)).filter (fun y => !(fs q).contains y)).filter (fun y => !(q == r.left && y == x))) := by
    intro q
    rw [List.filter_filter]
    apply List.filter_congr
    intro y _
    simp only [upd]
    by_cases e : q = r.left
    · subst e; by_cases e2 : y = x <;> simp [e2]
    · simp [e]
  refine sum_lt (k := r.left) (List.mem_map.2 ⟨r, hr, rfl⟩) ?_ ?_
  · intro q; rw [sub]; exact List.length_filter_le _ _
  · rw [sub, List.length_filter_lt_length_iff_exists]
    exact ⟨x, by simp [List.mem_filter, hn]; simpa using hx, by simp⟩

/-- One production: every change is a pair less. -/
def Less (g : List Rule) (w w' : Work) : Prop := openPairs g w'.fs + (if w'.change then 1 else 0) ≤ openPairs g w.fs + (if w.change then 1 else 0)

theorem addFirst_less {g : List Rule} {l x : Nat} {w : Work} (hl : ∃ r ∈ g, r.left = l) (hx : x ∈ g.flatMap (·.rights)) : Less g w (addFirst g l w x) := by
  unfold Less addFirst
  split
  · exact Nat.le_refl _
  · rename_i hn
    have := openPairs_add (fs := w.fs) hl hx (by simpa using hn)
    simp only [if_true]
    omega

theorem foldl_addFirst_less {g : List Rule} {l : Nat} (hl : ∃ r ∈ g, r.left = l) (xs : List Nat) : ∀ w : Work, (∀ x ∈ xs, x ∈ g.flatMap (·.rights)) → Less g w (xs.foldl (addFirst g l) w) := by
  induction xs with
  | nil => intro w _; exact Nat.le_refl _
  | cons a xs ih =>
    intro w h
    exact Nat.le_trans (ih _ (fun x hx => h x (by simp [hx]))) (addFirst_less hl (h a (by simp)))

/-- Everything in the sets stands in the grammar. -/
def Occ (g : List Rule) (fs : Nat → List Nat) : Prop := ∀ y, ∀ x ∈ fs y, x ∈ g.flatMap (·.rights)

theorem foldl_addFirst_occ {g : List Rule} {l : Nat} (xs : List Nat) : ∀ w : Work, (∀ x ∈ xs, x ∈ g.flatMap (·.rights)) → Occ g w.fs → Occ g (xs.foldl (addFirst g l) w).fs := by
  induction xs with
  | nil => intro w _ h; exact h
  | cons a xs ih =>
    intro w h ho
    refine ih _ (fun x hx => h x (by simp [hx])) ?_
    unfold addFirst
    split
    · exact ho
    · intro y x hx
      simp only [upd] at hx
      split at hx
      · rcases List.mem_append.1 hx with hx | hx
        · exact ho _ x hx
        · simp only [List.mem_singleton] at hx
          rw [hx]; exact h a (by simp)
      · exact ho y x hx

theorem firstRights_less {g : List Rule} {l : Nat} (hl : ∃ r ∈ g, r.left = l) (ts : List Nat) : ∀ w : Work, Occ g w.fs →
    Less g w (firstRights g l ts w) ∧ Occ g (firstRights g l ts w).fs := by
  induction ts with
  | nil => intro w ho; exact ⟨Nat.le_refl _, ho⟩
  | cons t ts ih =>
    intro w ho
    rw [firstRights]
    have a := foldl_addFirst_less hl (w.fs t) w (ho t)
    have b := foldl_addFirst_occ (l := l) (w.fs t) w (ho t) ho
    split
    · obtain ⟨c, d⟩ := ih _ b
      exact ⟨Nat.le_trans c a, d⟩
    · exact ⟨a, b⟩

theorem firstRule_less {g : List Rule} {w : Work} {i : Nat} (ho : Occ g w.fs) : Less g w (firstRule g w i) ∧ Occ g (firstRule g w i).fs := by
  unfold firstRule
  split
  · exact ⟨Nat.le_refl _, ho⟩
  · split
    · exact ⟨Nat.le_refl _, ho⟩
    · rename_i r hr
      exact firstRights_less ⟨r, List.mem_of_getElem? hr, rfl⟩ r.rights _ ho

theorem firstRounds_some {g : List Rule} (n : Nat) : ∀ w : Work, Occ g w.fs → openPairs g w.fs + (if w.change then 2 else 1) ≤ n → ∃ w', firstRounds g n w = some w' := by
  induction n with
  | zero => intro w _ h; split at h <;> omega
  | succ n ih =>
    intro w ho h
    rw [firstRounds]
    split
    · rename_i hc
      have := range_induct (n := g.length) (w := { w with change := false }) (f := firstRule g)
        (P := fun _ w' => openPairs g w'.fs + (if w'.change then 1 else 0) ≤ openPairs g w.fs ∧ Occ g w'.fs) ⟨Nat.le_refl _, ho⟩
        (fun i w' hi h => by
          obtain ⟨a, b⟩ := firstRule_less (i := i) h.2
          exact ⟨Nat.le_trans a h.1, b⟩)
      refine ih _ this.2 ?_
      have := this.1
      rw [if_pos hc] at h
      split
      · rename_i hc'; rw [if_pos hc'] at this; omega
      · rename_i hc'; rw [if_neg hc'] at this; omega
    · exact ⟨w, rfl⟩

/-- The second loop ends: at most one round for each pair of a production and a place in a
production, and two more. -/
theorem first_ends {g : List Rule} {n : Nat} {w : Work} (h : calcNullable g n = some w) : ∃ w', calcFirst g (g.length * (g.flatMap (·.rights)).length + 2) w = some w' := by
  have S := calcNullable_self h
  refine firstRounds_some _ _ (fun y x hx => (S.sound y x hx).occurs) ?_
  simp only [if_true]
  have : openPairs g w.fs ≤ g.length * (g.flatMap (·.rights)).length := by
    unfold openPairs
    rw [List.length_flatMap]
    have le : ∀ m : List Nat, (m.map (fun l => ((g.flatMap (·.rights)).filter (fun x => !(w.fs l).contains x)).length)).sum ≤ m.length * (g.flatMap (·.rights)).length := by
      intro m
      induction m with
      | nil => simp
      | cons a m ih =>
        simp only [List.map_cons, List.sum_cons, List.length_cons, Nat.succ_mul]
        have := List.length_filter_le (fun x => !(w.fs a).contains x) (g.flatMap (·.rights))
        omega
    have := le (g.map (·.left))
    simpa using this
  omega

/-- A grammar without the condition: for `S:` before `S: S a`, the set of `S` (and that of `a`
itself) is empty, although `S` derives `a`. -/
theorem first_missing : ∃ w w', calcNullable emptyFirst 8 = some w ∧ calcFirst emptyFirst 8 w = some w' ∧ Derives emptyFirst [11] [1] ∧ Begins emptyFirst 11 1 ∧ w'.fs 11 = [] ∧ w'.fs 1 = [] := by
  have hd : Derives emptyFirst [11] [1] :=
    .one (l := 11) (rs := [11, 1]) (by decide) (.rule (r := ⟨11, []⟩) (vs := []) (ws := [1]) (by decide) .nil (.term (by decide) .nil))
  have h1 : ((calcNullable emptyFirst 8).bind (fun w => (calcFirst emptyFirst 8 w).map (fun w' => (w'.fs 11, w'.fs 1)))) = some ([], []) := by decide +kernel
  obtain ⟨w, hw, h1⟩ := Option.bind_eq_some_iff.1 h1
  obtain ⟨w', hw', h1⟩ := Option.map_eq_some_iff.1 h1
  simp only [Prod.mk.injEq] at h1
  exact ⟨w, w', hw, hw', hd, begins_of_derives_one hd ⟨⟨11, []⟩, by decide, .inr rfl⟩, h1.1, h1.2⟩

/-- The sets of the grammar of the tests. -/
example : ((calcNullable testG 8).bind (fun w => (calcFirst testG 8 w).map (fun w' => (w'.fs 11, w'.fs 12, w'.fs 13, [11, 12, 13].map w'.nl)))) =
    some ([1, 5], [1, 5], [3, 4], [true, false, true]) := by decide +kernel

end Verif.Pg
