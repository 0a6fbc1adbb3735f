import Verif.Itc
import Mathlib.Data.List.Nodup

/-!
# What becomes of messages between threads

Spec: the chains of entries belong together (every entry waiting for a thread is in the chain of its
sender, if that is still there, and the other way round); messages from one thread to another arrive as
they were sent, each once and in their order.
-/
namespace Verif.Itc

/-! ### Entries and chains -/

/-- The chains of every thread. -/
abbrev Core := Nat → Option (List Nat × List Tmq)

def St.core (s : St) : Core := fun x => (s.th x).map fun t => (t.loc, t.dest)

/-- The chains belong together. -/
structure Chains (c : Core) (n : Nat) : Prop where
  link : ∀ b lb db q a, c b = some (lb, db) → q ∈ db → q.sender = some a → ∃ la da, c a = some (la, da) ∧ q.id ∈ la
  back : ∀ a la da i, c a = some (la, da) → i ∈ la → ∃ b lb db q, c b = some (lb, db) ∧ q ∈ db ∧ q.id = i ∧ q.sender = some a
  locN : ∀ a la da, c a = some (la, da) → la.Nodup
  nd : ∀ b lb db, c b = some (lb, db) → (db.map Tmq.id).Nodup
  dj : ∀ b lb db b' lb' db' q q', c b = some (lb, db) → c b' = some (lb', db') → q ∈ db → q' ∈ db' → q.id = q'.id → b = b'
  lt : ∀ b lb db q, c b = some (lb, db) → q ∈ db → q.id < n

theorem Chains.uniq {c : Core} {n : Nat} (h : Chains c n) {b lb db b' lb' db' q q'} (hb : c b = some (lb, db)) (hb' : c b' = some (lb', db'))
    (hq : q ∈ db) (hq' : q' ∈ db') (e : q.id = q'.id) : b = b' ∧ q = q' := by
  have := h.dj b lb db b' lb' db' q q' hb hb' hq hq' e
  subst this
  rw [hb] at hb'
  cases hb'
  exact ⟨rfl, List.inj_on_of_nodup_map (h.nd b lb db hb) hq hq' e⟩

theorem Chains.locLt {c : Core} {n : Nat} (h : Chains c n) {a la da i} (ha : c a = some (la, da)) (hi : i ∈ la) : i < n := by
  obtain ⟨b, lb, db, q, hb, hq, e, _⟩ := h.back a la da i ha hi
  exact e ▸ h.lt b lb db q hb hq

def enqC (a b : Nat) (q : Tmq) (x : Nat) (p : List Nat × List Tmq) : List Nat × List Tmq :=
  (if x = a then p.1 ++ [q.id] else p.1, if x = b then p.2 ++ [q] else p.2)

theorem chains_enq {c : Core} {n : Nat} (h : Chains c n) {a b la da lb db} {q : Tmq} (ha : c a = some (la, da)) (hb : c b = some (lb, db))
    (hi : q.id = n) (hs : q.sender = some a) : Chains (fun x => (c x).map (enqC a b q x)) (n + 1) := by
  have memDest : ∀ x l d q', (c x).map (enqC a b q x) = some (l, d) → q' ∈ d →
      (x = b ∧ q' = q) ∨ ∃ l0 d0, c x = some (l0, d0) ∧ q' ∈ d0 := by
    intro x l d q' hx hq
    cases hc : c x with
    | none => rw [hc] at hx; cases hx
    | some p =>
      rw [hc] at hx
      simp only [Option.map_some, enqC, Option.some.injEq, Prod.mk.injEq] at hx
      rw [← hx.2] at hq
      split at hq
      · rename_i e
        rcases List.mem_append.1 hq with hq | hq
        · exact Or.inr ⟨p.1, p.2, rfl, hq⟩
        · exact Or.inl ⟨e, by simpa using hq⟩
      · exact Or.inr ⟨p.1, p.2, rfl, hq⟩
  have keep : ∀ x l0 d0, c x = some (l0, d0) → ∃ l d, (c x).map (enqC a b q x) = some (l, d) ∧ (∀ i ∈ l0, i ∈ l) ∧ (∀ q' ∈ d0, q' ∈ d) := by
    intro x l0 d0 hx
    rw [hx]
    refine ⟨_, _, rfl, ?_, ?_⟩
    · intro i hi; dsimp only; split <;> simp [hi]
    · intro i hi; dsimp only; split <;> simp [hi]
  constructor
  · intro x l d q' s hx hq hss
    rcases memDest x l d q' hx hq with ⟨rfl, rfl⟩ | ⟨l0, d0, hc, hq⟩
    · rw [hs] at hss; cases hss
      refine ⟨_, _, by rw [ha]; rfl, ?_⟩
      simp
    · obtain ⟨la', da', h1, h2⟩ := h.link x l0 d0 q' s hc hq hss
      obtain ⟨l, d, h3, h4, _⟩ := keep s la' da' h1
      exact ⟨l, d, h3, h4 _ h2⟩
  · intro x l d i hx hi'
    cases hc : c x with
    | none => simp only [hc] at hx; cases hx
    | some p =>
      have hx' := hx
      simp only [hc, Option.map_some, enqC, Option.some.injEq, Prod.mk.injEq] at hx'
      rw [← hx'.1] at hi'
      by_cases hin : i ∈ p.1
      · obtain ⟨b', lb', db', q', h1, h2, h3, h4⟩ := h.back x p.1 p.2 i hc hin
        obtain ⟨l', d', h5, _, h6⟩ := keep b' lb' db' h1
        exact ⟨b', l', d', q', h5, h6 _ h2, h3, h4⟩
      · split at hi'
        · rename_i e
          rcases List.mem_append.1 hi' with hi' | hi'
          · exact absurd hi' hin
          · refine ⟨b, _, _, q, by rw [hb]; rfl, by simp, by simpa using (List.mem_singleton.1 hi').symm, by rw [hs, e]⟩
        · exact absurd hi' hin
  · intro x l d hx
    cases hc : c x with
    | none => simp only [hc] at hx; cases hx
    | some p =>
      simp only [hc, Option.map_some, enqC, Option.some.injEq, Prod.mk.injEq] at hx
      rw [← hx.1]
      have := h.locN x p.1 p.2 hc
      split
      · rw [List.nodup_append]
        refine ⟨this, by simp, ?_⟩
        intro i hi1 j hj e
        have := h.locLt hc hi1
        simp at hj
        omega
      · exact this
  · intro x l d hx
    cases hc : c x with
    | none => simp only [hc] at hx; cases hx
    | some p =>
      simp only [hc, Option.map_some, enqC, Option.some.injEq, Prod.mk.injEq] at hx
      rw [← hx.2]
      have := h.nd x p.1 p.2 hc
      split
      · rw [List.map_append, List.nodup_append]
        refine ⟨this, by simp, ?_⟩
        intro i hi1 j hj e
        obtain ⟨q', h1, h2⟩ := List.mem_map.1 hi1
        have := h.lt x p.1 p.2 q' hc h1
        simp at hj
        omega
      · exact this
  · intro x l d x' l' d' q1 q2 hx hx' h1 h2 e
    rcases memDest x l d q1 hx h1 with ⟨rfl, rfl⟩ | ⟨l0, d0, hc, hq⟩ <;> rcases memDest x' l' d' q2 hx' h2 with ⟨rfl, rfl⟩ | ⟨l1, d1, hc', hq'⟩
    · rfl
    · have := h.lt x' l1 d1 q2 hc' hq'; omega
    · have := h.lt x l0 d0 q1 hc hq; omega
    · exact h.dj x l0 d0 x' l1 d1 q1 q2 hc hc' hq hq' e
  · intro x l d q' hx hq
    rcases memDest x l d q' hx hq with ⟨rfl, rfl⟩ | ⟨l0, d0, hc, hq⟩
    · omega
    · have := h.lt x l0 d0 q' hc hq; omega

def popC (a : Nat) (q : Tmq) (r : List Tmq) (x : Nat) (p : List Nat × List Tmq) : List Nat × List Tmq :=
  (if q.sender = some x then p.1.erase q.id else p.1, if x = a then r else p.2)

theorem chains_pop {c : Core} {n : Nat} (h : Chains c n) {a la} {q : Tmq} {r : List Tmq} (ha : c a = some (la, q :: r)) :
    Chains (fun x => (c x).map (popC a q r x)) n := by
  have memDest : ∀ x l d q', (c x).map (popC a q r x) = some (l, d) → q' ∈ d →
      ∃ l0 d0, c x = some (l0, d0) ∧ q' ∈ d0 ∧ q'.id ≠ q.id := by
    intro x l d q' hx hq
    cases hc : c x with
    | none => rw [hc] at hx; cases hx
    | some p =>
      rw [hc] at hx
      simp only [Option.map_some, popC, Option.some.injEq, Prod.mk.injEq] at hx
      rw [← hx.2] at hq
      refine ⟨p.1, p.2, rfl, ?_⟩
      split at hq
      · rename_i e
        subst e
        rw [ha] at hc
        cases hc
        refine ⟨List.mem_cons_of_mem _ hq, ?_⟩
        have := h.nd _ _ _ ha
        rw [List.map_cons, List.nodup_cons] at this
        intro e
        exact this.1 (e ▸ List.mem_map_of_mem hq)
      · rename_i e
        refine ⟨hq, ?_⟩
        intro e'
        exact e (h.dj _ _ _ _ _ _ _ _ hc ha hq List.mem_cons_self e')
  have keepD : ∀ x l0 d0 q', c x = some (l0, d0) → q' ∈ d0 → q'.id ≠ q.id → ∃ l d, (c x).map (popC a q r x) = some (l, d) ∧ q' ∈ d := by
    intro x l0 d0 q' hx hq hne
    refine ⟨_, _, by rw [hx]; rfl, ?_⟩
    dsimp only
    split
    · rename_i e
      subst e
      rw [ha] at hx; cases hx
      rcases List.mem_cons.1 hq with rfl | hq
      · exact absurd rfl hne
      · exact hq
    · exact hq
  have keepL : ∀ x l0 d0 i, c x = some (l0, d0) → i ∈ l0 → i ≠ q.id → ∃ l d, (c x).map (popC a q r x) = some (l, d) ∧ i ∈ l := by
    intro x l0 d0 i hx hi hne
    refine ⟨_, _, by rw [hx]; rfl, ?_⟩
    dsimp only
    split
    · exact (List.mem_erase_of_ne hne).2 hi
    · exact hi
  constructor
  · intro x l d q' s hx hq hss
    obtain ⟨l0, d0, hc, hq0, hne⟩ := memDest x l d q' hx hq
    obtain ⟨la', da', h1, h2⟩ := h.link x l0 d0 q' s hc hq0 hss
    exact keepL s la' da' _ h1 h2 hne
  · intro x l d i hx hi
    cases hc : c x with
    | none => simp only [hc] at hx; cases hx
    | some p =>
      simp only [hc, Option.map_some, popC, Option.some.injEq, Prod.mk.injEq] at hx
      rw [← hx.1] at hi
      have hin : i ∈ p.1 := by
        split at hi
        · exact List.mem_of_mem_erase hi
        · exact hi
      obtain ⟨b', lb', db', q', h1, h2, h3, h4⟩ := h.back x p.1 p.2 i hc hin
      have hne : q'.id ≠ q.id := by
        intro e
        have hu := h.uniq h1 ha h2 List.mem_cons_self e
        rw [hu.2] at h4 h3
        rw [if_pos h4] at hi
        have := (h.locN x p.1 p.2 hc)
        rw [this.mem_erase_iff] at hi
        exact hi.1 h3.symm
      obtain ⟨l', d', h5, h6⟩ := keepD b' lb' db' q' h1 h2 hne
      exact ⟨b', l', d', q', h5, h6, h3, h4⟩
  · intro x l d hx
    cases hc : c x with
    | none => simp only [hc] at hx; cases hx
    | some p =>
      simp only [hc, Option.map_some, popC, Option.some.injEq, Prod.mk.injEq] at hx
      rw [← hx.1]
      have := h.locN x p.1 p.2 hc
      split
      · exact this.erase _
      · exact this
  · intro x l d hx
    cases hc : c x with
    | none => simp only [hc] at hx; cases hx
    | some p =>
      simp only [hc, Option.map_some, popC, Option.some.injEq, Prod.mk.injEq] at hx
      rw [← hx.2]
      split
      · have := h.nd _ _ _ ha
        rw [List.map_cons, List.nodup_cons] at this
        exact this.2
      · exact h.nd x p.1 p.2 hc
  · intro x l d x' l' d' q1 q2 hx hx' h1 h2 e
    obtain ⟨l0, d0, hc, hq, _⟩ := memDest x l d q1 hx h1
    obtain ⟨l1, d1, hc', hq', _⟩ := memDest x' l' d' q2 hx' h2
    exact h.dj x l0 d0 x' l1 d1 q1 q2 hc hc' hq hq' e
  · intro x l d q' hx hq
    obtain ⟨l0, d0, hc, hq, _⟩ := memDest x l d q' hx hq
    exact h.lt x l0 d0 q' hc hq

def orph (l : List Nat) (q : Tmq) : Tmq := if q.id ∈ l then { q with sender := none } else q

theorem orph_id (l : List Nat) (q : Tmq) : (orph l q).id = q.id := by unfold orph; split <;> rfl
theorem orph_msg (l : List Nat) (q : Tmq) : (orph l q).msg = q.msg := by unfold orph; split <;> rfl

def orC (a : Nat) (la : List Nat) (x : Nat) (p : List Nat × List Tmq) : List Nat × List Tmq :=
  (if x = a then [] else p.1, p.2.map (orph la))

theorem chains_orphan {c : Core} {n : Nat} (h : Chains c n) {a la da} (ha : c a = some (la, da)) :
    Chains (fun x => (c x).map (orC a la x)) n := by
  have memDest : ∀ x l d q', (c x).map (orC a la x) = some (l, d) → q' ∈ d →
      ∃ l0 d0 q0, c x = some (l0, d0) ∧ q0 ∈ d0 ∧ q' = orph la q0 := by
    intro x l d q' hx hq
    cases hc : c x with
    | none => rw [hc] at hx; cases hx
    | some p =>
      rw [hc] at hx
      simp only [Option.map_some, orC, Option.some.injEq, Prod.mk.injEq] at hx
      rw [← hx.2] at hq
      obtain ⟨q0, h1, h2⟩ := List.mem_map.1 hq
      exact ⟨p.1, p.2, q0, rfl, h1, h2.symm⟩
  constructor
  · intro x l d q' s hx hq hss
    obtain ⟨l0, d0, q0, hc, hq0, rfl⟩ := memDest x l d q' hx hq
    unfold orph at hss ⊢
    split at hss
    · cases hss
    · rename_i hni
      rw [if_neg hni]
      obtain ⟨la', da', h1, h2⟩ := h.link x l0 d0 q0 s hc hq0 hss
      have hsa : s ≠ a := by
        intro e; subst e
        rw [ha] at h1; cases h1
        exact hni h2
      refine ⟨la', da'.map (orph la), by rw [h1]; simp [orC, hsa], h2⟩
  · intro x l d i hx hi
    cases hc : c x with
    | none => simp only [hc] at hx; cases hx
    | some p =>
      simp only [hc, Option.map_some, orC, Option.some.injEq, Prod.mk.injEq] at hx
      rw [← hx.1] at hi
      split at hi
      · cases hi
      · rename_i hxa
        obtain ⟨b', lb', db', q', h1, h2, h3, h4⟩ := h.back x p.1 p.2 i hc hi
        refine ⟨b', _, _, orph la q', by rw [h1]; rfl, List.mem_map_of_mem h2, by rw [orph_id, h3], ?_⟩
        unfold orph
        rw [if_neg ?_]; exact h4
        intro hin
        obtain ⟨b2, lb2, db2, q2, g1, g2, g3, g4⟩ := h.back a la da q'.id ha hin
        have := (h.uniq g1 h1 g2 h2 g3).2
        rw [this, h4] at g4
        exact hxa (Option.some.inj g4)
  · intro x l d hx
    cases hc : c x with
    | none => simp only [hc] at hx; cases hx
    | some p =>
      simp only [hc, Option.map_some, orC, Option.some.injEq, Prod.mk.injEq] at hx
      rw [← hx.1]
      split
      · simp
      · exact h.locN x p.1 p.2 hc
  · intro x l d hx
    cases hc : c x with
    | none => simp only [hc] at hx; cases hx
    | some p =>
      simp only [hc, Option.map_some, orC, Option.some.injEq, Prod.mk.injEq] at hx
      rw [← hx.2, List.map_map]
      rw [show Tmq.id ∘ orph la = Tmq.id from funext fun q => orph_id la q]
      exact h.nd x p.1 p.2 hc
  · intro x l d x' l' d' q1 q2 hx hx' h1 h2 e
    obtain ⟨l0, d0, p1, hc, hq, rfl⟩ := memDest x l d q1 hx h1
    obtain ⟨l1, d1, p2, hc', hq', rfl⟩ := memDest x' l' d' q2 hx' h2
    rw [orph_id, orph_id] at e
    exact h.dj x l0 d0 x' l1 d1 p1 p2 hc hc' hq hq' e
  · intro x l d q' hx hq
    obtain ⟨l0, d0, q0, hc, hq0, rfl⟩ := memDest x l d q' hx hq
    rw [orph_id]
    exact h.lt x l0 d0 q0 hc hq0

theorem chains_new {c c' : Core} {n : Nat} (h : Chains c n) {a} (ha : c a = none ∨ c a = some ([], [])) (ha' : c' a = none ∨ c' a = some ([], []))
    (e : ∀ x, x ≠ a → c' x = c x) : Chains c' n := by
  have back : ∀ x l d, c' x = some (l, d) → c x = some (l, d) ∨ (x = a ∧ l = [] ∧ d = []) := by
    intro x l d hx
    by_cases hxa : x = a
    · subst hxa
      rcases ha' with h1 | h1 <;> rw [h1] at hx
      · cases hx
      · cases hx; exact Or.inr ⟨rfl, rfl, rfl⟩
    · rw [e x hxa] at hx; exact Or.inl hx
  have forth : ∀ x l d, c x = some (l, d) → (l ≠ [] ∨ d ≠ []) → c' x = some (l, d) := by
    intro x l d hx hne
    by_cases hxa : x = a
    · subst hxa
      rcases ha with h1 | h1 <;> rw [h1] at hx
      · cases hx
      · cases hx; simp at hne
    · rw [e x hxa]; exact hx
  constructor
  · intro b lb db q s hb hq hs
    rcases back b lb db hb with hb | ⟨_, _, rfl⟩
    · obtain ⟨la, da, h1, h2⟩ := h.link b lb db q s hb hq hs
      exact ⟨la, da, forth s la da h1 (Or.inl (List.ne_nil_of_mem h2)), h2⟩
    · cases hq
  · intro x l d i hx hi
    rcases back x l d hx with hx | ⟨_, rfl, _⟩
    · obtain ⟨b, lb, db, q, h1, h2, h3, h4⟩ := h.back x l d i hx hi
      exact ⟨b, lb, db, q, forth b lb db h1 (Or.inr (List.ne_nil_of_mem h2)), h2, h3, h4⟩
    · cases hi
  · intro x l d hx
    rcases back x l d hx with hx | ⟨_, rfl, _⟩
    · exact h.locN x l d hx
    · simp
  · intro x l d hx
    rcases back x l d hx with hx | ⟨_, _, rfl⟩
    · exact h.nd x l d hx
    · simp
  · intro b lb db b' lb' db' q q' hb hb' hq hq' eid
    rcases back b lb db hb with hb | ⟨_, _, rfl⟩
    · rcases back b' lb' db' hb' with hb' | ⟨_, _, rfl⟩
      · exact h.dj b lb db b' lb' db' q q' hb hb' hq hq' eid
      · cases hq'
    · cases hq
  · intro b lb db q hb hq
    rcases back b lb db hb with hb | ⟨_, _, rfl⟩
    · exact h.lt b lb db q hb hq
    · cases hq

/-! ### States -/

/-- `r` is no undefined behaviour, and if it is a result, `P` holds for it. -/
def M.Sat {α : Type} (r : M α) (P : α → Prop) : Prop :=
  match r with
  | .ub => False
  | .garbage => True
  | .ok a => P a

theorem sat_bind {α β : Type} {x : M α} {f : α → M β} {P : β → Prop} (Q : α → Prop) (h : x.Sat Q) (k : ∀ a, Q a → (f a).Sat P) : (x >>= f).Sat P := by
  show (M.bind x f).Sat P
  cases x with
  | ub => cases h
  | garbage => exact True.intro
  | ok a => exact k a h

theorem sat_mono {α : Type} {x : M α} {P Q : α → Prop} (h : x.Sat P) (k : ∀ a, P a → Q a) : x.Sat Q := by
  cases x with
  | ub => cases h
  | garbage => exact True.intro
  | ok a => exact k a h

theorem bind_ok {α β : Type} (a : α) (f : α → M β) : ((M.ok a : M α) >>= f) = f a := rfl

def St.mapTh (s : St) (f : Nat → Th → Th) : St := { s with th := fun x => (s.th x).map (f x) }

theorem st_ext {s s' : St} (h1 : ∀ x, s.th x = s'.th x) (h2 : s.tree = s'.tree) (h3 : s.next = s'.next) : s = s' := by
  cases s; cases s'
  simp only [St.mk.injEq]
  exact ⟨funext h1, h2, h3⟩

theorem put_th (s : St) (a : Nat) (t : Th) (x : Nat) : (s.put a t).th x = if x = a then some t else s.th x := rfl

theorem core_put (s : St) (a : Nat) (t t' : Th) (h : s.th a = some t) (e1 : t'.loc = t.loc) (e2 : t'.dest = t.dest) : (s.put a t').core = s.core := by
  funext x
  unfold St.core
  rw [put_th]
  by_cases hx : x = a
  · rw [if_pos hx, hx, h]; simp [e1, e2]
  · rw [if_neg hx]

theorem core_of {s : St} {a : Nat} {t : Th} (h : s.th a = some t) : s.core a = some (t.loc, t.dest) := by
  unfold St.core; rw [h]; rfl

def popF (a : Nat) (q : Tmq) (r : List Tmq) (x : Nat) (t : Th) : Th :=
  { t with loc := if q.sender = some x then t.loc.erase q.id else t.loc, dest := if x = a then r else t.dest }

/-- Taking out the first entry succeeds, if the chains belong together. -/
theorem popHead_eq {s : St} (h : Chains s.core s.next) {a : Nat} {t : Th} {q : Tmq} {r : List Tmq} (ha : s.th a = some t) (hd : t.dest = q :: r) :
    popHead s a t q r = .ok (s.mapTh (popF a q r)) := by
  unfold popHead unlink
  cases hs : q.sender with
  | none =>
    simp only [M.ok.injEq]
    apply st_ext
    · intro x
      rw [put_th]
      unfold St.mapTh popF
      by_cases hx : x = a
      · rw [if_pos hx, hx]; simp [ha, hs]
      · rw [if_neg hx]; simp [hs, hx]
    · rfl
    · rfl
  | some b =>
    obtain ⟨lb, db, h1, h2⟩ := h.link a t.loc t.dest q b (core_of ha) (by rw [hd]; exact List.mem_cons_self) hs
    cases hb : s.th b with
    | none => unfold St.core at h1; rw [hb] at h1; cases h1
    | some u =>
      rw [core_of hb] at h1
      cases h1
      simp only [put_th]
      by_cases hba : b = a
      · subst hba
        rw [hb] at ha; cases ha
        rw [if_pos rfl]
        dsimp only
        rw [if_pos h2]
        simp only [M.ok.injEq]
        apply st_ext
        · intro x
          rw [put_th, put_th]
          unfold St.mapTh popF
          by_cases hx : x = b
          · rw [if_pos hx, hx]; simp [hb, hs]
          · rw [if_neg hx, if_neg hx]; simp [hs, hx, Ne.symm hx]
        · rfl
        · rfl
      · rw [if_neg hba, hb]
        dsimp only
        rw [if_pos h2]
        simp only [M.ok.injEq]
        apply st_ext
        · intro x
          rw [put_th, put_th]
          unfold St.mapTh popF
          by_cases hx : x = b
          · subst hx; simp [hb, hs, hba]
          · rw [if_neg hx]
            by_cases hxa : x = a
            · rw [if_pos hxa, hxa]; simp [ha, hs, hba]
            · rw [if_neg hxa]; simp [hs, hxa, Ne.symm hx]
        · rfl
        · rfl

theorem core_pop (s : St) (a : Nat) (q : Tmq) (r : List Tmq) : (s.mapTh (popF a q r)).core = fun x => (s.core x).map (popC a q r x) := by
  funext x
  simp only [St.core, St.mapTh, Option.map_map]
  rfl

theorem pop_chains {s : St} (h : Chains s.core s.next) {a : Nat} {t : Th} {q : Tmq} {r : List Tmq} (ha : s.th a = some t) (hd : t.dest = q :: r) :
    Chains (s.mapTh (popF a q r)).core (s.mapTh (popF a q r)).next := by
  rw [core_pop]
  exact chains_pop h (la := t.loc) (by rw [core_of ha, hd])

def enqF (a b : Nat) (q : Tmq) (x : Nat) (t : Th) : Th :=
  { t with loc := if x = a then t.loc ++ [q.id] else t.loc
           armed := if x = b then t.armed || t.dest.isEmpty else t.armed
           dest := if x = b then t.dest ++ [q] else t.dest }

theorem enqueue_eq {s : St} {a b : Nat} {q : Tmq} {t u : Th} (ha : s.th a = some t) (hb : s.th b = some u) :
    enqueue s a b q = .ok { s.mapTh (enqF a b q) with next := s.next + 1 } := by
  unfold enqueue
  rw [hb]
  simp only [put_th]
  by_cases hab : a = b
  · subst hab
    rw [ha] at hb; cases hb
    rw [if_pos rfl]
    simp only [M.ok.injEq]
    apply st_ext
    · intro x
      simp only [put_th]
      unfold St.mapTh enqF
      by_cases hx : x = a
      · subst hx; simp [ha]
      · simp [hx]
    · rfl
    · rfl
  · rw [if_neg hab, ha]
    simp only [M.ok.injEq]
    apply st_ext
    · intro x
      simp only [put_th]
      unfold St.mapTh enqF
      by_cases hx : x = a
      · subst hx; simp [ha, hab]
      · by_cases hxb : x = b
        · subst hxb; simp [hb, hx]
        · simp [hx, hxb]
    · rfl
    · rfl

theorem enq_chains {s : St} (h : Chains s.core s.next) {a b : Nat} {q : Tmq} {t u : Th} (ha : s.th a = some t) (hb : s.th b = some u)
    (hi : q.id = s.next) (hs : q.sender = some a) :
    Chains ({ s.mapTh (enqF a b q) with next := s.next + 1 } : St).core (s.next + 1) := by
  have : ({ s.mapTh (enqF a b q) with next := s.next + 1 } : St).core = fun x => (s.core x).map (enqC a b q x) := by
    funext x
    simp only [St.core, St.mapTh, Option.map_map]
    rfl
  rw [this]
  exact chains_enq h (core_of ha) (core_of hb) hi hs

def orF (a : Nat) (l : List Nat) (x : Nat) (t : Th) : Th :=
  { t with loc := if x = a then [] else t.loc, dest := t.dest.map (orph l) }

theorem search_some {s : St} {n : String} {b : Nat} (h : search s n = some b) : ∃ u, s.th b = some u ∧ u.name = n ∧ b ∈ s.tree := by
  unfold search at h
  have h1 := List.find?_some h
  have h2 := List.mem_of_find?_eq_some h
  cases hb : s.th b with
  | none => simp [named, hb] at h1
  | some u => simp [named, hb] at h1; exact ⟨u, rfl, h1, h2⟩

/-- What the end of thread `a` leaves of the others. -/
structure Rest (a : Nat) (s s' : St) : Prop where
  tree : s'.tree = s.tree
  none : ∀ x, s.th x = none → s'.th x = none
  some : ∀ x t, s.th x = some t → ∃ t', s'.th x = some t' ∧ t'.name = t.name ∧ t'.restart = t.restart ∧ t'.rx = t.rx ∧ t'.tx = t.tx ∧
    t'.armed = t.armed ∧ t'.out = t.out ∧ t'.said = t.said ∧ (x ≠ a → t'.dest.map Tmq.msg = t.dest.map Tmq.msg)

theorem Rest.refl (a : Nat) (s : St) : Rest a s s := ⟨rfl, fun _ h => h, fun _ t h => ⟨t, h, rfl, rfl, rfl, rfl, rfl, rfl, rfl, fun _ => rfl⟩⟩

theorem Rest.trans {a : Nat} {s s' s'' : St} (h : Rest a s s') (k : Rest a s' s'') : Rest a s s'' := by
  refine ⟨k.tree.trans h.tree, fun x e => k.none x (h.none x e), ?_⟩
  intro x t e
  obtain ⟨t', e1, a1, a2, a3, a4, a5, a6, a7, a8⟩ := h.some x t e
  obtain ⟨t2, e2, b1, b2, b3, b4, b5, b6, b7, b8⟩ := k.some x t' e1
  exact ⟨t2, e2, b1.trans a1, b2.trans a2, b3.trans a3, b4.trans a4, b5.trans a5, b6.trans a6, b7.trans a7, fun hx => (b8 hx).trans (a8 hx)⟩

theorem rest_pop (s : St) (a : Nat) (q : Tmq) (r : List Tmq) : Rest a s (s.mapTh (popF a q r)) := by
  refine ⟨rfl, fun x h => by simp [St.mapTh, h], fun x t h => ⟨popF a q r x t, by simp [St.mapTh, h], rfl, rfl, rfl, rfl, rfl, rfl, rfl, ?_⟩⟩
  intro hx; simp [popF, hx]

theorem rest_orphan (s : St) (a : Nat) (l : List Nat) : Rest a s (s.mapTh (orF a l)) := by
  refine ⟨rfl, fun x h => by simp [St.mapTh, h], fun x t h => ⟨orF a l x t, by simp [St.mapTh, h], rfl, rfl, rfl, rfl, rfl, rfl, rfl, ?_⟩⟩
  intro hx
  simp only [orF, List.map_map]
  rw [show Tmq.msg ∘ orph l = Tmq.msg from funext fun q => orph_msg l q]

theorem dropDest_sat : ∀ (n : Nat) (s : St) (a : Nat) (t : Th), Chains s.core s.next → s.th a = some t → t.loc = [] → t.dest.length ≤ n →
    ∃ s', dropDest n s a = .ok s' ∧ Chains s'.core s'.next ∧ Rest a s s' ∧ ∃ t', s'.th a = some t' ∧ t'.loc = [] ∧ t'.dest = []
  | 0, s, a, t, h, ha, hl, hn => ⟨s, rfl, h, Rest.refl a s, t, ha, hl, List.length_eq_zero_iff.1 (by omega)⟩
  | n + 1, s, a, t, h, ha, hl, hn => by
    rw [dropDest, ha]
    dsimp only
    cases hd : t.dest with
    | nil => exact ⟨s, rfl, h, Rest.refl a s, t, ha, hl, hd⟩
    | cons q r =>
      dsimp only
      rw [popHead_eq h ha hd, bind_ok]
      obtain ⟨s', e1, e2, e3, e4⟩ := dropDest_sat n (s.mapTh (popF a q r)) a (popF a q r a t) (pop_chains h ha hd) (by simp [St.mapTh, ha])
        (by simp only [popF, hl]; split <;> rfl) (by rw [hd] at hn; simp only [popF, if_true]; simp at hn; omega)
      exact ⟨s', e1, e2, (rest_pop s a q r).trans e3, e4⟩

/-- The queues of a thread can be cleared, and only those are touched. -/
theorem clearQueue_sat {s : St} {a : Nat} {t : Th} (h : Chains s.core s.next) (ha : s.th a = some t) :
    ∃ s', clearQueue s a = .ok s' ∧ Chains s'.core s'.next ∧ Rest a s s' ∧ ∃ t', s'.th a = some t' ∧ t'.loc = [] ∧ t'.dest = [] := by
  have e1 : (orphan s t.loc).th a = some { t with dest := t.dest.map (orph t.loc) } := by
    simp only [orphan, ha, Option.map_some]; rfl
  have e2 : (orphan s t.loc).put a { t with loc := [], dest := t.dest.map (orph t.loc) } = s.mapTh (orF a t.loc) := by
    apply st_ext
    · intro x
      rw [put_th]
      by_cases hx : x = a
      · rw [if_pos hx, hx]; simp [St.mapTh, ha, orF]
      · rw [if_neg hx]
        simp only [St.mapTh, orphan]
        cases s.th x with
        | none => rfl
        | some u => simp only [Option.map_some, orF, if_neg hx]; rfl
    · rfl
    · rfl
  have e3 : Chains (s.mapTh (orF a t.loc)).core (s.mapTh (orF a t.loc)).next := by
    have : (s.mapTh (orF a t.loc)).core = fun x => (s.core x).map (orC a t.loc x) := by
      funext x
      simp only [St.core, St.mapTh, Option.map_map]
      rfl
    rw [this]
    exact chains_orphan h (core_of ha)
  obtain ⟨s', h1, h2, h3, h4⟩ := dropDest_sat (t.dest.map (orph t.loc)).length (s.mapTh (orF a t.loc)) a (orF a t.loc a t) e3 (by simp [St.mapTh, ha])
    (by simp [orF]) (by simp [orF])
  refine ⟨s', ?_, h2, (rest_orphan s a t.loc).trans h3, h4⟩
  unfold clearQueue
  rw [ha]
  dsimp only
  rw [e1]
  dsimp only
  rw [e2]
  exact h1

/-- At most one message is being written, and if anything is to be written, the send handler is
registered. -/
def Live (t : Th) : Prop := t.tx.length ≤ 1 ∧ (t.dest ≠ [] ∨ t.tx ≠ [] → t.armed = true)

/-- No whole message is left among the received bytes. -/
def Short (t : Th) : Prop := total t.rx < W

/-- What is true between events, except for the threads in `L` and `R`. -/
structure InvE (L R : List Nat) (s : St) : Prop where
  chains : Chains s.core s.next
  nod : s.tree.Nodup
  alv : ∀ y ∈ s.tree, (s.th y).isSome
  live : ∀ x t, x ∉ L → s.th x = some t → Live t
  short : ∀ x t, x ∉ R → s.th x = some t → Short t

abbrev Inv (s : St) : Prop := InvE [] [] s

theorem InvE.weaken {L R L' R' : List Nat} {s : St} (h : InvE L R s) (hl : ∀ x ∈ L, x ∈ L') (hr : ∀ x ∈ R, x ∈ R') : InvE L' R' s :=
  ⟨h.chains, h.nod, h.alv, fun x t hx ht => h.live x t (fun c => hx (hl x c)) ht, fun x t hx ht => h.short x t (fun c => hx (hr x c)) ht⟩

theorem release_sat (l : List Node) : (release l).Sat fun _ => True := by
  induction l with
  | nil => exact True.intro
  | cons n r ih => unfold release; split; exact ih; exact True.intro

theorem exit_sat {s : St} {a : Nat} {t : Th} (again : Bool) (h : InvE [a] [a] s) (ha : s.th a = some t) : (exit s a again).Sat Inv := by
  unfold exit
  rw [ha]
  dsimp only
  have hc : Chains ({ s with tree := s.tree.erase a } : St).core ({ s with tree := s.tree.erase a } : St).next := h.chains
  refine sat_bind (fun _ => True) (release_sat _) ?_
  intro _ _
  obtain ⟨s', e1, e2, e3, t', e4, e5, e6⟩ := clearQueue_sat (a := a) (t := t) hc ha
  rw [e1, bind_ok, e4]
  dsimp only
  have old : ∀ x u, s'.th x = some u → ∃ v, s.th x = some v ∧ (x ≠ a → (Live v → Live u) ∧ (Short v → Short u)) := by
    intro x u hu
    cases hs : s.th x with
    | none => rw [e3.none x hs] at hu; cases hu
    | some v =>
      refine ⟨v, rfl, ?_⟩
      intro hx
      obtain ⟨v', f1, f2, f3, f4, f5, f6, f7, f8, f9⟩ := e3.some x v hs
      rw [hu] at f1; cases f1
      refine ⟨?_, ?_⟩
      · intro this
        unfold Live at *
        rw [f5, f6]
        have hn : u.dest ≠ [] → v.dest ≠ [] := by
          intro hne he
          have := f9 hx
          rw [he] at this
          simp at this
          exact hne this
        exact ⟨this.1, fun hh => this.2 (hh.imp hn id)⟩
      · intro this
        unfold Short at *
        rw [f4]; exact this
  have hne : (s.tree.erase a).Nodup := h.nod.erase a
  have halv : ∀ y ∈ s.tree.erase a, y ≠ a ∧ (s'.th y).isSome := by
    intro y hy
    rw [h.nod.mem_erase_iff] at hy
    refine ⟨hy.1, ?_⟩
    have := h.alv y hy.2
    cases hs : s.th y with
    | none => rw [hs] at this; cases this
    | some v =>
      obtain ⟨v', f1, _⟩ := e3.some y v hs
      rw [f1]; rfl
  split
  · refine ⟨?_, ?_, ?_, ?_, ?_⟩
    · refine chains_new e2 (a := a) (Or.inr (by rw [core_of e4, e5, e6])) (Or.inr ?_) ?_
      · unfold St.core
        simp [put_th, e5, e6]
      · intro x hx
        unfold St.core
        simp [put_th, hx]
    · show (s'.tree ++ [a]).Nodup
      rw [e3.tree, List.nodup_append]
      refine ⟨hne, by simp, ?_⟩
      intro y hy z hz
      simp at hz
      rw [hz]; exact (halv y hy).1
    · intro y hy
      simp only [put_th]
      split
      · rfl
      · rename_i hya
        rcases List.mem_append.1 hy with hy | hy
        · rw [e3.tree] at hy; exact (halv y hy).2
        · exact absurd (by simpa using hy) hya
    · intro x u _ hu
      simp only [put_th] at hu
      by_cases hx : x = a
      · rw [if_pos hx] at hu; cases hu
        unfold Live
        simp [e6]
      · rw [if_neg hx] at hu
        obtain ⟨v, h1, h2⟩ := old x u hu
        exact (h2 hx).1 (h.live x v (by simpa using hx) h1)
    · intro x u _ hu
      simp only [put_th] at hu
      by_cases hx : x = a
      · rw [if_pos hx] at hu; cases hu
        simp [Short, total, W]
      · rw [if_neg hx] at hu
        obtain ⟨v, h1, h2⟩ := old x u hu
        exact (h2 hx).2 (h.short x v (by simpa using hx) h1)
  · refine ⟨?_, ?_, ?_, ?_, ?_⟩
    · refine chains_new e2 (a := a) (Or.inr (by rw [core_of e4, e5, e6])) (Or.inl ?_) ?_
      · unfold St.core upd; simp
      · intro x hx
        unfold St.core upd; simp [hx]
    · show s'.tree.Nodup
      rw [e3.tree]; exact hne
    · intro y hy
      have hy' : y ∈ s.tree.erase a := by rw [← show s'.tree = s.tree.erase a from e3.tree]; exact hy
      simp only [upd]
      rw [if_neg (halv y hy').1]
      exact (halv y hy').2
    · intro x u _ hu
      simp only [upd] at hu
      by_cases hx : x = a
      · rw [if_pos hx] at hu; cases hu
      · rw [if_neg hx] at hu
        obtain ⟨v, h1, h2⟩ := old x u hu
        exact (h2 hx).1 (h.live x v (by simpa using hx) h1)
    · intro x u _ hu
      simp only [upd] at hu
      by_cases hx : x = a
      · rw [if_pos hx] at hu; cases hu
      · rw [if_neg hx] at hu
        obtain ⟨v, h1, h2⟩ := old x u hu
        exact (h2 hx).2 (h.short x v (by simpa using hx) h1)

theorem inv_put {L R L' R' : List Nat} {s : St} (h : InvE L R s) {a : Nat} {t t' : Th} (ha : s.th a = some t) (e1 : t'.loc = t.loc) (e2 : t'.dest = t.dest)
    (hl : ∀ x, x ≠ a → x ∉ L' → x ∉ L) (hr : ∀ x, x ≠ a → x ∉ R' → x ∉ R) (hla : a ∉ L' → Live t') (hra : a ∉ R' → Short t') : InvE L' R' (s.put a t') := by
  refine ⟨by rw [core_put s a t t' ha e1 e2]; exact h.chains, h.nod, ?_, ?_, ?_⟩
  · intro y hy
    rw [put_th]
    split
    · rfl
    · exact h.alv y hy
  · intro x u hx hu
    rw [put_th] at hu
    by_cases hxa : x = a
    · rw [if_pos hxa] at hu; cases hu
      exact hla (hxa ▸ hx)
    · rw [if_neg hxa] at hu
      exact h.live x u (hl x hxa hx) hu
  · intro x u hx hu
    rw [put_th] at hu
    by_cases hxa : x = a
    · rw [if_pos hxa] at hu; cases hu
      exact hra (hxa ▸ hx)
    · rw [if_neg hxa] at hu
      exact h.short x u (hr x hxa hx) hu

theorem map_alv {s : St} {f : Nat → Th → Th} (h : ∀ y ∈ s.tree, (s.th y).isSome) : ∀ y ∈ (s.mapTh f).tree, ((s.mapTh f).th y).isSome := by
  intro y hy
  have := h y hy
  simp only [St.mapTh]
  cases e : s.th y with
  | none => rw [e] at this; cases this
  | some t => rfl

theorem inv_enq {L R : List Nat} {s : St} (h : InvE L R s) {a b : Nat} {q : Tmq} {t u : Th} (ha : s.th a = some t) (hb : s.th b = some u)
    (hi : q.id = s.next) (hs : q.sender = some a) : InvE L R { s.mapTh (enqF a b q) with next := s.next + 1 } := by
  refine ⟨enq_chains h.chains ha hb hi hs, h.nod, map_alv h.alv, ?_, ?_⟩
  · intro x v hL hv
    simp only [St.mapTh] at hv
    cases hx : s.th x with
    | none => rw [hx] at hv; cases hv
    | some w =>
      rw [hx] at hv
      cases hv
      have := h.live x w hL hx
      unfold Live enqF at *
      refine ⟨this.1, ?_⟩
      dsimp only
      by_cases hxb : x = b
      · rw [if_pos hxb, if_pos hxb]
        intro _
        cases hd : w.dest with
        | nil => simp
        | cons q r => simp [this.2 (Or.inl (by rw [hd]; simp))]
      · rw [if_neg hxb, if_neg hxb]
        exact this.2
  · intro x v hR hv
    simp only [St.mapTh] at hv
    cases hx : s.th x with
    | none => rw [hx] at hv; cases hv
    | some w =>
      rw [hx] at hv
      cases hv
      exact h.short x w hR hx

/-- What a message does: nothing, or it is queued. -/
theorem route_cases {s : St} {a : Nat} {t : Th} (ha : s.th a = some t) (m : Msg) (mem : Mem) :
    (∃ mem', route s a m mem = .ok (s, mem') ∧ (mem = [] → mem' = [] ∧ search s m.dest = none)) ∨
    ∃ mem' b u, route s a m mem = .ok ({ s.mapTh (enqF a b { id := s.next, sender := some a, msg := { m with src := some t.name } }) with next := s.next + 1 }, mem') ∧
      (mem = [] → mem' = []) ∧ search s m.dest = some b ∧ s.th b = some u := by
  have pop : ∀ mem : Mem, mem = [] → mem.pop = (true, []) := by intro mem e; rw [e]; rfl
  unfold route
  have h1 := pop mem
  rcases hm1 : mem.pop with ⟨b1, mem1⟩
  rw [hm1] at h1
  cases b1 with
  | false => exact Or.inl ⟨mem1, rfl, fun e => by cases h1 e⟩
  | true =>
    dsimp only
    have h2 := pop mem1
    rcases hm2 : mem1.pop with ⟨b2, mem2⟩
    rw [hm2] at h2
    have h3 : mem = [] → (_, mem2) = (true, []) := fun e => h2 (by have := h1 e; cases this; rfl)
    cases b2 with
    | false => exact Or.inl ⟨mem2, rfl, fun e => by cases h3 e⟩
    | true =>
      dsimp only
      rw [ha]
      dsimp only
      cases hsr : search s m.dest with
      | none => exact Or.inl ⟨mem2, rfl, fun e => ⟨by cases h3 e; rfl, rfl⟩⟩
      | some b =>
        obtain ⟨u, hu, _, _⟩ := search_some hsr
        refine Or.inr ⟨mem2, b, u, ?_, fun e => by cases h3 e; rfl, rfl, hu⟩
        dsimp only
        rw [enqueue_eq ha hu, bind_ok]

/-- The bytes not used yet. -/
def left (l : List Node) : List B := l.flatMap Node.left

theorem total_eq : ∀ l : List Node, total l = (left l).length
  | [] => rfl
  | n :: r => by simp [total, left, total_eq r]

theorem left_more (n : Node) (k : Nat) : ({ n with used := n.used + k } : Node).left = n.left.drop k := by
  simp [Node.left, List.drop_drop]

theorem takeN_eq : ∀ (len : Nat) (l : List Node), len ≤ total l → (takeN len l).1 = (left l).take len ∧ left (takeN len l).2 = (left l).drop len
  | _, [], _ => by simp [takeN, left]
  | len, n :: r, h => by
    rw [takeN]
    have e : left (n :: r) = n.left ++ left r := rfl
    split
    · rename_i hlt
      refine ⟨?_, ?_⟩
      · rw [e, List.take_append_of_le_length (by omega)]
      · show ({ n with used := n.used + len } : Node).left ++ left r = _
        rw [left_more, e, List.drop_append_of_le_length (by omega)]
    · rename_i hge
      split
      · rename_i h0
        have : len = n.left.length := by omega
        refine ⟨?_, ?_⟩
        · rw [e, this, List.take_left']; rfl
        · rw [e, this, List.drop_left']; rfl
      · have hr : len - n.left.length ≤ total r := by unfold total at h; omega
        obtain ⟨h1, h2⟩ := takeN_eq (len - n.left.length) r hr
        refine ⟨?_, ?_⟩
        · dsimp only
          rw [h1, e, List.take_append, List.take_of_length_le (l := n.left) (by omega)]
        · dsimp only
          rw [h2, e, List.drop_append, List.drop_eq_nil_of_le (as := n.left) (by omega), List.nil_append]

theorem getBuf_some {l l' : List Node} {bs : List B} (h : getBuf l = some (bs, l')) : left l = bs ++ left l' ∧ bs.length = W := by
  unfold getBuf at h
  split at h
  · cases h
  · rename_i hw
    have h := Option.some.inj h
    obtain ⟨h1, h2⟩ := takeN_eq W l (by omega)
    rw [h] at h1 h2
    dsimp only at h1 h2
    rw [h1, h2, List.take_append_drop]
    refine ⟨rfl, ?_⟩
    rw [List.length_take]
    rw [total_eq] at hw
    omega

theorem getBuf_none {l : List Node} (h : getBuf l = none) : total l < W := by
  unfold getBuf at h
  split at h
  · assumption
  · cases h

theorem process_sat : ∀ (n : Nat) (s : St) (a : Nat) (t : Th) (mem : Mem), InvE [] [a] s → s.th a = some t → total t.rx < n → (process n s a mem).Sat Inv
  | 0, s, a, t, mem, h, _, hn => by omega
  | n + 1, s, a, t, mem, h, ht, hn => by
    rw [process, ht]
    dsimp only
    cases hg : getBuf t.rx with
    | none =>
      refine ⟨h.chains, h.nod, h.alv, h.live, ?_⟩
      intro x u _ hu
      by_cases hx : x = a
      · subst hx; rw [ht] at hu; cases hu; exact getBuf_none hg
      · exact h.short x u (by simpa using hx) hu
    | some p =>
      obtain ⟨bytes, rx⟩ := p
      dsimp only
      cases hd : dec bytes with
      | none => exact True.intro
      | some m =>
        dsimp only
        have hi : InvE [] [a] (s.put a { t with rx := rx }) :=
          inv_put h ht rfl rfl (fun x _ hx => hx) (fun x _ hx => hx) (fun _ => h.live a t (by simp) ht) (fun c => absurd (by simp) c)
        have ht' : (s.put a { t with rx := rx }).th a = some { t with rx := rx } := by simp [put_th]
        have hlen : total rx < n := by
          have := getBuf_some hg
          rw [total_eq, this.1, List.length_append, this.2] at hn
          rw [total_eq]
          unfold W at hn; omega
        rcases route_cases ht' m mem with ⟨mem', e, _⟩ | ⟨mem', b, u, e, _, _, hu⟩
        · rw [e, bind_ok]
          exact process_sat n _ a _ mem' hi ht' hlen
        · rw [e, bind_ok]
          exact process_sat n _ a (enqF a b _ a { t with rx := rx }) mem' (inv_enq hi ht' hu rfl rfl) (by show Option.map _ _ = _; rw [ht']; rfl) hlen

theorem send_sat : ∀ (n : Nat) (s : St) (a : Nat) (t : Th) (outs : List Out) (renew : Bool) (mem : Mem), InvE [a] [] s →
    s.th a = some t → t.tx.length ≤ 1 → 2 * t.dest.length + t.tx.length + 1 ≤ n → (send n s a outs renew mem).Sat Inv
  | 0, s, a, t, outs, renew, mem, h, ha, hx, hn => by omega
  | n + 1, s, a, t, outs, renew, mem, h, ha, hx, hn => by
    rw [send.eq_def]
    dsimp only
    rw [ha]
    dsimp only
    cases htx : t.tx with
    | cons p r =>
      obtain ⟨m, k⟩ := p
      have hr : r = [] := by rw [htx] at hx; simp at hx; exact hx
      subst hr
      dsimp only
      have go : ∀ outs, (send n (s.put a { t with tx := [], out := t.out ++ (enc m).drop k }) a outs renew mem).Sat Inv := by
        intro outs
        refine send_sat n _ a { t with tx := [], out := t.out ++ (enc m).drop k } outs renew mem ?_ (by simp [put_th]) (by simp) ?_
        · exact inv_put h ha rfl rfl (fun x _ hx => hx) (fun x _ hx => hx) (fun c => absurd (by simp) c) (fun _ => h.short a t (by simp) ha)
        · rw [htx] at hn; simp at hn ⊢; omega
      cases outs with
      | nil => exact go []
      | cons o outs =>
        cases o with
        | full => exact go outs
        | part j => exact inv_put h ha rfl rfl (fun x hx _ => by simpa using hx) (fun x _ hx => hx) (fun _ => by simp [Live]) (fun _ => h.short a t (by simp) ha)
        | error => exact exit_sat renew (h.weaken (fun _ h => h) (by simp)) ha
    | nil =>
      dsimp only
      cases hd : t.dest with
      | nil =>
        refine ⟨h.chains, h.nod, h.alv, ?_, h.short⟩
        intro x u _ hu
        by_cases hxa : x = a
        · subst hxa
          rw [ha] at hu; cases hu
          unfold Live
          rw [htx, hd]; simp
        · exact h.live x u (by simpa using hxa) hu
      | cons q r =>
        dsimp only
        rw [popHead_eq h.chains ha hd, bind_ok]
        have ha' : (s.mapTh (popF a q r)).th a = some (popF a q r a t) := by simp [St.mapTh, ha]
        have hp : InvE [a] [] (s.mapTh (popF a q r)) := by
          refine ⟨pop_chains h.chains ha hd, h.nod, map_alv h.alv, ?_, ?_⟩
          · intro x u hxa hu
            simp only [St.mapTh] at hu
            cases hx' : s.th x with
            | none => rw [hx'] at hu; cases hu
            | some w =>
              rw [hx'] at hu; cases hu
              have := h.live x w hxa hx'
              have hxa : x ≠ a := by simpa using hxa
              unfold Live popF at *
              simp only [if_neg hxa]
              exact this
          · intro x u hxa hu
            simp only [St.mapTh] at hu
            cases hx' : s.th x with
            | none => rw [hx'] at hu; cases hu
            | some w =>
              rw [hx'] at hu; cases hu
              exact h.short x w hxa hx'
        rw [ha']
        dsimp only
        have hlen : (popF a q r a t).dest = r := by simp [popF]
        have htx' : (popF a q r a t).tx = [] := by simp [popF, htx]
        rcases mem.pop with ⟨b, mem⟩
        rw [hd] at hn
        cases b with
        | false =>
          refine send_sat n _ a (popF a q r a t) outs renew mem hp ha' (by rw [htx']; simp) ?_
          rw [hlen, htx']; simp at hn ⊢; omega
        | true =>
          refine send_sat n _ a { popF a q r a t with tx := [(q.msg, 0)] } outs renew mem ?_ (by simp [put_th]) (by simp) ?_
          · exact inv_put hp ha' rfl rfl (fun x _ hx => hx) (fun x _ hx => hx) (fun c => absurd (by simp) c) (fun _ => show Short (popF a q r a t) from hp.short a _ (by simp) ha')
          · show 2 * (popF a q r a t).dest.length + 1 + 1 ≤ n
            rw [hlen]; simp at hn; omega

theorem step_sat (s : St) (e : Ev) (h : Inv s) : (step s e).Sat Inv := by
  cases e with
  | recv a pieces e renew mem =>
    unfold step
    dsimp only
    split
    · rename_i hs
      unfold recv
      cases ha : s.th a with
      | none => rw [ha] at hs; cases hs
      | some t =>
        dsimp only
        have hi : InvE [] [a] (s.put a { t with rx := t.rx ++ pieces.map fun p => { data := p, used := 0 }, said := t.said ++ pieces.flatten }) :=
          inv_put h ha rfl rfl (fun x _ hx => hx) (fun x _ _ => by simp) (fun _ => h.live a t (by simp) ha) (fun c => absurd (by simp) c)
        cases e with
        | again => exact process_sat _ _ a _ mem hi (by simp [put_th]; rfl) (by simp)
        | closed => exact exit_sat renew (hi.weaken (by simp) (fun _ h => h)) (by simp [put_th]; rfl)
        | error => exact exit_sat renew (hi.weaken (by simp) (fun _ h => h)) (by simp [put_th]; rfl)
    · exact h
  | send a outs renew mem =>
    unfold step
    dsimp only
    cases ha : s.th a with
    | none => exact h
    | some t =>
      dsimp only
      split
      · unfold sendEv
        rw [ha]
        dsimp only
        refine send_sat _ _ a { t with armed := false } outs renew mem ?_ (by simp [put_th]) (h.live a t (by simp) ha).1 ?_
        · exact inv_put h ha rfl rfl (fun x _ _ => by simp) (fun x _ hx => hx) (fun c => absurd (by simp) c) (fun _ => h.short a t (by simp) ha)
        · show 2 * t.dest.length + t.tx.length + 1 ≤ 2 * (t.tx.length + t.dest.length) + 1
          omega
      · exact h
  | create a al rs =>
    unfold step
    dsimp only
    split
    · exact h
    · rename_i hs
      have hn : s.th a = none := by
        cases hx : s.th a with
        | none => rfl
        | some t => rw [hx] at hs; simp at hs
      have hnt : a ∉ s.tree := fun c => by have := h.alv a c; rw [hn] at this; cases this
      refine ⟨?_, ?_, ?_, ?_, ?_⟩
      · refine chains_new h.chains (a := a) (Or.inl (by unfold St.core; rw [hn]; rfl)) (Or.inr ?_) ?_
        · unfold St.core; simp [put_th]
        · intro x hx; unfold St.core; simp [put_th, hx]
      · show (s.tree ++ [a]).Nodup
        rw [List.nodup_append]
        refine ⟨h.nod, by simp, ?_⟩
        intro y hy z hz e
        simp at hz
        exact hnt (by rw [← hz, ← e]; exact hy)
      · intro y hy
        simp only [put_th]
        split
        · rfl
        · rename_i hya
          rcases List.mem_append.1 hy with hy | hy
          · exact h.alv y hy
          · exact absurd (by simpa using hy) hya
      · intro x u _ hu
        simp only [put_th] at hu
        by_cases hx : x = a
        · rw [if_pos hx] at hu; cases hu
          simp [Live]
        · rw [if_neg hx] at hu
          exact h.live x u (by simp) hu
      · intro x u _ hu
        simp only [put_th] at hu
        by_cases hx : x = a
        · rw [if_pos hx] at hu; cases hu
          simp [Short, total, W]
        · rw [if_neg hx] at hu
          exact h.short x u (by simp) hu

theorem run_sat : ∀ (es : List Ev) (s : St), Inv s → (run s es).Sat Inv
  | [], _, h => h
  | e :: es, s, h => sat_bind Inv (step_sat s e h) fun s' h' => run_sat es s' h'

theorem inv_init : Inv St.init := by
  refine ⟨⟨?_, ?_, ?_, ?_, ?_, ?_⟩, by simp [St.init], by simp [St.init], ?_, ?_⟩
  all_goals intros; simp_all [St.init, St.core]

/-- Whatever messages come, in whatever pieces, whatever threads end, are restarted or created, however
little memory there is: no entry is used or taken out of a chain after it was freed or its thread was. -/
theorem itc_safe (es : List Ev) : run St.init es ≠ .ub := by
  have := run_sat es St.init inv_init
  intro e
  rw [e] at this
  exact this

/-- If anything waits to be written to a thread, the send handler is registered. -/
theorem itc_armed (es : List Ev) (s : St) (h : run St.init es = .ok s) (x : Nat) (t : Th) (hx : s.th x = some t) (hw : t.dest ≠ [] ∨ t.tx ≠ []) : t.armed = true := by
  have := run_sat es St.init inv_init
  rw [h] at this
  exact (this.live x t (by simp) hx).2 hw

/-- A message waits for thread 2 while its sender ends and is made again; a second one is sent under the same
address, and both are written. -/
example : (match run St.init [.create 1 "a" true, .create 2 "b" false, .recv 1 [enc ⟨"b", none, 1⟩] .again false [], .recv 1 [] .closed true [],
      .recv 1 [enc ⟨"b", none, 2⟩] .again false [], .send 2 [] false []] with
    | .ok s => (s.th 2).map fun t => decide (t.dest = [] ∧ t.out = enc ⟨"b", some "a", 1⟩ ++ enc ⟨"b", some "a", 2⟩)
    | _ => none) = some true := by decide +kernel

/-- Two messages wait; then the one they wait for ends. -/
example : (match run St.init [.create 1 "a" true, .create 2 "b" false, .recv 1 [enc ⟨"b", none, 1⟩, enc ⟨"b", none, 2⟩] .again false [],
      .recv 2 [] .closed false []] with
    | .ok s => (s.th 1).map fun t => decide (t.loc = [] ∧ (s.th 2) = none)
    | _ => none) = some true := by decide +kernel

/-- The send handler is registered again when only a part was written. -/
example : (match run St.init [.create 1 "a" true, .create 2 "b" false, .recv 1 [enc ⟨"b", none, 1⟩] .again false [], .send 2 [.part 5] false []] with
    | .ok s => (s.th 2).map fun t => (t.armed, t.tx.map Prod.snd)
    | _ => none) = some (true, [5]) := by decide +kernel

end Verif.Itc
