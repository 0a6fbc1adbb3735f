import Verif.LangSym

/-!
# Theorems about the names of scripts
-/
namespace Verif.LangSym

/-! ## Specification: one dictionary for each function being called -/

/-- The dictionaries, that of the running function first, that of the main program last. -/
abbrev Env (α : Type) := List (Name → Option α)

/-- A dictionary with one name changed. -/
def put {α : Type} (d : Name → Option α) (n : Name) (v : α) : Name → Option α := fun m => if m = n then some v else d m

/-- At most 1025 dictionaries. -/
def Env.step {α : Type} (e : Env α) : Op α → Env α
  | .push _ => if e.length ≤ 1024 then (fun _ => none) :: e else e
  | .pop => e.tail
  | .join n v => e.modify 0 fun d => put d n v
  | .upper n v => e.modify 1 fun d => put d n v

def Env.run {α : Type} (e : Env α) (os : List (Op α)) : Env α := os.foldl Env.step e

/-- A value is set only in a dictionary that exists. -/
def Safe {α : Type} : Env α → List (Op α) → Prop
  | _, [] => True
  | e, o :: os => (match o with
    | .join _ _ => 1 ≤ e.length
    | .upper _ _ => 2 ≤ e.length
    | _ => True) ∧ Safe (e.step o) os

/-- A name looked up: in the running function, or also in the main program. -/
def Env.look {α : Type} (e : Env α) (n : Name) (loc : Bool) : Option α :=
  match e.head? with
  | none => none
  | some d => match d n with
    | some v => some v
    | none => if loc then none else
      match e.getLast? with
      | none => none
      | some b => b n

/-- The dictionaries when a script begins. -/
def Env.main {α : Type} : Env α := [fun _ => none]

/-! ## The table holds the dictionaries -/

/-- A node is in the table. -/
def Has {α : Type} (st : St α) (n : Node α) : Prop := n ∈ st.buckets (hash n.name n.layer)

structure Rel {α : Type} (st : St α) (e : Env α) : Prop where
  len : st.scopes.length = e.length
  place : ∀ b n, n ∈ st.buckets b → hash n.name n.layer = b
  fresh : ∀ n, Has st n → n.id < st.next
  ids : ∀ n m, Has st n → Has st m → n.id = m.id → n = m
  uniq : ∀ n m, Has st n → Has st m → n.layer = m.layer → n.name = m.name → n = m
  lay : ∀ n, Has st n → 1 ≤ n.layer ∧ n.layer ≤ e.length
  scope : ∀ k s, st.scopes[k]? = some s →
    s.layer = e.length - k ∧ ∀ n, n ∈ s.chain ↔ Has st n ∧ n.layer = s.layer
  dict : ∀ k d, e[k]? = some d → ∀ n v, d n = some v ↔
    ∃ x, Has st x ∧ x.layer = e.length - k ∧ x.name = n ∧ x.data = v

theorem rel_main {α : Type} : Rel (main : St α) Env.main := by
  refine ⟨rfl, ?_, ?_, ?_, ?_, ?_, ?_, ?_⟩
  · intro b n h; cases h
  · intro n h; cases h
  · intro n m h; cases h
  · intro n m h; cases h
  · intro n h; cases h
  · intro k s h
    match k, h with
    | 0, h =>
      have := Option.some.inj h; subst this
      refine ⟨rfl, fun n => ⟨fun h => (by cases h), fun h => by cases h.1⟩⟩
    | k + 1, h => simp [main] at h
  · intro k d h
    match k, h with
    | 0, h =>
      have := Option.some.inj h; subst this
      intro n v
      refine ⟨fun h => (by cases h), fun ⟨x, h, _⟩ => by cases h⟩
    | k + 1, h => simp [Env.main] at h

theorem same_iff {α : Type} (l : Nat) (name : Name) (n : Node α) :
    same l name n = true ↔ n.layer = l ∧ n.name = name := by simp [same]

/-- What the search in one layer finds. -/
theorem searchIn_iff {α : Type} {st : St α} {e : Env α} (h : Rel st e) (l : Nat) (name : Name) (n : Node α) :
    searchIn st l name = some n ↔ Has st n ∧ n.layer = l ∧ n.name = name := by
  constructor
  · intro hs
    have h1 := List.find?_some hs
    have h2 := List.mem_of_find?_eq_some hs
    rw [same_iff] at h1
    refine ⟨?_, h1⟩
    unfold Has; rw [h1.1, h1.2]; exact h2
  · rintro ⟨h1, h2, h3⟩
    have hm : n ∈ st.buckets (hash name l) := by have := h1; unfold Has at this; rw [h2, h3] at this; exact this
    cases hf : searchIn st l name with
    | none =>
      have := List.find?_eq_none.1 hf n hm
      rw [same_iff] at this
      exact absurd ⟨h2, h3⟩ this
    | some m =>
      have g1 := List.find?_some hf
      have g2 := List.mem_of_find?_eq_some hf
      rw [same_iff] at g1
      have hasm : Has st m := by unfold Has; rw [g1.1, g1.2]; exact g2
      rw [h.uniq m n hasm h1 (by rw [g1.1, h2]) (by rw [g1.2, h3])]

theorem searchIn_dict {α : Type} {st : St α} {e : Env α} (h : Rel st e) {k : Nat} {s : Scope α} {d : Name → Option α}
    (hs : st.scopes[k]? = some s) (hd : e[k]? = some d) (name : Name) :
    (searchIn st s.layer name).map Node.data = d name := by
  have hl := (h.scope k s hs).1
  cases hf : searchIn st s.layer name with
  | none =>
    cases hv : d name with
    | none => rfl
    | some v =>
      obtain ⟨x, hx, h1, h2, _⟩ := (h.dict k d hd name v).1 hv
      have := (searchIn_iff h s.layer name x).2 ⟨hx, by rw [h1, hl], h2⟩
      rw [hf] at this; cases this
  | some n =>
    have := (searchIn_iff h s.layer name n).1 hf
    exact ((h.dict k d hd name n.data).2 ⟨n, this.1, by rw [this.2.1, hl], this.2.2, rfl⟩).symm

theorem search_look {α : Type} {st : St α} {e : Env α} (h : Rel st e) (name : Name) (loc : Bool) :
    (search st name loc).map Node.data = e.look name loc := by
  unfold search Env.look
  match hs : st.scopes, he : e with
  | [], [] => rfl
  | [], _ :: _ => have := h.len; rw [hs] at this; simp at this
  | _ :: _, [] => have := h.len; rw [hs] at this; simp at this
  | s :: rest, d :: ds =>
    have h0 := searchIn_dict h (k := 0) (s := s) (d := d) (by rw [hs]; rfl) rfl name
    simp only [List.head?_cons]
    cases hf : searchIn st s.layer name with
    | some n => rw [hf] at h0; rw [← h0]; rfl
    | none =>
      rw [hf] at h0; rw [← h0]
      simp only [Option.map_none]
      cases loc with
      | true => rfl
      | false =>
        simp only [Bool.false_eq_true, if_false]
        have hlen : rest.length = ds.length := by have := h.len; rw [hs] at this; simpa using this
        match hr : rest, hds : ds with
        | [], [] => exact h0
        | [], _ :: _ => simp at hlen
        | _ :: _, [] => simp at hlen
        | r :: rs, g :: gs =>
          have e1 : (r :: rs).getLast? = (s :: r :: rs)[rs.length + 1]? := by
            rw [List.getLast?_eq_getElem?]; rfl
          have e2 : (d :: g :: gs).getLast? = (d :: g :: gs)[rs.length + 1]? := by
            have : gs.length = rs.length := by simpa using hlen.symm
            rw [List.getLast?_eq_getElem?, List.length_cons, List.length_cons, this]; rfl
          rw [e1, e2]
          obtain ⟨x, hx⟩ : ∃ x, (s :: r :: rs)[rs.length + 1]? = some x :=
            ⟨_, List.getElem?_eq_getElem (by simp)⟩
          obtain ⟨y, hy⟩ : ∃ y, (d :: g :: gs)[rs.length + 1]? = some y :=
            ⟨_, List.getElem?_eq_getElem (by simp at hlen ⊢; omega)⟩
          rw [hx, hy]
          exact searchIn_dict h (k := rs.length + 1) (by rw [hs]; exact hx) hy name

theorem rel_push {α : Type} {st : St α} {e : Env α} (h : Rel st e) (name : Name) :
    Rel ((push st name).getD st) (e.step (.push name)) := by
  have key : ∀ (l : Nat), l = e.length + 1 →
      Rel { st with scopes := ⟨name, l, []⟩ :: st.scopes } ((fun _ => none) :: e) := by
    intro l hl
    refine ⟨by simp [h.len], h.place, h.fresh, h.ids, h.uniq, ?_, ?_, ?_⟩
    · intro n hn
      have := h.lay n hn
      exact ⟨this.1, by simp; omega⟩
    · intro k s hk
      match k, hk with
      | 0, hk =>
        have := Option.some.inj hk; subst this
        refine ⟨by simp [hl], fun n => ⟨fun hn => (by cases hn), fun ⟨hn, hl'⟩ => ?_⟩⟩
        have := h.lay n hn
        simp only at hl'
        omega
      | k + 1, hk =>
        have := h.scope k s hk
        refine ⟨by rw [this.1]; simp, this.2⟩
    · intro k d hk n v
      match k, hk with
      | 0, hk =>
        have := Option.some.inj hk; subst this
        refine ⟨fun hn => (by cases hn), fun ⟨x, hx, hl', _⟩ => ?_⟩
        have h2 := h.lay x hx
        simp at hl'
        omega
      | k + 1, hk =>
        rw [h.dict k d hk n v]
        simp only [List.length_cons, Nat.add_sub_add_right]
        exact Iff.rfl
  unfold push Env.step
  match hs : st.scopes with
  | [] =>
    have he : e.length = 0 := by have := h.len; rw [hs] at this; simpa using this.symm
    have := key 1 (by omega)
    rw [hs] at this
    simp only [Option.getD_some, he, Nat.zero_le, if_true]
    exact this
  | s :: rest =>
    have he : rest.length + 1 = e.length := by have := h.len; rw [hs] at this; simpa using this
    have hsl : scopeLen = 1024 := rfl
    dsimp only
    by_cases hc : rest.length < scopeLen
    · have := key (s.layer + 1) (by rw [(h.scope 0 s (by rw [hs]; rfl)).1]; simp)
      rw [hs] at this
      rw [if_pos hc, if_pos (show e.length ≤ 1024 by omega)]
      exact this
    · rw [if_neg hc, if_neg (show ¬ e.length ≤ 1024 by omega)]
      exact h

theorem mem_drops {α : Type} (l : List (Node α)) (bk : Nat → List (Node α)) (b : Nat) (n : Node α) :
    n ∈ drops bk l b ↔ n ∈ bk b ∧ ∀ m ∈ l, hash m.name m.layer = b → m.id ≠ n.id := by
  induction l generalizing bk with
  | nil => simp [drops]
  | cons m l ih =>
    rw [drops, ih]
    simp only [upd, List.mem_cons, forall_eq_or_imp]
    by_cases hb : b = hash m.name m.layer
    · rw [if_pos hb, ← hb]
      simp only [del, List.mem_filter, bne_iff_ne, ne_eq]
      constructor
      · rintro ⟨⟨h1, h2⟩, h3⟩; exact ⟨h1, fun _ h => h2 h.symm, h3⟩
      · rintro ⟨h1, h2, h3⟩; exact ⟨⟨h1, fun h => h2 trivial h.symm⟩, h3⟩
    · rw [if_neg hb]
      constructor
      · rintro ⟨h1, h3⟩; exact ⟨h1, fun h => absurd h.symm hb, h3⟩
      · rintro ⟨h1, _, h3⟩; exact ⟨h1, h3⟩

theorem rel_pop {α : Type} {st : St α} {e : Env α} (h : Rel st e) : Rel (pop st) (e.step .pop) := by
  unfold pop Env.step
  match hs : st.scopes, e, h with
  | [], [], h => exact h
  | [], _ :: _, h => have := h.len; rw [hs] at this; simp at this
  | _ :: _, [], h => have := h.len; rw [hs] at this; simp at this
  | s :: rest, d :: ds, h =>
    have hsc := h.scope 0 s (by rw [hs]; rfl)
    have hl0 : s.layer = ds.length + 1 := by rw [hsc.1]; simp
    -- the nodes that are left are those of the other layers
    have hmem : ∀ b n, n ∈ drops st.buckets s.chain b ↔ n ∈ st.buckets b ∧ n.layer ≠ s.layer := by
      intro b n
      rw [mem_drops]
      constructor
      · rintro ⟨h1, h2⟩
        refine ⟨h1, fun hl => ?_⟩
        have hn : Has st n := by have := h.place b n h1; unfold Has; rw [this]; exact h1
        exact h2 n ((hsc.2 n).2 ⟨hn, hl⟩) (h.place b n h1) rfl
      · rintro ⟨h1, h2⟩
        refine ⟨h1, fun m hm hb hid => ?_⟩
        have hn : Has st n := by have := h.place b n h1; unfold Has; rw [this]; exact h1
        have hm' := (hsc.2 m).1 hm
        have := h.ids m n hm'.1 hn hid
        rw [this] at hm'
        exact h2 hm'.2
    have hHas : ∀ n, Has (⟨drops st.buckets s.chain, rest, st.next⟩ : St α) n ↔ Has st n ∧ n.layer ≠ s.layer :=
      fun n => hmem _ n
    refine ⟨?_, ?_, ?_, ?_, ?_, ?_, ?_, ?_⟩
    · have := h.len; rw [hs] at this; simpa using this
    · intro b n hn; exact h.place b n ((hmem b n).1 hn).1
    · intro n hn; exact h.fresh n ((hHas n).1 hn).1
    · intro n m hn hm; exact h.ids n m ((hHas n).1 hn).1 ((hHas m).1 hm).1
    · intro n m hn hm; exact h.uniq n m ((hHas n).1 hn).1 ((hHas m).1 hm).1
    · intro n hn
      have h1 := (hHas n).1 hn
      have h2 := h.lay n h1.1
      simp only [List.length_cons] at h2
      simp only [List.tail_cons]
      omega
    · intro k r hk
      have hsr := h.scope (k + 1) r (by rw [hs]; exact hk)
      simp only [List.length_cons, Nat.add_sub_add_right] at hsr
      refine ⟨hsr.1, fun n => ?_⟩
      rw [hsr.2 n, hHas n]
      refine ⟨fun ⟨h1, h2⟩ => ⟨⟨h1, by omega⟩, h2⟩, fun ⟨⟨h1, _⟩, h2⟩ => ⟨h1, h2⟩⟩
    · intro k g hk n v
      rw [h.dict (k + 1) g hk n v]
      simp only [List.length_cons, Nat.add_sub_add_right, List.tail_cons]
      constructor
      · rintro ⟨x, h1, h2, h3⟩; exact ⟨x, (hHas x).2 ⟨h1, by omega⟩, h2, h3⟩
      · rintro ⟨x, h1, h2, h3⟩; exact ⟨x, ((hHas x).1 h1).1, h2, h3⟩

theorem layer_ne {l n k j : Nat} (h : l = n - k) (hk : k < n) (hj : j < n) (hjk : k ≠ j) : l ≠ n - j := by omega

theorem rel_joinAt {α : Type} {st : St α} {e : Env α} (h : Rel st e) (k : Nat) (hk : k < e.length) (name : Name)
    (v : α) : ∃ st', joinAt st k name v = some st' ∧ Rel st' (e.modify k fun d => put d name v) := by
  obtain ⟨s, hs⟩ : ∃ s, st.scopes[k]? = some s := ⟨_, List.getElem?_eq_getElem (by rw [h.len]; exact hk)⟩
  have hsc := h.scope k s hs
  have hlay : 1 ≤ s.layer ∧ s.layer ≤ e.length := by omega
  -- both branches give the same state but for the node that goes
  have key : ∀ (bl cl : List (Node α)),
      (∀ n, n ∈ bl ↔ n ∈ st.buckets (hash name s.layer) ∧ ¬ (n.layer = s.layer ∧ n.name = name)) →
      (∀ n, n ∈ cl ↔ n ∈ s.chain ∧ ¬ (n.layer = s.layer ∧ n.name = name)) →
      Rel (⟨upd st.buckets (hash name s.layer) (⟨st.next, name, s.layer, v⟩ :: bl),
        st.scopes.set k { s with chain := ⟨st.next, name, s.layer, v⟩ :: cl }, st.next + 1⟩ : St α)
        (e.modify k fun d => put d name v) := by
    intro bl cl hbl hcl
    have hHas : ∀ n, Has (⟨upd st.buckets (hash name s.layer) (⟨st.next, name, s.layer, v⟩ :: bl),
        st.scopes.set k { s with chain := ⟨st.next, name, s.layer, v⟩ :: cl }, st.next + 1⟩ : St α) n ↔
        n = ⟨st.next, name, s.layer, v⟩ ∨ (Has st n ∧ ¬ (n.layer = s.layer ∧ n.name = name)) := by
      intro n
      unfold Has
      simp only [upd]
      by_cases hb : hash n.name n.layer = hash name s.layer
      · rw [if_pos hb, List.mem_cons, hbl, hb]
      · rw [if_neg hb]
        constructor
        · intro hn; exact Or.inr ⟨hn, fun hh => hb (by rw [hh.1, hh.2])⟩
        · rintro (hn | hn)
          · exact absurd (by rw [hn]) hb
          · exact hn.1
    refine ⟨by simp [h.len], ?_, ?_, ?_, ?_, ?_, ?_, ?_⟩
    · intro b n hn
      simp only [upd] at hn
      by_cases hb : b = hash name s.layer
      · rw [if_pos hb, List.mem_cons] at hn
        rcases hn with hn | hn
        · rw [hn, hb]
        · rw [h.place _ n ((hbl n).1 hn).1, hb]
      · rw [if_neg hb] at hn; exact h.place b n hn
    · intro n hn
      rcases (hHas n).1 hn with hn | hn
      · rw [hn]; exact Nat.lt_succ_self _
      · exact Nat.lt_succ_of_lt (h.fresh n hn.1)
    · intro n m hn hm hid
      rcases (hHas n).1 hn with hn | hn <;> rcases (hHas m).1 hm with hm | hm
      · rw [hn, hm]
      · have := h.fresh m hm.1; rw [hn] at hid; simp only at hid; omega
      · have := h.fresh n hn.1; rw [hm] at hid; simp only at hid; omega
      · exact h.ids n m hn.1 hm.1 hid
    · intro n m hn hm h1 h2
      rcases (hHas n).1 hn with hn | hn <;> rcases (hHas m).1 hm with hm | hm
      · rw [hn, hm]
      · rw [hn] at h1 h2; exact absurd ⟨h1.symm, h2.symm⟩ hm.2
      · rw [hm] at h1 h2; exact absurd ⟨h1, h2⟩ hn.2
      · exact h.uniq n m hn.1 hm.1 h1 h2
    · intro n hn
      rw [List.length_modify]
      rcases (hHas n).1 hn with hn | hn
      · rw [hn]; exact hlay
      · exact h.lay n hn.1
    · intro j r hj
      rw [List.length_modify]
      rw [List.getElem?_set] at hj
      by_cases hjk : k = j
      · subst hjk
        rw [if_pos rfl, if_pos (by rw [h.len]; exact hk)] at hj
        have := Option.some.inj hj; subst this
        refine ⟨hsc.1, fun n => ?_⟩
        simp only [List.mem_cons]
        rw [hHas, hcl, hsc.2]
        constructor
        · rintro (h1 | ⟨⟨h1, h2⟩, h3⟩)
          · exact ⟨Or.inl h1, by rw [h1]⟩
          · exact ⟨Or.inr ⟨h1, h3⟩, h2⟩
        · rintro ⟨h1 | ⟨h1, h3⟩, h2⟩
          · exact Or.inl h1
          · exact Or.inr ⟨⟨h1, h2⟩, h3⟩
      · rw [if_neg hjk] at hj
        have hr := h.scope j r hj
        have hjl : j < e.length := by
          rw [← h.len]
          exact (List.getElem?_eq_some_iff.1 hj).1
        refine ⟨hr.1, fun n => ?_⟩
        rw [hr.2, hHas]
        constructor
        · rintro ⟨h1, h2⟩; exact ⟨Or.inr ⟨h1, fun hh => by omega⟩, h2⟩
        · rintro ⟨h1 | h1, h2⟩
          · rw [h1] at h2; simp only at h2; omega
          · exact ⟨h1.1, h2⟩
    · intro j g hj n w
      rw [List.length_modify]
      rw [List.getElem?_modify] at hj
      cases hg : e[j]? with
      | none => rw [hg] at hj; cases hj
      | some g0 =>
        rw [hg] at hj
        have hjl : j < e.length := (List.getElem?_eq_some_iff.1 hg).1
        have hgd := h.dict j g0 hg n w
        have hj' : (if k = j then put g0 name v else g0) = g := Option.some.inj hj
        by_cases hjk : k = j
        · subst hjk
          rw [if_pos rfl] at hj'
          subst hj'
          unfold put
          by_cases hn : n = name
          · rw [if_pos hn]
            constructor
            · intro hw
              exact ⟨⟨st.next, name, s.layer, v⟩, (hHas _).2 (Or.inl rfl), hsc.1, hn.symm, Option.some.inj hw⟩
            · rintro ⟨x, h1, h2, h3, h4⟩
              rcases (hHas x).1 h1 with h1 | h1
              · rw [← h4, h1]
              · exact absurd ⟨by omega, by rw [h3, hn]⟩ h1.2
          · rw [if_neg hn, hgd]
            constructor
            · rintro ⟨x, h1, h2, h3, h4⟩
              exact ⟨x, (hHas x).2 (Or.inr ⟨h1, fun hh => hn (by rw [← h3, hh.2])⟩), h2, h3, h4⟩
            · rintro ⟨x, h1, h2, h3, h4⟩
              rcases (hHas x).1 h1 with h1 | h1
              · rw [h1] at h3; exact absurd h3.symm hn
              · exact ⟨x, h1.1, h2, h3, h4⟩
        · rw [if_neg hjk] at hj'
          subst hj'
          rw [hgd]
          constructor
          · rintro ⟨x, h1, h2, h3, h4⟩
            exact ⟨x, (hHas x).2 (Or.inr ⟨h1, fun hh => layer_ne hsc.1 hk hjl hjk (hh.1.symm.trans h2)⟩), h2, h3, h4⟩
          · rintro ⟨x, h1, h2, h3, h4⟩
            rcases (hHas x).1 h1 with h1 | h1
            · rw [h1] at h2; exact absurd h2 (layer_ne hsc.1 hk hjl hjk)
            · exact ⟨x, h1.1, h2, h3, h4⟩
  unfold joinAt
  rw [hs]
  simp only
  cases hf : (st.buckets (hash name s.layer)).find? (same s.layer name) with
  | none =>
    have hno : ∀ n, Has st n → ¬ (n.layer = s.layer ∧ n.name = name) := by
      intro n hn hh
      have := (searchIn_iff h s.layer name n).2 ⟨hn, hh⟩
      rw [searchIn, hf] at this; cases this
    refine ⟨_, rfl, key _ _ (fun n => ?_) (fun n => ?_)⟩
    · refine ⟨fun hn => ⟨hn, hno n ?_⟩, fun hn => hn.1⟩
      have := h.place _ n hn; unfold Has; rw [this]; exact hn
    · exact ⟨fun hn => ⟨hn, hno n ((hsc.2 n).1 hn).1⟩, fun hn => hn.1⟩
  | some t =>
    have ht := (searchIn_iff h s.layer name t).1 hf
    have htc : t ∈ s.chain := (hsc.2 t).2 ⟨ht.1, ht.2.1⟩
    have hany : (s.chain.any fun m => m.id == t.id) = true := List.any_eq_true.2 ⟨t, htc, by simp⟩
    simp only [hany, if_true]
    have hidt : ∀ n, Has st n → (n.id ≠ t.id ↔ ¬ (n.layer = s.layer ∧ n.name = name)) := by
      intro n hn
      constructor
      · intro hne hh
        exact hne (by rw [h.uniq n t hn ht.1 (by rw [hh.1, ht.2.1]) (by rw [hh.2, ht.2.2])])
      · intro hh hid
        rw [h.ids n t hn ht.1 hid] at hh
        exact hh ht.2
    refine ⟨_, rfl, key _ _ (fun n => ?_) (fun n => ?_)⟩
    · simp only [del, List.mem_filter, bne_iff_ne]
      constructor
      · rintro ⟨h1, h2⟩
        have : Has st n := by have := h.place _ n h1; unfold Has; rw [this]; exact h1
        exact ⟨h1, (hidt n this).1 h2⟩
      · rintro ⟨h1, h2⟩
        have : Has st n := by have := h.place _ n h1; unfold Has; rw [this]; exact h1
        exact ⟨h1, (hidt n this).2 h2⟩
    · simp only [del, List.mem_filter, bne_iff_ne]
      constructor
      · rintro ⟨h1, h2⟩; exact ⟨h1, (hidt n ((hsc.2 n).1 h1).1).1 h2⟩
      · rintro ⟨h1, h2⟩; exact ⟨h1, (hidt n ((hsc.2 n).1 h1).1).2 h2⟩

theorem Env.step_len {α : Type} (e : Env α) (o : Op α) (h : e.length ≤ 1025) : (e.step o).length ≤ 1025 := by
  cases o with
  | push n => simp only [Env.step]; split <;> simp_all
  | pop => simp only [Env.step, List.length_tail]; omega
  | join n v => simpa [Env.step] using h
  | upper n v => simpa [Env.step] using h

theorem rel_step {α : Type} {st : St α} {e : Env α} (h : Rel st e) (hl : e.length ≤ 1025) (o : Op α) (os : List (Op α))
    (hs : Safe e (o :: os)) : ∃ st', step st o = some st' ∧ Rel st' (e.step o) := by
  cases o with
  | push n => exact ⟨_, rfl, rel_push h n⟩
  | pop => exact ⟨_, rfl, rel_pop h⟩
  | join n v => exact rel_joinAt h 0 hs.1 n v
  | upper n v =>
    have h2 : 2 ≤ e.length := hs.1
    have : scopeIn ((st.scopes.length : Int) - 2) = true := by
      rw [h.len]
      show decide (((e.length : Nat) : Int) - 2 ≤ ((1024 : Nat) : Int)) = true
      exact decide_eq_true (by omega)
    simp only [step, upperJoin, this, if_true]
    exact rel_joinAt h 1 (by omega) n v

theorem rel_run {α : Type} (os : List (Op α)) {st : St α} {e : Env α} (h : Rel st e) (hl : e.length ≤ 1025)
    (hs : Safe e os) : ∃ st', run st os = some st' ∧ Rel st' (e.run os) ∧ (e.run os).length ≤ 1025 := by
  induction os generalizing st e with
  | nil => exact ⟨st, rfl, h, hl⟩
  | cons o os ih =>
    obtain ⟨st1, h1, h2⟩ := rel_step h hl o os hs
    obtain ⟨st2, h3, h4⟩ := ih h2 (Env.step_len e o hl) hs.2
    exact ⟨st2, by rw [run, h1]; exact h3, h4⟩

/-! ## Looking up names (C263) -/

/-- Whatever a script does with its names – entering and leaving functions, setting variables, setting variables of
the caller – nothing outside the tables is touched, and every name looked up is what the dictionaries say: that of
the running function, and, when the look-up is not a local one, else that of the main program. -/
theorem names {α : Type} (os : List (Op α)) (hs : Safe Env.main os) :
    ∃ st, run main os = some st ∧ ∀ n loc, (search st n loc).map Node.data = (Env.main.run os).look n loc := by
  obtain ⟨st, h1, h2, _⟩ := rel_run os (rel_main (α := α)) (by simp [Env.main]) hs
  exact ⟨st, h1, fun n loc => search_look h2 n loc⟩

/-- A variable as scripts write it: only names that begin with a capital letter are looked up in the main program. -/
theorem names_id {α : Type} (os : List (Op α)) (hs : Safe Env.main os) :
    ∃ st, run main os = some st ∧ ∀ c n, (idSearch st (c :: n)).map Node.data =
      (Env.main.run os).look (c :: n) (!(decide (65 ≤ c) && decide (c ≤ 90))) := by
  obtain ⟨st, h1, h2⟩ := names os hs
  refine ⟨st, h1, fun c n => ?_⟩
  rw [idSearch, h2]
  have : isGlobalName (c :: n) = (decide (65 ≤ c) && decide (c ≤ 90)) := by
    simp only [isGlobalName]
    have h3 : (64 < c) = (65 ≤ c) := by simp [UInt8.lt_iff_toNat_lt, UInt8.le_iff_toNat_le]; omega
    have h4 : (c < 91) = (c ≤ 90) := by simp [UInt8.lt_iff_toNat_lt, UInt8.le_iff_toNat_le]; omega
    simp only [h3, h4]
  rw [this]

example : (do
    let st ← run main [.join [97] 1, .join [65] 2, .push [102], .join [98] 3]
    some ((idSearch st [97]).map Node.data, (idSearch st [65]).map Node.data, (idSearch st [98]).map Node.data)) =
    some (none, some 2, some 3) := by decide +kernel

example : (do
    let st ← run main [.join [97] 1, .push [102], .join [97] 3, .pop]
    some ((idSearch st [97]).map Node.data)) = some (some 1) := by decide +kernel

/-! ## Leaving a function (C264) -/

theorem run_append {α : Type} (as bs : List (Op α)) (e : Env α) : e.run (as ++ bs) = (e.run as).run bs := by
  simp [Env.run]

/-- What a function does: it sets its own variables and calls functions, that do the same, `k` calls deep at most. -/
inductive Depth {α : Type} : List (Op α) → Nat → Prop where
  | nil (k : Nat) : Depth [] k
  | join (n : Name) (v : α) {os : List (Op α)} {k : Nat} : Depth os k → Depth (.join n v :: os) k
  | call (n : Name) {as bs : List (Op α)} {k : Nat} : Depth as k → Depth bs (k + 1) →
      Depth (.push n :: as ++ .pop :: bs) (k + 1)

theorem body_run {α : Type} {os : List (Op α)} {k : Nat} (h : Depth os k) (d : Name → Option α) (e : Env α)
    (hl : e.length + 1 + k ≤ 1025) : ∃ d', Env.run (d :: e) os = d' :: e := by
  induction h generalizing d e with
  | nil k => exact ⟨d, rfl⟩
  | join n v h ih => exact ih (put d n v) e hl
  | @call n as bs k h1 h2 ih1 ih2 =>
    obtain ⟨d1, e1⟩ := ih1 (fun _ => none) (d :: e) (by simp; omega)
    obtain ⟨d2, e2⟩ := ih2 d e hl
    refine ⟨d2, ?_⟩
    rw [run_append]
    have : Env.run (d :: e) (.push n :: as) = Env.run ((fun _ => none) :: d :: e) as := by
      rw [Env.run, List.foldl_cons, Env.step, if_pos (by simp; omega)]; rfl
    rw [this, e1]
    exact e2

theorem body_safe {α : Type} {os : List (Op α)} {k : Nat} (h : Depth os k) (d : Name → Option α) (e : Env α)
    (hl : e.length + 1 + k ≤ 1025) (rest : List (Op α)) (hr : ∀ d', Safe (d' :: e) rest) :
    Safe (d :: e) (os ++ rest) := by
  induction h generalizing d e rest with
  | nil k => exact hr d
  | join n v h ih => exact ⟨by simp, ih (put d n v) e hl rest hr⟩
  | call n h1 h2 ih1 ih2 =>
    refine ⟨trivial, ?_⟩
    rw [Env.step, if_pos (by simp; omega)]
    have := ih1 (fun _ => none) (d :: e) (by simp; omega) (.pop :: (_ ++ rest))
      (fun d' => ⟨trivial, ih2 d e hl rest hr⟩)
    simpa using this

/-- After a call everything is as it was before it: whatever the script did before (`os`), and whatever the function
does with its own variables and in calls of its own, as long as the stack of scopes is deep enough for them.  Nothing
the script does afterwards (`cs`) shows a difference. -/
theorem call_restores {α : Type} (os body : List (Op α)) (f : Name) (k : Nat) (hs : Safe Env.main os)
    (hb : Depth body k) (hl : (Env.main.run os).length + 1 + k ≤ 1025) :
    ∃ st st', run main os = some st ∧ run st (.push f :: body ++ [.pop]) = some st' ∧
      ∀ cs, Safe (Env.main.run os) cs → ∃ a b, run st cs = some a ∧ run st' cs = some b ∧
        ∀ n loc, (search b n loc).map Node.data = (search a n loc).map Node.data := by
  obtain ⟨st, h1, h2, h2l⟩ := rel_run os (rel_main (α := α)) (by simp [Env.main]) hs
  have hsafe : Safe (Env.main.run os) (.push f :: body ++ [.pop]) := by
    refine ⟨trivial, ?_⟩
    rw [Env.step, if_pos (by omega)]
    exact body_safe hb _ _ hl [.pop] fun d' => ⟨trivial, trivial⟩
  obtain ⟨st', h3, h4, _⟩ := rel_run _ h2 h2l hsafe
  have he : (Env.main.run os).run (.push f :: body ++ [.pop]) = Env.main.run os := by
    rw [run_append]
    have : (Env.main.run os).run (.push f :: body) = Env.run ((fun _ => none) :: Env.main.run os) body := by
      rw [Env.run, List.foldl_cons, Env.step, if_pos (by omega)]; rfl
    rw [this]
    obtain ⟨d', e'⟩ := body_run hb (fun _ => none) (Env.main.run os) hl
    rw [e']; rfl
  rw [he] at h4
  refine ⟨st, st', h1, h3, fun cs hc => ?_⟩
  obtain ⟨a, a1, a2, _⟩ := rel_run cs h2 h2l hc
  obtain ⟨b, b1, b2, _⟩ := rel_run cs h4 h2l hc
  exact ⟨a, b, a1, b1, fun n loc => by rw [search_look a2, search_look b2]⟩

/-- A function begins without any variable of its own: none of its caller's, none of an earlier call. -/
theorem call_fresh {α : Type} (os : List (Op α)) (f : Name) (hs : Safe Env.main os)
    (hl : (Env.main.run os).length ≤ 1024) :
    ∃ st, run main (os ++ [.push f]) = some st ∧ ∀ n, search st n true = none := by
  have hsafe : ∀ e : Env α, Safe e os → Safe e (os ++ [.push f]) := by
    clear hs hl
    induction os with
    | nil => intro e _; exact ⟨trivial, trivial⟩
    | cons o os ih => intro e h; exact ⟨h.1, ih _ h.2⟩
  obtain ⟨st, h1, h2, _⟩ := rel_run (os ++ [.push f]) (rel_main (α := α)) (by simp [Env.main]) (hsafe _ hs)
  refine ⟨st, h1, fun n => ?_⟩
  have := search_look h2 n true
  rw [run_append] at this
  rw [show Env.run (Env.main.run os) [.push f] = (fun _ => none) :: Env.main.run os by
    show Env.step (Env.main.run os) (.push f) = _
    rw [Env.step, if_pos hl]] at this
  simpa [Env.look] using this

example : (do
    let st ← run main [.join [97] 1, .push [102], .join [97] 3, .push [103], .join [97] 4, .pop, .join [98] 5, .pop]
    some ((idSearch st [97]).map Node.data, (idSearch st [98]).map Node.data)) = some (some 1, none) := by
  decide +kernel

/-! ## A variable for the caller, from the main program (C265) -/

/-- In the main program `mln_lang_symbol_node_upper_join` writes below the array of scopes, always. -/
theorem upper_outside {α : Type} (os : List (Op α)) (hs : Safe Env.main os) (h1 : (Env.main.run os).length = 1)
    (n : Name) (v : α) : ∃ st, run main os = some st ∧ upperJoin st n v = none := by
  obtain ⟨st, h2, h3, _⟩ := rel_run os (rel_main (α := α)) (by simp [Env.main]) hs
  refine ⟨st, h2, ?_⟩
  have hl := h3.len
  rw [h1] at hl
  unfold upperJoin
  rw [hl]
  have : scopeIn (((1 : Nat) : Int) - 2) = true := by decide
  rw [this, if_pos rfl]
  unfold joinAt
  rw [List.getElem?_eq_none (by omega)]

/-- In a function it sets the caller's variable and nothing else. -/
theorem upper_partial {α : Type} (os : List (Op α)) (hs : Safe Env.main os) (h2 : 2 ≤ (Env.main.run os).length)
    (n : Name) (v : α) : ∃ st st', run main os = some st ∧ upperJoin st n v = some st' ∧
      (search (pop st') n true).map Node.data = some v ∧
      (∀ m, m ≠ n → (search (pop st') m true).map Node.data = (search (pop st) m true).map Node.data) ∧
      ∀ m, (search st' m true).map Node.data = (search st m true).map Node.data := by
  obtain ⟨st, g1, g2, g3⟩ := rel_run os (rel_main (α := α)) (by simp [Env.main]) hs
  obtain ⟨st', g4, g5⟩ := rel_step g2 g3 (.upper n v) [] ⟨h2, trivial⟩
  refine ⟨st, st', g1, g4, ?_⟩
  have p' := rel_pop g5
  have p := rel_pop g2
  match he : Env.main.run os with
  | [] => rw [he] at h2; simp at h2
  | [_] => rw [he] at h2; simp at h2
  | d :: c :: e =>
    rw [he] at p p' g5 g2
    refine ⟨?_, fun m hm => ?_, fun m => ?_⟩
    · rw [search_look p']; simp [Env.step, Env.look, List.modify, put]
    · rw [search_look p', search_look p]; simp [Env.step, Env.look, List.modify, put, hm]
    · rw [search_look g5, search_look g2]; simp [Env.step, Env.look, List.modify]

example : (upperJoin (main : St Nat) [97] 1).isNone = true := by decide +kernel
example : (do
    let st ← run main [.push [102], .upper [97] 7, .pop]
    some ((idSearch st [97]).map Node.data)) = some (some 7) := by decide +kernel

/-! ## Calling a function by its name (C266) -/

/-- Specification: what calling a name comes to.  A name that stands for a string calls the name in the string. -/
inductive Calls (e : Env Data) : Name → Res → Prop where
  | func {n : Name} {f : Nat} : e.look n false = some (.var (.func f)) → Calls e n (.func f n)
  | str {n s : Name} {r : Res} : e.look n false = some (.var (.str s)) → Calls e s r → Calls e n r
  | unknown {n : Name} : e.look n false = none → Calls e n .err
  | set {n : Name} {k : Nat} : e.look n false = some (.set k) → Calls e n .err
  | nil {n : Name} : e.look n false = some (.var .nil) → Calls e n .err
  | other {n : Name} {k : Nat} : e.look n false = some (.var (.other k)) → Calls e n .err
  | arr {n : Name} {l : List Val} : e.look n false = some (.var (.arr l)) → Calls e n .err

theorem resolve_look {st : St Data} {e : Env Data} (h : Rel st e) (fuel : Nat) (n : Name) :
    resolve st (fuel + 1) n = match e.look n false with
      | some (.var (.func f)) => some (.func f n)
      | some (.var (.str s)) => resolve st fuel s
      | _ => some .err := by
  rw [← search_look h, resolve]
  cases search st n false with
  | none => rfl
  | some x =>
    obtain ⟨id, name, layer, data⟩ := x
    cases data with
    | set k => rfl
    | var v => cases v <;> rfl

theorem resolve_iff {st : St Data} {e : Env Data} (h : Rel st e) (n : Name) (r : Res) :
    (∃ fuel, resolve st fuel n = some r) ↔ Calls e n r := by
  constructor
  · rintro ⟨fuel, hf⟩
    induction fuel generalizing n with
    | zero => cases hf
    | succ fuel ih =>
      rw [resolve_look h] at hf
      split at hf
      · next f heq => cases hf; exact .func heq
      · next s heq => exact .str heq (ih s hf)
      · next h1 h2 =>
        cases hf
        cases hl : e.look n false with
        | none => exact .unknown hl
        | some d => cases d with
          | set k => exact .set hl
          | var v => cases v with
            | nil => exact .nil hl
            | str s => exact absurd hl (h2 s)
            | func f => exact absurd hl (h1 f)
            | other k => exact .other hl
            | arr l => exact .arr hl
  · intro hc
    induction hc with
    | func hl => exact ⟨1, by rw [resolve_look h, hl]⟩
    | str hl _ ih => obtain ⟨fuel, hf⟩ := ih; exact ⟨fuel + 1, by rw [resolve_look h, hl]; exact hf⟩
    | unknown hl => exact ⟨1, by rw [resolve_look h, hl]⟩
    | set hl => exact ⟨1, by rw [resolve_look h, hl]⟩
    | nil hl => exact ⟨1, by rw [resolve_look h, hl]⟩
    | other hl => exact ⟨1, by rw [resolve_look h, hl]⟩
    | arr hl => exact ⟨1, by rw [resolve_look h, hl]⟩

/-- The search for the function of a call, in every state a script can reach, ends with what the specification says
and only with that. -/
theorem call_partial (os : List (Op Data)) (hs : Safe Env.main os) : ∃ st, run main os = some st ∧
    ∀ n r, (∃ fuel, resolve st fuel n = some r) ↔ Calls (Env.main.run os) n r := by
  obtain ⟨st, h1, h2, _⟩ := rel_run os (rel_main (α := Data)) (by simp [Env.main]) hs
  exact ⟨st, h1, fun n r => resolve_iff h2 n r⟩

/-- It does not always end: when each of some names stands for a string that is one of these names, calling any of
them never returns. -/
theorem call_hangs (st : St Data) (P : Name → Prop)
    (h : ∀ n, P n → ∃ x s, search st n false = some x ∧ x.data = .var (.str s) ∧ P s) (fuel : Nat) (n : Name)
    (hn : P n) : resolve st fuel n = none := by
  induction fuel generalizing n with
  | zero => rfl
  | succ fuel ih =>
    obtain ⟨x, s, h1, h2, h3⟩ := h n hn
    rw [resolve, h1]
    simp only [h2]
    exact ih s h3

theorem safe_append {α : Type} (os cs : List (Op α)) (e : Env α) (h1 : Safe e os) (h2 : Safe (e.run os) cs) :
    Safe e (os ++ cs) := by
  induction os generalizing e with
  | nil => exact h2
  | cons o os ih => exact ⟨h1.1, ih _ h1.2 h2⟩

/-- Whatever a script has done before: after `a = 'a';` the call `a();` never returns, and neither does `$a`, for any
name `a`. -/
theorem call_self_hangs (os : List (Op Data)) (hs : Safe Env.main os) (hd : 1 ≤ (Env.main.run os).length) (a : Name) :
    ∃ st, run main (os ++ [.join a (.var (.str a))]) = some st ∧
      ∀ fuel, resolve st fuel a = none ∧ resolveSet st fuel a = none := by
  obtain ⟨st, h1, h2, _⟩ := rel_run (os ++ [.join a (.var (.str a))]) (rel_main (α := Data)) (by simp [Env.main])
    (safe_append _ _ _ hs ⟨hd, trivial⟩)
  have hlook : ∀ loc, (Env.main.run (os ++ [.join a (.var (.str a))])).look a loc = some (.var (.str a)) := by
    intro loc
    rw [run_append]
    match Env.main.run os, hd with
    | d :: e, _ => simp [Env.run, Env.step, Env.look, List.modify, put]
  have hsearch : ∀ loc, ∃ x, search st a loc = some x ∧ x.data = .var (.str a) := by
    intro loc
    have := search_look h2 a loc
    rw [hlook] at this
    cases hx : search st a loc with
    | none => rw [hx] at this; cases this
    | some x => rw [hx] at this; exact ⟨x, rfl, Option.some.inj this⟩
  refine ⟨st, h1, fun fuel => ⟨?_, ?_⟩⟩
  · obtain ⟨x, hx, hxd⟩ := hsearch false
    exact call_hangs st (fun n => n = a) (by rintro n rfl; exact ⟨x, n, hx, hxd, rfl⟩) fuel a rfl
  · induction fuel with
    | zero => rfl
    | succ fuel ih =>
      obtain ⟨x, hx, hxd⟩ := hsearch false
      obtain ⟨y, hy, hyd⟩ := hsearch (!isGlobalName a)
      rw [resolveSet]
      simp only [idSearch, hx, hxd, hy, hyd]
      exact ih

example : (do
    let st ← run main [.join [102] (.var (.func 1)), .join [97] (.var (.str [102]))]
    resolve st 5 [97]) = some (.func 1 [102]) := by decide +kernel
example : (do
    let st ← run main [.join [97] (.var (.str [98])), .join [98] (.var (.str [97]))]
    resolve st 1000 [97]) = none := by decide +kernel

/-- `$X` makes an object of the set that `X` is; if `X` is a variable with a string, the search goes on with that
name, and otherwise there is none. -/
theorem new_partial (st : St Data) (fuel : Nat) (name : Name) :
    (∀ n k, search st name false = some n → n.data = .set k → resolveSet st (fuel + 1) name = some (some k)) ∧
    (∀ n m v s, search st name false = some n → n.data = .var v → idSearch st name = some m → m.data = .var (.str s) →
      resolveSet st (fuel + 1) name = resolveSet st fuel s) ∧
    (search st name false = none → idSearch st name = none → resolveSet st (fuel + 1) name = some none) := by
  refine ⟨fun n k h1 h2 => ?_, fun n m v s h1 h2 h3 h4 => ?_, fun h1 h2 => ?_⟩
  · rw [resolveSet]; simp only [h1, h2]
  · rw [resolveSet]; simp only [h1, h2, h3, h4]
  · rw [resolveSet]; simp only [h1, h2]

example : (do
    let st ← run main [.join [102] (.set 3), .join [97] (.var (.str [102]))]
    some (resolveSet st 5 [97], resolveSet st 5 [102], resolveSet st 5 [98])) =
      some (some (some 3), some (some 3), some none) := by decide +kernel

/-! ## The arguments of a call (C267) -/

/-- The last value set for a name. -/
def lastOf (l : List (Name × Val)) (n : Name) : Option Val :=
  (l.reverse.find? fun p => p.1 == n).map Prod.snd

theorem joins_run (l : List (Name × Val)) (st : St Data) :
    joins st l = run st (l.map fun p => .join p.1 (.var p.2)) := by
  induction l generalizing st with
  | nil => rfl
  | cons p l ih =>
    rw [joins, List.map_cons, run, step]
    cases join st p.1 (.var p.2) with
    | none => rfl
    | some st' => exact ih st'

theorem env_joins (l : List (Name × Val)) (d : Name → Option Data) (e : Env Data) :
    ∃ d', Env.run (d :: e) (l.map fun p => .join p.1 (.var p.2)) = d' :: e ∧
      ∀ n, d' n = match lastOf l n with
        | some v => some (.var v)
        | none => d n := by
  induction l generalizing d with
  | nil => exact ⟨d, rfl, fun n => rfl⟩
  | cons p l ih =>
    obtain ⟨d', h1, h2⟩ := ih (put d p.1 (.var p.2))
    refine ⟨d', h1, fun n => ?_⟩
    rw [h2]
    have : lastOf (p :: l) n = match lastOf l n with
        | some v => some v
        | none => if p.1 = n then some p.2 else none := by
      unfold lastOf
      rw [List.reverse_cons, List.find?_append]
      cases l.reverse.find? fun p => p.1 == n with
      | some x => rfl
      | none =>
        by_cases hp : p.1 = n
        · simp [hp]
        · simp [hp]
    rw [this]
    cases lastOf l n with
    | some v => rfl
    | none =>
      simp only [put]
      by_cases hp : p.1 = n
      · rw [if_pos hp.symm, if_pos hp]
      · rw [if_neg (fun hh => hp hh.symm), if_neg hp]

theorem safe_joins (l : List (Name × Val)) (d : Name → Option Data) (e : Env Data) :
    Safe (d :: e) (l.map fun p => .join p.1 (.var p.2)) := by
  induction l generalizing d with
  | nil => trivial
  | cons p l ih => exact ⟨by simp, ih _⟩

/-- The variables of a function when it begins: the last of those set for a name, in this order – `this`, the
parameters, `args`, the captured variables. -/
theorem enter_vars (os : List (Op Data)) (hs : Safe Env.main os) (hl : (Env.main.run os).length ≤ 1024)
    (hd : 1 ≤ (Env.main.run os).length)
    (f : Name) (this : Option Val) (p : Proto) (vals : List Val) :
    ∃ st st', run main os = some st ∧ enter st f this p vals = some (some st') ∧
      (∀ n, (search st' n true).map Node.data = (lastOf ((this.toList.map fun v => (thisName, v)) ++
        bound p.args vals ++ (if p.args.length < vals.length then [(argsName, .arr (vals.drop p.args.length))] else [])
        ++ p.closure) n).map Data.var) ∧
      ∀ n loc, (search (pop st') n loc).map Node.data = (search st n loc).map Node.data := by
  obtain ⟨st, h1, h2, h3⟩ := rel_run os (rel_main (α := Data)) (by simp [Env.main]) hs
  have hp := rel_push h2 f
  rw [Env.step, if_pos hl] at hp
  obtain ⟨st1, hst1⟩ : ∃ st1, push st f = some st1 := by
    unfold push
    match hsc : st.scopes with
    | [] => exact ⟨_, rfl⟩
    | s :: rest =>
      have := h2.len; rw [hsc] at this
      have h4 : rest.length < scopeLen := by show rest.length < 1024; simp at this; omega
      exact ⟨_, if_pos h4⟩
  rw [hst1] at hp
  simp only [Option.getD_some] at hp
  let l := (this.toList.map fun v => (thisName, v)) ++
        bound p.args vals ++ (if p.args.length < vals.length then [(argsName, .arr (vals.drop p.args.length))] else [])
        ++ p.closure
  obtain ⟨st2, h5, h6, _⟩ := rel_run (l.map fun p => .join p.1 (.var p.2)) hp (by simp; omega) (safe_joins _ _ _)
  obtain ⟨d', h7, h8⟩ := env_joins l (fun _ => none) (Env.main.run os)
  rw [h7] at h6
  refine ⟨st, st2, h1, ?_, fun n => ?_, fun n loc => ?_⟩
  · unfold enter
    rw [hst1]
    simp only
    rw [joins_run, h5]
    rfl
  · rw [search_look h6]
    simp only [Env.look, List.head?_cons, if_true]
    rw [h8]
    cases lastOf l n <;> rfl
  · have h9 := rel_pop h6
    rw [search_look h9, search_look h2]
    rfl

theorem bound_get (ps : List Name) (vs : List Val) :
    (bound ps vs).map Prod.fst = ps ∧ ∀ i (h : i < ps.length), (bound ps vs)[i]? = some (ps[i], vs[i]?.getD .nil) := by
  induction ps generalizing vs with
  | nil => exact ⟨rfl, fun i h => absurd h (by simp)⟩
  | cons p ps ih =>
    cases vs with
    | nil =>
      refine ⟨by simp [bound, (ih []).1], fun i h => ?_⟩
      cases i with
      | zero => rfl
      | succ i => simpa [bound] using (ih []).2 i (by simpa using h)
    | cons v vs =>
      refine ⟨by simp [bound, (ih vs).1], fun i h => ?_⟩
      cases i with
      | zero => rfl
      | succ i => simpa [bound] using (ih vs).2 i (by simpa using h)

theorem lastOf_append (a b : List (Name × Val)) (n : Name) : lastOf (a ++ b) n = (lastOf b n).or (lastOf a n) := by
  unfold lastOf
  rw [List.reverse_append, List.find?_append]
  cases b.reverse.find? fun p => p.1 == n <;> simp

theorem lastOf_none (l : List (Name × Val)) (n : Name) (h : n ∉ l.map Prod.fst) : lastOf l n = none := by
  unfold lastOf
  have : (l.reverse.find? fun p => p.1 == n) = none := by
    rw [List.find?_eq_none]
    intro x hx hh
    exact h (List.mem_map.2 ⟨x, List.mem_reverse.1 hx, by simpa using hh⟩)
  rw [this]; rfl

theorem lastOf_nodup (l : List (Name × Val)) (hn : (l.map Prod.fst).Nodup) (i : Nat) (n : Name) (v : Val)
    (h : l[i]? = some (n, v)) : lastOf l n = some v := by
  induction l generalizing i with
  | nil => simp at h
  | cons p l ih =>
    rw [show p :: l = [p] ++ l from rfl, lastOf_append]
    rw [List.map_cons, List.nodup_cons] at hn
    cases i with
    | zero =>
      have hp : p = (n, v) := by simpa using h
      subst hp
      rw [lastOf_none l n hn.1]
      simp [lastOf]
    | succ i => rw [ih hn.2 i (by simpa using h)]; rfl

/-- Every parameter is the argument at its place, or nil when there are fewer arguments; the arguments left over are
in order in the array `args`; and the caller has its variables back when the function ends.  Parameters must have
different names, not those of captured variables, and none be called `args` where arguments are left over. -/
theorem args_bound (os : List (Op Data)) (hs : Safe Env.main os) (hl : (Env.main.run os).length ≤ 1024)
    (hd : 1 ≤ (Env.main.run os).length) (f : Name) (this : Option Val) (p : Proto) (vals : List Val)
    (hnd : p.args.Nodup) (hcl : ∀ n ∈ argsName :: p.args, n ∉ p.closure.map Prod.fst)
    (hna : p.args.length < vals.length → argsName ∉ p.args) :
    ∃ st st', run main os = some st ∧ enter st f this p vals = some (some st') ∧
      (∀ i (h : i < p.args.length),
        (search st' p.args[i] true).map Node.data = some (.var (vals[i]?.getD .nil))) ∧
      (p.args.length < vals.length →
        (search st' argsName true).map Node.data = some (.var (.arr (vals.drop p.args.length)))) ∧
      ∀ n loc, (search (pop st') n loc).map Node.data = (search st n loc).map Node.data := by
  obtain ⟨st, st', h1, h2, h3, h4⟩ := enter_vars os hs hl hd f this p vals
  refine ⟨st, st', h1, h2, fun i h => ?_, fun h => ?_, h4⟩
  · have hm : p.args[i] ∈ p.args := List.getElem_mem h
    rw [h3, lastOf_append, lastOf_none p.closure _ (hcl _ (List.mem_cons_of_mem _ hm)), lastOf_append]
    have hb := bound_get p.args vals
    have hlb := lastOf_nodup (bound p.args vals) (by rw [hb.1]; exact hnd) i _ _ (hb.2 i h)
    rw [lastOf_append, hlb]
    have : lastOf (if p.args.length < vals.length then [(argsName, .arr (vals.drop p.args.length))] else [])
        p.args[i] = none := by
      split
      · next hlt =>
        apply lastOf_none
        simp only [List.map_cons, List.map_nil, List.mem_singleton]
        intro hh
        exact hna hlt (hh ▸ hm)
      · rfl
    rw [this]; rfl
  · rw [h3, lastOf_append, lastOf_none p.closure _ (hcl _ List.mem_cons_self), lastOf_append, if_pos h]
    simp [lastOf]

/-- A parameter that has the name of a captured variable never gets its argument. -/
theorem closure_wins (os : List (Op Data)) (hs : Safe Env.main os) (hl : (Env.main.run os).length ≤ 1024)
    (hd : 1 ≤ (Env.main.run os).length) (f : Name) (this : Option Val) (ps : List Name) (n : Name) (c : Val)
    (vals : List Val) : ∃ st st', run main os = some st ∧ enter st f this ⟨ps, [(n, c)]⟩ vals = some (some st') ∧
      (search st' n true).map Node.data = some (.var c) := by
  obtain ⟨st, st', h1, h2, h3, _⟩ := enter_vars os hs hl hd f this ⟨ps, [(n, c)]⟩ vals
  refine ⟨st, st', h1, h2, ?_⟩
  rw [h3, lastOf_append]
  simp [lastOf]

/-- The value of a variable as a number, for the examples. -/
def num : Option (Node Data) → Nat
  | some ⟨_, _, _, .var (.other k)⟩ => k
  | some ⟨_, _, _, .var .nil⟩ => 100
  | some ⟨_, _, _, .var (.arr l)⟩ => 200 + l.length
  | _ => 300

example : (do
    let st ← enter main [102] none ⟨[[97], [98]], []⟩ [.other 1]
    let st ← st
    some (num (search st [97] true), num (search st [98] true))) = some (1, 100) := by decide +kernel
example : (do
    let st ← enter main [102] none ⟨[[97]], [([99], .other 9)]⟩ [.other 1, .other 2, .other 3]
    let st ← st
    some (num (search st [97] true), num (search st argsName true), num (search st [99] true))) =
    some (1, 202, 9) := by decide +kernel

/-! ## Operators a script defines (C268) -/

/-- Specification: the function of the operator if there is one, the operation itself otherwise, and in the function
of the operator. -/
def specOperator (st : St Data) (name : Name) : Oper :=
  if name ∈ st.scopes.map Scope.name then .plain else
  match (search st name false).map Node.data with
  | some (.var (.func f)) => .call f
  | _ => .plain

theorem overload_outside {α : Type} (name : Name) (l : List (Scope α)) (i : Int) (hi : i ≤ 1024)
    (h : name ∉ l.map Scope.name) : overloadTest name i l = none := by
  induction l generalizing i with
  | nil =>
    have : scopeIn i = true := decide_eq_true (show i ≤ ((1024 : Nat) : Int) by omega)
    rw [overloadTest, this]; rfl
  | cons s l ih =>
    have : scopeIn i = true := decide_eq_true (show i ≤ ((1024 : Nat) : Int) by omega)
    rw [List.map_cons, List.mem_cons, not_or] at h
    rw [overloadTest, this, if_pos rfl, if_neg (fun e => h.1 e.symm)]
    exact ih (i - 1) (by omega) h.2

theorem overload_inside {α : Type} (name : Name) (l : List (Scope α)) (i : Int) (hi : i ≤ 1024)
    (h : name ∈ l.map Scope.name) : overloadTest name i l = some true := by
  induction l generalizing i with
  | nil => simp at h
  | cons s l ih =>
    have : scopeIn i = true := decide_eq_true (show i ≤ ((1024 : Nat) : Int) by omega)
    rw [overloadTest, this, if_pos rfl]
    by_cases hs : s.name = name
    · rw [if_pos hs]
    · rw [if_neg hs]
      rw [List.map_cons, List.mem_cons] at h
      exact ih (i - 1) (by omega) (h.resolve_left fun e => hs e.symm)

/-- Once the flag of a type is set, every operator on its values reads below the array of scopes, except where the
function of that operator is running; so no function that a script defines for an operator is ever called for it. -/
theorem operator_outside (os : List (Op Data)) (hs : Safe Env.main os) : ∃ st, run main os = some st ∧
    ∀ name, name ∉ st.scopes.map Scope.name → operator st true name = none := by
  obtain ⟨st, h1, h2, h3⟩ := rel_run os (rel_main (α := Data)) (by simp [Env.main]) hs
  refine ⟨st, h1, fun name hn => ?_⟩
  have hlen := h2.len
  unfold operator
  rw [if_pos rfl, overload_outside name st.scopes _ (by omega) hn]

/-- Where it is defined, an operator is as specified: without the flag it is the operation, whatever is defined; with
the flag only in the function of the operator itself. -/
theorem operator_partial (os : List (Op Data)) (hs : Safe Env.main os) : ∃ st, run main os = some st ∧
    (∀ name, operator st false name = some .plain) ∧
    ∀ name r, operator st true name = some r ↔ name ∈ st.scopes.map Scope.name ∧ r = specOperator st name := by
  obtain ⟨st, h1, h2, h3⟩ := rel_run os (rel_main (α := Data)) (by simp [Env.main]) hs
  have hlen := h2.len
  refine ⟨st, h1, fun _ => rfl, fun name r => ?_⟩
  by_cases hn : name ∈ st.scopes.map Scope.name
  · unfold operator specOperator
    rw [if_pos rfl, overload_inside name st.scopes _ (by omega) hn, if_pos hn]
    simp only [Option.some.injEq]
    exact ⟨fun e => ⟨hn, e.symm⟩, fun e => e.2.symm⟩
  · unfold operator
    rw [if_pos rfl, overload_outside name st.scopes _ (by omega) hn]
    exact ⟨fun e => (by cases e), fun e => absurd e.1 hn⟩

/-- The flag is set by any definition whose name has more than 18 bytes and begins with two underscores and the
letter of the type, whether it is the name of an operator or not. -/
theorem flag_any (c : UInt8) (hc : c ∈ [97, 98, 102, 105, 110, 111, 114, 115]) (rest : Name) (h : 16 ≤ rest.length) :
    flagOf (95 :: 95 :: c :: rest) = some c := by
  unfold flagOf
  rw [if_pos (by simp; omega)]
  simp only
  rw [if_pos hc]

/-- The name of the operator + on integers. -/
def intPlus : Name := [95, 95, 105, 110, 116, 95, 112, 108, 117, 115, 95, 111, 112, 101, 114, 97, 116, 111, 114, 95, 95]

example : flagOf intPlus = some 105 := by decide +kernel
example : (do
    let st ← run main [.join intPlus (.var (.func 3))]
    operator st true intPlus) = none := by decide +kernel
example : (do
    let st ← run main [.join intPlus (.var (.func 3)), .push intPlus]
    operator st true intPlus) = some .plain := by decide +kernel

end Verif.LangSym
