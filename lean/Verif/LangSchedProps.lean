import Verif.LangSched

/-!
# Properties of the jobs of the script language
-/
namespace Verif.LangSched

variable {A : Type}

/-! ### Spec -/

/-- How many jobs use an entry of the cache. -/
def users (st : St A) (k : Nat) : Nat := st.jobs.countP (fun j => j.cache == some k)

/-- The jobs and what belongs to them.  Jobs `i` with `ex i` are being made or freed: they are in
neither chain. -/
structure Inv (ex : Nat → Prop) (st : St A) : Prop where
  nums : (st.jobs.map (·.num)).Nodup
  lt : ∀ j ∈ st.jobs, j.num < st.nextJob
  runNd : st.run.Nodup
  waitNd : st.wait.Nodup
  inRun : ∀ i, i ∈ st.run ↔ ¬ ex i ∧ ∃ j ∈ st.jobs, j.num = i ∧ j.susp = false
  inWait : ∀ i, i ∈ st.wait ↔ ¬ ex i ∧ ∃ j ∈ st.jobs, j.num = i ∧ j.susp = true
  names : ∀ p ∈ st.names, ∃ j ∈ st.jobs, j.num = p.2 ∧ j.alias = some p.1
  keys : (st.names.map (·.1)).Nodup
  enums : (st.cache.map (·.num)).Nodup
  elt : ∀ e ∈ st.cache, e.num < st.nextEntry
  refs : ∀ e ∈ st.cache, e.ref = users st e.num ∧ 0 < e.ref
  used : ∀ j ∈ st.jobs, ∀ k, j.cache = some k → ∃ e ∈ st.cache, e.num = k ∧ j.ast = some e.ast

/-- No job is being made or freed. -/
def Ok (st : St A) : Prop := Inv (fun _ => False) st

/-! ### Lists -/

theorem countP_remove {P : Job A → Bool} : ∀ {l : List (Job A)}, (l.map (·.num)).Nodup → ∀ {j}, j ∈ l →
    l.countP P = (l.filter (fun x => x.num != j.num)).countP P + if P j then 1 else 0
  | [], _, j, hj => by cases hj
  | a :: l, hn, j, hj => by
    simp only [List.map_cons, List.nodup_cons] at hn
    by_cases e : a.num = j.num
    · have hl : l.filter (fun x => x.num != j.num) = l := List.filter_eq_self.2 (fun x hx => by
        simp only [bne_iff_ne]
        intro h
        exact hn.1 (e ▸ h ▸ List.mem_map.2 ⟨x, hx, rfl⟩))
      have : a = j := by
        rcases List.mem_cons.1 hj with h | h
        · exact h.symm
        · exact absurd (e ▸ List.mem_map.2 ⟨j, h, rfl⟩) hn.1
      subst this
      simp only [List.countP_cons, List.filter_cons, bne_self_eq_false, Bool.false_eq_true, if_false, hl]
    · have hj' : j ∈ l := (List.mem_cons.1 hj).resolve_left (fun h => e (by rw [h]))
      have := countP_remove (P := P) hn.2 hj'
      have e2 : (a.num != j.num) = true := by simpa using e
      simp only [List.countP_cons, List.filter_cons, e2, if_true, this]
      omega

theorem find_job {l : List (Job A)} {i : Nat} {j : Job A} (h : l.find? (fun j => j.num == i) = some j) : j ∈ l ∧ j.num = i :=
  ⟨List.mem_of_find?_eq_some h, by simpa using List.find?_some h⟩

theorem inj_of_nodup {β : Type} (f : β → Nat) : ∀ {l : List β}, (l.map f).Nodup → ∀ {a b}, a ∈ l → b ∈ l → f a = f b → a = b
  | [], _, _, _, ha, _, _ => by cases ha
  | x :: l, hn, a, b, ha, hb, e => by
    simp only [List.map_cons, List.nodup_cons] at hn
    rcases List.mem_cons.1 ha with rfl | ha' <;> rcases List.mem_cons.1 hb with rfl | hb'
    · rfl
    · exact absurd (e ▸ List.mem_map.2 ⟨b, hb', rfl⟩) hn.1
    · exact absurd (e ▸ List.mem_map.2 ⟨a, ha', rfl⟩) hn.1
    · exact inj_of_nodup f hn.2 ha' hb' e

theorem same_job {l : List (Job A)} (h : (l.map (·.num)).Nodup) {a b : Job A} (ha : a ∈ l) (hb : b ∈ l) (e : a.num = b.num) : a = b :=
  inj_of_nodup _ h ha hb e

theorem same_entry {l : List (Entry A)} (h : (l.map (·.num)).Nodup) {a b : Entry A} (ha : a ∈ l) (hb : b ∈ l) (e : a.num = b.num) : a = b :=
  inj_of_nodup _ h ha hb e

/-! ### Freeing -/

theorem ctxFree_inv {ex : Nat → Prop} {st : St A} {j : Job A} (h : Inv ex st) (hj : j ∈ st.jobs) (hx : ex j.num) :
    Inv (fun i => ex i ∧ i ≠ j.num) (ctxFree st j) := by
  have hmem : ∀ x, x ∈ st.jobs.filter (fun x => x.num != j.num) ↔ x ∈ st.jobs ∧ x.num ≠ j.num := fun x => by simp [List.mem_filter]
  refine ⟨?_, ?_, h.runNd, h.waitNd, ?_, ?_, ?_, ?_, ?_, ?_, ?_, ?_⟩
  · exact (List.filter_sublist.map _).nodup h.nums
  · exact fun x hm => h.lt x ((hmem x).1 hm).1
  · intro i
    show i ∈ st.run ↔ _
    rw [h.inRun i]
    constructor
    · rintro ⟨h1, x, h2, h3, h4⟩
      exact ⟨fun c => h1 c.1, x, (hmem x).2 ⟨h2, fun e => h1 (h3 ▸ e ▸ hx)⟩, h3, h4⟩
    · rintro ⟨h1, x, h2, h3, h4⟩
      obtain ⟨h5, h6⟩ := (hmem x).1 h2
      exact ⟨fun c => h1 ⟨c, h3 ▸ h6⟩, x, h5, h3, h4⟩
  · intro i
    show i ∈ st.wait ↔ _
    rw [h.inWait i]
    constructor
    · rintro ⟨h1, x, h2, h3, h4⟩
      exact ⟨fun c => h1 c.1, x, (hmem x).2 ⟨h2, fun e => h1 (h3 ▸ e ▸ hx)⟩, h3, h4⟩
    · rintro ⟨h1, x, h2, h3, h4⟩
      obtain ⟨h5, h6⟩ := (hmem x).1 h2
      exact ⟨fun c => h1 ⟨c, h3 ▸ h6⟩, x, h5, h3, h4⟩
  · intro p hp
    have key : p ∈ st.names ∧ j.alias ≠ some p.1 := by
      simp only [ctxFree] at hp
      split at hp
      · rename_i e
        exact ⟨hp, by simp [e]⟩
      · rename_i a e
        simp only [List.mem_filter, bne_iff_ne] at hp
        exact ⟨hp.1, by rw [e]; simpa using fun c => hp.2 c.symm⟩
    obtain ⟨x, h1, h2, h3⟩ := h.names p key.1
    refine ⟨x, (hmem x).2 ⟨h1, fun e => key.2 ?_⟩, h2, h3⟩
    rw [← same_job h.nums h1 hj e]
    exact h3
  · simp only [ctxFree]
    split
    · exact h.keys
    · exact (List.filter_sublist.map _).nodup h.keys
  all_goals
    have hc : (ctxFree st j).cache = match j.cache with | some k => unref k st.cache | none => st.cache := by
      simp only [ctxFree]
      cases hk : j.cache with
      | none => cases j.ast <;> rfl
      | some k =>
        obtain ⟨e, _, _, h3⟩ := h.used j hj k hk
        rw [h3]
    have hu : ∀ k, users st k = users (ctxFree st j) k + if j.cache == some k then 1 else 0 := fun k =>
      countP_remove (P := fun j => j.cache == some k) h.nums hj
    have unref_mem : ∀ k e, e ∈ unref k st.cache ↔ ∃ f ∈ st.cache, (f.num ≠ k ∧ e = f) ∨ (f.num = k ∧ f.ref - 1 ≠ 0 ∧ e = { f with ref := f.ref - 1 }) := by
      intro k e
      simp only [unref, List.mem_filter, List.mem_map]
      constructor
      · rintro ⟨⟨f, hf, rfl⟩, hr⟩
        refine ⟨f, hf, ?_⟩
        by_cases c : f.num = k
        · right
          rw [if_pos c] at hr ⊢
          simp [c] at hr
          exact ⟨c, by omega, rfl⟩
        · left
          rw [if_neg c]
          exact ⟨c, rfl⟩
      · rintro ⟨f, hf, ⟨c, rfl⟩ | ⟨c, hr, rfl⟩⟩
        · exact ⟨⟨e, hf, by rw [if_neg c]⟩, by simp [c]⟩
        · exact ⟨⟨f, hf, by rw [if_pos c]⟩, by simpa using Or.inr hr⟩
  · rw [hc]
    cases hk : j.cache with
    | none => exact h.enums
    | some k =>
      have : ((st.cache.map (fun f => if f.num = k then { f with ref := f.ref - 1 } else f)).map (·.num)).Nodup := by
        rw [List.map_map]
        have : ((fun e : Entry A => e.num) ∘ fun f : Entry A => if f.num = k then { f with ref := f.ref - 1 } else f) = fun e => e.num := by
          funext f
          simp only [Function.comp]
          split <;> rfl
        rw [this]
        exact h.enums
      exact (List.filter_sublist.map _).nodup this
  · intro e he
    rw [hc] at he
    show e.num < st.nextEntry
    cases hk : j.cache with
    | none => rw [hk] at he; exact h.elt e he
    | some k =>
      rw [hk] at he
      obtain ⟨f, hf, ⟨_, rfl⟩ | ⟨_, _, rfl⟩⟩ := (unref_mem k e).1 he
      · exact h.elt _ hf
      · exact h.elt f hf
  · intro e he
    rw [hc] at he
    have hu := hu e.num
    cases hk : j.cache with
    | none =>
      rw [hk] at he hu
      have := h.refs e he
      simp at hu
      rw [← hu]
      exact this
    | some k =>
      rw [hk] at he hu
      obtain ⟨f, hf, ⟨c, rfl⟩ | ⟨c, hr, rfl⟩⟩ := (unref_mem k e).1 he
      · have := h.refs e hf
        rw [if_neg (by simpa using fun x => c x.symm)] at hu
        rw [hu] at this
        exact this
      · have := h.refs f hf
        simp only at hu ⊢
        rw [if_pos (by simp [c])] at hu
        omega
  · intro x hx2 k2 hk2
    obtain ⟨h1, h2⟩ := (hmem x).1 hx2
    obtain ⟨e, e1, e2, e3⟩ := h.used x h1 k2 hk2
    rw [hc]
    cases hk : j.cache with
    | none => exact ⟨e, e1, e2, e3⟩
    | some k =>
      by_cases c : e.num = k
      · have hu := hu e.num
        have hr := h.refs e e1
        rw [hk, if_pos (by simp [c])] at hu
        have pos : 0 < users (ctxFree st j) e.num := List.countP_pos_iff.2 ⟨x, hx2, by simp [hk2, e2]⟩
        exact ⟨_, (unref_mem k _).2 ⟨e, e1, .inr ⟨c, by omega, rfl⟩⟩, e2, e3⟩
      · exact ⟨e, (unref_mem k e).2 ⟨e, e1, .inl ⟨c, rfl⟩⟩, e2, e3⟩

theorem Inv.congr {ex ex' : Nat → Prop} {st : St A} (h : Inv ex st) (e : ∀ i, ex i ↔ ex' i) : Inv ex' st := by
  have : ex = ex' := funext fun i => propext (e i)
  exact this ▸ h

/-- `pending` does not matter. -/
theorem Inv.pend {ex : Nat → Prop} {st : St A} (h : Inv ex st) (b : Bool) : Inv ex { st with pending := b } :=
  ⟨h.nums, h.lt, h.runNd, h.waitNd, h.inRun, h.inWait, h.names, h.keys, h.enums, h.elt, h.refs, h.used⟩

theorem unlist_inv {st : St A} {j : Job A} (h : Ok st) (hj : j ∈ st.jobs) :
    Inv (fun i => i = j.num) (if j.susp then { st with wait := st.wait.erase j.num } else { st with run := st.run.erase j.num }) := by
  have R : ∀ i b, ((∃ x ∈ st.jobs, x.num = i ∧ x.susp = b) ∧ i ≠ j.num) ↔ (¬ i = j.num ∧ ∃ x ∈ st.jobs, x.num = i ∧ x.susp = b) := fun i b => by
    constructor
    · rintro ⟨a, b⟩; exact ⟨b, a⟩
    · rintro ⟨a, b⟩; exact ⟨b, a⟩
  cases hs : j.susp with
  | true =>
    rw [if_pos rfl]
    refine ⟨h.nums, h.lt, h.runNd, h.waitNd.erase _, ?_, ?_, h.names, h.keys, h.enums, h.elt, h.refs, h.used⟩
    · intro i
      show i ∈ st.run ↔ _
      rw [h.inRun i]
      constructor
      · rintro ⟨_, x, h1, h2, h3⟩
        refine ⟨fun c => ?_, x, h1, h2, h3⟩
        rw [same_job h.nums h1 hj (h2.trans c), hs] at h3
        cases h3
      · rintro ⟨_, h2⟩; exact ⟨fun c => c, h2⟩
    · intro i
      show i ∈ st.wait.erase j.num ↔ _
      rw [h.waitNd.mem_erase_iff, h.inWait i]
      constructor
      · rintro ⟨h1, _, h2⟩; exact ⟨h1, h2⟩
      · rintro ⟨h1, h2⟩; exact ⟨h1, fun c => c, h2⟩
  | false =>
    rw [if_neg (by simp)]
    refine ⟨h.nums, h.lt, h.runNd.erase _, h.waitNd, ?_, ?_, h.names, h.keys, h.enums, h.elt, h.refs, h.used⟩
    · intro i
      show i ∈ st.run.erase j.num ↔ _
      rw [h.runNd.mem_erase_iff, h.inRun i]
      constructor
      · rintro ⟨h1, _, h2⟩; exact ⟨h1, h2⟩
      · rintro ⟨h1, h2⟩; exact ⟨h1, fun c => c, h2⟩
    · intro i
      show i ∈ st.wait ↔ _
      rw [h.inWait i]
      constructor
      · rintro ⟨_, x, h1, h2, h3⟩
        refine ⟨fun c => ?_, x, h1, h2, h3⟩
        rw [same_job h.nums h1 hj (h2.trans c), hs] at h3
        cases h3
      · rintro ⟨_, h2⟩; exact ⟨fun c => c, h2⟩

theorem jobFree_ok {st st' : St A} {i : Nat} (h : Ok st) (e : jobFree st i = some st') : Ok st' ∧ ∀ x, x ∈ st'.jobs ↔ x ∈ st.jobs ∧ x.num ≠ i := by
  unfold jobFree at e
  split at e
  · cases e
  · rename_i j hf
    obtain ⟨hj, rfl⟩ := find_job hf
    have e := Option.some.inj e
    subst e
    have h1 := unlist_inv h hj
    have hj2 : j ∈ (if j.susp then { st with wait := st.wait.erase j.num } else { st with run := st.run.erase j.num } : St A).jobs := by
      split <;> exact hj
    refine ⟨((ctxFree_inv h1 hj2 rfl).congr (fun i => by simp)).pend _, fun x => ?_⟩
    simp only [ctxFree]
    split <;> simp [List.mem_filter]

/-! ### Making -/

theorem scan_same (now : Nat) (data : List Nat) : ∀ es : List (Entry A),
    (∀ e, (scan now data es).2 = some e → e ∈ es ∧ e ∈ (scan now data es).1 ∧ e.code = data) ∧ ((scan now data es).1.map (fun e => (e.num, e.code, e.ast, e.ref)) = es.map (fun e => (e.num, e.code, e.ast, e.ref)))
  | [] => ⟨fun e h => by simp [scan] at h, rfl⟩
  | a :: es => by
    obtain ⟨h1, h2⟩ := scan_same now data es
    simp only [scan]
    split
    · exact ⟨fun e h => ⟨List.mem_cons_of_mem _ (h1 e h).1, List.mem_cons_of_mem _ (h1 e h).2.1, (h1 e h).2.2⟩, by simp only [List.map_cons, h2]⟩
    · split
      · exact ⟨fun e h => ⟨List.mem_cons_of_mem _ (h1 e h).1, List.mem_cons_of_mem _ (h1 e h).2.1, (h1 e h).2.2⟩, by simp only [List.map_cons, h2]⟩
      · split
        · rename_i c
          refine ⟨fun e h => ?_, rfl⟩
          have := Option.some.inj h
          subst this
          exact ⟨List.mem_cons_self .., List.mem_cons_self .., c⟩
        · exact ⟨fun e h => ⟨List.mem_cons_of_mem _ (h1 e h).1, List.mem_cons_of_mem _ (h1 e h).2.1, (h1 e h).2.2⟩, by simp only [List.map_cons, h2]⟩

/-- Entries that differ only in whether they are expired. -/
def Like (c c' : List (Entry A)) : Prop := c'.map (fun e => (e.num, e.code, e.ast, e.ref)) = c.map (fun e => (e.num, e.code, e.ast, e.ref))

theorem Like.nums {c c' : List (Entry A)} (h : Like c c') : c'.map (·.num) = c.map (·.num) := by
  have := congrArg (List.map (·.1)) h
  simpa [List.map_map, Function.comp_def] using this

theorem Like.back {c c' : List (Entry A)} (h : Like c c') {e : Entry A} (he : e ∈ c') : ∃ f ∈ c, f.num = e.num ∧ f.code = e.code ∧ f.ast = e.ast ∧ f.ref = e.ref := by
  have : (e.num, e.code, e.ast, e.ref) ∈ c.map (fun e => (e.num, e.code, e.ast, e.ref)) := h ▸ List.mem_map.2 ⟨e, he, rfl⟩
  obtain ⟨f, hf, q⟩ := List.mem_map.1 this
  simp only [Prod.mk.injEq] at q
  exact ⟨f, hf, q.1, q.2.1, q.2.2.1, q.2.2.2⟩

theorem Like.symm {c c' : List (Entry A)} (h : Like c c') : Like c' c := Eq.symm h

/-- A new job and its entry. -/
theorem add_inv {st : St A} (h : Ok st) (c : List (Entry A)) (n : Nat) (j : Job A) (hn : j.num = st.nextJob) (ha : j.alias = none) (hs : j.susp = false)
    (enums : (c.map (·.num)).Nodup) (elt : ∀ e ∈ c, e.num < n) (refs : ∀ e ∈ c, e.ref = users st e.num + (if j.cache == some e.num then 1 else 0) ∧ 0 < e.ref)
    (keep : ∀ e ∈ st.cache, ∃ e' ∈ c, e'.num = e.num ∧ e'.ast = e.ast) (mine : ∀ k, j.cache = some k → ∃ e ∈ c, e.num = k ∧ j.ast = some e.ast) :
    Inv (fun i => i = st.nextJob) { st with cache := c, nextEntry := n, jobs := st.jobs ++ [j], nextJob := st.nextJob + 1 } := by
  have fresh : ∀ x ∈ st.jobs, x.num ≠ st.nextJob := fun x hx => Nat.ne_of_lt (h.lt x hx)
  refine ⟨?_, ?_, h.runNd, h.waitNd, ?_, ?_, ?_, h.keys, enums, elt, ?_, ?_⟩
  · simp only [List.map_append, List.map_cons, List.map_nil]
    refine List.nodup_append.2 ⟨h.nums, by simp, fun a ha b hb => ?_⟩
    obtain ⟨x, hx, rfl⟩ := List.mem_map.1 ha
    rw [List.mem_singleton.1 hb, hn]
    exact fresh x hx
  · intro x hx
    show x.num < st.nextJob + 1
    rcases List.mem_append.1 hx with m | m
    · exact Nat.lt_succ_of_lt (h.lt x m)
    · rw [List.mem_singleton.1 m, hn]; omega
  · intro i
    show i ∈ st.run ↔ _
    rw [h.inRun i]
    constructor
    · rintro ⟨_, x, h1, h2, h3⟩
      exact ⟨fun c => fresh x h1 (h2.trans c), x, List.mem_append_left _ h1, h2, h3⟩
    · rintro ⟨h0, x, h1, h2, h3⟩
      rcases List.mem_append.1 h1 with m | m
      · exact ⟨fun c => c, x, m, h2, h3⟩
      · rw [List.mem_singleton.1 m] at h2
        exact absurd (h2.symm.trans hn) h0
  · intro i
    show i ∈ st.wait ↔ _
    rw [h.inWait i]
    constructor
    · rintro ⟨_, x, h1, h2, h3⟩
      exact ⟨fun c => fresh x h1 (h2.trans c), x, List.mem_append_left _ h1, h2, h3⟩
    · rintro ⟨h0, x, h1, h2, h3⟩
      rcases List.mem_append.1 h1 with m | m
      · exact ⟨fun c => c, x, m, h2, h3⟩
      · rw [List.mem_singleton.1 m] at h2
        exact absurd (h2.symm.trans hn) h0
  · intro p hp
    obtain ⟨x, h1, h2⟩ := h.names p hp
    exact ⟨x, List.mem_append_left _ h1, h2⟩
  · intro e he
    have := refs e he
    simp only [users, List.countP_append, List.countP_cons, List.countP_nil] at this ⊢
    simpa using this
  · intro x hx k hk
    rcases List.mem_append.1 hx with m | m
    · obtain ⟨e, h1, h2, h3⟩ := h.used x m k hk
      obtain ⟨e', k1, k2, k3⟩ := keep e h1
      exact ⟨e', k1, k2.trans h2, by rw [h3, k3]⟩
    · have := List.mem_singleton.1 m
      subst this
      exact mine k hk

/-- The first state in `newJob`, with the job that is being made. -/
def made (w : World A) (st : St A) (file : Bool) (content : List Nat) : St A × Job A :=
  let x : St A × Option (Entry A) × Option A :=
    if st.useCache then
      let y := search w st file content
      (y.1, y.2, y.2.map (·.ast))
    else (st, none, w.parse file content)
  let j : Job A := { num := st.nextJob, alias := none, cache := x.2.1.map (·.num), ast := x.2.2, susp := false }
  ({ x.1 with jobs := x.1.jobs ++ [j], nextJob := st.nextJob + 1 }, j)

theorem made_inv (w : World A) {st : St A} (h : Ok st) (file : Bool) (content : List Nat) :
    Inv (fun i => i = st.nextJob) (made w st file content).1 := by
  have none_ok : ∀ (c : List (Entry A)) (a : Option A), Like st.cache c →
      Inv (fun i => i = st.nextJob) { st with cache := c, jobs := st.jobs ++ [{ num := st.nextJob, alias := none, cache := none, ast := a, susp := false }], nextJob := st.nextJob + 1 } := by
    intro c a hc
    have := add_inv h c st.nextEntry { num := st.nextJob, alias := none, cache := none, ast := a, susp := false } rfl rfl rfl (hc.nums ▸ h.enums)
      (fun e he => by obtain ⟨f, f1, f2, _⟩ := hc.back he; rw [← f2]; exact h.elt f f1)
      (fun e he => by
        obtain ⟨f, f1, f2, _, _, f4⟩ := hc.back he
        have := h.refs f f1
        simp only [← f2, ← f4]
        simpa using this)
      (fun e he => by obtain ⟨f, f1, f2, _, f3, _⟩ := hc.symm.back he; exact ⟨f, f1, f2, f3⟩)
      (fun k hk => by cases hk)
    exact this
  unfold made
  by_cases hu : st.useCache = true
  · simp only [hu, if_true]
    unfold search
    cases hk : keyOf w file content with
    | none => exact none_ok st.cache none rfl
    | some data =>
      have hc : Like st.cache (scan w.now data st.cache).1 := (scan_same w.now data st.cache).2
      simp only
      cases hs : (scan w.now data st.cache).2 with
      | some e =>
        obtain ⟨e1, e2, _⟩ := (scan_same w.now data st.cache).1 e hs
        simp only [Option.map_some]
        have num_bump : ∀ f : Entry A, (if f.num = e.num then { f with ref := f.ref + 1 } else f).num = f.num := fun f => by split <;> rfl
        have ast_bump : ∀ f : Entry A, (if f.num = e.num then { f with ref := f.ref + 1 } else f).ast = f.ast := fun f => by split <;> rfl
        refine add_inv h _ st.nextEntry { num := st.nextJob, alias := none, cache := some e.num, ast := some e.ast, susp := false } rfl rfl rfl ?_ ?_ ?_ ?_ ?_
        · rw [List.map_map]
          have : ((fun x : Entry A => x.num) ∘ fun f : Entry A => if f.num = e.num then { f with ref := f.ref + 1 } else f) = fun x => x.num := funext num_bump
          rw [this, hc.nums]
          exact h.enums
        · intro x hx
          obtain ⟨f, hf, rfl⟩ := List.mem_map.1 hx
          obtain ⟨g, g1, g2, _⟩ := hc.back hf
          rw [num_bump, ← g2]
          exact h.elt g g1
        · intro x hx
          obtain ⟨f, hf, rfl⟩ := List.mem_map.1 hx
          obtain ⟨g, g1, g2, _, _, g4⟩ := hc.back hf
          have := h.refs g g1
          rw [num_bump]
          by_cases c : f.num = e.num
          · rw [if_pos c, if_pos (by simp [c])]
            simp only
            rw [← g4, ← g2]
            omega
          · rw [if_neg c, if_neg (by simpa using fun x => c x.symm)]
            rw [← g4, ← g2]
            omega
        · intro x hx
          obtain ⟨f, f1, f2, _, f3, _⟩ := hc.symm.back hx
          exact ⟨_, List.mem_map.2 ⟨f, f1, rfl⟩, (num_bump f).trans f2, (ast_bump f).trans f3⟩
        · intro k hk
          have hk := Option.some.inj hk
          subst hk
          exact ⟨_, List.mem_map.2 ⟨e, e2, rfl⟩, num_bump e, by rw [ast_bump]⟩
      | none =>
        simp only
        cases hp : w.parse file content with
        | none => exact none_ok _ none hc
        | some a =>
          simp only [Option.map_some]
          have hold : ∀ x ∈ (scan w.now data st.cache).1, x.num < st.nextEntry := fun x hx => by
            obtain ⟨g, g1, g2, _⟩ := hc.back hx
            rw [← g2]
            exact h.elt g g1
          refine add_inv h _ (st.nextEntry + 1) { num := st.nextJob, alias := none, cache := some st.nextEntry, ast := some a, susp := false } rfl rfl rfl ?_ ?_ ?_ ?_ ?_
          · simp only [List.map_append, List.map_cons, List.map_nil]
            refine List.nodup_append.2 ⟨hc.nums ▸ h.enums, by simp, fun x hx y hy => ?_⟩
            obtain ⟨f, hf, rfl⟩ := List.mem_map.1 hx
            rw [List.mem_singleton.1 hy]
            exact Nat.ne_of_lt (hold f hf)
          · intro x hx
            rcases List.mem_append.1 hx with m | m
            · exact Nat.lt_succ_of_lt (hold x m)
            · rw [List.mem_singleton.1 m]; exact Nat.lt_succ_self _
          · intro x hx
            rcases List.mem_append.1 hx with m | m
            · obtain ⟨g, g1, g2, _, _, g4⟩ := hc.back m
              have := h.refs g g1
              rw [if_neg (by simpa using fun c => Nat.ne_of_lt (hold x m) c.symm), ← g4, ← g2]
              omega
            · rw [List.mem_singleton.1 m]
              have : users st st.nextEntry = 0 := by
                refine List.countP_eq_zero.2 (fun x hx c => ?_)
                obtain ⟨e, e1, e2, _⟩ := h.used x hx st.nextEntry (by simpa using c)
                exact absurd (h.elt e e1) (by omega)
              simp [this]
          · intro x hx
            obtain ⟨f, f1, f2, _, f3, _⟩ := hc.symm.back hx
            exact ⟨f, List.mem_append_left _ f1, f2, f3⟩
          · intro k hk
            have hk := Option.some.inj hk
            subst hk
            exact ⟨_, List.mem_append_right _ (List.mem_singleton.2 rfl), rfl, rfl⟩
  · simp only [if_neg hu, Option.map_none]
    exact none_ok st.cache _ rfl

theorem search_facts (w : World A) (st : St A) (file : Bool) (content : List Nat) :
    (search w st file content).1.jobs = st.jobs ∧ (search w st file content).1.names = st.names ∧ (search w st file content).1.run = st.run ∧ (search w st file content).1.wait = st.wait ∧
    (search w st file content).1.pending = st.pending ∧ (search w st file content).1.useCache = st.useCache := by
  unfold search
  split
  · exact ⟨rfl, rfl, rfl, rfl, rfl, rfl⟩
  · simp only
    split
    · exact ⟨rfl, rfl, rfl, rfl, rfl, rfl⟩
    · split <;> exact ⟨rfl, rfl, rfl, rfl, rfl, rfl⟩

theorem made_facts (w : World A) (st : St A) (file : Bool) (content : List Nat) :
    (made w st file content).1.jobs = st.jobs ++ [(made w st file content).2] ∧ (made w st file content).2.num = st.nextJob ∧ (made w st file content).2.alias = none ∧
    (made w st file content).2.susp = false ∧ (made w st file content).1.names = st.names ∧ (made w st file content).1.run = st.run ∧ (made w st file content).1.wait = st.wait ∧
    (made w st file content).1.pending = st.pending ∧ (made w st file content).1.useCache = st.useCache := by
  obtain ⟨h1, h2, h3, h4, h5, h6⟩ := search_facts w st file content
  unfold made
  by_cases hu : st.useCache = true
  · simp only [if_pos hu, h1, h2, h3, h4, h5, h6]
    exact ⟨trivial, trivial, trivial, trivial, trivial, trivial, trivial, trivial, trivial⟩
  · simp only [if_neg hu]
    exact ⟨trivial, trivial, trivial, trivial, trivial, trivial, trivial, trivial, trivial⟩

/-- `newJob` in terms of `made`. -/
theorem newJob_eq (w : World A) (fail : Fail) (st : St A) (file : Bool) (content : List Nat) (alias : Option Nat) :
    newJob w fail st file content alias =
      if fail = .early then (st, none)
      else
        let m := made w st file content
        if fail = .late then (ctxFree m.1 m.2, none)
        else
          let j2 : Job A := { m.2 with alias := alias }
          let st2 : St A := { m.1 with jobs := st.jobs ++ [j2] }
          let taken := match alias with
            | none => false
            | some a => st2.names.any (fun p => p.1 == a)
          if taken then (ctxFree st2 j2, none)
          else if fail = .node ∧ alias ≠ none then (ctxFree st2 j2, none)
          else
            let st3 : St A := match alias with
              | none => st2
              | some a => { st2 with names := st2.names ++ [(a, st.nextJob)] }
            if fail = .signal then (ctxFree st3 j2, none)
            else ({ st3 with run := st3.run ++ [st.nextJob], pending := true }, some st.nextJob) := by
  have e : (if st.useCache then (let y := search w st file content; (y.1, y.2, y.2.map (·.ast))) else (st, none, w.parse file content) : St A × Option (Entry A) × Option A).1.jobs = st.jobs := by
    split
    · exact (search_facts w st file content).1
    · rfl
  unfold newJob made
  simp only [e]
  cases alias <;> rfl

theorem aliased_inv (w : World A) {st : St A} (h : Ok st) (file : Bool) (content : List Nat) (alias : Option Nat) :
    Inv (fun i => i = st.nextJob) { (made w st file content).1 with jobs := st.jobs ++ [{ (made w st file content).2 with alias := alias }] } := by
  obtain ⟨f1, f2, f3, f4, f5, f6, f7, _⟩ := made_facts w st file content
  have m := made_inv w h file content
  have hj : ∀ x ∈ st.jobs ++ [{ (made w st file content).2 with alias := alias }], ∃ y ∈ (made w st file content).1.jobs, y.num = x.num ∧ y.susp = x.susp ∧ y.cache = x.cache ∧ y.ast = x.ast := by
    intro x hx
    rw [f1]
    rcases List.mem_append.1 hx with c | c
    · exact ⟨x, List.mem_append_left _ c, rfl, rfl, rfl, rfl⟩
    · rw [List.mem_singleton.1 c]
      exact ⟨_, List.mem_append_right _ (List.mem_singleton.2 rfl), rfl, rfl, rfl, rfl⟩
  have hj2 : ∀ y ∈ (made w st file content).1.jobs, ∃ x ∈ st.jobs ++ [{ (made w st file content).2 with alias := alias }], x.num = y.num ∧ x.susp = y.susp ∧ x.cache = y.cache ∧ x.ast = y.ast := by
    intro x hx
    rw [f1] at hx
    rcases List.mem_append.1 hx with c | c
    · exact ⟨x, List.mem_append_left _ c, rfl, rfl, rfl, rfl⟩
    · rw [List.mem_singleton.1 c]
      exact ⟨_, List.mem_append_right _ (List.mem_singleton.2 rfl), rfl, rfl, rfl, rfl⟩
  have hex : ∀ i b, (∃ x ∈ (made w st file content).1.jobs, x.num = i ∧ x.susp = b) ↔ ∃ x ∈ st.jobs ++ [{ (made w st file content).2 with alias := alias }], x.num = i ∧ x.susp = b := by
    intro i b
    constructor
    · rintro ⟨x, h1, h2, h3⟩
      obtain ⟨y, y1, y2, y3, _⟩ := hj2 x h1
      exact ⟨y, y1, y2.trans h2, y3.trans h3⟩
    · rintro ⟨x, h1, h2, h3⟩
      obtain ⟨y, y1, y2, y3, _⟩ := hj x h1
      exact ⟨y, y1, y2.trans h2, y3.trans h3⟩
  refine ⟨?_, ?_, m.runNd, m.waitNd, fun i => ?_, fun i => ?_, ?_, m.keys, m.enums, m.elt, ?_, ?_⟩
  · have := m.nums
    rw [f1] at this
    simpa using this
  · intro x hx
    obtain ⟨y, y1, y2, _⟩ := hj x hx
    exact y2 ▸ m.lt y y1
  · exact (m.inRun i).trans (and_congr Iff.rfl (hex i false))
  · exact (m.inWait i).trans (and_congr Iff.rfl (hex i true))
  · intro p hp
    have hp : p ∈ (made w st file content).1.names := hp
    rw [f5] at hp
    obtain ⟨x, h1, h2⟩ := h.names p hp
    exact ⟨x, List.mem_append_left _ h1, h2⟩
  · intro e he
    have := m.refs e he
    simp only [users] at this ⊢
    rw [f1] at this
    simpa [List.countP_append, List.countP_cons] using this
  · intro x hx k hk
    obtain ⟨y, y1, _, _, y3, y4⟩ := hj x hx
    obtain ⟨e, e1, e2, e3⟩ := m.used y y1 k (y3.trans hk)
    exact ⟨e, e1, e2, by rw [← y4, e3]⟩

theorem newJob_ok (w : World A) (fail : Fail) {st : St A} (h : Ok st) (file : Bool) (content : List Nat) (alias : Option Nat) : Ok (newJob w fail st file content alias).1 := by
  obtain ⟨f1, f2, f3, f4, f5, f6, f7, _⟩ := made_facts w st file content
  rw [newJob_eq]
  by_cases h1 : fail = .early
  · rw [if_pos h1]; exact h
  rw [if_neg h1]
  simp only
  by_cases h2 : fail = .late
  · rw [if_pos h2]
    have m := made_inv w h file content
    refine (ctxFree_inv m (by rw [f1]; simp) f2).congr (fun i => ?_)
    rw [f2]
    simp
  rw [if_neg h2]
  have m := aliased_inv w h file content alias
  have free : ∀ (names : List (Nat × Nat)), Inv (fun i => i = st.nextJob) { (made w st file content).1 with jobs := st.jobs ++ [{ (made w st file content).2 with alias := alias }], names := names } →
      Ok (ctxFree { (made w st file content).1 with jobs := st.jobs ++ [{ (made w st file content).2 with alias := alias }], names := names } { (made w st file content).2 with alias := alias }) := by
    intro names m
    refine (ctxFree_inv (j := { (made w st file content).2 with alias := alias }) m (by simp) f2).congr (fun i => ?_)
    simp only [f2]
    simp
  cases alias with
  | none =>
    simp only [Bool.false_eq_true, if_false, ne_eq, not_true, and_false]
    by_cases h3 : fail = .signal
    · rw [if_pos h3]; exact free _ m
    rw [if_neg h3]
    refine ⟨m.nums, m.lt, ?_, m.waitNd, fun i => ?_, fun i => ?_, m.names, m.keys, m.enums, m.elt, m.refs, m.used⟩
    all_goals simp only
    · refine List.nodup_append.2 ⟨m.runNd, by simp, fun a ha b hb => ?_⟩
      rw [List.mem_singleton.1 hb]
      exact ((m.inRun a).1 ha).1
    · rw [List.mem_append, m.inRun i, List.mem_singleton]
      constructor
      · rintro (⟨_, c⟩ | rfl)
        · exact ⟨fun c => c, c⟩
        · exact ⟨fun c => c, _, List.mem_append_right _ (List.mem_singleton.2 rfl), f2, f4⟩
      · rintro ⟨_, c⟩
        by_cases e : i = st.nextJob
        · exact .inr e
        · exact .inl ⟨e, c⟩
    · rw [m.inWait i]
      constructor
      · rintro ⟨_, c⟩; exact ⟨fun c => c, c⟩
      · rintro ⟨_, x, c1, c2, c3⟩
        refine ⟨fun e => ?_, x, c1, c2, c3⟩
        have := same_job m.nums c1 (List.mem_append_right _ (List.mem_singleton.2 rfl)) (c2.trans (e.trans f2.symm))
        rw [this] at c3
        simp [f4] at c3
  | some a =>
    simp only
    by_cases ht : ((made w st file content).1.names.any (fun p => p.1 == a)) = true
    · rw [if_pos ht]; exact free _ m
    rw [if_neg ht]
    by_cases h3 : fail = .node ∧ some a ≠ none
    · rw [if_pos h3]; exact free _ m
    rw [if_neg h3]
    have m2 : Inv (fun i => i = st.nextJob) { (made w st file content).1 with jobs := st.jobs ++ [{ (made w st file content).2 with alias := some a }], names := (made w st file content).1.names ++ [(a, st.nextJob)] } := by
      refine ⟨m.nums, m.lt, m.runNd, m.waitNd, m.inRun, m.inWait, ?_, ?_, m.enums, m.elt, m.refs, m.used⟩
      · intro p hp
        rcases List.mem_append.1 hp with c | c
        · exact m.names p c
        · rw [List.mem_singleton.1 c]
          exact ⟨_, List.mem_append_right _ (List.mem_singleton.2 rfl), f2, rfl⟩
      · simp only [List.map_append, List.map_cons, List.map_nil]
        refine List.nodup_append.2 ⟨m.keys, by simp, fun x hx y hy c => ht ?_⟩
        obtain ⟨p, hp, rfl⟩ := List.mem_map.1 hx
        exact List.any_eq_true.2 ⟨p, hp, by simpa using c.trans (List.mem_singleton.1 hy)⟩
    by_cases h4 : fail = .signal
    · rw [if_pos h4]; exact free _ m2
    rw [if_neg h4]
    refine ⟨m2.nums, m2.lt, ?_, m2.waitNd, fun i => ?_, fun i => ?_, m2.names, m2.keys, m2.enums, m2.elt, m2.refs, m2.used⟩
    all_goals simp only
    · refine List.nodup_append.2 ⟨m.runNd, by simp, fun a ha b hb => ?_⟩
      rw [List.mem_singleton.1 hb]
      exact ((m.inRun a).1 ha).1
    · rw [List.mem_append, m.inRun i, List.mem_singleton]
      constructor
      · rintro (⟨_, c⟩ | rfl)
        · exact ⟨fun c => c, c⟩
        · exact ⟨fun c => c, _, List.mem_append_right _ (List.mem_singleton.2 rfl), f2, f4⟩
      · rintro ⟨_, c⟩
        by_cases e : i = st.nextJob
        · exact .inr e
        · exact .inl ⟨e, c⟩
    · rw [m.inWait i]
      constructor
      · rintro ⟨_, c⟩; exact ⟨fun c => c, c⟩
      · rintro ⟨_, x, c1, c2, c3⟩
        refine ⟨fun e => ?_, x, c1, c2, c3⟩
        have := same_job m.nums c1 (List.mem_append_right _ (List.mem_singleton.2 rfl)) (c2.trans (e.trans f2.symm))
        rw [this] at c3
        simp [f4] at c3

/-! ### The other operations -/

theorem setSusp_mem {b : Bool} {i : Nat} {jobs : List (Job A)} {x : Job A} :
    x ∈ setSusp b i jobs ↔ ∃ y ∈ jobs, (y.num = i ∧ x = { y with susp := b }) ∨ (y.num ≠ i ∧ x = y) := by
  simp only [setSusp, List.mem_map]
  constructor
  · rintro ⟨y, hy, rfl⟩
    by_cases c : y.num = i
    · exact ⟨y, hy, .inl ⟨c, by rw [if_pos c]⟩⟩
    · exact ⟨y, hy, .inr ⟨c, by rw [if_neg c]⟩⟩
  · rintro ⟨y, hy, ⟨c, rfl⟩ | ⟨c, rfl⟩⟩
    · exact ⟨y, hy, by rw [if_pos c]⟩
    · exact ⟨x, hy, by rw [if_neg c]⟩

theorem setSusp_inv {st : St A} (h : Ok st) {j : Job A} (hj : j ∈ st.jobs) (b : Bool) (run wait : List Nat) (pend : Bool) (h1 : run.Nodup) (h2 : wait.Nodup)
    (h3 : ∀ i, i ∈ run ↔ (i ∈ st.run ∧ i ≠ j.num) ∨ (i = j.num ∧ b = false)) (h4 : ∀ i, i ∈ wait ↔ (i ∈ st.wait ∧ i ≠ j.num) ∨ (i = j.num ∧ b = true)) :
    Ok { st with run := run, wait := wait, jobs := setSusp b j.num st.jobs, pending := pend } := by
  have lists : ∀ i c, (∃ x ∈ setSusp b j.num st.jobs, x.num = i ∧ x.susp = c) ↔ (i ≠ j.num ∧ ∃ x ∈ st.jobs, x.num = i ∧ x.susp = c) ∨ (i = j.num ∧ b = c) := by
    intro i c
    constructor
    · rintro ⟨x, hx, rfl, rfl⟩
      obtain ⟨y, hy, ⟨e, rfl⟩ | ⟨e, rfl⟩⟩ := setSusp_mem.1 hx
      · exact .inr ⟨e, rfl⟩
      · exact .inl ⟨e, x, hy, rfl, rfl⟩
    · rintro (⟨e, x, hx, rfl, rfl⟩ | ⟨rfl, rfl⟩)
      · exact ⟨x, setSusp_mem.2 ⟨x, hx, .inr ⟨e, rfl⟩⟩, rfl, rfl⟩
      · exact ⟨_, setSusp_mem.2 ⟨j, hj, .inl ⟨rfl, rfl⟩⟩, rfl, rfl⟩
  refine ⟨?_, ?_, h1, h2, fun i => ?_, fun i => ?_, ?_, h.keys, h.enums, h.elt, ?_, ?_⟩
  · have : (setSusp b j.num st.jobs).map (·.num) = st.jobs.map (·.num) := by
      unfold setSusp
      rw [List.map_map]
      congr 1
      funext x
      simp only [Function.comp]
      split <;> rfl
    show ((setSusp b j.num st.jobs).map (·.num)).Nodup
    rw [this]
    exact h.nums
  · intro x hx
    obtain ⟨y, hy, ⟨e, rfl⟩ | ⟨e, rfl⟩⟩ := setSusp_mem.1 hx
    · exact h.lt y hy
    · exact h.lt x hy
  · show i ∈ run ↔ _
    rw [h3 i, h.inRun i]
    show _ ↔ ¬False ∧ ∃ x ∈ setSusp b j.num st.jobs, _
    rw [lists]
    constructor
    · rintro (⟨⟨_, a⟩, c⟩ | a)
      · exact ⟨fun c => c, .inl ⟨c, a⟩⟩
      · exact ⟨fun c => c, .inr a⟩
    · rintro ⟨_, ⟨c, a⟩ | a⟩
      · exact .inl ⟨⟨fun c => c, a⟩, c⟩
      · exact .inr a
  · show i ∈ wait ↔ _
    rw [h4 i, h.inWait i]
    show _ ↔ ¬False ∧ ∃ x ∈ setSusp b j.num st.jobs, _
    rw [lists]
    constructor
    · rintro (⟨⟨_, a⟩, c⟩ | a)
      · exact ⟨fun c => c, .inl ⟨c, a⟩⟩
      · exact ⟨fun c => c, .inr a⟩
    · rintro ⟨_, ⟨c, a⟩ | a⟩
      · exact .inl ⟨⟨fun c => c, a⟩, c⟩
      · exact .inr a
  · intro p hp
    obtain ⟨x, x1, x2, x3⟩ := h.names p hp
    by_cases e : x.num = j.num
    · exact ⟨_, setSusp_mem.2 ⟨x, x1, .inl ⟨e, rfl⟩⟩, x2, x3⟩
    · exact ⟨x, setSusp_mem.2 ⟨x, x1, .inr ⟨e, rfl⟩⟩, x2, x3⟩
  · intro e he
    have := h.refs e he
    have hu : users { st with run := run, wait := wait, jobs := setSusp b j.num st.jobs, pending := pend } e.num = users st e.num := by
      simp only [users, setSusp, List.countP_map]
      congr 1
      funext x
      simp only [Function.comp]
      split <;> rfl
    rw [hu]
    exact this
  · intro x hx k hk
    obtain ⟨y, hy, ⟨e, rfl⟩ | ⟨e, rfl⟩⟩ := setSusp_mem.1 hx
    · exact h.used y hy k hk
    · exact h.used x hy k hk

theorem suspend_ok {st st' : St A} {i : Nat} (h : Ok st) (e : suspend st i = some st') : Ok st' := by
  unfold suspend at e
  split at e
  · cases e
  · rename_i j hf
    obtain ⟨hj, rfl⟩ := find_job hf
    split at e
    · exact Option.some.inj e ▸ h
    · rename_i hs
      have e := Option.some.inj e
      subst e
      have notw : j.num ∉ st.wait := fun c => by
        obtain ⟨_, x, x1, x2, x3⟩ := (h.inWait _).1 c
        rw [same_job h.nums x1 hj x2] at x3
        exact hs x3
      refine setSusp_inv h hj true _ _ _ (h.runNd.erase _) ?_ (fun i => ?_) (fun i => ?_)
      · refine List.nodup_append.2 ⟨h.waitNd, by simp, fun a ha b hb c => notw ?_⟩
        rw [← List.mem_singleton.1 hb, ← c]
        exact ha
      · rw [h.runNd.mem_erase_iff]
        simp [and_comm]
      · simp only [List.mem_append, List.mem_singleton, and_true]
        constructor
        · rintro (a | a)
          · exact .inl ⟨a, fun c => notw (c ▸ a)⟩
          · exact .inr a
        · rintro (a | a)
          · exact .inl a.1
          · exact .inr a

theorem resume_ok {st st' : St A} {i : Nat} (h : Ok st) (e : resume st i = some st') : Ok st' := by
  unfold resume at e
  split at e
  · cases e
  · rename_i j hf
    obtain ⟨hj, rfl⟩ := find_job hf
    split at e
    · rename_i hs
      have e := Option.some.inj e
      subst e
      have notr : j.num ∉ st.run := fun c => by
        obtain ⟨_, x, x1, x2, x3⟩ := (h.inRun _).1 c
        rw [same_job h.nums x1 hj x2, hs] at x3
        cases x3
      refine setSusp_inv h hj false _ _ _ ?_ (h.waitNd.erase _) (fun i => ?_) (fun i => ?_)
      · refine List.nodup_append.2 ⟨h.runNd, by simp, fun a ha b hb c => notr ?_⟩
        rw [← List.mem_singleton.1 hb, ← c]
        exact ha
      · simp only [List.mem_append, List.mem_singleton, and_true]
        constructor
        · rintro (a | a)
          · exact .inl ⟨a, fun c => notr (c ▸ a)⟩
          · exact .inr a
        · rintro (a | a)
          · exact .inl a.1
          · exact .inr a
      · rw [h.waitNd.mem_erase_iff]
        simp [and_comm]
    · exact Option.some.inj e ▸ h

theorem rotate_ok {st : St A} {i : Nat} {rest : List Nat} (h : Ok st) (hr : st.run = i :: rest) (b : Bool) : Ok { st with run := rest ++ [i], pending := b } := by
  have hn := h.runNd
  rw [hr] at hn
  refine ⟨h.nums, h.lt, ?_, h.waitNd, fun k => ?_, h.inWait, h.names, h.keys, h.enums, h.elt, h.refs, h.used⟩
  · show (rest ++ [i]).Nodup
    exact (List.perm_append_comm.nodup_iff).2 hn
  · show k ∈ rest ++ [i] ↔ _
    rw [← h.inRun k, hr]
    simp [or_comm]

/-! ### Histories -/

/-- What holds for a state and is kept by each part is kept by all that the program does.  `Q` is
asked of the jobs that are made. -/
structure Kept (P : St A → Prop) (Q : World A → Fail → Bool → List Nat → Option Nat → Prop) : Prop where
  new : ∀ st w fail file c al, P st → Q w fail file c al → P (newJob w fail st file c al).1
  free : ∀ st st' i, P st → jobFree st i = some st' → P st'
  susp : ∀ st st' i, P st → suspend st i = some st' → P st'
  cont : ∀ st st' i, P st → resume st i = some st' → P st'
  rot : ∀ (st : St A) i rest b, P st → st.run = i :: rest → P { st with run := rest ++ [i], pending := b }
  pend : ∀ (st : St A) b, P st → P { st with pending := b }

def ActQ (Q : World A → Fail → Bool → List Nat → Option Nat → Prop) : Act A → Prop
  | .eval w fail file c al => Q w fail file c al
  | _ => True

def OpQ (Q : World A → Fail → Bool → List Nat → Option Nat → Prop) : Op A → Prop
  | .new w fail file c al => Q w fail file c al
  | .launch t => ∀ s ∈ t.steps, ∀ a ∈ s.1, ActQ Q a
  | _ => True

variable {P : St A → Prop} {Q : World A → Fail → Bool → List Nat → Option Nat → Prop}

theorem Kept.kill (k : Kept P Q) {st st' : St A} {a : Nat} (h : P st) (e : kill st a = some st') : P st' := by
  unfold LangSched.kill at e
  split at e
  · exact Option.some.inj e ▸ h
  · exact k.free _ _ _ h e

theorem Kept.act (k : Kept P Q) {i : Nat} {st st' : St A} {a : Act A} (h : P st) (q : ActQ Q a) (e : act i st a = some st') : P st' := by
  unfold LangSched.act at e
  simp only at e
  split at e
  · cases e
  · rename_i st1 hr
    split at e
    · have e := Option.some.inj e
      subst e
      cases a with
      | eval w fail file c al => exact Option.some.inj hr ▸ k.new _ _ _ _ _ _ h q
      | kill a => exact k.kill h hr
      | susp => exact k.susp _ _ _ h hr
    · cases e

theorem Kept.acts (k : Kept P Q) {i : Nat} : ∀ {l : List (Act A)} {st st' : St A}, P st → (∀ a ∈ l, ActQ Q a) → acts i st l = some st' → P st'
  | [], st, st', h, _, e => Option.some.inj e ▸ h
  | a :: l, st, st', h, q, e => by
    unfold LangSched.acts at e
    split at e
    · cases e
    · rename_i st1 h1
      exact k.acts (k.act h (q a (List.mem_cons_self ..)) h1) (fun x hx => q x (List.mem_cons_of_mem _ hx)) e

theorem Kept.turn (k : Kept P Q) {i : Nat} {em : Bool} : ∀ {l : List (List (Act A) × Bool)} {st st' : St A}, P st → (∀ s ∈ l, ∀ a ∈ s.1, ActQ Q a) → turn i em st l = some st' → P st'
  | [], st, st', h, _, e => by
    unfold LangSched.turn at e
    split at e
    · exact k.free _ _ _ h e
    · exact Option.some.inj e ▸ h
  | s :: l, st, st', h, q, e => by
    unfold LangSched.turn at e
    split at e
    · cases e
    · rename_i st1 h1
      have p1 := k.acts h (q s (List.mem_cons_self ..)) h1
      split at e
      · exact Option.some.inj e ▸ p1
      · split at e
        · exact k.free _ _ _ p1 e
        · exact k.turn p1 (fun x hx => q x (List.mem_cons_of_mem _ hx)) e

theorem Kept.step (k : Kept P Q) {o : Op A} {st st' : St A} (h : P st) (q : OpQ Q o) (e : step st o = some st') : P st' := by
  cases o with
  | new w fail file c al => exact Option.some.inj e ▸ k.new _ _ _ _ _ _ h q
  | free i => exact k.free _ _ _ h e
  | susp i => exact k.susp _ _ _ h e
  | cont i => exact k.cont _ _ _ h e
  | launch t =>
    unfold LangSched.step launch at e
    simp only at e
    split at e
    · exact Option.some.inj e ▸ k.pend _ _ h
    · rename_i i rest hr
      split at e
      · cases e
      · rename_i st1 h1
        exact Option.some.inj e ▸ k.pend _ _ (k.turn (k.rot _ _ _ _ h hr) q h1)

theorem Kept.steps (k : Kept P Q) : ∀ {os : List (Op A)} {st st' : St A}, P st → (∀ o ∈ os, OpQ Q o) → steps st os = some st' → P st'
  | [], st, st', h, _, e => Option.some.inj e ▸ h
  | o :: os, st, st', h, q, e => by
    unfold LangSched.steps at e
    split at e
    · cases e
    · rename_i st1 h1
      exact k.steps (k.step h (q o (List.mem_cons_self ..)) h1) (fun x hx => q x (List.mem_cons_of_mem _ hx)) e

theorem ok_kept : Kept (A := A) Ok (fun _ _ _ _ _ => True) :=
  ⟨fun _ w fail file c al h _ => newJob_ok w fail h file c al, fun _ _ _ h e => (jobFree_ok h e).1, fun _ _ _ h e => suspend_ok h e, fun _ _ _ h e => resume_ok h e,
    fun _ _ _ b h hr => rotate_ok h hr b, fun _ b h => h.pend b⟩

theorem opQ_true (o : Op A) : OpQ (fun _ _ _ _ _ => True) o := by
  cases o with
  | launch t =>
    intro s _ a _
    cases a <;> trivial
  | _ => trivial

theorem init_ok (b : Bool) : Ok (init b : St A) := by
  refine ⟨?_, ?_, ?_, ?_, fun i => ?_, fun i => ?_, ?_, ?_, ?_, ?_, ?_, ?_⟩ <;> simp [init]

/-- In every history each job that exists is in exactly one of the chains, a name leads to an existing
job of that name, and an entry of the cache counts the jobs that use it, of which there is one at
least: the syntax tree of a job is there as long as the job, and not longer than the last one. -/
theorem history_ok (b : Bool) (os : List (Op A)) (st : St A) (e : steps (init b) os = some st) : Ok st :=
  ok_kept.steps (init_ok b) (fun o _ => opQ_true o) e

/-! ### The launcher -/

/-- While a job can run, the launcher is registered. -/
def Pend (st : St A) : Prop := st.run ≠ [] → st.pending = true

theorem newJob_run (w : World A) (fail : Fail) (st : St A) (file : Bool) (content : List Nat) (alias : Option Nat) :
    ((newJob w fail st file content alias).1.run = st.run ∧ (newJob w fail st file content alias).1.pending = st.pending ∧ (newJob w fail st file content alias).2 = none) ∨
    ((newJob w fail st file content alias).1.run = st.run ++ [st.nextJob] ∧ (newJob w fail st file content alias).1.pending = true ∧ (newJob w fail st file content alias).2 = some st.nextJob) := by
  obtain ⟨f1, f2, f3, f4, f5, f6, f7, f8, f9⟩ := made_facts w st file content
  rw [newJob_eq]
  simp only
  split
  · exact .inl ⟨rfl, rfl, rfl⟩
  · split
    · exact .inl ⟨f6, f8, rfl⟩
    · cases alias with
      | none =>
        simp only [Bool.false_eq_true, if_false, ne_eq, not_true, and_false]
        split
        · exact .inl ⟨f6, f8, rfl⟩
        · exact .inr ⟨by simp only [f6], rfl, rfl⟩
      | some a =>
        simp only
        split
        · exact .inl ⟨f6, f8, rfl⟩
        · split
          · exact .inl ⟨f6, f8, rfl⟩
          · split
            · exact .inl ⟨f6, f8, rfl⟩
            · exact .inr ⟨by simp only [f6], rfl, rfl⟩

theorem jobFree_run {st st' : St A} {i : Nat} (e : jobFree st i = some st') : (st'.run = st.run ∨ st'.run = st.run.erase i) ∧ st'.pending = !st'.run.isEmpty ∧ st'.nextJob = st.nextJob := by
  unfold jobFree at e
  split at e
  · cases e
  · have e := Option.some.inj e
    subst e
    refine ⟨?_, rfl, ?_⟩
    · simp only [ctxFree]
      split
      · exact .inl rfl
      · exact .inr rfl
    · simp only [ctxFree]
      split <;> rfl

/-- No wake-up is lost. -/
theorem step_pend {st st' : St A} {o : Op A} (h : Pend st) (e : step st o = some st') : Pend st' := by
  intro hr
  cases o with
  | new w fail file c al =>
    have e := Option.some.inj e
    subst e
    rcases newJob_run w fail st file c al with ⟨h1, h2, _⟩ | ⟨_, h2, _⟩
    · rw [h2]; rw [h1] at hr; exact h hr
    · exact h2
  | free i =>
    rw [(jobFree_run e).2.1]
    cases hc : st'.run with
    | nil => exact absurd hc hr
    | cons => rfl
  | susp i =>
    unfold step suspend at e
    simp only at e
    split at e
    · cases e
    · split at e
      · have e := Option.some.inj e
        subst e
        exact h hr
      · have e := Option.some.inj e
        subst e
        refine h (fun c => hr ?_)
        simp [c]
  | cont i =>
    unfold step resume at e
    simp only at e
    split at e
    · cases e
    · split at e
      · have e := Option.some.inj e
        subst e
        rfl
      · have e := Option.some.inj e
        subst e
        exact h hr
  | launch t =>
    unfold step launch at e
    simp only at e
    split at e
    · rename_i h0
      have e := Option.some.inj e
      subst e
      exact absurd h0 hr
    · split at e
      · cases e
      · have e := Option.some.inj e
        subst e
        simp only at hr ⊢
        rename_i st1 _
        cases hc : st1.run with
        | nil => exact absurd hc hr
        | cons => simp

theorem history_pend (b : Bool) (os : List (Op A)) (st : St A) (e : steps (init b) os = some st) : Pend st := by
  have : ∀ (os : List (Op A)) (s s' : St A), Pend s → steps s os = some s' → Pend s' := by
    intro os
    induction os with
    | nil => intro s s' h e; exact Option.some.inj e ▸ h
    | cons o os ih =>
      intro s s' h e
      unfold steps at e
      split at e
      · cases e
      · rename_i s1 h1
        exact ih s1 s' (step_pend h h1) e
  exact this os _ _ (fun c => absurd rfl c) e

/-! ### Every job gets its turn -/

theorem idx_ne {x i : Nat} (l : List Nat) (h : x ≠ i) : (x :: l).idxOf i = l.idxOf i + 1 := by
  have : (x == i) = false := by simpa using h
  rw [List.idxOf_cons, this]
  rfl

theorem idx_append {i : Nat} {l : List Nat} (h : i ∈ l) (r : List Nat) : (l ++ r).idxOf i = l.idxOf i := by
  rw [List.idxOf_append, if_pos h]

theorem idx_sublist {i : Nat} : ∀ {l r : List Nat}, l.Sublist r → r.Nodup → i ∈ l → l.idxOf i ≤ r.idxOf i
  | _, _, .slnil, _, h => by cases h
  | l, x :: r, .cons _ s, nd, h => by
    have nd := List.nodup_cons.1 nd
    have : x ≠ i := fun c => nd.1 (c ▸ s.subset h)
    rw [idx_ne _ this]
    exact Nat.le_succ_of_le (idx_sublist s nd.2 h)
  | x :: l, _ :: r, .cons_cons _ s, nd, h => by
    have nd := List.nodup_cons.1 nd
    by_cases c : x = i
    · subst c; simp
    · rw [idx_ne _ c, idx_ne _ c]
      refine Nat.succ_le_succ (idx_sublist s nd.2 ?_)
      rcases List.mem_cons.1 h with e | e
      · exact absurd e.symm c
      · exact e

/-- The jobs that run now are some of those before, in their order, and then new ones. -/
def Evo (st st' : St A) : Prop :=
  st.nextJob ≤ st'.nextJob ∧ ∃ l news, st'.run = l ++ news ∧ l.Sublist st.run ∧ ∀ x ∈ news, st.nextJob ≤ x

theorem Evo.refl (st : St A) : Evo st st := ⟨Nat.le_refl _, st.run, [], by simp, List.Sublist.refl _, by simp⟩

theorem Evo.trans {a b c : St A} (h : Evo a b) (k : Evo b c) : Evo a c := by
  obtain ⟨h0, l, n, h1, h2, h3⟩ := h
  obtain ⟨k0, l', n', k1, k2, k3⟩ := k
  rw [h1] at k2
  obtain ⟨x, y, rfl, hx, hy⟩ := List.sublist_append_iff.1 k2
  refine ⟨Nat.le_trans h0 k0, x, y ++ n', by rw [k1, List.append_assoc], hx.trans h2, fun z hz => ?_⟩
  rcases List.mem_append.1 hz with hz | hz
  · exact h3 z (hy.subset hz)
  · exact Nat.le_trans h0 (k3 z hz)

theorem Evo.idx {st st' : St A} (h : Evo st st') (nd : st.run.Nodup) {i : Nat} (lt : i < st.nextJob) (hi : i ∈ st'.run) : i ∈ st.run ∧ st'.run.idxOf i ≤ st.run.idxOf i := by
  obtain ⟨_, l, n, h1, h2, h3⟩ := h
  rw [h1] at hi ⊢
  have hl : i ∈ l := by
    rcases List.mem_append.1 hi with c | c
    · exact c
    · exact absurd (h3 i c) (by omega)
  rw [idx_append hl]
  exact ⟨h2.subset hl, idx_sublist h2 nd hl⟩

theorem evo_same {st st' : St A} (h1 : st'.run = st.run) (h2 : st'.nextJob = st.nextJob) : Evo st st' :=
  ⟨by omega, st.run, [], by simp [h1], List.Sublist.refl _, by simp⟩

theorem evo_erase {st st' : St A} (i : Nat) (h1 : st'.run = st.run.erase i) (h2 : st'.nextJob = st.nextJob) : Evo st st' :=
  ⟨by omega, st.run.erase i, [], by simp [h1], List.erase_sublist, by simp⟩

theorem newJob_next (w : World A) (fail : Fail) (st : St A) (file : Bool) (content : List Nat) (alias : Option Nat) : st.nextJob ≤ (newJob w fail st file content alias).1.nextJob := by
  obtain ⟨f1, f2, f3, f4, f5, f6, f7, f8, f9⟩ := made_facts w st file content
  rw [newJob_eq]
  simp only
  have : ∀ j : Job A, st.nextJob ≤ ({ (made w st file content).1 with jobs := st.jobs ++ [j], nextJob := st.nextJob + 1 } : St A).nextJob := fun j => Nat.le_succ _
  split
  · exact Nat.le_refl _
  · split
    · exact Nat.le_succ _
    · cases alias with
      | none =>
        simp only [Bool.false_eq_true, if_false, ne_eq, not_true, and_false]
        split
        · exact Nat.le_succ _
        · exact Nat.le_succ _
      | some a =>
        simp only
        split
        · exact Nat.le_succ _
        · split
          · exact Nat.le_succ _
          · split
            · exact Nat.le_succ _
            · exact Nat.le_succ _

theorem newJob_evo (w : World A) (fail : Fail) (st : St A) (file : Bool) (content : List Nat) (alias : Option Nat) : Evo st (newJob w fail st file content alias).1 := by
  rcases newJob_run w fail st file content alias with ⟨h1, _⟩ | ⟨h1, _⟩
  · exact ⟨newJob_next .., st.run, [], by simp [h1], List.Sublist.refl _, by simp⟩
  · exact ⟨newJob_next .., st.run, [st.nextJob], h1, List.Sublist.refl _, by simp⟩

theorem jobFree_evo {st st' : St A} {i : Nat} (e : jobFree st i = some st') : Evo st st' := by
  obtain ⟨h | h, _, h3⟩ := jobFree_run e
  · exact evo_same h h3
  · exact evo_erase i h h3

theorem suspend_evo {st st' : St A} {i : Nat} (e : suspend st i = some st') : Evo st st' := by
  unfold suspend at e
  split at e
  · cases e
  · split at e
    · exact Option.some.inj e ▸ Evo.refl _
    · have e := Option.some.inj e
      subst e
      exact evo_erase i rfl rfl

theorem act_evo {i : Nat} {st st' : St A} {a : Act A} (e : act i st a = some st') : Evo st st' := by
  unfold act at e
  simp only at e
  split at e
  · cases e
  · rename_i st1 hr
    split at e
    · have e := Option.some.inj e
      subst e
      cases a with
      | eval w fail file c al => exact Option.some.inj hr ▸ newJob_evo ..
      | kill a =>
        simp only [kill] at hr
        split at hr
        · exact Option.some.inj hr ▸ Evo.refl _
        · exact jobFree_evo hr
      | susp => exact suspend_evo hr
    · cases e

theorem acts_evo {i : Nat} : ∀ {l : List (Act A)} {st st' : St A}, acts i st l = some st' → Evo st st'
  | [], st, st', e => Option.some.inj e ▸ Evo.refl _
  | a :: l, st, st', e => by
    unfold acts at e
    split at e
    · cases e
    · rename_i st1 h1
      exact (act_evo h1).trans (acts_evo e)

theorem turn_evo {i : Nat} {em : Bool} : ∀ {l : List (List (Act A) × Bool)} {st st' : St A}, turn i em st l = some st' → Evo st st'
  | [], st, st', e => by
    unfold turn at e
    split at e
    · exact jobFree_evo e
    · exact Option.some.inj e ▸ Evo.refl _
  | s :: l, st, st', e => by
    unfold turn at e
    split at e
    · cases e
    · rename_i st1 h1
      refine (acts_evo h1).trans ?_
      split at e
      · exact Option.some.inj e ▸ Evo.refl _
      · split at e
        · exact jobFree_evo e
        · exact turn_evo e

/-- A job is runnable all the time and it is never the one that the launcher takes. -/
def Waits (i : Nat) : St A → List (Op A) → Prop
  | _, [] => True
  | st, o :: os => ((∃ t, o = .launch t) → st.run.head? ≠ some i) ∧ ∃ st', step st o = some st' ∧ i ∈ st'.run ∧ Waits i st' os

def isLaunch : Op A → Bool
  | .launch _ => true
  | _ => false

theorem step_idx {st st' : St A} {o : Op A} {i : Nat} (h : Ok st) (hi : i ∈ st.run) (hn : (∃ t, o = .launch t) → st.run.head? ≠ some i)
    (e : step st o = some st') (hi' : i ∈ st'.run) : st'.run.idxOf i + (if isLaunch o then 1 else 0) ≤ st.run.idxOf i := by
  have lt : i < st.nextJob := by
    obtain ⟨_, x, x1, x2, _⟩ := (h.inRun i).1 hi
    exact x2 ▸ h.lt x x1
  cases o with
  | new w fail file c al =>
    exact ((Option.some.inj e ▸ newJob_evo w fail st file c al : Evo st st').idx h.runNd lt hi').2
  | free k => exact ((jobFree_evo e).idx h.runNd lt hi').2
  | susp k => exact ((suspend_evo e).idx h.runNd lt hi').2
  | cont k =>
    unfold step resume at e
    simp only at e
    split at e
    · cases e
    · split at e
      · have e := Option.some.inj e
        subst e
        simp only [isLaunch, Bool.false_eq_true, if_false, Nat.add_zero]
        rw [idx_append hi]
        exact Nat.le_refl _
      · exact Option.some.inj e ▸ Nat.le_refl _
  | launch t =>
    have hn := hn ⟨t, rfl⟩
    unfold step launch at e
    simp only at e
    split at e
    · rename_i h0
      rw [h0] at hi
      cases hi
    · rename_i k rest hr
      split at e
      · cases e
      · rename_i st1 h1
        have e := Option.some.inj e
        subst e
        rw [hr] at hn hi
        have ne : k ≠ i := fun c => hn (by rw [c]; rfl)
        have hir : i ∈ rest := by
          rcases List.mem_cons.1 hi with c | c
          · exact absurd c.symm ne
          · exact c
        have := ((turn_evo h1).idx (rotate_ok h hr false).runNd lt hi').2
        simp only at this
        rw [idx_append hir] at this
        simp only [isLaunch, if_true]
        rw [hr, idx_ne _ ne]
        exact Nat.succ_le_succ this

/-- Round robin: while a job can run, the launcher runs each time another one only as often as there
were jobs before it in the chain, whatever these and the program do in the meantime. -/
theorem gets_turn : ∀ (os : List (Op A)) (st : St A) (i : Nat), Ok st → i ∈ st.run → Waits i st os → (os.filter isLaunch).length ≤ st.run.idxOf i
  | [], _, _, _, _, _ => Nat.zero_le _
  | o :: os, st, i, h, hi, ⟨hn, st', e, hi', w⟩ => by
    have h' : Ok st' := ok_kept.step h (opQ_true o) e
    have r := gets_turn os st' i h' hi' w
    have s := step_idx h hi hn e hi'
    rw [List.filter_cons]
    split
    · rename_i c
      rw [if_pos c] at s
      rw [List.length_cons]
      omega
    · rename_i c
      rw [if_neg c] at s
      omega

/-! ### Names -/

/-- Each job that has a name is found by it. -/
def Named (st : St A) : Prop := ∀ j ∈ st.jobs, ∀ a, j.alias = some a → (a, j.num) ∈ st.names

/-- Then no two jobs have one name. -/
theorem named_unique {st : St A} (h : Ok st) (n : Named st) {j k : Job A} (hj : j ∈ st.jobs) (hk : k ∈ st.jobs) {a : Nat} (e1 : j.alias = some a) (e2 : k.alias = some a) : j = k := by
  have m1 := n j hj a e1
  have m2 := n k hk a e2
  have := inj_of_nodup (f := fun p : Nat × Nat => p.1) h.keys m1 m2 rfl
  exact same_job h.nums hj hk (congrArg Prod.snd this)

theorem filter_new {jobs : List (Job A)} {n : Nat} (h : ∀ x ∈ jobs, x.num < n) (j : Job A) (hj : j.num = n) : (jobs ++ [j]).filter (fun x => x.num != n) = jobs := by
  rw [List.filter_append, List.filter_eq_self.2 (fun x hx => by simpa using Nat.ne_of_lt (h x hx))]
  simp [hj]

/-- The two outcomes of making a job. -/
theorem newJob_shape (w : World A) (fail : Fail) {st : St A} (h : Ok st) (file : Bool) (content : List Nat) (alias : Option Nat) :
    ((newJob w fail st file content alias).2 = none ∧ (newJob w fail st file content alias).1.jobs = st.jobs ∧
      ((newJob w fail st file content alias).1.names = st.names ∨ (newJob w fail st file content alias).1.names = st.names.filter (fun p => some p.1 != alias)) ∧
      ((newJob w fail st file content alias).1.cache = st.cache ∨ (newJob w fail st file content alias).1.cache = (made w st file content).1.cache ∨ ∃ k, (newJob w fail st file content alias).1.cache = unref k (made w st file content).1.cache)) ∨
    ((newJob w fail st file content alias).2 = some st.nextJob ∧ (newJob w fail st file content alias).1.jobs = st.jobs ++ [{ (made w st file content).2 with alias := alias }] ∧
      (newJob w fail st file content alias).1.names = st.names ++ (match alias with | none => [] | some a => [(a, st.nextJob)]) ∧
      (newJob w fail st file content alias).1.cache = (made w st file content).1.cache ∧ (newJob w fail st file content alias).1.useCache = st.useCache) := by
  obtain ⟨f1, f2, f3, f4, f5, f6, f7, f8, f9⟩ := made_facts w st file content
  have cacheOf : ∀ (s : St A) (j : Job A), (ctxFree s j).cache = s.cache ∨ ∃ k, (ctxFree s j).cache = unref k s.cache := by
    intro s j
    unfold ctxFree
    simp only
    split
    · exact .inr ⟨_, rfl⟩
    · exact .inl rfl
  have jobsOf : ∀ al : Option Nat, (st.jobs ++ [{ (made w st file content).2 with alias := al }]).filter (fun x => x.num != (made w st file content).2.num) = st.jobs := by
    intro al
    rw [f2]
    exact filter_new h.lt _ f2
  rw [newJob_eq]
  by_cases h1 : fail = .early
  · rw [if_pos h1]; exact .inl ⟨rfl, rfl, .inl rfl, .inl rfl⟩
  rw [if_neg h1]
  simp only
  by_cases h2 : fail = .late
  · rw [if_pos h2]
    refine .inl ⟨rfl, ?_, ?_, .inr (cacheOf _ _)⟩
    · show (made w st file content).1.jobs.filter _ = _
      rw [f1, f2]
      exact filter_new h.lt _ f2
    · left
      unfold ctxFree
      simp only [f3]
      exact f5
  rw [if_neg h2]
  cases alias with
  | none =>
    simp only [Bool.false_eq_true, if_false, ne_eq, not_true, and_false]
    by_cases h3 : fail = .signal
    · rw [if_pos h3]
      exact .inl ⟨rfl, jobsOf none, .inl f5, .inr (cacheOf { (made w st file content).1 with jobs := st.jobs ++ [{ (made w st file content).2 with alias := none }] } { (made w st file content).2 with alias := none })⟩
    rw [if_neg h3]
    exact .inr ⟨rfl, rfl, by simp [f5], rfl, f9⟩
  | some a =>
    have fl : st.names.filter (fun p => p.1 != a) = st.names.filter (fun p => some p.1 != some a) := by
      congr 1
    have free : (ctxFree { (made w st file content).1 with jobs := st.jobs ++ [{ (made w st file content).2 with alias := some a }] } { (made w st file content).2 with alias := some a }).names =
        st.names.filter (fun p => some p.1 != some a) := by
      rw [← fl, ← f5]
      rfl
    simp only
    by_cases ht : ((made w st file content).1.names.any (fun p => p.1 == a)) = true
    · rw [if_pos ht]
      exact .inl ⟨rfl, jobsOf (some a), .inr free, .inr (cacheOf { (made w st file content).1 with jobs := st.jobs ++ [{ (made w st file content).2 with alias := some a }] } { (made w st file content).2 with alias := some a })⟩
    rw [if_neg ht]
    by_cases h3 : fail = .node ∧ some a ≠ none
    · rw [if_pos h3]
      exact .inl ⟨rfl, jobsOf (some a), .inr free, .inr (cacheOf { (made w st file content).1 with jobs := st.jobs ++ [{ (made w st file content).2 with alias := some a }] } { (made w st file content).2 with alias := some a })⟩
    rw [if_neg h3]
    by_cases h4 : fail = .signal
    · rw [if_pos h4]
      refine .inl ⟨rfl, jobsOf (some a), .inr ?_, .inr (cacheOf { (made w st file content).1 with jobs := st.jobs ++ [{ (made w st file content).2 with alias := some a }], names := (made w st file content).1.names ++ [(a, st.nextJob)] } { (made w st file content).2 with alias := some a })⟩
      show ((made w st file content).1.names ++ [(a, st.nextJob)]).filter (fun p => p.1 != a) = _
      rw [List.filter_append, f5, ← fl]
      simp
    rw [if_neg h4]
    exact .inr ⟨rfl, rfl, by simp [f5], rfl, f9⟩

theorem newJob_jobs (w : World A) (fail : Fail) {st : St A} (h : Ok st) (file : Bool) (content : List Nat) (alias : Option Nat) {x : Job A} (hx : x ∈ st.jobs) :
    x ∈ (newJob w fail st file content alias).1.jobs := by
  rcases newJob_shape w fail h file content alias with ⟨_, e, _⟩ | ⟨_, e, _⟩
  · rw [e]; exact hx
  · rw [e]; exact List.mem_append_left _ hx

/-- Making a job whose name is not in use keeps the names. -/
theorem newJob_named (w : World A) (fail : Fail) {st : St A} (h : Ok st) (n : Named st) (file : Bool) (content : List Nat) (alias : Option Nat)
    (free : ∀ a, alias = some a → ∀ p ∈ st.names, p.1 ≠ a) : Named (newJob w fail st file content alias).1 := by
  have keep : st.names.filter (fun p => some p.1 != alias) = st.names := by
    refine List.filter_eq_self.2 (fun p hp => ?_)
    rw [bne_iff_ne]
    intro c
    exact free p.1 c.symm p hp rfl
  intro j hj a ha
  rcases newJob_shape w fail h file content alias with ⟨_, e1, e2, _⟩ | ⟨_, e1, e2, _⟩
  · rw [keep, or_self] at e2
    rw [e2]
    rw [e1] at hj
    exact n j hj a ha
  · rw [e1] at hj
    rw [e2]
    rcases List.mem_append.1 hj with c | c
    · exact List.mem_append_left _ (n j c a ha)
    · rw [List.mem_singleton] at c
      subst c
      simp only at ha
      subst ha
      exact List.mem_append_right _ (by simp [(made_facts w st file content).2.1])

theorem jobFree_named {st st' : St A} {i : Nat} (h : Ok st) (n : Named st) (e : jobFree st i = some st') : Named st' := by
  intro x hx' a ha
  obtain ⟨hx, ne⟩ := ((jobFree_ok h e).2 x).1 hx'
  clear hx'
  have m := n x hx a ha
  unfold jobFree at e
  split at e
  · cases e
  · rename_i j hf
    obtain ⟨hj, rfl⟩ := find_job hf
    have e := Option.some.inj e
    subst e
    have key : ∀ s : St A, s.names = st.names → (a, x.num) ∈ (ctxFree s j).names := by
      intro s hs
      unfold ctxFree
      simp only
      split
      · rw [hs]; exact m
      · rename_i b hb
        refine List.mem_filter.2 ⟨hs ▸ m, ?_⟩
        simp only [bne_iff_ne]
        intro c
        exact ne (congrArg Job.num (named_unique h n hx hj ha (c ▸ hb)))
    show (a, x.num) ∈ (ctxFree _ j).names
    apply key
    split <;> rfl

theorem setSusp_named {st : St A} (n : Named st) (b : Bool) (i : Nat) {x : Job A} (hx : x ∈ setSusp b i st.jobs) {a : Nat} (ha : x.alias = some a) : (a, x.num) ∈ st.names := by
  obtain ⟨y, hy, ⟨_, rfl⟩ | ⟨_, rfl⟩⟩ := setSusp_mem.1 hx
  · exact n y hy a ha
  · exact n x hy a ha

theorem named_kept : Kept (A := A) (fun st => Ok st ∧ Named st) (fun _ _ _ _ al => al = none) := by
  refine ⟨fun st w fail file c al h q => ⟨newJob_ok w fail h.1 file c al, newJob_named w fail h.1 h.2 file c al (fun a ha => by rw [q] at ha; cases ha)⟩,
    fun st st' i h e => ⟨(jobFree_ok h.1 e).1, jobFree_named h.1 h.2 e⟩, fun st st' i h e => ⟨suspend_ok h.1 e, ?_⟩, fun st st' i h e => ⟨resume_ok h.1 e, ?_⟩,
    fun st i rest b h hr => ⟨rotate_ok h.1 hr b, h.2⟩, fun st b h => ⟨h.1.pend b, h.2⟩⟩
  · unfold suspend at e
    split at e
    · cases e
    · split at e
      · exact Option.some.inj e ▸ h.2
      · have e := Option.some.inj e
        subst e
        exact fun x hx a ha => setSusp_named h.2 _ _ hx ha
  · unfold resume at e
    split at e
    · cases e
    · split at e
      · have e := Option.some.inj e
        subst e
        exact fun x hx a ha => setSusp_named h.2 _ _ hx ha
      · exact Option.some.inj e ▸ h.2

/-- A history in which the program makes jobs only with names that are not in use, and the scripts
only jobs without a name. -/
def Polite : St A → List (Op A) → Prop
  | _, [] => True
  | st, o :: os =>
    (match o with
      | .new _ _ _ _ (some a) => ∀ p ∈ st.names, p.1 ≠ a
      | .launch t => ∀ s ∈ t.steps, ∀ x ∈ s.1, ActQ (fun _ _ _ _ al => al = none) x
      | _ => True) ∧ ∀ st', step st o = some st' → Polite st' os

/-- Partial: in such histories every job with a name is found by it and no two jobs have the same.
Missing: histories with a creation that is refused because its name is in use, after which this does
not hold (`alias_lost`, `alias_twice`). -/
theorem names_partial : ∀ (os : List (Op A)) (st st' : St A), Ok st → Named st → Polite st os → steps st os = some st' →
    (∀ j ∈ st'.jobs, ∀ a, j.alias = some a → (a, j.num) ∈ st'.names) ∧ (∀ j ∈ st'.jobs, ∀ k ∈ st'.jobs, ∀ a, j.alias = some a → k.alias = some a → j = k)
  | [], st, st', h, n, _, e => by
    have e := Option.some.inj e
    subst e
    exact ⟨n, fun j hj k hk a e1 e2 => named_unique h n hj hk e1 e2⟩
  | o :: os, st, st', h, n, ⟨p, q⟩, e => by
    unfold steps at e
    split at e
    · cases e
    · rename_i st1 h1
      have h' : Ok st1 ∧ Named st1 := by
        cases o with
        | new w fail file c al =>
          have e := Option.some.inj h1
          subst e
          refine ⟨newJob_ok w fail h file c al, newJob_named w fail h n file c al (fun a ha => ?_)⟩
          subst ha
          exact p
        | launch t => exact named_kept.step ⟨h, n⟩ (o := .launch t) p h1
        | free i => exact named_kept.step ⟨h, n⟩ (o := .free i) trivial h1
        | susp i => exact named_kept.step ⟨h, n⟩ (o := .susp i) trivial h1
        | cont i => exact named_kept.step ⟨h, n⟩ (o := .cont i) trivial h1
      exact names_partial os st1 st' h'.1 h'.2 (q st1 h1) e

theorem taken_lost {st : St A} (h : Ok st) {a i : Nat} (ha : (a, i) ∈ st.names) (w : World A) (fail : Fail) (file : Bool) (content : List Nat) (h1 : fail ≠ .early) (h2 : fail ≠ .late) :
    (newJob w fail st file content (some a)).2 = none ∧ (newJob w fail st file content (some a)).1.jobs = st.jobs ∧
    (newJob w fail st file content (some a)).1.names = st.names.filter (fun p => p.1 != a) := by
  obtain ⟨f1, f2, f3, f4, f5, f6, f7, f8, f9⟩ := made_facts w st file content
  rw [newJob_eq, if_neg h1]
  simp only
  rw [if_neg h2, if_pos (by rw [f5]; exact List.any_eq_true.2 ⟨_, ha, by simp⟩)]
  refine ⟨rfl, ?_, ?_⟩
  · show (st.jobs ++ [_]).filter _ = _
    simp only [f2]
    exact filter_new h.lt _ f2
  · show (made w st file content).1.names.filter _ = _
    rw [f5]

/-- When a job is refused because another one has the name, the name is taken from the other one: the
other one goes on, and `Kill` with its name does nothing. -/
theorem alias_lost {st : St A} (h : Ok st) {j : Job A} {a : Nat} (hj : j ∈ st.jobs) (ha : (a, j.num) ∈ st.names) (w : World A) (fail : Fail) (file : Bool) (content : List Nat)
    (h1 : fail ≠ .early) (h2 : fail ≠ .late) :
    (newJob w fail st file content (some a)).2 = none ∧ j ∈ (newJob w fail st file content (some a)).1.jobs ∧ j.alias = some a ∧
    kill (newJob w fail st file content (some a)).1 a = some (newJob w fail st file content (some a)).1 := by
  obtain ⟨r1, r2, r3⟩ := taken_lost h ha w fail file content h1 h2
  refine ⟨r1, r2 ▸ hj, ?_, ?_⟩
  · obtain ⟨k, k1, k2, k3⟩ := h.names _ ha
    rw [← same_job h.nums k1 hj k2]
    exact k3
  · unfold kill
    rw [List.find?_eq_none.2]
    intro p hp
    rw [r3] at hp
    simpa using (List.mem_filter.1 hp).2

/-- The next one then gets the name, and two jobs have it. -/
theorem alias_twice {st : St A} (h : Ok st) {j : Job A} {a : Nat} (hj : j ∈ st.jobs) (ha : (a, j.num) ∈ st.names) (w w' : World A) (fail : Fail) (file file' : Bool) (content content' : List Nat)
    (h1 : fail ≠ .early) (h2 : fail ≠ .late) :
    let st1 := (newJob w fail st file content (some a)).1
    let r := newJob w' .no st1 file' content' (some a)
    ∃ k ∈ r.1.jobs, r.2 = some k.num ∧ k.alias = some a ∧ j ∈ r.1.jobs ∧ j.alias = some a ∧ k.num ≠ j.num := by
  intro st1 r
  obtain ⟨r1, r2, r3⟩ := taken_lost h ha w fail file content h1 h2
  obtain ⟨_, q2, q3, _⟩ := alias_lost h hj ha w fail file content h1 h2
  have ok1 : Ok st1 := newJob_ok w fail h file content (some a)
  obtain ⟨f1, f2, f3, f4, f5, f6, f7, f8, f9⟩ := made_facts w' st1 file' content'
  have nt : ¬ ((made w' st1 file' content').1.names.any (fun p => p.1 == a)) = true := by
    rw [f5]
    intro c
    obtain ⟨p, hp, c⟩ := List.any_eq_true.1 c
    have hp : p ∈ (newJob w fail st file content (some a)).1.names := hp
    rw [r3] at hp
    have := (List.mem_filter.1 hp).2
    simp only [beq_iff_eq] at c
    simp [c] at this
  have e : r.2 = some st1.nextJob := by
    show (newJob w' .no st1 file' content' (some a)).2 = _
    rw [newJob_eq, if_neg (by simp)]
    simp only
    rw [if_neg (by simp), if_neg nt, if_neg (by simp), if_neg (by simp)]
  rcases newJob_shape w' .no ok1 file' content' (some a) with ⟨c, _⟩ | ⟨_, e2, _⟩
  · rw [show (newJob w' .no st1 file' content' (some a)).2 = r.2 from rfl, e] at c
    cases c
  · have q2' : j ∈ st1.jobs := q2
    refine ⟨{ (made w' st1 file' content').2 with alias := some a }, ?_, ?_, rfl, ?_, q3, ?_⟩
    · show _ ∈ r.1.jobs
      rw [show r.1.jobs = _ from e2]
      simp
    · rw [e, f2]
    · rw [show r.1.jobs = _ from e2]
      exact List.mem_append_left _ q2'
    · rw [f2]
      exact Nat.ne_of_gt (ok1.lt j q2')

/-! ### A job that kills itself -/

/-- A script that kills the job of its own name uses the job after it was freed. -/
theorem kill_self_bad {st : St A} (h : Ok st) {i a : Nat} {rest : List Nat} (hr : st.run = i :: rest) (ha : (a, i) ∈ st.names) (more : List (Act A)) (q em : Bool)
    (l : List (List (Act A) × Bool)) : launch st ⟨(.kill a :: more, q) :: l, em⟩ = none := by
  have h0 := rotate_ok h hr false
  have nk : act i { st with run := rest ++ [i], pending := false } (.kill a) = none := by
    unfold act kill
    simp only
    cases hf : st.names.find? (fun p => p.1 == a) with
    | none =>
      have := List.find?_eq_none.1 hf _ ha
      simp at this
    | some p =>
      have hp := List.mem_of_find?_eq_some hf
      have hp1 : p.1 = a := by simpa using List.find?_some hf
      have : p = (a, i) := inj_of_nodup (f := fun p : Nat × Nat => p.1) h.keys hp ha hp1
      subst this
      simp only
      cases hq : jobFree { st with run := rest ++ [i], pending := false } i with
      | none => rfl
      | some st' =>
        simp only
        rw [if_neg]
        intro c
        obtain ⟨x, hx, c⟩ := List.any_eq_true.1 c
        exact (((jobFree_ok h0 hq).2 x).1 hx).2 (by simpa using c)
  unfold launch
  rw [hr]
  simp only [turn, acts, nk]

/-- The running job is there and has its name. -/
def Live (i : Nat) (al : Option Nat) (st : St A) : Prop := Ok st ∧ ∃ j ∈ st.jobs, j.num = i ∧ j.alias = al

theorem find_live {st : St A} {i : Nat} {j : Job A} (hj : j ∈ st.jobs) (hn : j.num = i) : ∃ k, st.jobs.find? (fun j => j.num == i) = some k := by
  cases hf : st.jobs.find? (fun j => j.num == i) with
  | none =>
    have := List.find?_eq_none.1 hf j hj
    simp [hn] at this
  | some k => exact ⟨k, rfl⟩

theorem jobFree_some {st : St A} {i : Nat} {j : Job A} (hj : j ∈ st.jobs) (hn : j.num = i) : ∃ st', jobFree st i = some st' := by
  obtain ⟨k, hk⟩ := find_live hj hn
  unfold jobFree
  rw [hk]
  exact ⟨_, rfl⟩

theorem act_safe {i : Nat} {al : Option Nat} {st : St A} (h : Live i al st) (x : Act A) (hx : ∀ a, x = .kill a → al ≠ some a) : ∃ st', act i st x = some st' ∧ Live i al st' := by
  obtain ⟨ok, j, hj, hn, hal⟩ := h
  have fin : ∀ st1 : St A, Live i al st1 → (if st1.jobs.any (fun j => j.num == i) then some st1 else none) = some st1 := by
    rintro st1 ⟨_, k, hk, e, _⟩
    rw [if_pos (List.any_eq_true.2 ⟨k, hk, by simpa using e⟩)]
  cases x with
  | eval w fail file c a =>
    have : Live i al (newJob w fail st file c a).1 := ⟨newJob_ok w fail ok file c a, j, newJob_jobs w fail ok file c a hj, hn, hal⟩
    exact ⟨_, fin _ this, this⟩
  | kill a =>
    unfold act kill
    simp only
    cases hf : st.names.find? (fun p => p.1 == a) with
    | none => exact ⟨st, fin st ⟨ok, j, hj, hn, hal⟩, ok, j, hj, hn, hal⟩
    | some p =>
      have hp := List.mem_of_find?_eq_some hf
      have hp1 : p.1 = a := by simpa using List.find?_some hf
      obtain ⟨k, k1, k2, k3⟩ := ok.names p hp
      obtain ⟨st', e⟩ := jobFree_some k1 k2
      simp only [e]
      have ne : j.num ≠ p.2 := by
        intro c
        have := same_job ok.nums hj k1 (c.trans k2.symm)
        subst this
        exact hx a rfl (by rw [← hal, k3, hp1])
      have : Live i al st' := ⟨(jobFree_ok ok e).1, j, ((jobFree_ok ok e).2 j).2 ⟨hj, ne⟩, hn, hal⟩
      exact ⟨st', fin st' this, this⟩
  | susp =>
    obtain ⟨k, hk⟩ := find_live hj hn
    unfold act
    simp only
    have hs : ∃ st', suspend st i = some st' ∧ ∃ y ∈ st'.jobs, y.num = i ∧ y.alias = al := by
      unfold suspend
      rw [hk]
      simp only
      split
      · exact ⟨st, rfl, j, hj, hn, hal⟩
      · exact ⟨_, rfl, _, setSusp_mem.2 ⟨j, hj, .inl ⟨hn, rfl⟩⟩, hn, hal⟩
    obtain ⟨st', e, y⟩ := hs
    simp only [e]
    have : Live i al st' := ⟨suspend_ok ok e, y⟩
    exact ⟨st', fin st' this, this⟩

theorem acts_safe {i : Nat} {al : Option Nat} : ∀ (l : List (Act A)) {st : St A}, Live i al st → (∀ a, .kill a ∈ l → al ≠ some a) → ∃ st', acts i st l = some st' ∧ Live i al st'
  | [], st, h, _ => ⟨st, rfl, h⟩
  | x :: l, st, h, hx => by
    obtain ⟨st1, e, h1⟩ := act_safe h x (fun a c => hx a (c ▸ List.mem_cons_self ..))
    unfold acts
    rw [e]
    exact acts_safe l h1 (fun a c => hx a (List.mem_cons_of_mem _ c))

theorem turn_safe {i : Nat} {al : Option Nat} (em : Bool) : ∀ (l : List (List (Act A) × Bool)) {st : St A}, Live i al st → (∀ s ∈ l, ∀ a, .kill a ∈ s.1 → al ≠ some a) → ∃ st', turn i em st l = some st'
  | [], st, ⟨_, j, hj, hn, _⟩, _ => by
    unfold turn
    split
    · exact jobFree_some hj hn
    · exact ⟨_, rfl⟩
  | s :: l, st, h, hx => by
    obtain ⟨st1, e, h1⟩ := acts_safe s.1 h (hx s (List.mem_cons_self ..))
    unfold turn
    simp only [e]
    split
    · exact ⟨_, rfl⟩
    · split
      · obtain ⟨_, j, hj, hn, _⟩ := h1
        exact jobFree_some hj hn
      · exact turn_safe em l h1 (fun t ht => hx t (List.mem_cons_of_mem _ ht))

/-- Partial: whatever else the scripts do, the launcher uses no freed job.  Missing: a script that
kills its own name (`kill_self_bad`). -/
theorem launch_safe_partial {st : St A} (h : Ok st) (t : Turn A) (hk : ∀ j ∈ st.jobs, st.run.head? = some j.num → ∀ s ∈ t.steps, ∀ a, .kill a ∈ s.1 → j.alias ≠ some a) :
    ∃ st', launch st t = some st' := by
  unfold launch
  cases hr : st.run with
  | nil => exact ⟨_, rfl⟩
  | cons i rest =>
    simp only
    obtain ⟨_, j, hj, hn, _⟩ := (h.inRun i).1 (by rw [hr]; exact List.mem_cons_self ..)
    obtain ⟨st', e⟩ := turn_safe (i := i) (al := j.alias) t.empty t.steps (st := { st with run := rest ++ [i], pending := false }) ⟨rotate_ok h hr false, j, hj, hn, rfl⟩
      (hk j hj (by rw [hr, hn]; rfl))
    rw [e]
    exact ⟨_, rfl⟩

/-! ### The syntax tree of a job -/

/-- The cache holds what the parser makes of its texts. -/
def CacheOk (f : List Nat → Option A) (st : St A) : Prop := ∀ e ∈ st.cache, f e.code = some e.ast

theorem unref_back {k : Nat} {es : List (Entry A)} {e : Entry A} (h : e ∈ unref k es) : ∃ x ∈ es, x.code = e.code ∧ x.ast = e.ast := by
  have := (List.mem_filter.1 h).1
  obtain ⟨x, hx, rfl⟩ := List.mem_map.1 this
  refine ⟨x, hx, ?_⟩
  split <;> exact ⟨rfl, rfl⟩

theorem made_cache {f : List Nat → Option A} {st : St A} (hc : CacheOk f st) {w : World A} (hw : w.parse false = f) (content : List Nat) :
    CacheOk f (made w st false content).1 ∧ (made w st false content).2.ast = f content := by
  have hs := scan_same w.now content st.cache
  have like : ∀ e ∈ (scan w.now content st.cache).1, f e.code = some e.ast := by
    intro e he
    obtain ⟨x, hx, _, q2, q3, _⟩ := Like.back hs.2 he
    rw [← q2, ← q3]
    exact hc x hx
  unfold made
  by_cases hu : st.useCache = true
  · simp only [if_pos hu]
    unfold search
    simp only [keyOf, Bool.false_eq_true, if_false]
    cases h2 : (scan w.now content st.cache).2 with
    | some e =>
      obtain ⟨_, q2, q3⟩ := hs.1 e h2
      refine ⟨fun x hx => ?_, ?_⟩
      · obtain ⟨y, hy, rfl⟩ := List.mem_map.1 hx
        have := like y hy
        split <;> exact this
      · have := like e q2
        rw [q3] at this
        exact this.symm
    | none =>
      simp only
      cases h3 : w.parse false content with
      | none => exact ⟨like, by rw [hw] at h3; simpa using h3.symm⟩
      | some a =>
        refine ⟨fun x hx => ?_, by rw [hw] at h3; simpa using h3.symm⟩
        rcases List.mem_append.1 hx with c | c
        · exact like x c
        · rw [List.mem_singleton.1 c]
          exact hw ▸ h3
  · simp only [if_neg hu]
    exact ⟨hc, by rw [hw]⟩

theorem cache_kept (f : List Nat → Option A) : Kept (A := A) (fun st => Ok st ∧ CacheOk f st) (fun w _ file _ _ => file = false ∧ w.parse false = f) := by
  refine ⟨fun st w fail file c al h q => ⟨newJob_ok w fail h.1 file c al, ?_⟩, fun st st' i h e => ⟨(jobFree_ok h.1 e).1, ?_⟩, fun st st' i h e => ⟨suspend_ok h.1 e, ?_⟩,
    fun st st' i h e => ⟨resume_ok h.1 e, ?_⟩, fun st i rest b h hr => ⟨rotate_ok h.1 hr b, h.2⟩, fun st b h => ⟨h.1.pend b, h.2⟩⟩
  · obtain ⟨rfl, hw⟩ := q
    have m := (made_cache h.2 hw c).1
    intro e he
    rcases newJob_shape w fail h.1 false c al with ⟨_, _, _, q | q | ⟨k, q⟩⟩ | ⟨_, _, _, q, _⟩
    · exact h.2 e (q ▸ he)
    · exact m e (q ▸ he)
    · obtain ⟨x, hx, c1, c2⟩ := unref_back (q ▸ he)
      rw [← c1, ← c2]
      exact m x hx
    · exact m e (q ▸ he)
  · intro x hx
    unfold jobFree at e
    split at e
    · cases e
    · have e := Option.some.inj e
      subst e
      simp only [ctxFree] at hx
      split at hx
      · obtain ⟨y, hy, c1, c2⟩ := unref_back hx
        rw [← c1, ← c2]
        refine h.2 y ?_
        split at hy <;> exact hy
      · refine h.2 x ?_
        split at hx <;> exact hx
  · unfold suspend at e
    split at e
    · cases e
    · split at e <;> exact Option.some.inj e ▸ h.2
  · unfold resume at e
    split at e
    · cases e
    · split at e <;> exact Option.some.inj e ▸ h.2

/-- Partial: where all sources are texts, a new job gets the syntax tree of its text, in every
history, with the cache or without it.  Missing: jobs from files with the cache (`other_source_bad`). -/
theorem own_tree_partial (f : List Nat → Option A) (b : Bool) (os : List (Op A)) (ho : ∀ o ∈ os, OpQ (fun w _ file _ _ => file = false ∧ w.parse false = f) o) (st : St A)
    (e : steps (init b) os = some st) (w : World A) (hw : w.parse false = f) (fail : Fail) (content : List Nat) (al : Option Nat) (n : Nat)
    (hn : (newJob w fail st false content al).2 = some n) : ∃ j ∈ (newJob w fail st false content al).1.jobs, j.num = n ∧ j.alias = al ∧ j.ast = f content := by
  have h := (cache_kept f).steps (os := os) ⟨init_ok b, fun x hx => by cases hx⟩ ho e
  rcases newJob_shape w fail h.1 false content al with ⟨c, _⟩ | ⟨c1, c2, _⟩
  · rw [c] at hn; cases hn
  · rw [c1] at hn
    refine ⟨{ (made w st false content).2 with alias := al }, c2 ▸ by simp, ?_, rfl, (made_cache h.2 hw content).2⟩
    rw [← Option.some.inj hn]
    exact (made_facts w st false content).2.1

theorem scan_none {now : Nat} {data : List Nat} : ∀ {es : List (Entry A)}, (scan now data es).2 = none → ∀ e ∈ (scan now data es).1, e.expire = true ∨ e.code ≠ data
  | [], _, e, he => by simp [scan] at he
  | a :: es, h, e, he => by
    simp only [scan] at h he
    split at he
    · rename_i c
      rw [if_pos c] at h
      rcases List.mem_cons.1 he with rfl | he
      · exact .inl c
      · exact scan_none h e he
    · rename_i c
      rw [if_neg c] at h
      split at he
      · rename_i c2
        rw [if_pos c2] at h
        rcases List.mem_cons.1 he with rfl | he
        · exact .inl rfl
        · exact scan_none h e he
      · rename_i c2
        rw [if_neg c2] at h
        split at he
        · rename_i c3
          rw [if_pos c3] at h
          cases h
        · rename_i c3
          rw [if_neg c3] at h
          rcases List.mem_cons.1 he with rfl | he
          · exact .inr c3
          · exact scan_none h e he

theorem scan_last {now : Nat} {data : List Nat} {n : Entry A} (h1 : n.expire = false) (h2 : (now + 2 ^ 64 - n.time) % 2 ^ 64 < 30000000) (h3 : n.code = data) :
    ∀ {es : List (Entry A)}, (∀ e ∈ es, e.expire = true ∨ e.code ≠ data) → (scan now data (es ++ [n])).2 = some n
  | [], _ => by
    simp only [List.nil_append, scan, h1, Bool.false_eq_true, if_false]
    rw [if_neg (by omega), if_pos h3]
  | a :: es, h => by
    have ih := scan_last h1 h2 h3 (es := es) (fun e he => h e (List.mem_cons_of_mem _ he))
    simp only [List.cons_append, scan]
    split
    · exact ih
    · rename_i c1
      split
      · exact ih
      · split
        · rename_i c3
          rcases h a (List.mem_cons_self ..) with c | c
          · exact absurd c c1
          · exact absurd c3 c
        · exact ih

/-- With the cache, the path of a file, beginning with `/` or `@`, stands in it like a text.  A job
made within the next 30 seconds from a text that is this path (`file' = false`), or from the file
(`file' = true`), gets the tree of the file as it was, whatever the parser makes of the text or of the
file by now. -/
theorem other_source_bad {st : St A} (h : Ok st) (hu : st.useCache = true) (p : List Nat) (hp : p.head? = some 47 ∨ p.head? = some 64) (w w' : World A)
    (hm : (scan w.now p st.cache).2 = none) (a : A) (hw : w.parse true p = some a) (ht : w.now ≤ w'.now) (ht2 : w'.now < w.now + 30000000) (file' : Bool) :
    ∃ n, (newJob w' .no (newJob w .no st true p none).1 file' p none).2 = some n ∧
      ∃ j ∈ (newJob w' .no (newJob w .no st true p none).1 file' p none).1.jobs, j.num = n ∧ j.ast = some a := by
  have key : ∀ (v : World A) (b : Bool), keyOf v b p = some p := by
    intro v b
    cases b with
    | false => simp [keyOf]
    | true =>
      cases p with
      | nil => simp at hp
      | cons x l =>
        simp only [List.head?_cons, Option.some.injEq] at hp
        rcases hp with rfl | rfl <;> simp [keyOf]
  have c1 : (made w st true p).1.cache = (scan w.now p st.cache).1 ++ [{ num := st.nextEntry, code := p, ast := a, ref := 1, expire := false, time := w.now }] := by
    unfold made search
    simp only [if_pos hu, key, hm, hw]
  have e1 := newJob_shape w .no h true p none
  have n1 : (newJob w .no st true p none).2 = some st.nextJob := by
    rw [newJob_eq, if_neg (by simp)]
    simp
  rcases e1 with ⟨c, _⟩ | ⟨_, _, _, e4, e5⟩
  · rw [n1] at c; cases c
  rw [c1] at e4
  generalize hs : (newJob w .no st true p none).1 = st1 at *
  have ok1 : Ok st1 := hs ▸ newJob_ok w .no h true p none
  have n2 : (newJob w' .no st1 file' p none).2 = some st1.nextJob := by
    rw [newJob_eq, if_neg (by simp)]
    simp
  refine ⟨_, n2, ?_⟩
  rcases newJob_shape w' .no ok1 file' p none with ⟨c, _⟩ | ⟨_, d2, _⟩
  · rw [n2] at c; cases c
  refine ⟨{ (made w' st1 file' p).2 with alias := none }, d2 ▸ by simp, (made_facts w' st1 file' p).2.1, ?_⟩
  have sc : (scan w'.now p st1.cache).2 = some { num := st.nextEntry, code := p, ast := a, ref := 1, expire := false, time := w.now } := by
    rw [e4]
    exact scan_last (n := { num := st.nextEntry, code := p, ast := a, ref := 1, expire := false, time := w.now }) rfl (by show (w'.now + 2 ^ 64 - w.now) % 2 ^ 64 < 30000000; omega) rfl (scan_none hm)
  unfold made search
  simp only [if_pos (e5.trans hu), key, sc]
  rfl

/-! ### Cases -/

section Cases

/-- A parser for the cases: the tree is the text; files are found behind it. -/
def pw (now : Nat) (disk : Nat) : World (List Nat) := { parse := fun b t => some (if b then [disk] else t), text := fun _ => some [disk], now := now }

/-- What is seen of a state. -/
def view (st : St (List Nat)) : List (List Nat) := [st.run, st.wait, st.names.map (·.1), st.names.map (·.2), [st.pending.toNat], st.cache.map (·.num), st.cache.map (·.ref)]

/-- Three jobs, one text twice; each turn the next one, and a suspended one is not run. -/
example : (steps (init true) [.new (pw 5 0) .no false [1] none, .new (pw 5 0) .no false [1] (some 7), .new (pw 5 0) .no false [2] none,
    .launch ⟨[([], false)], false⟩]).map view = some [[1, 2, 0], [], [7], [1], [1], [0, 1], [2, 1]] := by decide +kernel

example : (steps (init true) [.new (pw 5 0) .no false [1] none, .new (pw 5 0) .no false [1] (some 7), .new (pw 5 0) .no false [2] none,
    .launch ⟨[([], false)], false⟩, .launch ⟨[([.susp], false)], false⟩, .launch ⟨[([.kill 7], true)], false⟩]).map view = some [[0], [], [], [], [1], [0], [1]] := by decide +kernel

/-- The second job with the name takes it from the first. -/
example : (steps (init false) [.new (pw 5 0) .no false [1] (some 7), .new (pw 5 0) .no false [1] (some 7)]).map view = some [[0], [], [], [], [1], [], []] := by decide +kernel

example : (steps (init false) [.new (pw 5 0) .no false [1] (some 7), .new (pw 5 0) .no false [1] (some 7), .new (pw 5 0) .no false [1] (some 7)]).map view = some [[0, 2], [], [7], [2], [1], [], []] := by decide +kernel

/-- A job that kills itself. -/
example : (steps (init false) [.new (pw 5 0) .no false [1] (some 7), .launch ⟨[([.kill 7], false)], false⟩]).map view = none := by decide +kernel

/-- A text that is a path. -/
example : (steps (init true) [.new (pw 5 9) .no true [47, 1] none, .new (pw 6 8) .no false [47, 1] none, .new (pw 7 8) .no true [47, 1] none]).map (fun st => st.jobs.map (·.ast)) = some [some [9], some [9], some [9]] := by decide +kernel

example : (steps (init false) [.new (pw 5 9) .no true [47, 1] none, .new (pw 6 8) .no false [47, 1] none, .new (pw 7 8) .no true [47, 1] none]).map (fun st => st.jobs.map (·.ast)) = some [some [9], some [47, 1], some [8]] := by decide +kernel

end Cases

end Verif.LangSched
