import Verif.BootArgs
import Mathlib.Data.List.Nodup
/-!
# Which boot parameter counts
-/
namespace Verif.BootArgs

/-! ## Specification -/

/-- The argument is the name or the alias of the parameter. -/
def Param.Is (b : Param) (p : List Nat) : Prop := p = b.name ∨ p = b.short

/-! ## Proof -/

theorem scan_other {p : List Nat} {t : List Param} (h : ∀ b ∈ t, ¬b.Is p) : scan p t = ([], t, none) := by
  induction t with
  | nil => rfl
  | cons b t ih =>
    have h1 := h b (by simp)
    rw [scan, if_neg (fun hc => h1 hc.2), ih fun c hc => h c (by simp [hc])]

theorem loop_other {t : List Param} (ps qs : List (List Nat)) (h : ∀ p ∈ ps, ∀ b ∈ t, ¬b.Is p) : loop (ps ++ qs) t = loop qs t := by
  induction ps with
  | nil => rfl
  | cons p ps ih =>
    rw [List.cons_append, loop, scan_other (h p (by simp))]
    simp only [List.nil_append]
    exact ih fun q hq => h q (by simp [hq])

/-- What the scan leaves of the table: the same parameters, used ones stay used, and those called are used. -/
theorem scan_table (p : List Nat) (t : List Param) :
    (scan p t).2.1.map Param.name = t.map Param.name ∧
    (∃ c, (scan p t).1 = c ∧ c.Sublist ((t.filter fun b => !b.cnt).map Param.name)) ∧
    ((t.map Param.name).Nodup → ∀ b ∈ (scan p t).2.1, b.cnt = false → b ∈ t ∧ b.name ∉ (scan p t).1) := by
  induction t with
  | nil => simp [scan]
  | cons b t ih =>
    obtain ⟨h1, ⟨_, rfl, h2⟩, h3⟩ := ih
    rw [scan]
    have mem : ∀ x ∈ (scan p t).1, x ∈ t.map Param.name := fun x hx => by
      have := h2.subset hx
      simp only [List.mem_map, List.mem_filter] at this ⊢
      obtain ⟨y, hy, e⟩ := this
      exact ⟨y, hy.1, e⟩
    split
    · rename_i hc
      have hf : (b :: t).filter (fun b => !b.cnt) = b :: t.filter fun b => !b.cnt := by simp [hc.1]
      have fresh : ((b :: t).map Param.name).Nodup → ∀ c ∈ ({ b with cnt := true } : Param) :: t, c.cnt = false → c ∈ b :: t ∧ c.name ∉ [b.name] := by
        intro hn c hcm hcc
        rw [List.map_cons, List.nodup_cons] at hn
        rcases List.mem_cons.1 hcm with rfl | hm
        · simp at hcc
        · refine ⟨by simp [hm], fun hx => ?_⟩
          rw [List.mem_singleton] at hx
          exact hn.1 (hx ▸ List.mem_map_of_mem hm)
      have one : [b.name].Sublist (((b :: t).filter fun b => !b.cnt).map Param.name) := by
        rw [hf, List.map_cons]; exact List.Sublist.cons_cons _ (List.nil_sublist _)
      split
      · exact ⟨rfl, ⟨_, rfl, one⟩, fresh⟩
      · split
        · exact ⟨rfl, ⟨_, rfl, one⟩, fresh⟩
        · refine ⟨by simp [h1], ⟨_, rfl, by rw [hf, List.map_cons]; exact h2.cons_cons _⟩, ?_⟩
          intro hn c hcm hcc
          rw [List.map_cons, List.nodup_cons] at hn
          rcases List.mem_cons.1 hcm with rfl | hm
          · simp at hcc
          · obtain ⟨g1, g2⟩ := h3 hn.2 c hm hcc
            refine ⟨by simp [g1], fun hx => ?_⟩
            rcases List.mem_cons.1 hx with hx | hx
            · exact hn.1 (hx ▸ List.mem_map_of_mem g1)
            · exact g2 hx
    · refine ⟨by simp [h1], ⟨_, rfl, ?_⟩, ?_⟩
      · refine h2.trans (List.Sublist.map _ (List.Sublist.filter _ (List.sublist_cons_self _ _)))
      · intro hn c hcm hcc
        rw [List.map_cons, List.nodup_cons] at hn
        rcases List.mem_cons.1 hcm with rfl | hm
        · exact ⟨by simp, fun hx => hn.1 (mem _ hx)⟩
        · obtain ⟨g1, g2⟩ := h3 hn.2 c hm hcc
          exact ⟨by simp [g1], g2⟩

/-! ## Properties -/

/-- C334: without a known parameter nothing is called and the program goes on. -/
theorem unknown (x : List Nat) (ps : List (List Nat)) (t : List Param) (h : ∀ p ∈ ps, ∀ b ∈ t, ¬b.Is p) :
    bootParams (x :: ps) t = ([], .ret 0) := by
  have := loop_other (t := t) ps [] h
  rw [List.append_nil] at this
  exact this

/-- The first known parameter decides: its handler is called, no other one, and the process ends; arguments before it
that are not known and all behind it do not matter. -/
theorem first_decides (x : List Nat) (ps qs : List (List Nat)) (p : List Nat) (h0 : ∀ q ∈ ps, ∀ b ∈ table, ¬b.Is q) :
    ∀ b ∈ table, b.Is p → bootParams (x :: (ps ++ p :: qs)) table = ([b.name], .exit) := by
  intro b hb hp
  have e : bootParams (x :: (ps ++ p :: qs)) table = loop (p :: qs) table := loop_other ps (p :: qs) h0
  rw [e, loop]
  have key : ∃ t', scan p table = ([b.name], t', some .exit) := by
    simp only [table, List.mem_cons, List.not_mem_nil, or_false] at hb
    rcases hb with rfl | rfl | rfl <;> rcases hp with hp | hp <;> simp only at hp <;> subst hp <;> exact ⟨_, rfl⟩
  obtain ⟨t', e'⟩ := key
  rw [e']

/-- With any handlers, those that return too: each is called at most once, however often its parameter is given. -/
theorem once (ps : List (List Nat)) : ∀ (t : List Param), (t.map Param.name).Nodup →
    (loop ps t).1.Nodup ∧ ∀ n ∈ (loop ps t).1, ∃ b ∈ t, b.name = n ∧ b.cnt = false := by
  induction ps with
  | nil => intro t _; simp [loop]
  | cons p ps ih =>
    intro t hn
    obtain ⟨h1, ⟨_, rfl, h2⟩, h3⟩ := scan_table p t
    have h3 := h3 hn
    have from1 : ∀ n ∈ (scan p t).1, ∃ b ∈ t, b.name = n ∧ b.cnt = false := by
      intro n hm
      have := h2.subset hm
      simp only [List.mem_map, List.mem_filter, Bool.not_eq_true'] at this
      obtain ⟨b, hb, e⟩ := this
      exact ⟨b, hb.1, e, hb.2⟩
    have nd1 : (scan p t).1.Nodup := by
      refine h2.nodup (List.Nodup.sublist (List.Sublist.map _ List.filter_sublist) hn)
    rw [loop]
    split
    · exact ⟨nd1, from1⟩
    · obtain ⟨g1, g2⟩ := ih (scan p t).2.1 (by rw [h1]; exact hn)
      refine ⟨?_, ?_⟩
      · rw [List.nodup_append]
        refine ⟨nd1, g1, ?_⟩
        rintro a ha _ hb rfl
        obtain ⟨b, hb1, rfl, hb2⟩ := g2 a hb
        exact (h3 b hb1 hb2).2 ha
      · intro n hm
        rcases List.mem_append.1 hm with hm | hm
        · exact from1 n hm
        · obtain ⟨b, hb1, e, hb2⟩ := g2 n hm
          exact ⟨b, (h3 b hb1 hb2).1, e, hb2⟩

/-- The first three descriptors of a daemon are open for the null file, whatever they were before, the others are as
before, and there is no message. -/
theorem daemon_partial (lim f : Nat) (t : Fds) (hl : 3 ≤ lim) :
    (daemonFds lim (some f) t).1 = false ∧ ∀ d, (daemonFds lim (some f) t).2 d = if d < 3 then some f else t d := by
  obtain ⟨k, rfl⟩ : ∃ k, lim = k + 3 := ⟨lim - 3, by omega⟩
  have e : daemonFds (k + 3) (some f) t = (false, fun x => if x = 2 then some f else if x = 1 then some f else if x = 0 then some f else close (close (close t 0) 1) 2 x) := by
    simp [daemonFds, take, lowest, close]
  rw [e]
  refine ⟨rfl, fun d => ?_⟩
  simp only [close]
  by_cases h2 : d = 2 <;> by_cases h1 : d = 1 <;> by_cases h0 : d = 0 <;> simp [h0, h1, h2]
  intro h; omega

/-- When the null file cannot be opened the first three descriptors are left closed, the daemon goes on, and the next
three files it opens take their places. -/
theorem closed_refuted (lim f : Nat) (t : Fds) (hl : 1 ≤ lim) :
    (daemonFds lim none t).1 = true ∧ (∀ d, d < 3 → (daemonFds lim none t).2 d = none) ∧ (take lim (daemonFds lim none t).2 (some f)).1 = some 0 := by
  obtain ⟨k, rfl⟩ : ∃ k, lim = k + 1 := ⟨lim - 1, by omega⟩
  refine ⟨rfl, ?_, ?_⟩
  · intro d hd
    simp only [daemonFds, take, Option.bind_none, close]
    have : d = 0 ∨ d = 1 ∨ d = 2 := by omega
    rcases this with rfl | rfl | rfl <;> simp
  · simp [daemonFds, take, lowest, close]

/-! ## Examples -/

example : bootParams [[109], [45, 120], [45, 115], [45, 104]] table = ([stop], .exit) := by decide
example : bootParams [[45, 115], [115]] table = ([], .ret 0) := by decide
example : loop [[1], [2], [1]] [⟨[1], [2], .ret 0, false⟩, ⟨[3], [1], .ret 5, false⟩] = ([[1], [3]], .ret 0) := by decide
example : (daemonFds 10 (some 7) fun d => if d = 1 then some 4 else if d = 5 then some 6 else none).2 5 = some 6 := by decide

end Verif.BootArgs
