import Verif.LangImport
/-!
# Properties of imported libraries, and of code given to `Eval`
-/
namespace Verif.LangImport

/-! ## Specification -/

/-- The handle of the library `n` is open: `dlopen` gave one that `dlclose` did not take back. -/
def Open (s : St) (n : Nat) : Prop := s.closed.count n < s.opened.count n

/-- The surroundings give what is asked for. -/
def good : Env := ⟨true, true, true, true, true, .gives⟩

/-! ## The invariant -/

def uses (s : St) (n : Nat) : Nat := (s.users.map (·.2)).count n

def names (s : St) : List Nat := s.libs.map (·.name)

/-- `pend`: uses that left the trees of the jobs but are not released yet. -/
structure Inv (s : St) (pend : List Nat) : Prop where
  nodup : (names s).Nodup
  unodup : s.users.Nodup
  ref : ∀ l ∈ s.libs, l.ref = uses s l.name + pend.count l.name
  known : ∀ n, 0 < uses s n + pend.count n → n ∈ names s
  bal : ∀ n, s.opened.count n = s.closed.count n + (names s).count n

theorem count_one {l : List Nat} {n : Nat} (h : l.Nodup) (hn : n ∈ l) : l.count n = 1 := by
  have h1 := List.nodup_iff_count.1 h n
  have h2 := List.count_pos_iff.2 hn
  omega

theorem find_some {s : St} {n : Nat} {l : Lib} (h : find s n = some l) : l ∈ s.libs ∧ l.name = n := by
  refine ⟨List.mem_of_find?_eq_some h, ?_⟩
  have := List.find?_some h
  simpa using this

theorem find_none {s : St} {n : Nat} (h : find s n = none) : n ∉ names s := by
  intro hm
  obtain ⟨l, hl, e⟩ := List.mem_map.1 hm
  have := List.find?_eq_none.1 h l hl
  simp [e] at this

theorem names_upd (s : St) (n : Nat) (f : Lib → Lib) (hf : ∀ l, (f l).name = l.name) : names (upd s n f) = names s := by
  simp only [names, upd, List.map_map]
  apply List.map_congr_left
  intro l _
  simp only [Function.comp]
  split <;> simp [hf]

theorem names_unload (s : St) (n : Nat) : names (unload s n) = (names s).filter (fun m => m != n) := by
  simp [names, unload, List.filter_map, Function.comp_def]

theorem count_filter_ne (l : List Nat) (n m : Nat) : (l.filter (fun x => x != n)).count m = if m = n then 0 else l.count m := by
  split
  · rename_i e
    subst e
    apply List.count_eq_zero_of_not_mem
    simp
  · rename_i e
    rw [List.count_filter]
    simpa using e

theorem release_inv {s : St} {n : Nat} {pend : List Nat} (h : Inv s (n :: pend)) : Inv (release s n) pend := by
  have hn : n ∈ names s := h.known n (by rw [List.count_cons_self]; omega)
  cases hf : find s n with
  | none => exact absurd hn (find_none hf)
  | some l =>
    obtain ⟨hl, hln⟩ := find_some hf
    have hr := h.ref l hl
    rw [hln, List.count_cons_self] at hr
    simp only [release, hf]
    have hk : ∀ m, 0 < uses s m + pend.count m → m ∈ names s := by
      intro m hm
      apply h.known
      rw [List.count_cons]; omega
    have hu : ∀ f : Lib → Lib, (∀ x, (f x).name = x.name) → (∀ x, (f x).ref = x.ref - 1) → Inv (upd s n f) pend := by
      intro f hfn hfr
      refine ⟨by rw [names_upd s n f hfn]; exact h.nodup, h.unodup, ?_, ?_, ?_⟩
      · intro x hx
        simp only [upd, List.mem_map] at hx
        obtain ⟨y, hy, rfl⟩ := hx
        have := h.ref y hy
        rw [List.count_cons] at this
        by_cases e : y.name = n
        · have e' : (n == y.name) = true := by simp [e]
          simp only [e, if_true, hfr, hfn] at this ⊢
          simp only [uses, upd] at this ⊢
          simp at this
          omega
        · have e' : (n == y.name) = false := by simpa using Ne.symm e
          simp only [if_neg e]
          simp only [e', uses, upd] at this ⊢
          simpa using this
      · intro m hm
        rw [names_upd s n f hfn]
        exact hk m hm
      · intro m
        rw [names_upd s n f hfn]
        exact h.bal m
    by_cases h1 : l.ref > 1
    · rw [if_pos h1]
      exact hu _ (fun _ => rfl) (fun _ => rfl)
    · rw [if_neg h1]
      by_cases h2 : l.count > 0
      · rw [if_pos h2]
        exact hu _ (fun _ => rfl) (fun _ => rfl)
      · rw [if_neg h2]
        have hz : uses s n = 0 ∧ pend.count n = 0 := by omega
        refine ⟨?_, h.unodup, ?_, ?_, ?_⟩
        · rw [names_unload]; exact h.nodup.filter _
        · intro x hx
          simp only [unload, List.mem_filter] at hx
          have := h.ref x hx.1
          have e : ¬ x.name = n := by simpa using hx.2
          have e' : (n == x.name) = false := by simpa using Ne.symm e
          rw [List.count_cons, e'] at this
          simpa [uses, unload] using this
        · intro m hm
          rw [names_unload, List.mem_filter]
          refine ⟨hk m hm, ?_⟩
          by_cases e : m = n
          · subst e
            have hm' : 0 < uses s m + pend.count m := hm
            omega
          · simpa using e
        · intro m
          rw [names_unload, count_filter_ne]
          have hb := h.bal m
          simp only [unload, List.count_cons]
          by_cases e : m = n
          · subst e
            have : (names s).count m = 1 := count_one h.nodup hn
            simp only [if_true, beq_self_eq_true]; omega
          · have e' : (n == m) = false := by simpa using Ne.symm e
            simp only [if_neg e, e']; simpa using hb

theorem fold_inv : ∀ (l : List Nat) (s : St), Inv s l → Inv (l.foldl release s) []
  | [], _, h => h
  | _ :: r, _, h => fold_inv r _ (release_inv h)

theorem release_users (s : St) (n : Nat) : (release s n).users = s.users := by
  simp only [release]
  split
  · rfl
  · split
    · rfl
    · split <;> rfl

theorem fold_users : ∀ (l : List Nat) (s : St), (l.foldl release s).users = s.users
  | [], _ => rfl
  | n :: r, s => by rw [List.foldl_cons, fold_users r, release_users]

theorem count_split (l : List (Nat × Nat)) (c m : Nat) :
    (l.map (·.2)).count m = ((l.filter (fun u => u.1 != c)).map (·.2)).count m + ((l.filter (fun u => u.1 == c)).map (·.2)).count m := by
  induction l with
  | nil => rfl
  | cons u r ih =>
    by_cases e : u.1 = c
    · have e1 : (u.1 != c) = false := by simp [e]
      have e2 : (u.1 == c) = true := by simp [e]
      simp only [List.filter_cons, e1, e2, if_true, List.map_cons, List.count_cons, ih]
      simp only [Bool.false_eq_true, if_false]; omega
    · have e1 : (u.1 != c) = true := by simpa using e
      have e2 : (u.1 == c) = false := by simpa using e
      simp only [List.filter_cons, e1, e2, if_true, List.map_cons, List.count_cons, ih]
      simp only [Bool.false_eq_true, if_false]; omega

theorem done_start {s : St} (h : Inv s []) (c : Nat) :
    Inv { s with users := s.users.filter (fun u => u.1 != c) } ((s.users.filter (fun u => u.1 == c)).map (·.2)) := by
  have hs : ∀ m, uses s m = _ := fun m => count_split s.users c m
  refine ⟨h.nodup, h.unodup.filter _, ?_, ?_, h.bal⟩
  · intro l hl
    have := h.ref l hl
    rw [hs] at this
    simpa [uses] using this
  · intro m hm
    apply h.known m
    rw [hs]
    simpa [uses] using hm

theorem done_inv {s : St} (h : Inv s []) (c : Nat) : Inv (done s c) [] := fold_inv _ _ (done_start h c)

theorem done_users (s : St) (c : Nat) : (done s c).users = s.users.filter (fun u => u.1 != c) := by
  simp only [done, fold_users]

theorem get_inv {e : Env} {s t : St} {n : Nat} {o : Option Out} {b : Bool} (h : Inv s []) (g : get e s n = some (t, o, b)) :
    Inv t [] ∧ t.users = s.users ∧ (o = none → n ∈ names t) := by
  simp only [get] at g
  cases hf : find s n with
  | some l =>
    rw [hf] at g
    have g := Option.some.inj g
    injection g with g1 g2
    subst g1
    obtain ⟨hl, hn⟩ := find_some hf
    exact ⟨h, rfl, fun _ => by rw [← hn]; exact List.mem_map_of_mem hl⟩
  | none =>
    rw [hf] at g
    have hn := find_none hf
    dsimp only at g
    split at g
    · have g := Option.some.inj g
      injection g with g1 g2
      injection g2 with g2 g3
      subst g1
      exact ⟨h, rfl, by rw [← g2]; intro x; cases x⟩
    · split at g
      · cases g
      · split at g
        · have g := Option.some.inj g
          injection g with g1 g2
          injection g2 with g2 g3
          subst g1
          refine ⟨⟨h.nodup, h.unodup, h.ref, h.known, ?_⟩, rfl, by rw [← g2]; intro x; cases x⟩
          intro m
          have := h.bal m
          simp only [names, List.count_cons] at this ⊢
          omega
        · have g := Option.some.inj g
          injection g with g1 g2
          subst g1
          refine ⟨⟨?_, h.unodup, ?_, ?_, ?_⟩, rfl, fun _ => by simp [names]⟩
          · simp only [names, List.map_cons, List.nodup_cons]
            exact ⟨hn, h.nodup⟩
          · intro l hl
            rcases List.mem_cons.1 hl with e | hl
            · subst e
              have : ¬ 0 < uses s n + ([] : List Nat).count n := fun x => hn (h.known n x)
              simp only [uses] at this ⊢; omega
            · exact h.ref l hl
          · intro m hm
            exact List.mem_cons_of_mem _ (h.known m hm)
          · intro m
            have := h.bal m
            simp only [names, List.map_cons, List.count_cons] at this ⊢
            omega

theorem unload_free {s : St} {n : Nat} (h : Inv s []) (hn : n ∈ names s) (hz : uses s n = 0) : Inv (unload s n) [] := by
  refine ⟨?_, h.unodup, ?_, ?_, ?_⟩
  · rw [names_unload]; exact h.nodup.filter _
  · intro x hx
    simp only [unload, List.mem_filter] at hx
    exact h.ref x hx.1
  · intro m hm
    rw [names_unload, List.mem_filter]
    refine ⟨h.known m hm, ?_⟩
    by_cases e : m = n
    · subst e
      have hm' : 0 < uses s m + ([] : List Nat).count m := hm
      simp only [List.count_nil] at hm'; omega
    · simpa using e
  · intro m
    rw [names_unload, count_filter_ne]
    have hb := h.bal m
    simp only [unload, List.count_cons]
    by_cases e : m = n
    · subst e
      have : (names s).count m = 1 := count_one h.nodup hn
      simp only [if_true, beq_self_eq_true]; omega
    · have e' : (n == m) = false := by simpa using Ne.symm e
      simp only [if_neg e, e']; simpa using hb

theorem use_inv {e : Env} {s : St} {c n : Nat} (h : Inv s []) (hn : n ∈ names s) :
    Inv (use e s c n).1 [] ∧ (∀ u ∈ s.users, u ∈ (use e s c n).1.users) ∧ ((use e s c n).2 = none → (c, n) ∈ (use e s c n).1.users) := by
  simp only [use]
  by_cases h1 : (c, n) ∈ s.users
  · rw [if_pos h1]
    exact ⟨h, fun _ x => x, fun _ => h1⟩
  · rw [if_neg h1]
    have hp : Inv (upd s n (fun l => { l with ref := l.ref + 1 })) [n] := by
      refine ⟨by rw [names_upd]; exact h.nodup; exact fun _ => rfl, h.unodup, ?_, ?_, ?_⟩
      · intro x hx
        simp only [upd, List.mem_map] at hx
        obtain ⟨y, hy, rfl⟩ := hx
        have := h.ref y hy
        by_cases e : y.name = n
        · simp [e, uses, upd] at this ⊢; omega
        · simp [e, Ne.symm e, uses, upd] at this ⊢; omega
      · intro m hm
        rw [names_upd s n (fun l => { l with ref := l.ref + 1 }) (fun _ => rfl)]
        by_cases e : m = n
        · subst e; exact hn
        · apply h.known m
          simpa [Ne.symm e, uses, upd] using hm
      · intro m
        rw [names_upd s n (fun l => { l with ref := l.ref + 1 }) (fun _ => rfl)]
        exact h.bal m
    split
    · refine ⟨?_, ?_, by intro x; cases x⟩
      · dsimp only
        split
        · exact h
        · rename_i l hf
          obtain ⟨hl, hln⟩ := find_some hf
          split
          · rename_i hz
            apply unload_free h hn
            have := h.ref l hl
            rw [hln] at this
            simp only [List.count_nil] at this; omega
          · exact h
      · intro u hu
        dsimp only
        split
        · exact hu
        · split
          · exact hu
          · exact hu
    · split
      · refine ⟨release_inv hp, ?_, by intro x; cases x⟩
        intro u hu
        dsimp only
        rw [release_users]
        exact hu
      · refine ⟨⟨hp.nodup, ?_, ?_, ?_, hp.bal⟩, fun u hu => List.mem_cons_of_mem _ hu, fun _ => List.mem_cons_self⟩
        · simp only [upd, List.nodup_cons]
          exact ⟨h1, h.unodup⟩
        · intro l hl
          have := hp.ref l hl
          simp only [uses, upd, List.map_cons, List.count_cons, List.count_nil] at this ⊢
          omega
        · intro m hm
          apply hp.known m
          simp only [uses, upd, List.map_cons, List.count_cons, List.count_nil] at hm ⊢
          omega

theorem imp_inv {e : Env} {s t : St} {c n : Nat} {o : Out} (h : Inv s []) (g : imp e s c n = some (t, o)) :
    Inv t [] ∧ (∀ u ∈ s.users, u ∈ t.users) ∧ (o = .value → (c, n) ∈ t.users) := by
  have gn : ∀ b, get e s n ≠ some (t, some .value, b) := by
    intro b
    simp only [get]
    split
    · simp
    · split
      · simp
      · split
        · simp
        · split <;> simp
  have un : ∀ x : St, (use e x c n).2 ≠ some .value := by
    intro x
    simp only [use]
    split
    · simp
    · split
      · simp
      · split <;> simp
  simp only [imp] at g
  cases hg : get e s n with
  | none => rw [hg] at g; cases g
  | some r =>
    obtain ⟨s1, o1, b⟩ := r
    obtain ⟨i1, u1, n1⟩ := get_inv h hg
    rw [hg] at g
    cases o1 with
    | some o1 =>
      have g := Option.some.inj g
      injection g with g1 g2
      subst g1; subst g2
      refine ⟨i1, fun u hu => by rw [u1]; exact hu, ?_⟩
      intro e1
      subst e1
      exact absurd hg (gn b)
    | none =>
      dsimp only at g
      obtain ⟨i2, u2, m2⟩ := use_inv (e := e) (c := c) i1 (n1 rfl)
      have un' := un s1
      generalize use e s1 c n = r at g i2 u2 m2 un'
      obtain ⟨s2, o2⟩ := r
      have uu : ∀ u ∈ s.users, u ∈ s2.users := fun u hu => u2 u (by rw [u1]; exact hu)
      cases o2 with
      | some o2 =>
        have g := Option.some.inj g
        injection g with g1 g2
        subst g1; subst g2
        refine ⟨i2, uu, ?_⟩
        intro e1
        subst e1
        exact absurd rfl un'
      | none =>
        dsimp only at g
        have fin : t = s2 := by
          split at g
          · exact ((Prod.mk.inj (Option.some.inj g)).1).symm
          · split at g
            · exact ((Prod.mk.inj (Option.some.inj g)).1).symm
            · cases g
          · split at g
            · exact ((Prod.mk.inj (Option.some.inj g)).1).symm
            · cases g
        subst fin
        exact ⟨i2, uu, fun _ => m2 rfl⟩

theorem step_inv {s t : St} {o : Op} (h : Inv s []) (g : step s o = some t) : Inv t [] := by
  cases o with
  | imp e c n =>
    simp only [step, Option.map_eq_some_iff] at g
    obtain ⟨⟨x, o⟩, g, rfl⟩ := g
    exact (imp_inv h g).1
  | done c =>
    have g := Option.some.inj g
    subst g
    exact done_inv h c

theorem step_users {s t : St} {o : Op} {c n : Nat} (h : Inv s []) (g : step s o = some t) (hu : (c, n) ∈ s.users) (hd : o ≠ .done c) : (c, n) ∈ t.users := by
  cases o with
  | imp e c' n' =>
    simp only [step, Option.map_eq_some_iff] at g
    obtain ⟨⟨x, o⟩, g, rfl⟩ := g
    exact (imp_inv h g).2.1 _ hu
  | done c' =>
    have g := Option.some.inj g
    subst g
    rw [done_users, List.mem_filter]
    refine ⟨hu, ?_⟩
    have : c ≠ c' := fun e => hd (by rw [e])
    simpa using this

theorem run_inv : ∀ (ops : List Op) (s t : St), Inv s [] → run s ops = some t → Inv t []
  | [], s, t, h, g => by have g := Option.some.inj g; subst g; exact h
  | o :: r, s, t, h, g => by
    simp only [run, Option.bind_eq_some_iff] at g
    obtain ⟨x, hx, g⟩ := g
    exact run_inv r x t (step_inv h hx) g

theorem run_users {c n : Nat} : ∀ (ops : List Op) (s t : St), Inv s [] → run s ops = some t → (c, n) ∈ s.users → Op.done c ∉ ops → (c, n) ∈ t.users
  | [], s, t, h, g, hu, _ => by have g := Option.some.inj g; subst g; exact hu
  | o :: r, s, t, h, g, hu, hd => by
    simp only [run, Option.bind_eq_some_iff] at g
    obtain ⟨x, hx, g⟩ := g
    refine run_users r x t (step_inv h hx) g (step_users h hx hu ?_) (fun m => hd (List.mem_cons_of_mem _ m))
    intro e
    exact hd (by rw [e]; exact List.mem_cons_self)

theorem run_append : ∀ (a b : List Op) (s : St), run s (a ++ b) = (run s a).bind (fun s => run s b)
  | [], _, _ => rfl
  | o :: r, b, s => by
    simp only [List.cons_append, run, Option.bind_assoc]
    congr 1
    funext x
    exact run_append r b x

theorem init_inv : Inv init [] := by
  refine ⟨by decide, by decide, ?_, ?_, ?_⟩
  · intro l hl; cases hl
  · intro n hn; simp [uses, init] at hn
  · intro n; simp [names, init]

/-! ## A library stays loaded while a job that imported it is alive (C279) -/

/-- After anything that happened, whoever imported the library: it is open as long as a job that
imported it has not ended. -/
theorem loaded_while_used (a b : List Op) (e : Env) (c n : Nat) (s s' t : St) (ha : run init a = some s)
    (hi : imp e s c n = some (s', .value)) (hb : run s' b = some t) (hd : Op.done c ∉ b) : Open t n := by
  have i1 := run_inv a _ _ init_inv ha
  obtain ⟨i2, _, m⟩ := imp_inv i1 hi
  have i3 := run_inv b _ _ i2 hb
  have hu := run_users b _ _ i2 hb (m rfl) hd
  have hk : n ∈ names t := by
    apply i3.known n
    have : n ∈ t.users.map (·.2) := List.mem_map.2 ⟨_, hu, rfl⟩
    have := List.count_pos_iff.2 this
    simp only [uses]; omega
  have := i3.bal n
  have hc : (names t).count n = 1 := count_one i3.nodup hk
  simp only [Open]; omega

/-- Never are two handles of a library open, and never is one closed twice. -/
theorem one_handle (a : List Op) (s : St) (n : Nat) (ha : run init a = some s) :
    s.closed.count n ≤ s.opened.count n ∧ s.opened.count n ≤ s.closed.count n + 1 := by
  have i1 := run_inv a _ _ init_inv ha
  have := i1.bal n
  have hc : (names s).count n ≤ 1 := List.nodup_iff_count.1 i1.nodup n
  omega

example : ∃ s, run init [.imp good 1 7, .imp good 2 7, .done 1] = some s ∧ Open s 7 ∧ s.users = [(2, 7)] := by
  refine ⟨⟨[⟨7, 1, 65535⟩], [(2, 7)], [7], []⟩, by decide, ?_, rfl⟩
  simp [Open]
/- The library of a job that ended: it stays, for the next one. -/
example : run init [.imp good 1 7, .done 1] = some ⟨[⟨7, 0, 65534⟩], [], [7], []⟩ := by decide

/-! ## How often a library is loaded (C280) -/

/-- One job after another imports the library and ends. -/
def turns (n : Nat) : Nat → List Op
  | 0 => []
  | k + 1 => turns n k ++ [.imp good k n, .done k]

theorem turn_first (c n : Nat) : run init [.imp good c n, .done c] = some ⟨[⟨n, 0, 65534⟩], [], [n], []⟩ := by
  simp [run, step, imp, get, find, use, init, good, upd, done, release, freeCount]

theorem turn_more (c n k : Nat) : run ⟨[⟨n, 0, k + 1⟩], [], [n], []⟩ [.imp good c n, .done c] = some ⟨[⟨n, 0, k⟩], [], [n], []⟩ := by
  simp [run, step, imp, get, find, use, good, upd, done, release]

theorem turn_last (c n : Nat) : run ⟨[⟨n, 0, 0⟩], [], [n], []⟩ [.imp good c n, .done c] = some ⟨[], [], [n], [n]⟩ := by
  simp [run, step, imp, get, find, use, good, upd, done, release, unload]

theorem turns_state (n : Nat) : ∀ k, k ≤ 65534 → run init (turns n (k + 1)) = some ⟨[⟨n, 0, 65534 - k⟩], [], [n], []⟩
  | 0, _ => turn_first 0 n
  | k + 1, h => by
    rw [turns, run_append, turns_state n k (by omega), Option.bind_some]
    have : 65534 - k = (65534 - (k + 1)) + 1 := by omega
    rw [this, turn_more]

/-- Up to 65535 jobs, one after another, load the library once; it is not unloaded in between. -/
theorem loaded_once (n k : Nat) (h : 0 < k) (h2 : k ≤ 65535) :
    ∃ s, run init (turns n k) = some s ∧ s.opened = [n] ∧ s.closed = [] := by
  obtain ⟨k, rfl⟩ : ∃ j, k = j + 1 := ⟨k - 1, by omega⟩
  exact ⟨_, turns_state n k (by omega), rfl, rfl⟩

/-- The end of the 65536th job unloads it. -/
theorem unloaded_then (n : Nat) : ∃ s, run init (turns n 65536) = some s ∧ s.opened = [n] ∧ s.closed = [n] := by
  refine ⟨⟨[], [], [n], [n]⟩, ?_, rfl, rfl⟩
  rw [turns, run_append, turns_state n 65534 (by omega), Option.bind_some]
  exact turn_last 65535 n

theorem release_other {s : St} {n m : Nat} (h : m ≠ n) : find (release s m) n = find s n ∧ (release s m).closed.count n = s.closed.count n := by
  have hu : ∀ f : Lib → Lib, (∀ x, (f x).name = x.name) → find (upd s m f) n = find s n := by
    intro f hf
    simp only [find, upd]
    induction s.libs with
    | nil => rfl
    | cons l r ih =>
      by_cases e : l.name = n
      · simp [e, Ne.symm h]
      · have e3 : ((if l.name = m then f l else l).name == n) = false := by
          split <;> simp [hf, e]
        have e4 : (l.name == n) = false := by simpa using e
        rw [List.map_cons, List.find?_cons, List.find?_cons, e3, e4]
        exact ih
  simp only [release]
  split
  · exact ⟨rfl, rfl⟩
  · split
    · exact ⟨hu _ (fun _ => rfl), rfl⟩
    · split
      · exact ⟨hu _ (fun _ => rfl), rfl⟩
      · constructor
        · simp only [find, unload, List.find?_filter]
          congr 1
          funext l
          by_cases e : l.name = n
          · simp [e, Ne.symm h]
          · simp [e]
        · simp [unload, h]

theorem fold_other {n : Nat} : ∀ (l : List Nat) (s : St), n ∉ l → find (l.foldl release s) n = find s n ∧ (l.foldl release s).closed.count n = s.closed.count n
  | [], _, _ => ⟨rfl, rfl⟩
  | m :: r, s, h => by
    have h1 : m ≠ n := fun e => h (by rw [e]; exact List.mem_cons_self)
    obtain ⟨a, b⟩ := fold_other r (release s m) (fun x => h (List.mem_cons_of_mem _ x))
    obtain ⟨c, d⟩ := release_other (s := s) h1
    exact ⟨a.trans c, b.trans d⟩

theorem release_self (s : St) (n : Nat) (l : Lib) (h : find s n = some l) :
    (release s n).closed.count n = s.closed.count n + (if l.ref ≤ 1 ∧ l.count = 0 then 1 else 0) := by
  simp only [release, h]
  by_cases h1 : l.ref > 1
  · rw [if_pos h1, if_neg (by omega)]; rfl
  · rw [if_neg h1]
    by_cases h2 : l.count > 0
    · rw [if_pos h2, if_neg (by omega)]; rfl
    · rw [if_neg h2, if_pos (by omega)]
      simp [unload]

theorem nodup_mine {l : List (Nat × Nat)} (h : l.Nodup) (c : Nat) : ((l.filter (fun u => u.1 == c)).map (·.2)).Nodup := by
  induction l with
  | nil => exact List.nodup_nil
  | cons u r ih =>
    rw [List.nodup_cons] at h
    rw [List.filter_cons]
    split
    · rename_i e
      rw [List.map_cons, List.nodup_cons]
      refine ⟨?_, ih h.2⟩
      intro hm
      obtain ⟨v, hv, e2⟩ := List.mem_map.1 hm
      rw [List.mem_filter] at hv
      apply h.1
      have : v = u := by
        have e1 : v.1 = u.1 := by
          have a : v.1 = c := by simpa using hv.2
          have b : u.1 = c := by simpa using e
          rw [a, b]
        exact Prod.ext e1 e2
      rw [← this]
      exact hv.1
    · exact ih h.2

/-- In terms of the counter. -/
theorem closes_count (a : List Op) (s : St) (c n : Nat) (l : Lib) (ha : run init a = some s) (hu : (c, n) ∈ s.users) (hl : find s n = some l) :
    (done s c).closed.count n = s.closed.count n + 1 ↔ (∀ c', (c', n) ∈ s.users → c' = c) ∧ l.count = 0 := by
  have inv := run_inv a _ _ init_inv ha
  have hm : n ∈ (s.users.filter (fun u => u.1 == c)).map (·.2) :=
    List.mem_map.2 ⟨(c, n), List.mem_filter.2 ⟨hu, by simp⟩, rfl⟩
  have hnd := nodup_mine inv.unodup c
  have hsum := count_split s.users c n
  have h1 : ((s.users.filter (fun u => u.1 == c)).map (·.2)).count n = 1 := count_one hnd hm
  obtain ⟨hlm, hln⟩ := find_some hl
  have hr := inv.ref l hlm
  rw [hln] at hr
  simp only [uses, List.count_nil] at hr
  have hother : ((s.users.filter (fun u => u.1 != c)).map (·.2)).count n = 0 ↔ (∀ c', (c', n) ∈ s.users → c' = c) := by
    rw [List.count_eq_zero]
    constructor
    · intro h c' hc
      apply Classical.byContradiction
      intro e
      exact h (List.mem_map.2 ⟨(c', n), List.mem_filter.2 ⟨hc, by simpa using e⟩, rfl⟩)
    · intro h hx
      obtain ⟨⟨c', n'⟩, hv, e2⟩ := List.mem_map.1 hx
      rw [List.mem_filter] at hv
      dsimp only at e2
      subst e2
      have := h c' hv.1
      simp [this] at hv
  obtain ⟨p, q, hpq⟩ := List.append_of_mem hm
  have hnp : n ∉ p ∧ n ∉ q := by
    rw [hpq, List.count_append, List.count_cons_self] at h1
    exact ⟨fun x => by have := List.count_pos_iff.2 x; omega, fun x => by have := List.count_pos_iff.2 x; omega⟩
  have hd : (done s c).closed.count n = s.closed.count n + (if l.ref ≤ 1 ∧ l.count = 0 then 1 else 0) := by
    simp only [done]
    rw [hpq, List.foldl_append, List.foldl_cons]
    obtain ⟨f1, f2⟩ := fold_other p { s with users := s.users.filter (fun u => u.1 != c) } hnp.1
    rw [(fold_other q _ hnp.2).2, release_self _ n l (by rw [f1]; exact hl), f2]
  rw [hd, ← hother]
  constructor
  · intro h
    split at h
    · rename_i hc; exact ⟨by omega, hc.2⟩
    · omega
  · intro h
    rw [if_pos ⟨by omega, h.2⟩]

/-- In this step the library `n` loses its last user: the only job that uses it ends, or a job that
has just begun to use it, alone, cannot note that for want of memory. -/
def Leaves (n : Nat) (s : St) : Op → Prop
  | .done c => (c, n) ∈ s.users ∧ ∀ c', (c', n) ∈ s.users → c' = c
  | .imp e _ m => m = n ∧ (∀ c', (c', n) ∉ s.users) ∧ e.use = true ∧ e.useNode = false

open Classical in
/-- How often the library `n` lost its last user since it was loaded: `k` times up to the state `s`,
and in the steps that follow. -/
noncomputable def left (n : Nat) (s : St) (k : Nat) : List Op → Nat
  | [] => k
  | o :: r =>
    match step s o with
    | none => k
    | some t => left n t ((if Open s n then k else 0) + (if Leaves n s o then 1 else 0)) r

theorem open_find {s : St} {n : Nat} (h : Inv s []) : Open s n ↔ find s n ≠ none := by
  have hb := h.bal n
  have hc : (names s).count n ≤ 1 := List.nodup_iff_count.1 h.nodup n
  constructor
  · intro ho hf
    have := List.count_eq_zero.2 (find_none hf)
    simp only [Open] at ho
    omega
  · intro hf
    cases he : find s n with
    | none => exact absurd he hf
    | some l =>
      obtain ⟨hl, hn⟩ := find_some he
      have : n ∈ names s := by rw [← hn]; exact List.mem_map_of_mem hl
      have := List.count_pos_iff.2 this
      simp only [Open]
      omega

theorem find_upd (s : St) (n : Nat) (f : Lib → Lib) (hf : ∀ x, (f x).name = x.name) : find (upd s n f) n = (find s n).map f := by
  simp only [find, upd]
  induction s.libs with
  | nil => rfl
  | cons l r ih =>
    by_cases e : l.name = n
    · simp [e, hf]
    · have e4 : (l.name == n) = false := by simpa using e
      rw [List.map_cons, if_neg e, List.find?_cons, List.find?_cons, e4]
      exact ih

theorem find_unload (s : St) (n : Nat) : find (unload s n) n = none := by
  simp only [find, unload, List.find?_eq_none, List.mem_filter]
  intro l hl
  simpa using hl.2

theorem find_release {s : St} {n : Nat} {l l' : Lib} (h : find s n = some l) (h' : find (release s n) n = some l') :
    l'.count + (if l.ref ≤ 1 then 1 else 0) = l.count := by
  simp only [release, h] at h'
  split at h'
  · rw [find_upd s n (fun l => { l with ref := l.ref - 1 }) (fun _ => rfl), h] at h'
    have := Option.some.inj h'
    subst this
    rw [if_neg (by omega)]
    rfl
  · split at h'
    · rw [find_upd s n (fun l => { l with ref := l.ref - 1, count := l.count - 1 }) (fun _ => rfl), h] at h'
      have := Option.some.inj h'
      subst this
      rw [if_pos (by omega)]
      dsimp only
      omega
    · rw [find_unload] at h'
      cases h'

theorem mem_uses {s : St} {n : Nat} : uses s n = 0 ↔ ∀ c', (c', n) ∉ s.users := by
  simp only [uses, List.count_eq_zero, List.mem_map, not_exists, not_and, Prod.forall]
  exact ⟨fun h c hc => h c n hc rfl, fun h c m hc e => h c (by rw [← e]; exact hc)⟩

/-- Without it, only the libraries of the job are released. -/
theorem done_find {s : St} {c n : Nat} {l l' : Lib} (inv : Inv s []) (hl : find s n = some l) (hl' : find (done s c) n = some l') :
    ((c, n) ∉ s.users → l'.count = l.count) ∧ ((c, n) ∈ s.users → l'.count + (if l.ref ≤ 1 then 1 else 0) = l.count) := by
  simp only [done] at hl'
  constructor
  · intro hu
    have hm : n ∉ (s.users.filter (fun u => u.1 == c)).map (·.2) := by
      intro hx
      obtain ⟨⟨c', n'⟩, hv, e2⟩ := List.mem_map.1 hx
      rw [List.mem_filter] at hv
      dsimp only at e2
      have e : c' = c := by simpa using hv.2
      rw [e2, e] at hv
      exact hu hv.1
    rw [(fold_other _ _ hm).1] at hl'
    have : some l = some l' := hl.symm.trans hl'
    rw [Option.some.inj this]
  · intro hu
    have hm : n ∈ (s.users.filter (fun u => u.1 == c)).map (·.2) :=
      List.mem_map.2 ⟨(c, n), List.mem_filter.2 ⟨hu, by simp⟩, rfl⟩
    have hnd := nodup_mine inv.unodup c
    have h1 := count_one hnd hm
    obtain ⟨p, q, hpq⟩ := List.append_of_mem hm
    have hnp : n ∉ p ∧ n ∉ q := by
      rw [hpq, List.count_append, List.count_cons_self] at h1
      exact ⟨fun x => by have := List.count_pos_iff.2 x; omega, fun x => by have := List.count_pos_iff.2 x; omega⟩
    rw [hpq, List.foldl_append, List.foldl_cons] at hl'
    rw [(fold_other q _ hnp.2).1] at hl'
    refine find_release ?_ hl'
    rw [(fold_other p _ hnp.1).1]
    exact hl

theorem sole_iff {s : St} {c n : Nat} {l : Lib} (inv : Inv s []) (hl : find s n = some l) (hu : (c, n) ∈ s.users) :
    l.ref ≤ 1 ↔ ∀ c', (c', n) ∈ s.users → c' = c := by
  have hm : n ∈ (s.users.filter (fun u => u.1 == c)).map (·.2) :=
    List.mem_map.2 ⟨(c, n), List.mem_filter.2 ⟨hu, by simp⟩, rfl⟩
  have h1 := count_one (nodup_mine inv.unodup c) hm
  have hsum := count_split s.users c n
  obtain ⟨hlm, hln⟩ := find_some hl
  have hr := inv.ref l hlm
  rw [hln] at hr
  simp only [uses, List.count_nil] at hr
  have hother : ((s.users.filter (fun u => u.1 != c)).map (·.2)).count n = 0 ↔ (∀ c', (c', n) ∈ s.users → c' = c) := by
    rw [List.count_eq_zero]
    constructor
    · intro h c' hc
      apply Classical.byContradiction
      intro e
      exact h (List.mem_map.2 ⟨(c', n), List.mem_filter.2 ⟨hc, by simpa using e⟩, rfl⟩)
    · intro h hx
      obtain ⟨⟨c', n'⟩, hv, e2⟩ := List.mem_map.1 hx
      rw [List.mem_filter] at hv
      dsimp only at e2
      subst e2
      have := h c' hv.1
      simp [this] at hv
  rw [← hother]
  omega

theorem get_find {e : Env} {s t : St} {m n : Nat} {o : Option Out} {b : Bool} (g : get e s m = some (t, o, b)) :
    (∀ l, find s n = some l → find t n = some l) ∧ (find s n = none → find t n = none ∨ (m = n ∧ o = none ∧ find t n = some ⟨n, 0, 65535⟩)) := by
  simp only [get] at g
  cases hf : find s m with
  | some l =>
    rw [hf] at g
    have g := (Prod.mk.inj (Option.some.inj g)).1
    subst g
    exact ⟨fun _ x => x, fun x => Or.inl x⟩
  | none =>
    rw [hf] at g
    dsimp only at g
    split at g
    · have g := (Prod.mk.inj (Option.some.inj g)).1
      subst g
      exact ⟨fun _ x => x, fun x => Or.inl x⟩
    · split at g
      · cases g
      · split at g
        · have g := (Prod.mk.inj (Option.some.inj g)).1
          subst g
          exact ⟨fun _ x => x, fun x => Or.inl x⟩
        · have g1 := Prod.mk.inj (Option.some.inj g)
          have g2 := (Prod.mk.inj g1.2).1
          have g := g1.1
          subst g
          constructor
          · intro l hl
            have hne : m ≠ n := by intro e; rw [e, hl] at hf; cases hf
            have : (m == n) = false := by simpa using hne
            simp only [find, List.find?_cons, this]
            exact hl
          · intro hl
            by_cases hmn : m = n
            · subst hmn
              exact Or.inr ⟨rfl, g2.symm, by simp [find, freeCount]⟩
            · have : (m == n) = false := by simpa using hmn
              left
              simp only [find, List.find?_cons, this]
              exact hl

theorem find_upd_ne {s : St} {m n : Nat} (f : Lib → Lib) (hf : ∀ x, (f x).name = x.name) (h : m ≠ n) : find (upd s m f) n = find s n := by
  simp only [find, upd]
  induction s.libs with
  | nil => rfl
  | cons l r ih =>
    by_cases e : l.name = n
    · simp [e, Ne.symm h]
    · have e3 : ((if l.name = m then f l else l).name == n) = false := by
        split <;> simp [hf, e]
      have e4 : (l.name == n) = false := by simpa using e
      rw [List.map_cons, List.find?_cons, List.find?_cons, e3, e4]
      exact ih

theorem use_other {e : Env} {s : St} {c m n : Nat} (h : m ≠ n) : find (use e s c m).1 n = find s n := by
  have hun : find (unload s m) n = find s n := by
    simp only [find, unload, List.find?_filter]
    congr 1
    funext l
    by_cases e : l.name = n
    · simp [e, Ne.symm h]
    · simp [e]
  simp only [use]
  split
  · rfl
  · split
    · dsimp only
      split
      · rfl
      · split
        · exact hun
        · rfl
    · split
      · dsimp only
        rw [(release_other h).1]
        exact find_upd_ne _ (fun _ => rfl) h
      · exact find_upd_ne _ (fun _ => rfl) h

/-- `use` on a library in the tree: `count` goes down exactly if it loses its last user. -/
theorem use_count {e : Env} {s : St} {c n : Nat} {l l' : Lib} (inv : Inv s []) (hl : find s n = some l) (hl' : find (use e s c n).1 n = some l') :
    ((∀ c', (c', n) ∉ s.users) ∧ e.use = true ∧ e.useNode = false → l'.count + 1 = l.count) ∧
    (¬ ((∀ c', (c', n) ∉ s.users) ∧ e.use = true ∧ e.useNode = false) → l'.count = l.count) := by
  obtain ⟨hlm, hln⟩ := find_some hl
  have hr := inv.ref l hlm
  rw [hln, List.count_nil] at hr
  simp only [use] at hl'
  split at hl'
  · rename_i hu
    have := Option.some.inj (hl.symm.trans hl')
    subst this
    exact ⟨fun h => absurd hu (h.1 c), fun _ => rfl⟩
  · split at hl'
    · rename_i he
      have he : e.use = false := by simpa using he
      rw [hl] at hl'
      dsimp only at hl'
      split at hl'
      · rw [find_unload] at hl'; cases hl'
      · have := Option.some.inj (hl.symm.trans hl')
        subst this
        exact ⟨fun h => (by rw [he] at h; exact absurd h.2.1 (by decide)), fun _ => rfl⟩
    · rename_i he
      have he : e.use = true := by simpa using he
      have hfu := find_upd s n (fun l => { l with ref := l.ref + 1 }) (fun _ => rfl)
      rw [hl, Option.map_some] at hfu
      split at hl'
      · rename_i hn
        have hn : e.useNode = false := by simpa using hn
        have := find_release hfu hl'
        dsimp only at this
        constructor
        · intro h
          have hz := mem_uses.2 h.1
          rw [if_pos (by omega)] at this
          exact this
        · intro h
          have hz : uses s n ≠ 0 := fun x => h ⟨mem_uses.1 x, he, hn⟩
          rw [if_neg (by omega)] at this
          exact this
      · rename_i hn
        have hn : e.useNode = true := by simpa using hn
        have hl2 := Option.some.inj (hfu.symm.trans hl')
        subst hl2
        exact ⟨fun h => (by rw [hn] at h; exact absurd h.2.2 (by decide)), fun _ => rfl⟩

open Classical in
theorem step_count {s t : St} {o : Op} {n : Nat} {l' : Lib} (inv : Inv s []) (hs : step s o = some t) (hl' : find t n = some l') :
    l'.count + (if Leaves n s o then 1 else 0) = (match find s n with | some l => l.count | none => 65535) := by
  cases o with
  | done c =>
    have hs := Option.some.inj hs
    subst hs
    cases hl : find s n with
    | none =>
      exfalso
      have i2 := done_inv inv c
      have hno : (c, n) ∉ s.users := by
        intro hu
        apply find_none hl
        apply inv.known
        have := List.count_pos_iff.2 (List.mem_map.2 ⟨(c, n), hu, rfl⟩ : n ∈ s.users.map (·.2))
        simp only [uses]; omega
      have hm : n ∉ (s.users.filter (fun u => u.1 == c)).map (·.2) := by
        intro hx
        obtain ⟨⟨c', n'⟩, hv, e2⟩ := List.mem_map.1 hx
        rw [List.mem_filter] at hv
        dsimp only at e2
        have e : c' = c := by simpa using hv.2
        rw [e2, e] at hv
        exact hno hv.1
      simp only [done] at hl'
      rw [(fold_other _ _ hm).1] at hl'
      have : find s n = some l' := hl'
      rw [hl] at this
      cases this
    | some l =>
      obtain ⟨a, b⟩ := done_find inv hl hl'
      by_cases hu : (c, n) ∈ s.users
      · have b := b hu
        have hi := sole_iff inv hl hu
        by_cases h1 : l.ref ≤ 1
        · rw [if_pos (show Leaves n s (.done c) from ⟨hu, hi.1 h1⟩)]
          rw [if_pos h1] at b; exact b
        · rw [if_neg (fun x => h1 (hi.2 x.2))]
          rw [if_neg h1] at b; exact b
      · rw [if_neg (fun x => hu x.1)]
        exact a hu
  | imp e c m =>
    simp only [step, Option.map_eq_some_iff] at hs
    obtain ⟨⟨x, o⟩, g, rfl⟩ := hs
    dsimp only at hl'
    simp only [imp] at g
    cases hg : get e s m with
    | none => rw [hg] at g; cases g
    | some r =>
      obtain ⟨s1, o1, b⟩ := r
      obtain ⟨i1, u1, n1⟩ := get_inv inv hg
      obtain ⟨gf1, gf2⟩ := get_find (n := n) hg
      rw [hg] at g
      cases o1 with
      | some o1 =>
        have g := (Prod.mk.inj (Option.some.inj g)).1
        subst g
        cases hl : find s n with
        | none =>
          rcases gf2 hl with h | ⟨_, h, _⟩
          · rw [h] at hl'; cases hl'
          · cases h
        | some l =>
          have hmn : m ≠ n := by
            intro e
            subst e
            simp only [get, hl] at hg
            have := (Prod.mk.inj (Prod.mk.inj (Option.some.inj hg)).2).1
            cases this
          rw [if_neg (fun hh => hmn hh.1)]
          rw [gf1 l hl] at hl'
          rw [← Option.some.inj hl']
          rfl
      | none =>
        have hx : x = (use e s1 c m).1 := by
          dsimp only at g
          generalize use e s1 c m = r at g
          obtain ⟨s2, o2⟩ := r
          cases o2 with
          | some o2 => exact ((Prod.mk.inj (Option.some.inj g)).1).symm
          | none =>
            dsimp only at g
            split at g
            · exact ((Prod.mk.inj (Option.some.inj g)).1).symm
            · split at g
              · exact ((Prod.mk.inj (Option.some.inj g)).1).symm
              · cases g
            · split at g
              · exact ((Prod.mk.inj (Option.some.inj g)).1).symm
              · cases g
        subst hx
        by_cases hmn : m = n
        · subst hmn
          have hq : ∀ c', (c', m) ∉ s1.users ↔ (c', m) ∉ s.users := fun c' => by rw [u1]
          have hfin : ∀ l1, find s1 m = some l1 → l'.count + (if Leaves m s (.imp e c m) then 1 else 0) = l1.count := by
            intro l1 h1
            obtain ⟨a, b⟩ := use_count i1 h1 hl'
            by_cases hL : Leaves m s (.imp e c m)
            · rw [if_pos hL]
              exact a ⟨fun c' => (hq c').2 (hL.2.1 c'), hL.2.2⟩
            · rw [if_neg hL]
              exact b (fun hh => hL ⟨rfl, fun c' => (hq c').1 (hh.1 c'), hh.2⟩)
          cases hl : find s m with
          | some l => exact hfin l (gf1 l hl)
          | none =>
            rcases gf2 hl with h | ⟨_, _, h⟩
            · have := n1 rfl
              exact absurd this (find_none h)
            · exact hfin _ h
        · have hL : ¬ Leaves n s (.imp e c m) := fun hh => hmn hh.1
          rw [if_neg hL]
          rw [use_other hmn] at hl'
          cases hl : find s n with
          | some l => rw [gf1 l hl] at hl'; rw [← Option.some.inj hl']; rfl
          | none =>
            rcases gf2 hl with h | ⟨h, _⟩
            · rw [h] at hl'; cases hl'
            · exact absurd h hmn

theorem run_left : ∀ (ops : List Op) (s t : St) (n k : Nat) (l : Lib), Inv s [] → (∀ l, find s n = some l → l.count + k = 65535) →
    run s ops = some t → find t n = some l → l.count + left n s k ops = 65535
  | [], s, t, n, k, l, _, hk, hr, hl => by
    have hr := Option.some.inj hr
    subst hr
    exact hk l hl
  | o :: r, s, t, n, k, l, inv, hk, hr, hl => by
    simp only [run, Option.bind_eq_some_iff] at hr
    obtain ⟨x, hx, hr⟩ := hr
    simp only [left, hx]
    refine run_left r x t n _ l (step_inv inv hx) ?_ hr hl
    intro l' hl'
    have h1 := step_count inv hx hl'
    have h2 := open_find (n := n) inv
    cases hf : find s n with
    | none =>
      rw [hf] at h1 h2
      rw [if_neg (fun h => h2.1 h rfl)]
      dsimp only at h1
      omega
    | some l2 =>
      rw [hf] at h1 h2
      rw [if_pos (h2.2 (by simp))]
      have := hk l2 hf
      dsimp only at h1
      omega

/-- Whatever happened before: the end of a job closes a library that it imported exactly if no other
job uses it and it lost its last user 65535 times since it was loaded. -/
theorem closes_iff (a : List Op) (s : St) (c n : Nat) (ha : run init a = some s) (hu : (c, n) ∈ s.users) :
    (done s c).closed.count n = s.closed.count n + 1 ↔ (∀ c', (c', n) ∈ s.users → c' = c) ∧ left n init 0 a = 65535 := by
  have inv := run_inv a _ _ init_inv ha
  have hk : n ∈ names s := by
    apply inv.known
    have := List.count_pos_iff.2 (List.mem_map.2 ⟨(c, n), hu, rfl⟩ : n ∈ s.users.map (·.2))
    simp only [uses]; omega
  cases hl : find s n with
  | none => exact absurd hk (find_none hl)
  | some l =>
    have hc := run_left a init s n 0 l init_inv (fun l h => by cases h) ha hl
    rw [closes_count a s c n l ha hu hl]
    constructor
    · intro h; exact ⟨h.1, by omega⟩
    · intro h; exact ⟨h.1, by omega⟩

/-- Three jobs, the second of which ends while the third uses the library: it lost its last user once. -/
example : left 7 init 0 [.imp good 1 7, .done 1, .imp good 2 7, .imp good 3 7, .done 2] = 1 := by
  simp [left, step, imp, get, find, use, init, good, upd, done, release, freeCount, Leaves, Open]

example : (done ⟨[⟨7, 1, 0⟩], [(1, 7)], [7], []⟩ 1).closed = [7] ∧ (done ⟨[⟨7, 1, 1⟩], [(1, 7)], [7], []⟩ 1).closed = [] ∧
    (done ⟨[⟨7, 2, 0⟩], [(2, 7), (1, 7)], [7], []⟩ 1).closed = [] := by decide

/-! ## An import that fails gives a message (C281) -/

/-- The claim does not hold: a library that is open already, whose `init` fails or is missing, is
reported with a path that was never written. -/
theorem cached_bad (e : Env) (s : St) (c n : Nat) (l : Lib) (hl : find s n = some l) (hu : (c, n) ∈ s.users ∨ (e.use = true ∧ e.useNode = true))
    (hi : e.init ≠ .gives) : imp e s c n = none := by
  have h : ∃ t, use e s c n = (t, none) := by
    simp only [use]
    by_cases h1 : (c, n) ∈ s.users
    · rw [if_pos h1]; exact ⟨_, rfl⟩
    · rw [if_neg h1]
      have := hu.resolve_left h1
      simp [this.1, this.2]
  obtain ⟨t, ht⟩ := h
  simp only [imp, get, hl, ht]
  cases hh : e.init with
  | gives => exact absurd hh hi
  | missing => simp
  | fails => simp

/-- Nor when there is no memory for the new library: a null pointer is used. -/
theorem memory_bad (e : Env) (s : St) (c n : Nat) (hl : find s n = none) (hd : e.dl = true) (hm : e.lib = false) : imp e s c n = none := by
  simp [imp, get, hl, hd, hm]

/-- In every other case there is an answer: the first import of a library, if the memory for it is
there, and any import of one whose `init` gives a value. -/
theorem answers_partial (e : Env) (s : St) (c n : Nat) (h : (find s n = none ∧ (e.dl = false ∨ e.lib = true)) ∨ ((∃ l, find s n = some l) ∧ e.init = .gives)) :
    ∃ r, imp e s c n = some r := by
  rcases h with ⟨hl, hm⟩ | ⟨⟨l, hl⟩, hi⟩
  · simp only [imp, get, hl]
    by_cases hd : e.dl = true
    · have hm : e.lib = true := hm.resolve_left (by simp [hd])
      simp only [hd, hm]
      by_cases hn : e.node = true
      · simp only [hn]
        dsimp
        split
        · exact ⟨_, rfl⟩
        · cases e.init <;> exact ⟨_, rfl⟩
      · have hn : e.node = false := by simpa using hn
        simp only [hn]
        exact ⟨_, rfl⟩
    · have hd : e.dl = false := by simpa using hd
      simp only [hd]
      exact ⟨_, rfl⟩
  · simp only [imp, get, hl, hi]
    split <;> exact ⟨_, rfl⟩

/-- A failed first import leaves the message that says why. -/
theorem first_message (e : Env) (s : St) (c n : Nat) (hl : find s n = none) (hd : e.dl = true) (hm : e.lib = true) (hn : e.node = true)
    (hu : e.use = true) (hun : e.useNode = true) (hnew : (c, n) ∉ s.users) :
    (imp e s c n).map (·.2) = some (match e.init with | .gives => .value | .missing => .noInit | .fails => .initFailed) := by
  simp only [imp, get, hl, hd, hm, hn, use, hu, hun]
  cases hi : e.init <;> simp [hnew]

/- A library with an `init` that fails: the first import tells, the second one does not. -/
example : let e : Env := { good with init := .fails }
    (imp e init 1 7).map (·.2) = some .initFailed ∧ run init [.imp e 1 7, .imp e 1 7] = none := by decide

/-! ## `Eval` of a text runs that text (C278) -/

open Verif.SearchPath in
/-- The claim does not hold for a text that begins with `@` (as a definition of a function does), in
a job that was started from a file: what runs is another text, or bytes outside a buffer. -/
theorem eval_text_refuted (f x : List Nat) (hx : ∀ b ∈ x, b ≠ 0) : evalPath (some f) (64 :: x) ≠ some (64 :: x) := by
  have hcx : cstr x = x := by
    clear f
    induction x with
    | nil => rfl
    | cons b r ih =>
      have := hx b List.mem_cons_self
      have ih := ih (fun y hy => hx y (List.mem_cons_of_mem _ hy))
      simp only [cstr] at ih ⊢
      rw [List.takeWhile_cons, ih]
      simp [this]
  simp only [evalPath, hcx]
  split
  · split
    · intro h
      have h := Option.some.inj h
      split at h
      · generalize (cstr f).take _ = p at h
        cases p with
        | nil =>
          injection h with h1 h2
          exact absurd h1 (by decide)
        | cons a p =>
          have := congrArg List.length h
          simp only [List.length_append, List.length_cons] at this
          omega
      · have : (0 : Nat) ∈ 64 :: x := by rw [← h]; simp
        rcases List.mem_cons.1 this with e | e
        · cases e
        · exact hx 0 e rfl
    · intro h; cases h
  · split
    · intro h
      have := congrArg List.length (Option.some.inj h)
      simp only [List.length_cons] at this
      omega
    · intro h
      have := congrArg List.length (Option.some.inj h)
      simp only [List.length_cons] at this
      omega

open Verif.SearchPath in
/-- A text that does not begin with `@`, and every text in a job without a file, is run as it is. -/
theorem eval_text_partial (f : Option (List Nat)) (x : List Nat) (h : f = none ∨ x.head? ≠ some 64) : evalPath f x = some x := by
  rcases h with h | h
  · subst h
    unfold evalPath
    split
    · rename_i heq; cases heq
    · rfl
  · unfold evalPath
    split
    · simp at h
    · rfl

/- `@a(){}` in a script `d/s`: the file `d/a(){}` would be meant; as a text it is `d/a(){}` too. -/
example : Verif.SearchPath.evalPath (some [100, 47, 115]) [64, 97, 40, 41, 123, 125] = some [100, 47, 97, 40, 41, 123, 125] := by decide
example : Verif.SearchPath.evalPath (some [115]) [64, 97, 40, 41, 123, 125] = some [97, 40, 41, 123, 125] := by decide

end Verif.LangImport
