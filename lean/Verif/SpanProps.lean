import Verif.Span
import Mathlib.Data.List.Perm.Basic
/-
The spans are the tree of the calls (C240), what is freed (C241), and what happens when tracing is
stopped at another depth than it was started (C242).
-/
namespace Verif.Span

/-! ### Spec -/

/-- Spec: the calls that a function makes, in order: the first one with the calls it makes, and the
rest. -/
inductive Calls where
  | nil
  | cons (i : Info) (kids rest : Calls)
deriving DecidableEq, Repr

/-- Spec: the same with the times at which every call began and ended. -/
inductive Timed where
  | nil
  | cons (i : Info) (b e : Nat) (kids rest : Timed)
deriving DecidableEq, Repr

def Calls.size : Calls → Nat
  | .nil => 0
  | .cons _ k r => 1 + k.size + r.size

/-- Spec: the events of the calls in the traced thread. -/
def Calls.events : Calls → List Ev
  | .nil => []
  | .cons i k r => .enter true i :: (k.events ++ .leave true :: r.events)

/-- Spec: the clock is read when a call begins and when it ends; `t` is the number of readings
before. -/
def Calls.timed (clock : Nat → Nat) : Nat → Calls → Timed
  | _, .nil => .nil
  | t, .cons i k r => .cons i (clock t) (clock (t + 1 + 2 * k.size)) (k.timed clock (t + 1)) (r.timed clock (t + 2 + 2 * k.size))

def Timed.size : Timed → Nat
  | .nil => 0
  | .cons _ _ _ k r => 1 + k.size + r.size

/-- Spec: level, call and times of all calls, callers before the called. -/
def Timed.pre (level : Nat) : Timed → List (Nat × Info × Nat × Nat)
  | .nil => []
  | .cons i b e k r => (level, i, b, e) :: k.pre (level + 1) ++ r.pre level

/-- Spec: every call lies within the time of its caller and after the calls before it. -/
def Timed.Within (lo hi : Nat) : Timed → Prop
  | .nil => True
  | .cons _ b e k r => lo ≤ b ∧ b ≤ e ∧ e ≤ hi ∧ k.Within b e ∧ r.Within e hi

/-! ### The spans of a forest of calls -/

/-- The spans with the numbers from `lo` on are these calls, made by the function with span `p`. -/
def Rep (spans : List Span) (p : Nat) : Nat → List Nat → Timed → Prop
  | _, ids, .nil => ids = []
  | lo, ids, .cons i b e k r => ∃ s ids', ids = lo :: ids' ∧ spans[lo]? = some s ∧ s.info = i ∧ s.start = b ∧ s.stop = e ∧ s.parent = some p ∧
      Rep spans lo (lo + 1) s.subs k ∧ Rep spans p (lo + 1 + k.size) ids' r

theorem Rep.congr {spans spans' : List Span} : ∀ (t : Timed) (p lo : Nat) (ids : List Nat), (∀ j, lo ≤ j → j < lo + t.size → spans'[j]? = spans[j]?) →
    Rep spans p lo ids t → Rep spans' p lo ids t := by
  intro t
  induction t with
  | nil => intro p lo ids _ h; exact h
  | cons i b e k r ihk ihr =>
    intro p lo ids hj ⟨s, ids', e1, e2, e3, e4, e5, e6, h1, h2⟩
    simp only [Timed.size] at hj
    refine ⟨s, ids', e1, by rw [hj lo (Nat.le_refl _) (by omega), e2], e3, e4, e5, e6, ihk _ _ _ (fun j a b => hj j (by omega) (by omega)) h1,
      ihr _ _ _ (fun j a b => hj j (by omega) (by omega)) h2⟩

theorem timed_size (clock : Nat → Nat) : ∀ (c : Calls) (t : Nat), (c.timed clock t).size = c.size := by
  intro c
  induction c with
  | nil => intro t; rfl
  | cons i k r ihk ihr => intro t; simp only [Calls.timed, Timed.size, Calls.size, ihk, ihr]

theorem run_append (clock : Nat → Nat) (a b : List Ev) (st : St) : run clock st (a ++ b) = (run clock st a).bind fun st => run clock st b := by
  induction a generalizing st with
  | nil => rfl
  | cons e a ih =>
    simp only [List.cons_append, run]
    cases step clock st e with
    | none => rfl
    | some s => simp [ih]

theorem modify_last {α : Type} (f : α → α) (x : α) : ∀ l : List α, (l ++ [x]).modify l.length f = l ++ [f x] := by
  intro l
  induction l with
  | nil => rfl
  | cons a l ih => simpa using ih

theorem modify_ne {α : Type} (f : α → α) (l : List α) {i j : Nat} (h : i ≠ j) : (l.modify i f)[j]? = l[j]? := by
  rw [List.getElem?_modify]; simp [h]

theorem modify_eq {α : Type} (f : α → α) (l : List α) (i : Nat) : (l.modify i f)[i]? = l[i]?.map f := by
  rw [List.getElem?_modify]; simp

/-- What the events of a forest of calls do. -/
theorem forest (clock : Nat → Nat) : ∀ (c : Calls) (st : St) (p : Nat) (rest : List Nat) (sp : Span), st.on = true → st.stack = p :: rest → st.root ≠ none → st.spans[p]? = some sp →
    ∃ st' ids, run clock st c.events = some st' ∧ st'.on = true ∧ st'.stack = st.stack ∧ st'.root = st.root ∧ st'.ticks = st.ticks + 2 * c.size ∧
      st'.spans.length = st.spans.length + c.size ∧ (∀ j, j < st.spans.length → j ≠ p → st'.spans[j]? = st.spans[j]?) ∧
      st'.spans[p]? = some { sp with subs := sp.subs ++ ids } ∧ Rep st'.spans p st.spans.length ids (c.timed clock st.ticks) := by
  intro c
  induction c with
  | nil =>
    intro st p rest sp hon hst hroot hp
    exact ⟨st, [], rfl, hon, rfl, rfl, by simp [Calls.size], by simp [Calls.size], fun _ _ _ => rfl, by simpa using hp, rfl⟩
  | cons i k r ihk ihr =>
    intro st p rest sp hon hst hroot hp
    have hplt : p < st.spans.length := (List.getElem?_eq_some_iff.mp hp).1
    obtain ⟨n, hn⟩ : ∃ n, n = st.spans.length := ⟨_, rfl⟩
    rw [← hn] at hplt
    -- entering
    obtain ⟨s1, hs1⟩ : ∃ s1 : St, s1 = { st with
        stack := n :: st.stack
        spans := (st.spans.modify p fun s => { s with subs := s.subs ++ [n] }) ++ [{ info := i, start := clock st.ticks, stop := 0, parent := some p, subs := [] }]
        ticks := st.ticks + 1 } := ⟨_, rfl⟩
    have hlen0 : (st.spans.modify p fun s => { s with subs := s.subs ++ [n] }).length = n := by rw [List.length_modify, hn]
    have e1 : step clock st (.enter true i) = some s1 := by
      simp only [step, hon, if_true, entry, newSpan, Bool.not_true, Bool.false_eq_true, if_false, hst, List.head?_cons]
      rw [if_neg hroot, hs1]
      simp only [← hn]
      congr 1
      have := modify_last (fun s : Span => { s with start := clock st.ticks }) { info := i, start := 0, stop := 0, parent := some p, subs := [] } (st.spans.modify p fun s => { s with subs := s.subs ++ [n] })
      rw [hlen0] at this
      rw [this, hst, hon]
    have hlen1 : s1.spans.length = n + 1 := by rw [hs1]; simp [hn]
    have h1n : s1.spans[n]? = some { info := i, start := clock st.ticks, stop := 0, parent := some p, subs := [] } := by
      rw [hs1]; simp only; rw [List.getElem?_append_right (by omega)]; simp [hn]
    have h1p : s1.spans[p]? = some { sp with subs := sp.subs ++ [n] } := by
      rw [hs1]; simp only; rw [List.getElem?_append_left (by omega)]; simp [hp]
    have h1j : ∀ j, j < n → j ≠ p → s1.spans[j]? = st.spans[j]? := by
      intro j a b
      rw [hs1]; simp only; rw [List.getElem?_append_left (by omega), modify_ne _ _ (Ne.symm b)]
    -- the calls it makes
    obtain ⟨s2, ids2, e2, on2, st2, ro2, ti2, le2, fr2, me2, re2⟩ := ihk s1 n st.stack _ (by rw [hs1]; exact hon) (by rw [hs1]) (by rw [hs1]; exact hroot) h1n
    simp only [List.nil_append] at me2
    -- leaving
    obtain ⟨s3, hs3⟩ : ∃ s3 : St, s3 = { s2 with stack := st.stack, spans := s2.spans.modify n fun s => { s with stop := clock s2.ticks }, ticks := s2.ticks + 1 } := ⟨_, rfl⟩
    have st2' : s2.stack = n :: st.stack := by rw [st2, hs1]
    have e3 : step clock s2 (.leave true) = some s3 := by
      simp only [step, on2, if_true, exit, Bool.not_true, Bool.false_eq_true, if_false, st2', hs3]
    have h3p : s3.spans[p]? = some { sp with subs := sp.subs ++ [n] } := by
      rw [hs3]; simp only; rw [modify_ne _ _ (by omega), fr2 p (by omega) (by omega), h1p]
    obtain ⟨s4, ids4, e4, on4, st4, ro4, ti4, le4, fr4, me4, re4⟩ := ihr s3 p rest _ (by rw [hs3]; exact on2) (by rw [hs3]; exact hst) (by rw [hs3]; simp only [ro2, hs1]; exact hroot) h3p
    have len3 : s3.spans.length = n + 1 + k.size := by rw [hs3]; simp only [List.length_modify]; omega
    have tic3 : s3.ticks = st.ticks + 2 + 2 * k.size := by rw [hs3]; simp only [ti2, hs1]; omega
    have sz := timed_size clock k (st.ticks + 1)
    have tic1 : s1.ticks = st.ticks + 1 := by rw [hs1]
    refine ⟨s4, n :: ids4, ?_, on4, ?_, ?_, ?_, ?_, ?_, ?_, ?_⟩
    · simp only [Calls.events, run, e1, Option.bind_some]
      rw [run_append, e2]
      simp only [Option.bind_some, run, e3, e4]
    · rw [st4, hs3]
    · rw [ro4, hs3]; simp only [ro2, hs1]
    · simp only [Calls.size]; omega
    · simp only [Calls.size]; omega
    · intro j a b
      rw [fr4 j (by omega) b, hs3]
      simp only
      rw [modify_ne _ _ (by omega), fr2 j (by omega) (by omega)]
      exact h1j j (by omega) b
    · rw [me4]; simp
    · rw [← hn]
      simp only [Calls.timed, Rep]
      refine ⟨{ info := i, start := clock st.ticks, stop := clock (st.ticks + 1 + 2 * k.size), parent := some p, subs := ids2 }, ids4, rfl, ?_, rfl, rfl, rfl, rfl, ?_, ?_⟩
      · rw [fr4 n (by omega) (by omega), hs3]
        simp only
        rw [modify_eq, me2]
        simp only [Option.map_some, Option.some.injEq]
        rw [ti2, tic1]
      · rw [tic1, hlen1] at re2
        refine Rep.congr _ _ _ _ (fun j a b => ?_) re2
        rw [sz] at b
        rw [fr4 j (by omega) (by omega), hs3]
        simp only
        rw [modify_ne _ _ (by omega)]
      · rw [len3, tic3] at re4
        rw [sz]
        exact re4

/-! ### Reading the tree -/

theorem dumps_rep (spans : List Span) : ∀ (t : Timed) (p lo : Nat) (ids : List Nat), Rep spans p lo ids t → ∀ (n level : Nat), t.size < n →
    (dumps spans n level ids).map (fun x => (x.1, x.2.info, x.2.start, x.2.stop)) = t.pre level := by
  intro t
  induction t with
  | nil =>
    intro p lo ids h n level hn
    simp only [Rep] at h
    subst h
    cases n <;> rfl
  | cons i b e k r ihk ihr =>
    intro p lo ids ⟨s, ids', e1, e2, e3, e4, e5, e6, h1, h2⟩ n level hn
    simp only [Timed.size] at hn
    cases n with
    | zero => omega
    | succ n =>
      subst e1
      simp only [dumps, e2, List.map_cons, List.map_append, Timed.pre, List.cons_append, e3, e4, e5]
      rw [ihk _ _ _ h1 n (level + 1) (by omega), ihr _ _ _ h2 n level (by omega)]

theorem frees_rep (spans : List Span) : ∀ (t : Timed) (p lo : Nat) (ids : List Nat), Rep spans p lo ids t → ∀ n, t.size < n → (frees spans n ids).Perm (List.range' lo t.size) := by
  intro t
  induction t with
  | nil =>
    intro p lo ids h n hn
    simp only [Rep] at h
    subst h
    cases n <;> simp [frees, Timed.size]
  | cons i b e k r ihk ihr =>
    intro p lo ids ⟨s, ids', e1, e2, e3, e4, e5, e6, h1, h2⟩ n hn
    simp only [Timed.size] at hn
    cases n with
    | zero => omega
    | succ n =>
      subst e1
      simp only [frees, e2, Timed.size]
      have a := ihk _ _ _ h1 n (by omega)
      have b := ihr _ _ _ h2 n (by omega)
      have hr : List.range' lo (1 + k.size + r.size) = lo :: (List.range' (lo + 1) k.size ++ List.range' (lo + 1 + k.size) r.size) := by
        rw [Nat.add_assoc, Nat.add_comm 1, List.range'_succ]
        congr 1
        rw [List.range'_append_1]
      rw [hr]
      exact (List.perm_middle).trans (List.Perm.cons lo (a.append b))

/-- Everything about a traced run: `start` in a function that then makes the calls `c`. -/
theorem traced (clock : Nat → Nat) (st : St) (i : Info) (c : Calls) :
    ∃ st', run clock st (.start i :: (c.events ++ [.stop])) = some st' ∧ st'.on = false ∧ st'.stack = [] ∧ st'.root = some st.spans.length ∧
      st'.spans.length = st.spans.length + 1 + c.size ∧ (∀ j, j < st.spans.length → st'.spans[j]? = st.spans[j]?) ∧
      ∃ s, st'.spans[st.spans.length]? = some s ∧ s.info = i ∧ s.start = clock st.ticks ∧ s.stop = clock (st.ticks + 1 + 2 * c.size) ∧ s.parent = none ∧
        Rep st'.spans st.spans.length (st.spans.length + 1) s.subs (c.timed clock (st.ticks + 1)) := by
  obtain ⟨n, hn⟩ : ∃ n, n = st.spans.length := ⟨_, rfl⟩
  obtain ⟨s1, hs1⟩ : ∃ s1 : St, s1 = { spans := st.spans ++ [{ info := i, start := clock st.ticks, stop := 0, parent := none, subs := [] }], stack := [n], root := some n, on := true, ticks := st.ticks + 1 } := ⟨_, rfl⟩
  have e1 : step clock st (.start i) = some s1 := by
    simp only [step, entry, newSpan, Bool.not_true, Bool.false_eq_true, if_false, List.head?_nil, if_true, hs1]
    rw [modify_last, hn]
  obtain ⟨s2, ids, e2, on2, st2, ro2, ti2, le2, fr2, me2, re2⟩ := forest clock c s1 n [] { info := i, start := clock st.ticks, stop := 0, parent := none, subs := [] }
    (by rw [hs1]) (by rw [hs1]) (by rw [hs1]; simp) (by rw [hs1, hn]; simp)
  have st2' : s2.stack = [n] := by rw [st2, hs1]
  have len1 : s1.spans.length = n + 1 := by rw [hs1, hn]; simp
  have tic1 : s1.ticks = st.ticks + 1 := by rw [hs1]
  have ro1 : s1.root = some n := by rw [hs1]
  refine ⟨{ s2 with stack := [], spans := s2.spans.modify n fun s => { s with stop := clock s2.ticks }, ticks := s2.ticks + 1, on := false }, ?_, rfl, rfl, ?_, ?_, ?_, ?_⟩
  · simp only [run, e1, Option.bind_some]
    rw [run_append, e2]
    simp only [Option.bind_some, run, step, exit, Bool.not_true, Bool.false_eq_true, if_false, st2', Option.map_some]
  · simp only; rw [ro2, ro1, hn]
  · simp only [List.length_modify]; omega
  · intro j hj
    simp only
    rw [modify_ne _ _ (by omega), fr2 j (by omega) (by omega), hs1]
    rw [List.getElem?_append_left hj]
  · rw [← hn]
    refine ⟨{ info := i, start := clock st.ticks, stop := clock (st.ticks + 1 + 2 * c.size), parent := none, subs := ids }, ?_, rfl, rfl, rfl, rfl, ?_⟩
    · simp only
      rw [modify_eq, me2]
      simp only [Option.map_some, List.nil_append, Option.some.injEq]
      rw [ti2, tic1]
    · rw [len1, tic1] at re2
      refine Rep.congr _ _ _ _ (fun j a b => ?_) re2
      simp only
      rw [modify_ne _ _ (by omega)]

/-- **C240.** Tracing from mln_span_start to mln_span_stop in the same function never fails, and
mln_span_dump reports exactly the calls made in between, callers before the called, in the order in
which they were made, with their depth below that function and the times at which they began and
ended. -/
theorem dump_is_call_tree (clock : Nat → Nat) (st : St) (i : Info) (c : Calls) :
    ∃ st', run clock st (.start i :: (c.events ++ [.stop])) = some st' ∧
      (dump st').map (fun x => (x.1, x.2.info, x.2.start, x.2.stop)) =
        (Timed.cons i (clock st.ticks) (clock (st.ticks + 1 + 2 * c.size)) (c.timed clock (st.ticks + 1)) .nil).pre 0 := by
  obtain ⟨st', e, _, _, hr, hl, _, s, e2, e3, e4, e5, e6, h1⟩ := traced clock st i c
  refine ⟨st', e, ?_⟩
  have hsz := timed_size clock c (st.ticks + 1)
  simp only [dump, hr, Option.toList, dumps, e2, List.map_cons, List.map_append, Timed.pre, List.cons_append, e3, e4, e5]
  rw [dumps_rep _ _ _ _ _ h1 _ _ (by omega)]
  congr 2

/-- The calls of other threads leave no trace. -/
theorem other_threads (clock : Nat → Nat) (es : List Ev) : ∀ st, run clock st es = run clock st (es.filter fun e => match e with | .enter own _ => own | .leave own => own | _ => true) := by
  induction es with
  | nil => intro st; rfl
  | cons e es ih =>
    intro st
    rw [List.filter_cons]
    cases e with
    | enter own i =>
      cases own
      · simp only [Bool.false_eq_true, if_false, run, step, entry, Bool.not_false, if_true, ite_self, Option.bind_some]
        exact ih st
      · simp only [if_true, run]; congr 1; funext s; exact ih s
    | leave own =>
      cases own
      · simp only [Bool.false_eq_true, if_false, run, step, exit, Bool.not_false, if_true, ite_self, Option.bind_some]
        exact ih st
      · simp only [if_true, run]; congr 1; funext s; exact ih s
    | start i => simp only [if_true, run]; congr 1; funext s; exact ih s
    | stop => simp only [if_true, run]; congr 1; funext s; exact ih s

/-- **C240**, together: with any calls of other threads in between. -/
theorem dump_is_call_tree_threads (clock : Nat → Nat) (st : St) (i : Info) (c : Calls) (es : List Ev)
    (hes : es.filter (fun e => match e with | .enter own _ => own | .leave own => own | _ => true) = .start i :: (c.events ++ [.stop])) :
    ∃ st', run clock st es = some st' ∧
      (dump st').map (fun x => (x.1, x.2.info, x.2.start, x.2.stop)) =
        (Timed.cons i (clock st.ticks) (clock (st.ticks + 1 + 2 * c.size)) (c.timed clock (st.ticks + 1)) .nil).pre 0 := by
  rw [other_threads, hes]
  exact dump_is_call_tree clock st i c

theorem timed_within (clock : Nat → Nat) (hc : ∀ a b, a ≤ b → clock a ≤ clock b) : ∀ (c : Calls) (t hi lo : Nat), lo ≤ clock t → clock (t + 2 * c.size) ≤ hi → (c.timed clock t).Within lo hi := by
  intro c
  induction c with
  | nil => intro t hi lo _ _; trivial
  | cons i k r ihk ihr =>
    intro t hi lo h1 h2
    simp only [Calls.size] at h2
    have hm : clock (t + 1 + 2 * k.size) ≤ hi := Nat.le_trans (hc _ _ (by omega)) h2
    refine ⟨h1, hc _ _ (by omega), hm, ihk _ _ _ (hc _ _ (by omega)) (hc _ _ (by omega)), ihr _ _ _ (hc _ _ (by omega)) ?_⟩
    exact Nat.le_trans (hc _ _ (by omega)) h2

/-- **C240**, the times: if the clock does not go back, the time of a call lies within the time of
its caller, behind the calls made before, and mln_span_time_cost is not negative. -/
theorem times_nest (clock : Nat → Nat) (hc : ∀ a b, a ≤ b → clock a ≤ clock b) (st : St) (i : Info) (c : Calls) :
    (Timed.cons i (clock st.ticks) (clock (st.ticks + 1 + 2 * c.size)) (c.timed clock (st.ticks + 1)) .nil).Within (clock st.ticks) (clock (st.ticks + 1 + 2 * c.size)) :=
  ⟨Nat.le_refl _, hc _ _ (by omega), Nat.le_refl _, timed_within clock hc c _ _ _ (hc _ _ (by omega)) (Nat.le_refl _), trivial⟩

theorem timeCost_eq (s : Span) (h : s.start ≤ s.stop) (hs : s.stop < 2 ^ 64) : timeCost s = s.stop - s.start := by
  unfold timeCost; omega

/-- **C241.** mln_span_release after a traced run frees every span of the run exactly once, and no
other. -/
theorem release_frees_all (clock : Nat → Nat) (st : St) (i : Info) (c : Calls) :
    ∃ st', run clock st (.start i :: (c.events ++ [.stop])) = some st' ∧ (release st').1.Perm (List.range' st.spans.length (st'.spans.length - st.spans.length)) ∧ (release st').1.Nodup ∧ (release st').2.root = none := by
  obtain ⟨st', e, _, _, hr, hl, _, s, e2, e3, e4, e5, e6, h1⟩ := traced clock st i c
  have hsz := timed_size clock c (st.ticks + 1)
  have hp : (release st').1.Perm (List.range' st.spans.length (st'.spans.length - st.spans.length)) := by
    simp only [release, hr, Option.toList, frees, e2]
    have a := frees_rep _ _ _ _ _ h1 (2 * st'.spans.length + 1) (by omega)
    have hn : st'.spans.length - st.spans.length = (c.timed clock (st.ticks + 1)).size + 1 := by omega
    rw [hn, List.range'_succ]
    exact (List.perm_middle).trans (List.Perm.cons _ (by simpa using a))
  exact ⟨st', e, hp, hp.nodup_iff.mpr (List.nodup_range' (step := 1)), rfl⟩

/-- Calls made with an empty stack. -/
theorem orphans (clock : Nat → Nat) : ∀ (c : Calls) (st : St), st.on = true → st.stack = [] → st.root ≠ none →
    ∃ st', run clock st c.events = some st' ∧ st'.on = true ∧ st'.stack = [] ∧ st'.root = st.root ∧ st'.spans.length = st.spans.length + c.size ∧
      ∀ j, j < st.spans.length → st'.spans[j]? = st.spans[j]? := by
  intro c
  induction c with
  | nil => intro st h1 h2 _; exact ⟨st, rfl, h1, h2, rfl, by simp [Calls.size], fun _ _ => rfl⟩
  | cons i k r _ ihr =>
    intro st hon hst hroot
    obtain ⟨n, hn⟩ : ∃ n, n = st.spans.length := ⟨_, rfl⟩
    obtain ⟨s1, hs1⟩ : ∃ s1 : St, s1 = { st with spans := st.spans ++ [{ info := i, start := clock st.ticks, stop := 0, parent := none, subs := [] }], stack := [n], ticks := st.ticks + 1 } := ⟨_, rfl⟩
    have e1 : step clock st (.enter true i) = some s1 := by
      simp only [step, hon, if_true, entry, newSpan, Bool.not_true, Bool.false_eq_true, if_false, hst, List.head?_nil]
      rw [if_neg hroot, hs1]
      simp only
      rw [modify_last, hn, hon]
    obtain ⟨s2, ids2, e2, on2, st2, ro2, ti2, le2, fr2, me2, re2⟩ := forest clock k s1 n [] _ (by rw [hs1]; exact hon) (by rw [hs1]) (by rw [hs1]; exact hroot) (by rw [hs1, hn]; simp; rfl)
    obtain ⟨s3, hs3⟩ : ∃ s3 : St, s3 = { s2 with stack := [], spans := s2.spans.modify n fun s => { s with stop := clock s2.ticks }, ticks := s2.ticks + 1 } := ⟨_, rfl⟩
    have st2' : s2.stack = [n] := by rw [st2, hs1]
    have e3 : step clock s2 (.leave true) = some s3 := by
      simp only [step, on2, if_true, exit, Bool.not_true, Bool.false_eq_true, if_false, st2', hs3]
    have len1 : s1.spans.length = n + 1 := by rw [hs1, hn]; simp
    obtain ⟨s4, e4, on4, st4, ro4, le4, fr4⟩ := ihr s3 (by rw [hs3]; exact on2) (by rw [hs3]) (by rw [hs3]; simp only [ro2, hs1]; exact hroot)
    have len3 : s3.spans.length = n + 1 + k.size := by rw [hs3]; simp only [List.length_modify]; omega
    refine ⟨s4, ?_, on4, st4, ?_, ?_, ?_⟩
    · simp only [Calls.events, run, e1, Option.bind_some]
      rw [run_append, e2]
      simp only [Option.bind_some, run, e3, e4]
    · rw [ro4, hs3]; simp only [ro2, hs1]
    · simp only [Calls.size]; omega
    · intro j hj
      rw [fr4 j (by omega), hs3]
      simp only
      rw [modify_ne _ _ (by omega), fr2 j (by omega) (by omega), hs1]
      rw [List.getElem?_append_left hj]

/-- **C242**, refuted: when mln_span_start is called in a wrapped function, and mln_span_stop only
after that function has returned, the span of the start is popped by the return, and mln_span_stop
runs into assert(0), whatever calls are made before and after. -/
theorem stop_after_return (clock : Nat → Nat) (st : St) (i : Info) (c d : Calls) :
    run clock st (.start i :: (c.events ++ .leave true :: (d.events ++ [.stop]))) = none := by
  obtain ⟨n, hn⟩ : ∃ n, n = st.spans.length := ⟨_, rfl⟩
  obtain ⟨s1, hs1⟩ : ∃ s1 : St, s1 = { spans := st.spans ++ [{ info := i, start := clock st.ticks, stop := 0, parent := none, subs := [] }], stack := [n], root := some n, on := true, ticks := st.ticks + 1 } := ⟨_, rfl⟩
  have e1 : step clock st (.start i) = some s1 := by
    simp only [step, entry, newSpan, Bool.not_true, Bool.false_eq_true, if_false, List.head?_nil, if_true, hs1]
    rw [modify_last, hn]
  obtain ⟨s2, ids, e2, on2, st2, ro2, ti2, le2, fr2, me2, re2⟩ := forest clock c s1 n [] { info := i, start := clock st.ticks, stop := 0, parent := none, subs := [] }
    (by rw [hs1]) (by rw [hs1]) (by rw [hs1]; simp) (by rw [hs1, hn]; simp)
  have st2' : s2.stack = [n] := by rw [st2, hs1]
  obtain ⟨s3, hs3⟩ : ∃ s3 : St, s3 = { s2 with stack := [], spans := s2.spans.modify n fun s => { s with stop := clock s2.ticks }, ticks := s2.ticks + 1 } := ⟨_, rfl⟩
  have e3 : step clock s2 (.leave true) = some s3 := by
    simp only [step, on2, if_true, exit, Bool.not_true, Bool.false_eq_true, if_false, st2', hs3]
  obtain ⟨s4, e4, on4, st4, _⟩ := orphans clock d s3 (by rw [hs3]; exact on2) (by rw [hs3]) (by rw [hs3]; simp only [ro2, hs1]; simp)
  simp only [run, e1, Option.bind_some]
  rw [run_append, e2]
  simp only [Option.bind_some, run, e3]
  rw [run_append, e4]
  simp only [Option.bind_some, run, step, exit, Bool.not_true, Bool.false_eq_true, if_false, st4, Option.map_none, Option.bind_none]

/-- **C242**, the other direction: a function entered between the two, in which mln_span_stop is
called, is what gets the end; the span of the start never ends, so its time is the end 0 less its
begin. -/
theorem stop_below (clock : Nat → Nat) (st : St) (i j : Info) :
    ∃ st' s, run clock st [.start i, .enter true j, .stop] = some st' ∧ st'.root = some st.spans.length ∧ st'.spans[st.spans.length]? = some s ∧ s.start = clock st.ticks ∧ s.stop = 0 := by
  have h1 : run clock st [.start i] = some { spans := st.spans ++ [{ info := i, start := clock st.ticks, stop := 0, parent := none, subs := [] }], stack := [st.spans.length], root := some st.spans.length, on := true, ticks := st.ticks + 1 } := by
    simp only [run, step, entry, newSpan, Bool.not_true, Bool.false_eq_true, if_false, List.head?_nil, if_true, Option.bind_some]
    rw [modify_last]
  obtain ⟨n, hn⟩ : ∃ n, n = st.spans.length := ⟨_, rfl⟩
  rw [← hn] at h1
  obtain ⟨a, ha⟩ : ∃ a : List Span, a = (st.spans ++ [({ info := i, start := clock st.ticks, stop := 0, parent := none, subs := [] } : Span)]).modify n fun s => { s with subs := s.subs ++ [n + 1] } := ⟨_, rfl⟩
  have hal : a.length = n + 1 := by rw [ha]; simp [hn]
  have h2 : run clock st [.start i, .enter true j, .stop] = (run clock st [.start i]).bind fun st => run clock st [.enter true j, .stop] := by
    rw [← run_append]; rfl
  have h3 : run clock { spans := st.spans ++ [{ info := i, start := clock st.ticks, stop := 0, parent := none, subs := [] }], stack := [n], root := some n, on := true, ticks := st.ticks + 1 } [.enter true j, .stop]
      = some { spans := a ++ [{ info := j, start := clock (st.ticks + 1), stop := clock (st.ticks + 2), parent := some n, subs := [] }], stack := [], root := some n, on := false, ticks := st.ticks + 3 } := by
    have hl : (st.spans ++ [({ info := i, start := clock st.ticks, stop := 0, parent := none, subs := [] } : Span)]).length = n + 1 := by simp [hn]
    simp only [run, step, if_true, entry, exit, newSpan, Bool.not_true, Bool.false_eq_true, if_false, List.head?_cons, Option.bind_some, Option.map_some, hl, reduceCtorEq]
    rw [← ha]
    have m1 := modify_last (fun s : Span => { s with start := clock (st.ticks + 1) }) { info := j, start := 0, stop := 0, parent := some n, subs := [] } a
    rw [hal] at m1
    rw [m1]
    have m2 := modify_last (fun s : Span => { s with stop := clock (st.ticks + 1 + 1) }) { info := j, start := clock (st.ticks + 1), stop := 0, parent := some n, subs := [] } a
    rw [hal] at m2
    rw [m2]
  rw [h2, h1, Option.bind_some, h3]
  refine ⟨_, { info := i, start := clock st.ticks, stop := 0, parent := none, subs := [n + 1] }, rfl, by rw [hn], ?_, rfl, rfl⟩
  simp only
  rw [← hn, List.getElem?_append_left (by omega), ha, modify_eq, hn]
  simp

/-! ### Examples -/

/-- f calls g, which calls h twice, and then h. -/
def sample : Calls := .cons ⟨1, 2, 30⟩ (.cons ⟨1, 3, 40⟩ .nil (.cons ⟨1, 3, 40⟩ .nil .nil)) (.cons ⟨1, 3, 40⟩ .nil .nil)

example : ((run (fun t => 100 + t) {} (.start ⟨1, 1, 10⟩ :: (sample.events ++ [.stop]))).map fun st => (dump st).map fun x => (x.1, x.2.info.func, x.2.start, x.2.stop))
    = some [(0, 1, 100, 109), (1, 2, 101, 106), (2, 3, 102, 103), (2, 3, 104, 105), (1, 3, 107, 108)] := by decide +kernel
example : ((run (fun t => 100 + t) {} (.start ⟨1, 1, 10⟩ :: (sample.events ++ [.stop]))).map fun st => (release st).1) = some [2, 3, 1, 4, 0] := by decide +kernel

end Verif.Span
