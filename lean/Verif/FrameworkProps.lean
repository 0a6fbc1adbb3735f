import Verif.Framework
/-!
# Theorems about starting up
-/
namespace Verif.Framework

/-! ## The mode

Specification: the framework is on exactly if the configuration names one of its two modes, off if it
has no such command or `off`; everything else is refused. -/

inductive Wanted : Option (Option Item) → Status → Prop
  | none : Wanted none .off
  | no : Wanted (some (some (.bool false))) .off
  | process : Wanted (some (some (.str "multiprocess"))) (.on .process)
  | thread : Wanted (some (some (.str "multithread"))) (.on .thread)
  | refused {c} : c ≠ .none → c ≠ some (some (.bool false)) → c ≠ some (some (.str "multiprocess")) → c ≠ some (some (.str "multithread")) → Wanted c .exits

/-- Refuted: numbers and characters are taken as `off` without a word. -/
theorem status_refuted : (∀ n, ¬ Wanted (some (some (.int n))) (status (some (some (.int n))))) ∧ (∀ c, ¬ Wanted (some (some (.char c))) (status (some (some (.char c)))))
    ∧ ¬ Wanted (some (some .float)) (status (some (some .float))) := by
  refine ⟨?_, ?_, ?_⟩ <;> intros <;> intro h <;> simp only [status] at h <;> cases h

/-- Otherwise it holds, and the modes are exactly the named ones. -/
theorem status_partial (c : Option (Option Item)) (h : ∀ i, c = some (some i) → (∃ s, i = .str s) ∨ ∃ b, i = .bool b) : Wanted c (status c) := by
  match c with
  | none => exact .none
  | some none => exact .refused (by simp) (by simp) (by simp) (by simp)
  | some (some (.str s)) =>
    simp only [status]
    split
    · rename_i e; rw [e]; exact .process
    · split
      · rename_i e; rw [e]; exact .thread
      · rename_i h1 h2
        exact .refused (by simp) (by simp) (by simpa using h1) (by simpa using h2)
  | some (some (.bool false)) => exact .no
  | some (some (.bool true)) => exact .refused (by simp) (by simp) (by simp) (by simp)
  | some (some (.char x)) => rcases h _ rfl with ⟨_, e⟩ | ⟨_, e⟩ <;> cases e
  | some (some (.int x)) => rcases h _ rfl with ⟨_, e⟩ | ⟨_, e⟩ <;> cases e
  | some (some .float) => rcases h _ rfl with ⟨_, e⟩ | ⟨_, e⟩ <;> cases e

theorem status_on (c : Option (Option Item)) (m : Mode) : status c = .on m ↔ c = some (some (.str (if m = .process then "multiprocess" else "multithread"))) := by
  constructor
  · intro h
    match c with
    | none => cases h
    | some none => cases h
    | some (some (.str s)) =>
      simp only [status] at h
      split at h
      · rename_i e; cases h; rw [e]; rfl
      · split at h
        · rename_i e; cases h; rw [e]; rfl
        · cases h
    | some (some (.bool false)) => cases h
    | some (some (.bool true)) => cases h
    | some (some (.char x)) => cases h
    | some (some (.int x)) => cases h
    | some (some .float) => cases h
  · intro h
    rw [h]
    cases m <;> rfl

/-! ## Who does what -/

theorem traceInit_calls (path ok : Bool) (ev : Nat) (p : P) : (traceInit path ok ev p).calls = p.calls ∧ (traceInit path ok ev p).conn = p.conn ∧ (traceInit path ok ev p).evs = p.evs ∧
    (traceInit path ok ev p).next = p.next ∧ (traceInit path ok ev p).cb = p.cb := by
  simp only [traceInit]
  split
  · exact ⟨rfl, rfl, rfl, rfl, rfl⟩
  · split <;> exact ⟨rfl, rfl, rfl, rfl, rfl⟩

theorem step_calls (ev : Nat) (p : P) (o : Op) : (step ev p o).calls = p.calls ∧ (step ev p o).conn = p.conn ∧ (step ev p o).evs = p.evs ∧ (step ev p o).next = p.next ∧ (step ev p o).cb = p.cb := by
  cases o with
  | returns => simp only [step]; split <;> exact ⟨rfl, rfl, rfl, rfl, rfl⟩
  | timer => simp only [step]; split <;> exact ⟨rfl, rfl, rfl, rfl, rfl⟩
  | init path ok => exact traceInit_calls path ok ev p

theorem run_calls (ev : Nat) (os : List Op) : ∀ (p : P), (run ev p os).calls = p.calls ∧ (run ev p os).conn = p.conn ∧ (run ev p os).evs = p.evs ∧ (run ev p os).next = p.next ∧ (run ev p os).cb = p.cb := by
  induction os with
  | nil => intro p; exact ⟨rfl, rfl, rfl, rfl, rfl⟩
  | cons o r ih =>
    intro p
    have h1 := step_calls ev p o
    have h2 := ih (step ev p o)
    show (run ev (step ev p o) r).calls = _ ∧ _
    exact ⟨h2.1.trans h1.1, h2.2.1.trans h1.2.1, h2.2.2.1.trans h1.2.2.1, h2.2.2.2.1.trans h1.2.2.2.1, h2.2.2.2.2.trans h1.2.2.2.2⟩

theorem master_is (path ok : Bool) (os : List Op) : (master path ok os).calls = [.master] ∧ (master path ok os).conn = none ∧ (master path ok os).evs = [0] ∧ (master path ok os).next = 1 ∧ (master path ok os).cb = true := by
  have h := run_calls 0 os (masterStart path ok boot)
  have k := traceInit_calls path ok 0 { newEv boot with cb := true }
  refine ⟨h.1.trans ?_, h.2.1.trans k.2.1, h.2.2.1.trans k.2.2.1, h.2.2.2.1.trans k.2.2.2.1, h.2.2.2.2.trans k.2.2.2.2⟩
  show (traceInit path ok 0 { newEv boot with cb := true }).calls ++ [Call.master] = _
  rw [k.1]
  rfl

theorem workerStart_eq (mode : Mode) (path ok : Bool) (p : P) {fd : Nat} (h : p.conn = some fd) :
    workerStart mode path ok p = some { traceInit path ok p.next (newEv p) with calls := p.calls ++ [if mode = .process then .worker else .mainThread] } := by
  have k := (traceInit_calls path ok p.next (newEv p)).1
  have hc : (newEv p).calls = p.calls := rfl
  simp only [workerStart]
  rw [show (newEv p).conn = some fd from h]
  dsimp only
  rw [k, hc]

/-- In the mode of processes the function for workers is called in each worker, started or started
again, once; in the mode of threads the one for the main thread. -/
theorem worker_calls (mode : Mode) (path ok path' ok' : Bool) (fd : Nat) (os : List Op) :
    (∃ w, first mode path ok fd = some w ∧ w.calls = [if mode = .process then .worker else .mainThread]) ∧
    (∃ w, again mode path ok fd (master path' ok' os) = some w ∧ w.calls = [.master, if mode = .process then .worker else .mainThread]) := by
  refine ⟨⟨_, workerStart_eq mode path ok _ rfl, rfl⟩, ⟨_, workerStart_eq mode path ok _ (fd := fd) rfl, ?_⟩⟩
  show (master path' ok' os).calls ++ _ = _
  rw [(master_is path' ok' os).1]
  rfl

/-- Refuted: a master whose loop is ended goes on as a worker, and aborts because it has no
connection to a master. -/
theorem master_ends_refuted (mode : Mode) (path ok path' ok' : Bool) (os : List Op) : masterEnds mode path ok (master path' ok' os) = none := by
  have h := (master_is path' ok' os).2.1
  simp only [masterEnds, workerStart]
  rw [show (newEv (masterStop 0 (master path' ok' os))).conn = none from h]

/-! ## Tracing in the processes -/

/-- A worker that was started at first traces, if the script can be started. -/
theorem first_traces (mode : Mode) (fd : Nat) : ∃ w, first mode true true fd = some w ∧ sent w = (true, true) ∧ w.isMaster = false :=
  ⟨_, workerStart_eq mode true true _ rfl, rfl, rfl⟩

/-- Where the master's trace script is. -/
theorem master_lang (path ok : Bool) (os : List Op) : (master path ok os).lang = none ∨ (master path ok os).lang = some 0 := by
  have base : (masterStart path ok boot).lang = none ∨ (masterStart path ok boot).lang = some 0 := by
    cases path <;> cases ok <;> simp [masterStart, traceInit, newEv, boot]
  have gen : ∀ (os : List Op) (p : P), (p.lang = none ∨ p.lang = some 0) → ((run 0 p os).lang = none ∨ (run 0 p os).lang = some 0) := by
    intro os
    induction os with
    | nil => intro p h; exact h
    | cons o r ih =>
      intro p h
      refine ih (step 0 p o) ?_
      cases o with
      | returns => simp only [step]; split <;> exact h
      | timer => simp only [step]; split
                 · exact Or.inl rfl
                 · exact h
      | init a b =>
        simp only [step, traceInit]
        split
        · exact h
        · split
          · exact Or.inr rfl
          · exact h
  exact gen os _ base

theorem deaf_step {p : P} {e ev : Nat} (hl : p.lang = some e) (he : e ∉ p.evs) (o : Op) : step ev p o = p := by
  have ha : alive p = false := by simp [alive, hl, he]
  cases o with
  | returns => simp [step, ha]
  | timer => simp [step, ha]
  | init a b => simp [step, traceInit, hl]

theorem deaf_run {e ev : Nat} (os : List Op) {p : P} (hl : p.lang = some e) (he : e ∉ p.evs) : run ev p os = p := by
  induction os with
  | nil => rfl
  | cons o r ih =>
    show run ev (step ev p o) r = p
    rw [deaf_step hl he]
    exact ih

theorem deaf_worker (mode : Mode) (path ok : Bool) {p : P} {e fd : Nat} (hl : p.lang = some e) (he : e ∉ p.evs) (hn : e ≠ p.next) (hc : p.conn = some fd) :
    ∃ w, workerStart mode path ok p = some w ∧ ∀ ev os', sent (run ev w os') = (p.ctx, false) := by
  refine ⟨_, workerStart_eq mode path ok p hc, ?_⟩
  intro ev os'
  have hi : traceInit path ok p.next (newEv p) = newEv p := by
    have : (newEv p).lang = some e := hl
    simp [traceInit, this]
  rw [hi]
  have hx : e ∉ p.next :: p.evs := by simp [hn, he]
  dsimp only
  rw [deaf_run (e := e) (p := { newEv p with calls := p.calls ++ [if mode = .process then .worker else .mainThread] }) os' hl hx]
  simp [sent, alive, newEv, hl, hn, he]

/-- Refuted: a worker that is started again while the master traces gives its messages to a script that
no loop runs.  It stays so whatever happens, also if `mln_trace_init` is called again; while the script
of the master had not returned, `mln_trace` takes the messages. -/
theorem again_deaf (mode : Mode) (path ok path' ok' : Bool) (fd : Nat) (os : List Op) (h : (master path' ok' os).lang ≠ none) :
    ∃ w, again mode path ok fd (master path' ok' os) = some w ∧ ∀ os', sent (run 1 w os') = ((master path' ok' os).ctx, false) := by
  have hl : (master path' ok' os).lang = some 0 := (master_lang path' ok' os).resolve_left h
  have k := master_is path' ok' os
  obtain ⟨w, h1, h2⟩ := deaf_worker mode path ok (p := masterStop 0 { master path' ok' os with conn := some fd }) (e := 0) (fd := fd) hl
    (by simp [masterStop, k.2.2.1]) (by simp [masterStop, k.2.2.2.1]) rfl
  exact ⟨w, h1, fun os' => h2 1 os'⟩

theorem fresh_worker (mode : Mode) {p : P} {fd : Nat} (hl : p.lang = none) (hx : p.ctx = false) (hc : p.conn = some fd) :
    ∃ w, workerStart mode true true p = some w ∧ sent w = (true, true) ∧ w.isMaster = p.cb := by
  refine ⟨_, workerStart_eq mode true true p hc, ?_⟩
  have hi : traceInit true true p.next (newEv p) = { newEv p with lang := some p.next, ctx := true, isMaster := p.cb } := by
    have h1 : (newEv p).lang = none := hl
    have h2 : (newEv p).ctx = false := hx
    simp only [traceInit, h1, h2]
    rfl
  rw [hi]
  refine ⟨?_, rfl⟩
  simp [sent, alive, newEv]

/-- What is true: if the master does not trace when the worker is started again, the worker's messages
come to its own script ... -/
theorem again_traces_partial (mode : Mode) (path' ok' : Bool) (fd : Nat) (os : List Op) (h : (master path' ok' os).lang = none) (hc : (master path' ok' os).ctx = false) :
    ∃ w, again mode true true fd (master path' ok' os) = some w ∧ sent w = (true, true) ∧ w.isMaster = true := by
  obtain ⟨w, h1, h2, h3⟩ := fresh_worker mode (p := masterStop 0 { master path' ok' os with conn := some fd }) (fd := fd) h hc rfl
  exact ⟨w, h1, h2, h3.trans (master_is path' ok' os).2.2.2.2⟩

/-- ... and the script always returned before its object went. -/
theorem master_ctx (path ok : Bool) (os : List Op) (h : (master path ok os).lang = none) : (master path ok os).ctx = false := by
  have base : (masterStart path ok boot).lang = none → (masterStart path ok boot).ctx = false := by
    cases path <;> cases ok <;> simp [masterStart, traceInit, newEv, boot]
  have gen : ∀ (os : List Op) (p : P), (p.lang = none → p.ctx = false) → ((run 0 p os).lang = none → (run 0 p os).ctx = false) := by
    intro os
    induction os with
    | nil => intro p h; exact h
    | cons o r ih =>
      intro p h
      refine ih (step 0 p o) ?_
      cases o with
      | returns => simp only [step]; split
                   · intro _; rfl
                   · exact h
      | timer =>
        simp only [step]
        split
        · rename_i hx
          intro _
          simp only [Bool.and_eq_true, Bool.not_eq_true'] at hx
          exact hx.2
        · exact h
      | init a b =>
        simp only [step, traceInit]
        split
        · exact h
        · split
          · intro hx; cases hx
          · exact h
  exact gen os _ base h

/-- Refuted: MASTER tells the master from the workers.  Each worker that is started again and has a
script of its own has the variable. -/
theorem master_variable_refuted (mode : Mode) (path' ok' : Bool) (fd : Nat) (os : List Op) (h : (master path' ok' os).lang = none) :
    ∃ w, again mode true true fd (master path' ok' os) = some w ∧ w.ctx = true ∧ w.isMaster = true := by
  obtain ⟨w, h1, h2, h3⟩ := again_traces_partial mode path' ok' fd os h (master_ctx path' ok' os h)
  refine ⟨w, h1, ?_, h3⟩
  simp only [sent, Prod.mk.injEq] at h2
  exact h2.1

/-- The master and the workers that were started at first are told apart. -/
theorem master_variable_partial (mode : Mode) (fd : Nat) : (masterStart true true boot).isMaster = true ∧ ∀ w, first mode true true fd = some w → w.isMaster = false := by
  refine ⟨rfl, ?_⟩
  intro w hw
  obtain ⟨v, h1, _, h3⟩ := first_traces mode fd
  rw [h1] at hw
  rw [← Option.some.inj hw]
  exact h3

/-! ## Cases -/

example : status (some (some (.str "multiprocess"))) = .on .process := by decide
example : status (some (some (.int 1))) = .off := by decide
example : sent (master true true []) = (true, true) := by decide
/-- The script of the master returns, the timer frees its object. -/
example : (master true true [.returns, .timer]).lang = none := by decide
example : (again .process true true 7 (master true true [])).map sent = some (true, false) := by decide
example : (again .process true true 7 (master true true [.returns, .timer])).map sent = some (true, true) := by decide
example : (first .thread true true 7).map (·.calls) = some [.mainThread] := by decide

end Verif.Framework
