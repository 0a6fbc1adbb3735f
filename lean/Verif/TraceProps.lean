import Verif.Trace

/-!
# Properties of tracing
-/
namespace Verif.Trace

/-! ### Spec -/

/-- No pointer leads to something freed: either there is no trace, and nothing is registered; or the
variables lead to the only object there is, `trace_ctx` to its trace script as long as this runs, the
launcher is registered for no other object, and for this one exactly if a job can run, and the timer
is set. -/
def Good (st : St) : Prop :=
  match st.lang with
  | none => st.langs = [] ∧ st.ctx = none ∧ st.ev = []
  | some n => ∃ l, st.langs = [l] ∧ l.num = n ∧ st.ctx = (if l.main = none then none else some n) ∧ st.ev = (if l.ready then [n] else []) ∧ 0 < st.timers

/-- `mln_trace_init` fails after the object was made. -/
def Late (c : Cfg) : Prop := c.path = true ∧ c.socket = true ∧ c.lang = true ∧ (c.job = false ∨ c.timer = false ∨ c.cb = some false)

/-- An initialisation that does not fail late, or the end of tracing while no job can run. -/
def Fair (st : St) : Op → Prop
  | .init c => ¬ Late c
  | .finalize => st.ev = []
  | _ => True

def FairAll : St → List Op → Prop
  | _, [] => True
  | st, o :: os => Fair st o ∧ ∀ st', step st o = some st' → FairAll st' os

/-! ### Proofs -/

theorem init_new {c : Cfg} {st : St} (h : Good st) (hl : st.lang = none) (hp : c.path = true) (hs : c.socket = true) (hc : c.lang = true) :
    (c.job = false → init c st = ({ st with lang := some st.next, next := st.next + 1 }, -1)) ∧
    (c.job = true → c.timer = false → init c st = ({ st with lang := some st.next, ctx := some st.next, next := st.next + 1 }, -1)) ∧
    (c.job = true → c.timer = true → c.cb = some false → init c st = ({ st with lang := some st.next, ctx := some st.next, next := st.next + 1, timers := st.timers + 1 }, -1)) ∧
    (c.job = true → c.timer = true → c.cb ≠ some false → init c st =
      ({ st with lang := some st.next, ctx := some st.next, langs := [⟨st.next, some false, 0, 0⟩], ev := [st.next], next := st.next + 1, timers := st.timers + 1, pairs := st.pairs + 1 }, 0)) := by
  unfold Good at h
  rw [hl] at h
  obtain ⟨h1, h2, h3⟩ := h
  refine ⟨fun q => ?_, fun q1 q2 => ?_, fun q1 q2 q3 => ?_, fun q1 q2 q3 => ?_⟩
  · simp [init, err3, freeLang, clear, hp, hs, hc, hl, h1, h2, h3, q]
  · simp [init, err3, freeLang, clear, signal, put, hp, hs, hc, hl, h1, h2, h3, q1, q2]
  · simp [init, err3, freeLang, clear, signal, put, hp, hs, hc, hl, h1, h2, h3, q1, q2, q3]
  · simp [init, signal, put, hp, hs, hc, hl, h1, h2, h3, q1, q2, q3]

theorem get_one {st : St} {l : Lang} {n : Nat} (h : st.langs = [l]) (hn : l.num = n) : get st n = some l := by
  simp [get, h, hn]

theorem init_good {c : Cfg} {st : St} (h : Good st) (hc : ¬ Late c) : Good (init c st).1 := by
  by_cases hl : st.lang = none
  · by_cases hp : c.path = true ∧ c.socket = true ∧ c.lang = true
    · obtain ⟨p1, p2, p3⟩ := hp
      have hj : c.job = true := by
        cases e : c.job
        · exact absurd ⟨p1, p2, p3, .inl e⟩ hc
        · rfl
      have ht : c.timer = true := by
        cases e : c.timer
        · exact absurd ⟨p1, p2, p3, .inr (.inl e)⟩ hc
        · rfl
      rw [(init_new h hl p1 p2 p3).2.2.2 hj ht (fun e => hc ⟨p1, p2, p3, .inr (.inr e)⟩)]
      exact ⟨_, rfl, rfl, rfl, rfl, Nat.succ_pos _⟩
    · have : (init c st).1 = st := by
        unfold init
        by_cases a : c.path = false ∨ st.lang ≠ none ∨ st.ctx ≠ none
        · rw [if_pos a]
        · rw [if_neg a]
          by_cases b : c.socket = false
          · rw [if_pos b]
          · rw [if_neg b]
            by_cases d : c.lang = false
            · rw [if_pos d]
            · exact absurd ⟨by cases e : c.path <;> simp_all, by simpa using b, by simpa using d⟩ hp
      rw [this]
      exact h
  · unfold init
    rw [if_pos (.inr (.inl hl))]
    exact h

theorem finalize_good {st : St} (h : Good st) (he : st.ev = []) : ∃ st', finalize st = some st' ∧ Good st' := by
  unfold finalize
  unfold Good at h
  split
  · rename_i hl
    rw [hl] at h
    exact ⟨_, rfl, h.1, rfl, he⟩
  · rename_i n hl
    rw [hl] at h
    obtain ⟨l, h1, h2, _⟩ := h
    rw [get_one h1 h2]
    refine ⟨_, rfl, ?_⟩
    simp [Good, freeLang, h1, h2, he]

theorem check_good {st : St} (h : Good st) : ∃ st', check st = some st' ∧ Good st' := by
  unfold check
  split
  · exact ⟨st, rfl, h⟩
  · rename_i ht
    unfold Good at h
    simp only
    split
    · rename_i hl
      rw [hl] at h
      refine ⟨_, rfl, ?_⟩
      simp [Good, hl, h]
    · rename_i n hl
      rw [hl] at h
      obtain ⟨l, h1, h2, h3, h4, h5⟩ := h
      rw [get_one (st := { st with timers := st.timers - 1 }) h1 h2]
      simp only
      split
      · rename_i hi
        refine ⟨_, rfl, ?_⟩
        have hr : l.ready = false := by
          simp only [Lang.idle, Bool.and_eq_true, beq_iff_eq] at hi
          simp [Lang.ready, hi]
        simp [Good, freeLang, h1, h2, h4, hr]
      · refine ⟨_, rfl, ?_⟩
        simp only [Good, hl]
        exact ⟨l, h1, h2, h3, h4, by omega⟩

theorem good_of {st : St} {n : Nat} {l : Lang} (h0 : st.lang = some n) (h1 : st.langs = [l]) (h2 : l.num = n) (h3 : st.ctx = (if l.main = none then none else some n))
    (h4 : st.ev = (if l.ready then [n] else [])) (h5 : 0 < st.timers) : Good st := by
  unfold Good
  rw [h0]
  exact ⟨l, h1, h2, h3, h4, h5⟩

theorem launch_good {st : St} (h : Good st) (n : Nat) (t : Turn) : ∃ st', launch st n t = some st' ∧ Good st' := by
  unfold launch
  by_cases hc : st.ev.contains n = true
  · rw [if_pos hc]
    have hn : n ∈ st.ev := by simpa using hc
    have g := h
    unfold Good at h
    split at h
    · rw [h.2.2] at hn; cases hn
    · rename_i m hl
      obtain ⟨l, h1, h2, h3, h4, h5⟩ := h
      have hr : l.ready = true := by
        cases e : l.ready
        · rw [h4, e] at hn; cases hn
        · rfl
      have hm : n = m := by
        rw [h4, hr] at hn
        simpa using hn
      subst hm
      simp only
      rw [get_one (st := clear st n) h1 h2]
      simp only [hr, if_true]
      refine ⟨_, rfl, ?_⟩
      rw [hr, if_pos rfl] at h4
      by_cases hm : l.main = none
      · rw [if_pos hm] at h3
        simp only [hm, if_true, ne_eq, not_true, false_and, if_false]
        by_cases hy : ({ num := n, main := none, run := t.run, wait := t.wait } : Lang).ready = true
        · rw [if_pos hy]
          exact good_of hl (by simp [signal, put, clear, h1, h2]; rfl) rfl (by simp [signal, put, clear, hl, h3]) (by rw [if_pos hy]; simp [signal, put, clear, h4]) h5
        · rw [if_neg hy]
          exact good_of hl (by simp [put, clear, h1, h2]; rfl) rfl (by simp [put, clear, h3]) (by rw [if_neg hy]; simp [put, clear, h4]) h5
      · rw [if_neg hm] at h3
        simp only [hm, if_false, ne_eq, not_false_iff, true_and]
        by_cases hy : ({ num := n, main := t.main, run := t.run, wait := t.wait } : Lang).ready = true
        · rw [if_pos hy]
          by_cases ht : t.main = none
          · rw [if_pos ht]
            exact good_of hl (by simp [signal, put, clear, h1, h2]; rfl) rfl (by simp [signal, put, clear, ht]) (by rw [if_pos hy]; simp [signal, put, clear, h4]) h5
          · rw [if_neg ht]
            exact good_of hl (by simp [signal, put, clear, h1, h2]; rfl) rfl (by simp [signal, put, clear, ht, h3]) (by rw [if_pos hy]; simp [signal, put, clear, h4]) h5
        · rw [if_neg hy]
          by_cases ht : t.main = none
          · rw [if_pos ht]
            exact good_of hl (by simp [put, clear, h1, h2]; rfl) rfl (by simp [put, clear, ht]) (by rw [if_neg hy]; simp [put, clear, h4]) h5
          · rw [if_neg ht]
            exact good_of hl (by simp [put, clear, h1, h2]; rfl) rfl (by simp [put, clear, ht, h3]) (by rw [if_neg hy]; simp [put, clear, h4]) h5
  · rw [if_neg hc]
    exact ⟨st, rfl, h⟩

theorem wake_good {st : St} (h : Good st) (n : Nat) : ∃ st', wake st n = some st' ∧ Good st' := by
  have g := h
  unfold wake
  split
  · exact ⟨st, rfl, h⟩
  · rename_i l hg
    unfold Good at h
    split at h
    · simp [get, h.1] at hg
    · rename_i m hl
      obtain ⟨k, h1, h2, h3, h4, h5⟩ := h
      have hk : k = l ∧ k.num = n := by
        simp only [get, h1, List.find?_cons] at hg
        split at hg
        · rename_i c
          exact ⟨Option.some.inj hg, by simpa using c⟩
        · cases hg
      obtain ⟨rfl, e⟩ := hk
      have hm : n = m := e.symm.trans h2
      subst hm
      refine ⟨_, rfl, ?_⟩
      split
      · rename_i hy
        refine good_of hl (by simp [signal, put, h1, h2]; rfl) rfl ?_ ?_ h5
        · show st.ctx = _
          rw [h3]
          cases k.main <;> rfl
        · rw [if_pos hy]
          show (if st.ev.contains n then st.ev else st.ev ++ [n]) = [n]
          rw [h4]
          cases k.ready <;> simp
      · exact g

theorem send_good {st : St} (h : Good st) : send st = some st := by
  unfold send
  unfold Good at h
  split at h
  · rw [h.2.1]
  · rename_i n hl
    obtain ⟨l, h1, h2, h3, h4, h5⟩ := h
    by_cases hm : l.main = none
    · rw [h3, if_pos hm]
    · rw [h3, if_neg hm]
      simp only [get_one h1 h2, if_neg hm]

/-- Partial: while no initialisation fails after it has made the object, and tracing is ended only
while no job can run, nothing freed is used, whatever the scripts do.  Missing: `late_bad` and
`finalize_bad`. -/
theorem safe_partial : ∀ (os : List Op) (st : St), Good st → FairAll st os → ∃ st', steps st os = some st' ∧ Good st'
  | [], st, h, _ => ⟨st, rfl, h⟩
  | o :: os, st, h, ⟨f, r⟩ => by
    have : ∃ st', step st o = some st' ∧ Good st' := by
      cases o with
      | init c => exact ⟨_, rfl, init_good h f⟩
      | finalize => exact finalize_good h f
      | check => exact check_good h
      | launch n t => exact launch_good h n t
      | wake n => exact wake_good h n
      | send => exact ⟨st, send_good h, h⟩
    obtain ⟨st', e, g⟩ := this
    unfold steps
    rw [e]
    exact safe_partial os st' g (r st' e)

theorem start_good : Good start := ⟨rfl, rfl, rfl⟩

/-- After an initialisation that failed late, tracing can never be initialised again; ending it frees
the object for the second time; if the job had been made, the next message uses the freed job; and if
the timer had been set, so that only the callback failed, the timer uses the freed object. -/
theorem late_bad {st : St} (h : Good st) (hl : st.lang = none) {c : Cfg} (hc : Late c) :
    (init c st).2 = -1 ∧ (∀ c', init c' (init c st).1 = ((init c st).1, -1)) ∧ finalize (init c st).1 = none ∧
    (c.job = true → send (init c st).1 = none) ∧ (c.job = true → c.timer = true → check (init c st).1 = none) := by
  obtain ⟨p1, p2, p3, p4⟩ := hc
  obtain ⟨i1, i2, i3, _⟩ := init_new h hl p1 p2 p3
  have hg : ∀ (s : St) (n : Nat), s.langs = [] → get s n = none := by
    intro s n e
    simp [get, e]
  unfold Good at h
  rw [hl] at h
  cases hj : c.job with
  | false =>
    rw [i1 hj]
    refine ⟨rfl, fun c' => ?_, ?_, by simp, by simp⟩
    · unfold init
      rw [if_pos (.inr (.inl (by simp)))]
    · simp only [finalize, hg _ _ (show ({ st with lang := some st.next, next := st.next + 1 } : St).langs = [] from h.1)]
  | true =>
    cases ht : c.timer with
    | false =>
      rw [i2 hj ht]
      refine ⟨rfl, fun c' => ?_, ?_, fun _ => ?_, by simp⟩
      · unfold init
        rw [if_pos (.inr (.inl (by simp)))]
      · simp only [finalize, get, h.1, List.find?_nil]
      · simp only [send, get, h.1, List.find?_nil]
    | true =>
      have hb : c.cb = some false := by
        rcases p4 with q | q | q
        · rw [hj] at q; cases q
        · rw [ht] at q; cases q
        · exact q
      rw [i3 hj ht hb]
      refine ⟨rfl, fun c' => ?_, ?_, fun _ => ?_, fun _ _ => ?_⟩
      · unfold init
        rw [if_pos (.inr (.inl (by simp)))]
      · simp only [finalize, get, h.1, List.find?_nil]
      · simp only [send, get, h.1, List.find?_nil]
      · simp only [check, get, h.1, List.find?_nil]
        rw [if_neg (by omega)]

/-- Partial: an initialisation that fails early changes nothing, so that it can be tried again. -/
theorem early_partial {st : St} {c : Cfg} (hc : c.path = false ∨ c.socket = false ∨ c.lang = false) : init c st = (st, -1) := by
  unfold init
  split
  · rfl
  · rename_i h
    rcases hc with q | q | q
    · exact absurd (.inl q) h
    · rw [if_pos q]
    · split
      · rfl
      · rfl

/-- When tracing is ended while a job can run, the launcher is then called with the freed object. -/
theorem finalize_bad {st : St} (h : Good st) {n : Nat} {l : Lang} (hl : st.lang = some n) (hg : get st n = some l) (hr : l.ready = true) (t : Turn) :
    ∃ st', finalize st = some st' ∧ st'.ev = [n] ∧ launch st' n t = none := by
  unfold Good at h
  rw [hl] at h
  obtain ⟨k, h1, h2, h3, h4, h5⟩ := h
  rw [get_one h1 h2] at hg
  have e := Option.some.inj hg
  subst e
  rw [if_pos hr] at h4
  refine ⟨{ freeLang st n with lang := none, ctx := none }, ?_, h4, ?_⟩
  · simp only [finalize, hl, get_one h1 h2]
  · simp [launch, clear, get, freeLang, h4, h1, h2]

/-- No pair of sockets of a trace that was begun is ever closed. -/
theorem pairs_kept {st st' : St} {o : Op} (e : step st o = some st') : st.pairs ≤ st'.pairs := by
  cases o with
  | init c =>
    have e := Option.some.inj e
    subst e
    unfold init
    split
    · exact Nat.le_refl _
    · split
      · exact Nat.le_refl _
      · split
        · exact Nat.le_refl _
        · simp only
          split
          · simp [err3, clear, freeLang]
          · split
            · simp [err3, clear, freeLang, signal, put]
            · split <;> simp [err3, clear, freeLang, signal, put]
  | finalize =>
    simp only [step, finalize] at e
    split at e
    · exact Option.some.inj e ▸ Nat.le_refl _
    · split at e
      · cases e
      · exact Option.some.inj e ▸ Nat.le_refl _
  | check =>
    simp only [step, check] at e
    split at e
    · exact Option.some.inj e ▸ Nat.le_refl _
    · split at e
      · exact Option.some.inj e ▸ Nat.le_refl _
      · split at e
        · cases e
        · split at e <;> exact Option.some.inj e ▸ Nat.le_refl _
  | launch n t =>
    simp only [step, launch] at e
    split at e
    · split at e
      · cases e
      · split at e
        · have e := Option.some.inj e
          subst e
          (repeat' split) <;> exact Nat.le_refl _
        · exact Option.some.inj e ▸ Nat.le_refl _
    · exact Option.some.inj e ▸ Nat.le_refl _
  | wake n =>
    simp only [step, wake] at e
    split at e
    · exact Option.some.inj e ▸ Nat.le_refl _
    · have e := Option.some.inj e
      subst e
      split <;> exact Nat.le_refl _
  | send =>
    simp only [step, send] at e
    split at e
    · exact Option.some.inj e ▸ Nat.le_refl _
    · split at e
      · cases e
      · split at e
        · cases e
        · exact Option.some.inj e ▸ Nat.le_refl _

theorem init_opens {st : St} {c : Cfg} (h : (init c st).2 = 0) : (init c st).1.pairs = st.pairs + 1 ∧ (init c st).1.timers = st.timers + 1 := by
  unfold init at h ⊢
  split
  · rename_i a; rw [if_pos a] at h; simp at h
  · rename_i a
    rw [if_neg a] at h
    split
    · rename_i a; rw [if_pos a] at h; simp at h
    · rename_i a
      rw [if_neg a] at h
      split
      · rename_i a; rw [if_pos a] at h; simp at h
      · rename_i a
        rw [if_neg a] at h
        simp only at h ⊢
        split
        · rename_i a; rw [if_pos a] at h; simp [err3] at h
        · rename_i a
          rw [if_neg a] at h
          split
          · rename_i a; rw [if_pos a] at h; simp [err3] at h
          · rename_i a
            rw [if_neg a] at h
            split
            · rename_i a; rw [if_pos a] at h; simp [err3] at h
            · exact ⟨rfl, rfl⟩

/-- A configuration with which nothing fails. -/
def fine : Cfg := { path := true, socket := true, lang := true, job := true, timer := true, cb := none }

/-- Tracing begun, the script ends at its first turn, tracing ended; this `k` times. -/
def rounds : Nat → Nat → List Op
  | 0, _ => []
  | k + 1, n => .init fine :: .launch n ⟨none, 0, 0⟩ :: .finalize :: rounds k (n + 1)

/-- So after `k` traces `k` pairs of sockets are open and `k` timers are set. -/
theorem leak : ∀ (k : Nat) (st : St), Good st → st.lang = none → ∃ st', steps st (rounds k st.next) = some st' ∧ Good st' ∧ st'.lang = none ∧ st'.pairs = st.pairs + k ∧ st'.timers = st.timers + k
  | 0, st, h, hl => ⟨st, rfl, h, hl, rfl, rfl⟩
  | k + 1, st, h, hl => by
    obtain ⟨_, _, _, i4⟩ := init_new (c := fine) h hl rfl rfl rfl
    have e1 := i4 rfl rfl (by decide)
    have g2 : Good { st with lang := none, ctx := none, langs := [], ev := [], next := st.next + 1, timers := st.timers + 1, pairs := st.pairs + 1 } := ⟨rfl, rfl, rfl⟩
    obtain ⟨st', r1, r2, r3, r4, r5⟩ := leak k _ g2 rfl
    refine ⟨st', ?_, r2, r3, by rw [r4]; show st.pairs + 1 + k = _; omega, by rw [r5]; show st.timers + 1 + k = _; omega⟩
    rw [← r1]
    simp [rounds, steps, step, e1, launch, clear, get, Lang.ready, put, finalize, freeLang]

/-- Without a trace a timer that fires is set again, for ever. -/
theorem timer_stays {st : St} (hl : st.lang = none) : check st = some st := by
  unfold check
  split
  · rfl
  · simp only [hl]
    rw [Nat.sub_add_cancel (by omega)]
    cases st
    simp_all

theorem launch_same {st st' : St} {n : Nat} {t : Turn} (e : launch st n t = some st') : st'.timers = st.timers ∧ st'.lang = st.lang := by
  simp only [launch] at e
  split at e
  · split at e
    · cases e
    · split at e
      · have e := Option.some.inj e
        subst e
        (repeat' split) <;> exact ⟨rfl, rfl⟩
      · exact Option.some.inj e ▸ ⟨rfl, rfl⟩
  · exact Option.some.inj e ▸ ⟨rfl, rfl⟩

/-- The timer is set exactly while there is a trace. -/
def OneTimer (st : St) : Prop := Good st ∧ st.timers = if st.lang = none then 0 else 1

/-- Partial: in histories in which tracing is not ended by the program, the timer ends with the trace.
Missing: `timer_stays`, and the sockets (`pairs_kept`). -/
theorem timer_partial {st st' : St} {o : Op} (h : OneTimer st) (ho : o ≠ .finalize) (hf : Fair st o) (e : step st o = some st') : OneTimer st' := by
  obtain ⟨g, ht⟩ := h
  cases o with
  | init c =>
    have e := Option.some.inj e
    subst e
    refine ⟨init_good g hf, ?_⟩
    by_cases hl : st.lang = none
    · by_cases hp : c.path = true ∧ c.socket = true ∧ c.lang = true
      · obtain ⟨p1, p2, p3⟩ := hp
        have hj : c.job = true := by
          cases e : c.job
          · exact absurd ⟨p1, p2, p3, .inl e⟩ hf
          · rfl
        have htt : c.timer = true := by
          cases e : c.timer
          · exact absurd ⟨p1, p2, p3, .inr (.inl e)⟩ hf
          · rfl
        rw [(init_new g hl p1 p2 p3).2.2.2 hj htt (fun e => hf ⟨p1, p2, p3, .inr (.inr e)⟩)]
        rw [if_pos hl] at ht
        simp [ht]
      · have : c.path = false ∨ c.socket = false ∨ c.lang = false := by
          cases a : c.path <;> cases b : c.socket <;> cases d : c.lang <;> simp_all
        rw [early_partial this]
        exact ht
    · unfold init
      rw [if_pos (.inr (.inl hl))]
      exact ht
  | finalize => exact absurd rfl ho
  | check =>
    obtain ⟨s, e', g'⟩ := check_good g
    rw [show step st .check = check st from rfl, e'] at e
    have e := Option.some.inj e
    subst e
    refine ⟨g', ?_⟩
    unfold check at e'
    split at e'
    · exact Option.some.inj e' ▸ ht
    · simp only at e'
      split at e'
      · rename_i hl
        rw [if_pos hl] at ht
        omega
      · rename_i n hl
        rw [hl, if_neg (by simp)] at ht
        split at e'
        · cases e'
        · split at e'
          · have e := Option.some.inj e'
            subst e
            simp [freeLang, ht]
          · have e := Option.some.inj e'
            subst e
            simp [hl, ht]
  | launch n t =>
    obtain ⟨s, e', g'⟩ := launch_good g n t
    rw [show step st (.launch n t) = launch st n t from rfl, e'] at e
    have e := Option.some.inj e
    subst e
    refine ⟨g', ?_⟩
    rw [(launch_same e').1, (launch_same e').2]
    exact ht
  | wake n =>
    obtain ⟨s, e', g'⟩ := wake_good g n
    rw [show step st (.wake n) = wake st n from rfl, e'] at e
    have e := Option.some.inj e
    subst e
    refine ⟨g', ?_⟩
    unfold wake at e'
    split at e'
    · exact Option.some.inj e' ▸ ht
    · have e := Option.some.inj e'
      subst e
      split <;> exact ht
  | send =>
    rw [show step st .send = send st from rfl, send_good g] at e
    exact Option.some.inj e ▸ ⟨g, ht⟩

/-! ### Cases -/

/-- A trace script that waits for messages, is woken and ends; the timer frees the object. -/
example : steps start [.init fine, .launch 0 ⟨some true, 1, 0⟩, .send, .launch 0 ⟨some true, 0, 0⟩, .check, .wake 0, .launch 0 ⟨none, 0, 0⟩, .send, .check] =
    some { lang := none, ctx := none, langs := [], ev := [], timers := 0, pairs := 1, next := 1 } := by decide +kernel

example : FairAll start [.init fine, .send] := ⟨fun h => by simp [Late, fine] at h, fun _ _ => ⟨trivial, fun _ _ => trivial⟩⟩

example : steps start [.init { fine with cb := some false }, .check] = none := by decide +kernel

example : steps start [.init fine, .finalize, .launch 0 ⟨none, 0, 0⟩] = none := by decide +kernel

example : (steps start (rounds 3 0)).map (fun st => (st.pairs, st.timers)) = some (3, 3) := by decide +kernel

end Verif.Trace
