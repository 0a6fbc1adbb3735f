import Mathlib.Tactic.Common
import Verif.SpinLock
/-
Property C57: mutual exclusion of the spin lock.
-/
namespace Verif.SpinLock

/-! ### Specification

Only events are looked at.  The manual (docs/book/en/spinlock.md) says that
`mln_spin_trylock` returns 0 when the lock was taken. -/

/-- Thread `t` is between a successful lock or trylock and the call of unlock
(events newest first). -/
def inside (t : Nat) : List Ev → Bool
  | [] => false
  | .lockRet u :: l => u == t || inside t l
  | .tryRet u r :: l => (u == t && r == 0) || inside t l
  | .unlockCall u :: l => u != t && inside t l

/-- The rule clients follow: unlock is called only by a thread that is inside. -/
def legal (s : St) (t : Nat) (c : Call) : Prop := s.act t = .idle → c = .unlock → inside t s.trace

def legalRun (v : Variant) : St → List (Nat × Call) → Prop
  | _, [] => True
  | s, (t, c) :: l => legal s t c ∧ legalRun v (step v s t c) l

/-- No trylock in the schedule. -/
def noTry (l : List (Nat × Call)) : Prop := ∀ x ∈ l, x.2 ≠ .trylock

/-- Mutual exclusion of a history: never two threads inside, at the end or at any
earlier moment. -/
def Exclusive (tr : List Ev) : Prop :=
  ∀ suf, suf <:+ tr → ∀ t u, inside t suf → inside u suf → t = u

/-! ### Invariant -/

/-- `t` is inside, or it has called unlock and not yet written the word. -/
def owns (s : St) (t : Nat) : Prop := inside t s.trace = true ∨ s.act t = .unlocking

def Inv (s : St) : Prop :=
  ((s.word = 0 ∧ ∀ t, ¬ owns s t) ∨ (s.word = 1 ∧ ∃ t, owns s t ∧ ∀ u, owns s u → u = t)) ∧
  (∀ t, s.act t = .unlocking → inside t s.trace = false) ∧ Exclusive s.trace

theorem inv_init : Inv init := by
  refine ⟨.inl ⟨rfl, fun t h => ?_⟩, fun t h => ?_, ?_⟩
  · rcases h with h | h
    · exact absurd h (by simp [init, inside])
    · exact absurd h (by simp [init])
  · exact absurd h (by simp [init])
  · intro suf hs t u ht
    have : suf = [] := by simpa [init] using hs
    subst this; simp [inside] at ht

theorem exclusive_cons {e tr} (h : Exclusive tr)
    (h' : ∀ t u, inside t (e :: tr) → inside u (e :: tr) → t = u) : Exclusive (e :: tr) := by
  intro suf hs t u
  rcases List.suffix_cons_iff.1 hs with rfl | hs
  · exact h' t u
  · exact h suf hs t u

/-- The word is free and thread `t` takes it. -/
theorem inv_take {s : St} {t e} (h : Inv s) (hw : s.word = 0)
    (he : ∀ u, inside u (e :: s.trace) = (decide (u = t) || inside u s.trace)) :
    Inv { word := 1, act := setAct s.act t .idle, trace := e :: s.trace } := by
  obtain ⟨ho, hu, hx⟩ := h
  rcases ho with ⟨_, ho⟩ | ⟨h1, _⟩
  swap
  · omega
  have hni : ∀ u, inside u s.trace = false := fun u => by
    cases hh : inside u s.trace with
    | false => rfl
    | true => exact absurd (.inl hh) (ho u)
  refine ⟨.inr ⟨rfl, t, .inl (by simp [he]), ?_⟩, ?_, ?_⟩
  · rintro u (hh | hh)
    · simpa [he, hni] using hh
    · simp only [setAct] at hh
      split at hh
      · exact absurd hh (by simp)
      · exact absurd (.inr hh) (ho u)
  · intro u hh
    simp only [setAct] at hh
    split at hh
    · exact absurd hh (by simp)
    · exact absurd (.inr hh) (ho u)
  · apply exclusive_cons hx
    intro a b ha hb
    simp [he, hni] at ha hb
    omega

/-- Thread `t` returns without the lock. -/
theorem inv_miss {s : St} {t} {a : Act} {tr} (h : Inv s) (ht : s.act t ≠ .unlocking) (ha : a ≠ .unlocking)
    (he : tr = s.trace ∨ ∃ e, tr = e :: s.trace ∧ ∀ u, inside u tr = inside u s.trace) :
    Inv { s with act := setAct s.act t a, trace := tr } := by
  have hin : ∀ u, inside u tr = inside u s.trace := by
    rcases he with rfl | ⟨e, _, h⟩
    · intro u; rfl
    · exact h
  obtain ⟨ho, hu, hx⟩ := h
  have howns : ∀ u, owns { s with act := setAct s.act t a, trace := tr } u ↔ owns s u := by
    intro u
    simp only [owns, hin, setAct]
    by_cases hut : u = t
    · subst hut; simp [ht, ha]
    · simp [hut]
  refine ⟨?_, ?_, ?_⟩
  · simp only [howns]; exact ho
  · intro u hh
    simp only [setAct] at hh
    split at hh
    · exact absurd hh ha
    · rw [hin]; exact hu u hh
  · rcases he with rfl | ⟨e, rfl, _⟩
    · exact hx
    · exact exclusive_cons hx fun a b => by rw [hin, hin]; exact hx _ (List.suffix_refl _) a b

theorem inv_unlockCall {s : St} {t} (h : Inv s) (ht : inside t s.trace = true) :
    Inv { s with act := setAct s.act t .unlocking, trace := .unlockCall t :: s.trace } := by
  obtain ⟨ho, hu, hx⟩ := h
  rcases ho with ⟨_, ho⟩ | ⟨h1, t', ht', ho⟩
  · exact absurd (.inl ht) (ho t)
  have : t = t' := ho t (.inl ht)
  subst this
  have hout : ∀ u, inside u s.trace → u = t := fun u hh => ho u (.inl hh)
  have hnone : ∀ u, inside u (.unlockCall t :: s.trace) = false := by
    intro u
    simp only [inside]
    cases hh : inside u s.trace with
    | false => simp
    | true => simp [hout u hh]
  refine ⟨.inr ⟨h1, t, .inr (by simp [setAct]), ?_⟩, ?_, ?_⟩
  · rintro u (hh | hh)
    · exact absurd hh (by simp [hnone])
    · simp only [setAct] at hh
      split at hh
      · assumption
      · exact ho u (.inr hh)
  · intro u _; exact hnone u
  · exact exclusive_cons hx fun a b ha => absurd ha (by simp [hnone])

theorem inv_release {s : St} {t} (h : Inv s) (ht : s.act t = .unlocking) :
    s.word = 1 ∧ Inv { s with word := 0, act := setAct s.act t .idle } := by
  obtain ⟨ho, hu, hx⟩ := h
  rcases ho with ⟨_, ho⟩ | ⟨h1, t', ht', ho⟩
  · exact absurd (.inr ht) (ho t)
  have : t = t' := ho t (.inr ht)
  subst this
  refine ⟨h1, .inl ⟨rfl, ?_⟩, ?_, hx⟩
  · rintro u (hh | hh)
    · have := ho u (.inl hh)
      subst this
      rw [hu u ht] at hh; exact absurd hh (by simp)
    · simp only [setAct] at hh
      split at hh
      · exact absurd hh (by simp)
      · next hne => exact hne (ho u (.inr hh))
  · intro u hh
    simp only [setAct] at hh
    split at hh
    · exact absurd hh (by simp)
    · exact hu u hh

theorem inv_word {s : St} (h : Inv s) : s.word = 0 ∨ s.word = 1 := by
  rcases h.1 with ⟨h, _⟩ | ⟨h, _⟩ <;> simp [h]

theorem inv_step {v s t c} (h : Inv s) (hl : legal s t c)
    (hv : v = .xchg → s.act t ≠ .trying) : Inv (step v s t c) := by
  unfold step
  split
  · next ha =>
    cases c with
    | lock => exact inv_miss h (by simp [ha]) (by simp) (.inl rfl)
    | trylock => exact inv_miss h (by simp [ha]) (by simp) (.inl rfl)
    | unlock => exact inv_unlockCall h (hl ha rfl)
  · next ha =>
    cases v with
    | cas =>
      simp only [casOp]
      by_cases hw : s.word = 0
      · simp only [hw, if_true]
        exact inv_take h hw (fun u => by rw [Bool.eq_iff_iff]; simp [inside, @eq_comm _ u t])
      · simp only [hw, if_false]; simpa using h
    | xchg =>
      simp only [xchgOp]
      rcases inv_word h with hw | hw
      · simp only [hw, cnot, if_true]
        exact inv_take h hw (fun u => by rw [Bool.eq_iff_iff]; simp [inside, @eq_comm _ u t])
      · simp only [hw, cnot]
        have := inv_miss (a := .reading) (tr := s.trace) (t := t) h (by simp [ha]) (by simp) (.inl rfl)
        simpa [hw] using this
  · next ha =>
    split
    · exact h
    · exact inv_miss h (by simp [ha]) (by simp) (.inl rfl)
  · next ha =>
    cases v with
    | cas =>
      simp only [casOp]
      by_cases hw : s.word = 0
      · simp only [hw, if_true]
        exact inv_take h hw (fun u => by rw [Bool.eq_iff_iff]; simp [inside, cnot, @eq_comm _ u t])
      · simp only [hw, if_false]
        exact inv_miss h (by simp [ha]) (by simp) (.inr ⟨_, rfl, fun u => by simp [inside, cnot]⟩)
    | xchg => exact absurd ha (hv rfl)
  · next ha =>
    obtain ⟨hw, hi⟩ := inv_release h ha
    cases v with
    | cas => simpa [casOp, hw] using hi
    | xchg => exact hi

theorem inv_run {v s l} (h : Inv s) (hl : legalRun v s l)
    (hv : v = .xchg → noTry l ∧ ∀ t, s.act t ≠ .trying) : Inv (run v s l) := by
  induction l generalizing s with
  | nil => exact h
  | cons x l ih =>
    obtain ⟨t, c⟩ := x
    apply ih (inv_step h hl.1 (fun e => (hv e).2 t)) hl.2
    intro e
    obtain ⟨h1, h2⟩ := hv e
    refine ⟨fun x hx => h1 x (by simp [hx]), fun u => ?_⟩
    have hc : c ≠ .trylock := h1 (t, c) (by simp)
    have hu := h2 u
    subst e
    unfold step
    split <;> [(cases c <;> try contradiction); skip; skip; skip; skip] <;>
      repeat' split
    all_goals first
      | exact hu
      | (unfold setAct; dsimp only; split <;> simp_all)

/-! ### C57 -/

/-- **C57, compiler-builtin variant.**  For every number of threads and every schedule,
at no moment two threads are between a successful lock or trylock and their unlock. -/
theorem spin_mutual_exclusion (l : List (Nat × Call)) (hl : legalRun .cas init l) :
    Exclusive (run .cas init l).trace :=
  (inv_run inv_init hl (by simp)).2.2

/-- A lock that nobody holds can be taken: in every reachable state, if no thread is inside
or on its way out, a waiting thread gets the lock with its next step (so the lock is
never lost), and a trylock answers 0. -/
theorem spin_available (l : List (Nat × Call)) (hl : legalRun .cas init l) (t : Nat) (c : Call)
    (hfree : ∀ u, ¬ owns (run .cas init l) u) :
    ((run .cas init l).act t = .locking →
      (step .cas (run .cas init l) t c).trace = .lockRet t :: (run .cas init l).trace) ∧
    ((run .cas init l).act t = .trying →
      (step .cas (run .cas init l) t c).trace = .tryRet t 0 :: (run .cas init l).trace) := by
  have hi := inv_run inv_init hl (by simp)
  have hw : (run .cas init l).word = 0 := by
    rcases hi.1 with ⟨h, _⟩ | ⟨_, u, hu, _⟩
    · exact h
    · exact absurd hu (hfree u)
  constructor <;> intro ha <;> simp [step, ha, casOp, hw, cnot]

/-- While some thread is inside, no lock returns and every trylock answers non-zero. -/
theorem spin_busy (l : List (Nat × Call)) (hl : legalRun .cas init l) (t u : Nat) (c : Call)
    (hin : inside u (run .cas init l).trace) :
    ((run .cas init l).act t = .locking →
      (step .cas (run .cas init l) t c).trace = (run .cas init l).trace) ∧
    ((run .cas init l).act t = .trying →
      ∃ r, r ≠ 0 ∧ (step .cas (run .cas init l) t c).trace = .tryRet t r :: (run .cas init l).trace) := by
  have hi := inv_run inv_init hl (by simp)
  have hw : (run .cas init l).word = 1 := by
    rcases hi.1 with ⟨_, h⟩ | ⟨h, _⟩
    · exact absurd (.inl hin) (h u)
    · exact h
  constructor <;> intro ha
  · simp [step, ha, casOp, hw]
  · exact ⟨1, by simp, by simp [step, ha, casOp, hw, cnot]⟩

/-- **C57, inline-assembly variant, without trylock.**  lock and unlock alone exclude. -/
theorem spin_xchg_mutual_exclusion_partial (l : List (Nat × Call)) (hl : legalRun .xchg init l)
    (hn : noTry l) : Exclusive (run .xchg init l).trace :=
  (inv_run inv_init hl (fun _ => ⟨hn, by simp [init]⟩)).2.2

/-- The same for the inline-assembly variant without trylock: a waiting thread gets a free lock
with its next step, or with the one after it when it stands in the reading loop. -/
theorem spin_xchg_available_partial (l : List (Nat × Call)) (hl : legalRun .xchg init l) (hn : noTry l) (t : Nat) (c c' : Call)
    (hfree : ∀ u, ¬ owns (run .xchg init l) u) :
    ((run .xchg init l).act t = .locking →
      (step .xchg (run .xchg init l) t c).trace = .lockRet t :: (run .xchg init l).trace) ∧
    ((run .xchg init l).act t = .reading →
      (step .xchg (step .xchg (run .xchg init l) t c) t c').trace = .lockRet t :: (run .xchg init l).trace) := by
  have hi := inv_run inv_init hl (fun _ => ⟨hn, by simp [init]⟩)
  have hw : (run .xchg init l).word = 0 := by
    rcases hi.1 with ⟨h, _⟩ | ⟨_, u, hu, _⟩
    · exact h
    · exact absurd hu (hfree u)
  constructor <;> intro ha <;> simp [step, ha, xchgOp, hw, cnot, setAct]

/-- **The inline-assembly trylock answers the wrong way round**: on a lock that is taken it
returns 0, on a free one it takes the lock and returns 1. -/
theorem spin_xchg_trylock_inverted (s : St) (t : Nat) (c : Call) (ha : s.act t = .trying) :
    (s.word ≠ 0 → (step .xchg s t c).trace = .tryRet t 0 :: s.trace) ∧
    (s.word = 0 → (step .xchg s t c).trace = .tryRet t 1 :: s.trace ∧ (step .xchg s t c).word = 1) := by
  constructor <;> intro h <;> simp [step, ha, xchgOp, cnot, h]

/-- With it mutual exclusion fails: one thread locks, another one's trylock "succeeds". -/
theorem spin_xchg_mutual_exclusion_false :
    ∃ l, legalRun .xchg init l ∧ ¬ Exclusive (run .xchg init l).trace := by
  refine ⟨[(0, .lock), (0, .lock), (1, .trylock), (1, .trylock)], ?_, ?_⟩
  · simp [legalRun, legal]
  · intro h
    have := h _ (List.suffix_refl _) 0 1 (by decide) (by decide)
    exact absurd this (by decide)

/-- And a lock can be lost for ever: after a trylock that reports failure nobody is inside,
yet no schedule of lock and trylock calls makes a `spin_lock` return. -/
theorem spin_xchg_lock_lost :
    ∀ (l : List (Nat × Call)) (t : Nat), (∀ x ∈ l, x.2 ≠ .unlock) →
      .lockRet t ∉ (run .xchg (run .xchg init [(0, .trylock), (0, .trylock)]) l).trace := by
  intro l t hl
  have key : ∀ (s : St), s.word = 1 → (∀ u, s.act u ≠ .unlocking) → .lockRet t ∉ s.trace →
      ∀ l : List (Nat × Call), (∀ x ∈ l, x.2 ≠ .unlock) → .lockRet t ∉ (run .xchg s l).trace := by
    intro s hw hu ht l hl
    induction l generalizing s with
    | nil => exact ht
    | cons x l ih =>
      obtain ⟨a, c⟩ := x
      have hc : c ≠ .unlock := hl (a, c) (by simp)
      have hua := hu a
      apply ih _ _ _ _ (fun x hx => hl x (by simp [hx]))
      · unfold step
        split <;> [(cases c <;> try contradiction); skip; skip; skip; skip] <;>
          repeat' split
        all_goals simp_all [xchgOp]
        all_goals omega
      · intro u
        have huu := hu u
        unfold step
        split <;> [(cases c <;> try contradiction); skip; skip; skip; skip] <;>
          repeat' split
        all_goals first
          | exact huu
          | (unfold setAct; dsimp only; split <;> simp_all)
      · unfold step
        split <;> [(cases c <;> try contradiction); skip; skip; skip; skip] <;>
          repeat' split
        all_goals simp_all [xchgOp]
        all_goals simp_all [cnot]
        all_goals omega
  apply key _ (by decide) _ (by simp [run, step, init, xchgOp, setAct])
  · exact hl
  · intro u; simp only [run, step, init, xchgOp, setAct]; simp [setAct]; split <;> simp

-- a thread that found the lock taken gets it after the unlock
example : (run .xchg init [(0, .lock), (1, .lock), (0, .lock), (1, .lock), (1, .lock), (0, .unlock),
    (0, .unlock), (1, .lock), (1, .lock)]).trace = [.lockRet 1, .unlockCall 0, .lockRet 0] := by decide
-- a concrete contended history: both threads lock and unlock in turn
example : (run .cas init [(0, .lock), (1, .lock), (0, .lock), (1, .lock), (0, .unlock), (1, .lock),
    (0, .unlock), (1, .lock)]).trace = [.lockRet 1, .unlockCall 0, .lockRet 0] := by decide
example : legalRun .cas init [(0, .lock), (1, .lock), (0, .lock), (1, .lock), (0, .unlock), (1, .lock),
    (0, .unlock), (1, .lock)] := by
  simp [legalRun, legal, step, init, setAct, casOp, inside]
example : inside 1 [.lockRet 1, .unlockCall 0, .lockRet 0] = true ∧
    inside 0 [.lockRet 1, .unlockCall 0, .lockRet 0] = false := by decide

end Verif.SpinLock
