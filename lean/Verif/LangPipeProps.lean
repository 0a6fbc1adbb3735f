import Verif.LangPipe

/-!
# Theorems about the pipe
-/
namespace Verif.LangPipe

/-! ## Specification -/

/-- What happens to a pipe. -/
inductive Op where
  | subscribe
  | unsubscribe
  | recv
  | send (fmt : List UInt8) (args : List Elem)
  | handler (h : Option Nat)

/-- What is seen of it: messages that were accepted (`mln_lang_ctx_pipe_send` returned 0), and messages the script
got. -/
structure Seen where
  accepted : List Msg
  got : List Msg

/-- The values that a format and the arguments stand for. -/
def Denotes : List UInt8 → List Elem → Msg → Prop
  | [], _, m => m = []
  | c :: fmt, a :: args, m => ∃ m', m = a :: m' ∧ Denotes fmt args m' ∧
      ((c = 105 ∧ ∃ i, a = .int i) ∨ ((c = 115 ∨ c = 83) ∧ ∃ s, a = .str s) ∨ (c = 114 ∧ ∃ b, a = .real b))
  | _ :: _, [], _ => False

/-- The message of a call of `mln_lang_ctx_pipe_send`. -/
def msgOf (fmt : List UInt8) (args : List Elem) : List Msg :=
  match build fmt args with
  | some (some m) => [m]
  | _ => []

theorem build_denotes (fmt : List UInt8) (args : List Elem) (m : Msg) :
    build fmt args = some (some m) ↔ Denotes fmt args m := by
  induction fmt generalizing args m with
  | nil => simp [build, Denotes, eq_comm]
  | cons c fmt ih =>
    have key : ∀ (a : Elem) (args : List Elem),
        ((build fmt args).map fun r => r.map fun m => a :: m) = some (some m) ↔
        ∃ m', m = a :: m' ∧ Denotes fmt args m' := by
      intro a args
      constructor
      · intro h
        cases hb : build fmt args with
        | none => rw [hb] at h; cases h
        | some r => cases r with
          | none => rw [hb] at h; simp at h
          | some m' =>
            rw [hb] at h
            simp only [Option.map_some, Option.some.injEq] at h
            exact ⟨m', h.symm, (ih args m').1 hb⟩
      · rintro ⟨m', h1, h2⟩
        rw [(ih args m').2 h2, h1]; rfl
    rw [build.eq_def]
    dsimp only
    by_cases h1 : c = 105
    · rw [if_pos h1]
      cases args with
      | nil => simp [Denotes]
      | cons a args =>
        cases a with
        | int i => rw [key]; simp [Denotes, h1]
        | str s => simp [Denotes, h1]
        | real b => simp [Denotes, h1]
    · rw [if_neg h1]
      by_cases h2 : c = 115 ∨ c = 83
      · rw [if_pos h2]
        have h3 : c ≠ 114 := by rcases h2 with h | h <;> rw [h] <;> decide
        cases args with
        | nil => simp [Denotes]
        | cons a args =>
          cases a with
          | int i => simp [Denotes, h1, h2, h3]
          | str s => rw [key]; simp [Denotes, h1, h2, h3]
          | real b => simp [Denotes, h1, h2, h3]
      · rw [if_neg h2]
        by_cases h3 : c = 114
        · rw [if_pos h3]
          cases args with
          | nil => simp [Denotes]
          | cons a args =>
            cases a with
            | int i => simp [Denotes, h3]
            | str s => simp [Denotes, h3]
            | real b => rw [key]; simp [Denotes, h3]
        · rw [if_neg h3]
          cases args with
          | nil => simp [Denotes]
          | cons a args => simp [Denotes, h1, h2, h3]

/-- One operation: the state after it, and what is seen so far. -/
def step (st : St) (w : Seen) : Op → Option (St × Seen)
  | .subscribe => some (subscribe st, w)
  | .unsubscribe => some (unsubscribe st, w)
  | .recv => let r := recv st; some (r.1, { w with got := w.got ++ r.2.getD [] })
  | .send fmt args => match send st fmt args with
    | none => none
    | some (st', ok) => some (st', if ok then { w with accepted := w.accepted ++ msgOf fmt args } else w)
  | .handler h => some (setHandler st h, w)

def run (st : St) (w : Seen) : List Op → Option (St × Seen)
  | [] => some (st, w)
  | o :: os => match step st w o with
    | none => none
    | some (st', w') => run st' w' os

/-! ## Messages arrive once and in order (C269) -/

theorem step_inv (p : Pipe) (w : Seen) (o : Op) (st' : St) (w' : Seen) (h : step (some p) w o = some (st', w'))
    (hi : w.accepted = w.got ++ p.list) : ∃ p', st' = some p' ∧ w'.accepted = w'.got ++ p'.list := by
  cases o with
  | subscribe => cases h; exact ⟨_, rfl, hi⟩
  | unsubscribe => cases h; exact ⟨_, rfl, hi⟩
  | recv => cases h; exact ⟨_, rfl, by simpa [recv] using hi⟩
  | handler x => cases h; exact ⟨_, rfl, hi⟩
  | send fmt args =>
    simp only [step, send] at h
    by_cases hs : p.subscribed
    · simp only [hs, if_true] at h
      cases hb : build fmt args with
      | none => simp [hb] at h
      | some r => cases r with
        | none =>
          simp only [hb, Bool.false_eq_true, if_false, Option.some.injEq, Prod.mk.injEq] at h
          exact ⟨p, h.1.symm, h.2 ▸ hi⟩
        | some m =>
          simp only [hb, if_true, Option.some.injEq, Prod.mk.injEq] at h
          refine ⟨_, h.1.symm, ?_⟩
          rw [← h.2]
          simp only [msgOf, hb]
          rw [hi, List.append_assoc]
    · simp only [hs, Bool.false_eq_true, if_false, Option.some.injEq, Prod.mk.injEq] at h
      exact ⟨p, h.1.symm, h.2 ▸ hi⟩

theorem run_inv (os : List Op) (p : Pipe) (w : Seen) (st' : St) (w' : Seen) (h : run (some p) w os = some (st', w'))
    (hi : w.accepted = w.got ++ p.list) : ∃ p', st' = some p' ∧ w'.accepted = w'.got ++ p'.list := by
  induction os generalizing p w with
  | nil => cases h; exact ⟨p, rfl, hi⟩
  | cons o os ih =>
    rw [run] at h
    cases hst : step (some p) w o with
    | none => rw [hst] at h; cases h
    | some r =>
      obtain ⟨st1, w1⟩ := r
      rw [hst] at h
      obtain ⟨p1, e1, i1⟩ := step_inv p w o st1 w1 hst hi
      subst e1
      exact ih p1 w1 h i1

/-- When the first operation makes the pipe (the script subscribes, or C code sets its handler), whatever is done
afterwards: every message accepted is received by the script once and in the order of sending, but for the last ones
that wait in the pipe, and a further `recv` gives exactly these. -/
theorem once_partial (o : Op) (ho : o = .subscribe ∨ ∃ h, o = .handler h) (os : List Op) (st : St) (w : Seen)
    (h : run none ⟨[], []⟩ (o :: os) = some (st, w)) :
    ∃ rest, w.accepted = w.got ++ rest ∧ (recv st).2 = some rest := by
  have hp : ∃ p : Pipe, step none ⟨[], []⟩ o = some (some p, ⟨[], []⟩) ∧ p.list = [] := by
    rcases ho with rfl | ⟨x, rfl⟩
    · exact ⟨_, rfl, rfl⟩
    · exact ⟨_, rfl, rfl⟩
  obtain ⟨p, hst, hl⟩ := hp
  rw [run, hst] at h
  obtain ⟨p', e, i⟩ := run_inv os p ⟨[], []⟩ st w h (by rw [hl]; rfl)
  subst e
  exact ⟨p'.list, i, rfl⟩

/-- A message that is refused, because its format is bad or the script does not listen, changes nothing. -/
theorem refused_no_change (st st' : St) (fmt : List UInt8) (args : List Elem)
    (h : send st fmt args = some (st', false)) : st' = st := by
  unfold send at h
  cases st with
  | none => simp at h
  | some p =>
    simp only at h
    split at h
    · split at h
      · cases h
      · simp only [Option.some.injEq, Prod.mk.injEq] at h; exact h.1.symm
      · simp at h
    · simp only [Option.some.injEq, Prod.mk.injEq] at h; exact h.1.symm

/-- A listening script accepts exactly the messages with a known format. -/
theorem accepted_iff (p : Pipe) (hs : p.subscribed = true) (fmt : List UInt8) (args : List Elem) (m : Msg) :
    send (some p) fmt args = some (some { p with list := p.list ++ [m] }, true) ↔ Denotes fmt args m := by
  rw [← build_denotes]
  unfold send
  simp only [hs, if_true]
  cases build fmt args with
  | none => simp
  | some r => cases r with
    | none => simp
    | some x =>
      simp only [Option.some.injEq, Prod.mk.injEq, Pipe.mk.injEq, and_true]
      constructor
      · intro h; have := List.append_cancel_left h; simpa using this
      · intro h; rw [h]

/-- Without subscription a message is refused, not lost: as long as only a handler has been set, and after
`Pipe('unsubscribe')`. -/
theorem unsubscribed_refused (h : Option Nat) (p : Pipe) (fmt : List UInt8) (args : List Elem) :
    send (setHandler none h) fmt args = some (setHandler none h, false) ∧
    send (unsubscribe (some p)) fmt args = some (unsubscribe (some p), false) := ⟨rfl, rfl⟩

/-- Refuted without a pipe: before the script has subscribed, every message is accepted, even one with an unknown
format, and none ever arrives. -/
theorem accepted_lost (fmt : List UInt8) (args : List Elem) :
    send none fmt args = some (none, true) ∧
    ∀ os st w, run none ⟨[], []⟩ (.send fmt args :: .subscribe :: os) = some (st, w) →
      ∃ w0, run none ⟨[], []⟩ (.subscribe :: os) = some (st, w0) ∧ w.got = w0.got := by
  refine ⟨rfl, fun os st w h => ?_⟩
  have key : ∀ (os : List Op) (st0 : St) (a b g : List Msg) (st : St) (w : Seen),
      run st0 ⟨a, g⟩ os = some (st, w) → ∃ w0, run st0 ⟨b, g⟩ os = some (st, w0) ∧ w.got = w0.got := by
    intro os
    induction os with
    | nil => intro st0 a b g st w h; cases h; exact ⟨_, rfl, rfl⟩
    | cons o os ih =>
      intro st0 a b g st w h
      rw [run] at h ⊢
      cases o with
      | subscribe => exact ih _ a b g st w h
      | unsubscribe => exact ih _ a b g st w h
      | recv => exact ih _ a b _ st w h
      | handler x => exact ih _ a b g st w h
      | send fmt args =>
        simp only [step] at h ⊢
        cases hsnd : send st0 fmt args with
        | none => simp [hsnd] at h
        | some r =>
          obtain ⟨st1, ok⟩ := r
          simp only [hsnd] at h ⊢
          cases ok with
          | true => exact ih _ _ _ g st w h
          | false => exact ih _ a b g st w h
  exact key os _ _ _ _ st w h

example : (run none ⟨[], []⟩ [.subscribe, .send [105, 115] [.int 3, .str [97]], .send [105] [.int 4], .recv,
    .send [105] [.int 5]]).map (fun r => (r.2.accepted, r.2.got)) =
    some ([[.int 3, .str [97]], [.int 4], [.int 5]], [[.int 3, .str [97]], [.int 4]]) := by decide +kernel
example : (run none ⟨[], []⟩ [.send [105] [.int 4], .subscribe, .recv]).map (fun r => (r.2.accepted, r.2.got)) =
    some ([[.int 4]], []) := by decide +kernel
example : (run none ⟨[], []⟩ [.subscribe, .send [105, 120] [.int 4], .recv]).map (fun r => r.2.got) =
    some [] := by decide +kernel

/-! ## From the script to C code (C270) -/

/-- With a handler, `Pipe('send', v)` calls it and is true exactly if it returned 0. -/
theorem sendUp_partial (p : Pipe) (h : Nat) (hh : p.handler = some h) (rc : Int) :
    (sendUp (some p) rc).1 = some h ∧ ((sendUp (some p) rc).2 = true ↔ rc = 0) := by
  simp [sendUp, hh]

/-- Refuted: it is also true when C code never set a handler, once the script has subscribed; nothing is called. -/
theorem sendUp_lost (os : List Op) (hn : ∀ h, Op.handler h ∉ os) (st : St) (w : Seen)
    (h : run none ⟨[], []⟩ (.subscribe :: os) = some (st, w)) (rc : Int) : sendUp st rc = (none, true) := by
  have key : ∀ (os : List Op) (p : Pipe) (w0 : Seen), p.handler = none → (∀ h, Op.handler h ∉ os) →
      run (some p) w0 os = some (st, w) → ∃ p', st = some p' ∧ p'.handler = none := by
    intro os
    induction os with
    | nil => intro p w0 hp _ h; cases h; exact ⟨p, rfl, hp⟩
    | cons o os ih =>
      intro p w0 hp hn h
      have hn' : ∀ h, Op.handler h ∉ os := fun x hx => hn x (List.mem_cons_of_mem _ hx)
      rw [run] at h
      cases o with
      | subscribe => exact ih { p with subscribed := true } w0 (by exact hp) hn' h
      | unsubscribe => exact ih { p with subscribed := false } w0 (by exact hp) hn' h
      | recv => exact ih { p with list := [] } _ (by exact hp) hn' h
      | handler x => exact absurd List.mem_cons_self (hn x)
      | send fmt args =>
        simp only [step, send] at h
        by_cases hs : p.subscribed
        · simp only [hs, if_true] at h
          cases hb : build fmt args with
          | none => simp [hb] at h
          | some r => cases r with
            | none => simp only [hb] at h; exact ih p _ hp hn' h
            | some m => simp only [hb] at h; exact ih ⟨p.list ++ [m], true, p.handler⟩ _ hp hn' h
        · simp only [hs, Bool.false_eq_true, if_false] at h
          exact ih p _ hp hn' h
  obtain ⟨p', e, hp⟩ := key os { new with subscribed := true } ⟨[], []⟩ rfl hn h
  subst e
  simp [sendUp, hp]

example : sendUp (setHandler none (some 3)) 0 = (some 3, true) := by decide
example : sendUp (subscribe none) (-1) = (none, true) := by decide

end Verif.LangPipe
