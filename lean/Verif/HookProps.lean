import Verif.Hook
/-!
# Theorems about watched functions and paths
-/
namespace Verif.Hook

/-! ## Watched functions -/

/-- The program changes no callbacks. -/
def Quiet : Prog → Prop
  | .done => True
  | .act _ next => Quiet next
  | .call _ body next => Quiet body ∧ Quiet next
  | .entrySet _ _ => False
  | .exitSet _ _ => False

/-- Specification: what is seen of a program, each call between its two callbacks, nothing between
them if it was refused. -/
def seen (cb : Nat → Bool) : Prog → List Ev
  | .done => []
  | .act n next => .act n :: seen cb next
  | .call f body next => .enter f :: ((if cb f then seen cb body else []) ++ .leave f (cb f) :: seen cb next)
  | .entrySet _ next => seen cb next
  | .exitSet _ next => seen cb next

/-- Specification: what the program does by itself. -/
def acts : Prog → List Nat
  | .done => []
  | .act n next => n :: acts next
  | .call _ body next => acts body ++ acts next
  | .entrySet _ next => acts next
  | .exitSet _ next => acts next

def isAct : Ev → Option Nat
  | .act n => some n
  | _ => none

/-- Specification: brackets. `open?` are the functions that were entered and not left. -/
def nested : List Nat → List Ev → Bool
  | st, [] => st.isEmpty
  | st, .act _ :: r => nested st r
  | st, .enter f :: r => nested (f :: st) r
  | [], .leave _ _ :: _ => false
  | g :: st, .leave f _ :: r => g == f && nested st r

theorem quiet_state : ∀ (p : Prog) (s : St), Quiet p → (run s p).1 = s
  | .done, _, _ => rfl
  | .act _ next, s, h => quiet_state next s h
  | .call f body next, s, h => by
    simp only [run]
    cases hl : s.lets f
    · exact quiet_state next s h.2
    · simp only [if_true, quiet_state body s h.1]; exact quiet_state next s h.2
  | .entrySet _ _, _, h => h.elim
  | .exitSet _ _, _, h => h.elim

/-- With both callbacks set: exactly what the specification says. -/
theorem run_seen (cb : Nat → Bool) : ∀ (p : Prog), Quiet p → (run ⟨some cb, true⟩ p).2 = seen cb p
  | .done, _ => rfl
  | .act n next, h => by simp only [run, seen, run_seen cb next h]
  | .call f body next, h => by
    have hl : St.lets ⟨some cb, true⟩ f = cb f := rfl
    simp only [run, seen, hl]
    cases hf : cb f
    · simp [run_seen cb next h.2]
    · simp only [if_true, Option.isSome_some, quiet_state body _ h.1, run_seen cb body h.1, run_seen cb next h.2]
      simp
  | .entrySet _ _, h => h.elim
  | .exitSet _ _, h => h.elim

/-- Specification: a callback that is not set is not called. -/
def called (entry exit : Bool) : Ev → Bool
  | .act _ => true
  | .enter _ => entry
  | .leave _ _ => exit

/-- With any of the callbacks set: of the same events those of the callbacks that are there. -/
theorem run_called (e : Option (Nat → Bool)) (x : Bool) : ∀ (p : Prog), Quiet p →
    (run ⟨e, x⟩ p).2 = (seen (fun f => match e with | none => true | some cb => cb f) p).filter (called e.isSome x)
  | .done, _ => rfl
  | .act n next, h => by simp only [run, seen, run_called e x next h, List.filter_cons, called, if_true]
  | .call f body next, h => by
    have ih1 := run_called e x body h.1
    have ih2 := run_called e x next h.2
    have hs := quiet_state body ⟨e, x⟩ h.1
    cases e with
    | none =>
      have hl : St.lets ⟨none, x⟩ f = true := rfl
      simp only [run, seen, hl, if_true, hs, ih1, ih2]
      cases x <;> simp [called, List.filter_cons]
    | some cb =>
      have hl : St.lets ⟨some cb, x⟩ f = cb f := rfl
      simp only [run, seen, hl]
      cases hf : cb f
      · simp only [Bool.false_eq_true, if_false, ih2]
        cases x <;> simp [called, List.filter_cons]
      · simp only [if_true, hs, ih1, ih2]
        cases x <;> simp [called, List.filter_cons]
  | .entrySet _ _, h => h.elim
  | .exitSet _ _, h => h.elim

example : (run ⟨none, true⟩ (.call 3 (.act 1 .done) .done)).2 = [.act 1, .leave 3 true] := rfl

theorem nested_seen (cb : Nat → Bool) : ∀ (p : Prog) (st : List Nat) (r : List Ev), nested st (seen cb p ++ r) = nested st r
  | .done, _, _ => rfl
  | .act _ next, st, r => nested_seen cb next st r
  | .call f body next, st, r => by
    simp only [seen, List.cons_append, List.append_assoc, nested]
    cases hf : cb f
    · simp [nested, nested_seen cb next]
    · simp [nested_seen cb body, nested, nested_seen cb next]
  | .entrySet _ next, st, r => nested_seen cb next st r
  | .exitSet _ next, st, r => nested_seen cb next st r

/-- Entries and exits are properly nested, whichever calls are refused. -/
theorem run_nested (cb : Nat → Bool) (p : Prog) (h : Quiet p) : nested [] (run ⟨some cb, true⟩ p).2 = true := by
  rw [run_seen cb p h]
  have := nested_seen cb p [] []
  rw [List.append_nil] at this
  rw [this]
  rfl

/-- A refused function does nothing: the first thing seen behind its entry is its exit. -/
theorem refused_quiet (cb : Nat → Bool) (f : Nat) (body next : Prog) (hn : Quiet next) (hb : Quiet body) (hf : cb f = false) :
    (run ⟨some cb, true⟩ (.call f body next)).2 = .enter f :: .leave f false :: (run ⟨some cb, true⟩ next).2 := by
  rw [run_seen cb (.call f body next) ⟨hb, hn⟩, run_seen cb next hn]
  simp [seen, hf]

/-- Callbacks that refuse nothing change nothing of what the program does; so do programs without
callbacks. -/
theorem watched_same (s : St) (hs : ∀ cb, s.entry = some cb → ∀ f, cb f = true) : ∀ (p : Prog), Quiet p → (run s p).2.filterMap isAct = acts p
  | .done, _ => rfl
  | .act n next, h => by
    simp only [run, acts, List.filterMap_cons, isAct, watched_same s hs next h]
  | .call f body next, h => by
    have hok : s.lets f = true := by
      simp only [St.lets]
      cases he : s.entry with
      | none => rfl
      | some cb => exact hs cb he f
    simp only [run, acts, hok, if_true, quiet_state body s h.1, List.filterMap_append, watched_same s hs body h.1, watched_same s hs next h.2]
    cases s.entry.isSome <;> cases s.exit <;> simp [List.filterMap_cons, isAct]
  | .entrySet _ _, h => h.elim
  | .exitSet _ _, h => h.elim

/-- Refuted for programs that set the callbacks inside a watched function: the exit is seen without its
entry. -/
theorem set_inside_refuted (cb : Nat → Bool) (f : Nat) : nested [] (run {} (.call f (.entrySet (some cb) (.exitSet true .done)) .done)).2 = false := rfl

/-! ### What a refused call returns

Specification: the caller learns that the call failed, as from every other failure of the function: a
pointer is NULL, a number is negative. -/

theorem refused_minus (w : Nat) (h : 0 < w) : (refusedValue w).toInt = -1 := by
  have : refusedValue w = BitVec.allOnes w := by
    simp only [refusedValue]
    rw [← BitVec.neg_one_eq_allOnes]
    rw [BitVec.ofInt_neg]
    rfl
  rw [this, BitVec.toInt_allOnes, if_pos h]

/-- Refuted for all functions that return pointers: the answer is never NULL. -/
theorem refused_pointer (w : Nat) (h : 0 < w) : refusedValue w ≠ 0 := by
  intro e
  have h1 := refused_minus w h
  rw [e] at h1
  simp at h1

/-- What is true: a number with a sign is negative. -/
theorem refused_int_partial (w : Nat) (h : 0 < w) : (refusedValue w).toInt < 0 := by
  rw [refused_minus w h]
  decide

/-! ## Paths -/

/-- The hooks that were set, one after the other. -/
def sets {H : Type} (l : List (Kind × Option H)) : Paths H := l.foldl (fun p x => hookSet p x.1 x.2) {}

/-- Specification: what was set last for this path. -/
def lastSet {H : Type} (k : Kind) : List (Kind × Option H) → Option H
  | [] => none
  | x :: r => if r.any (fun y => y.1 == k) then lastSet k r else if x.1 = k then x.2 else none

theorem path_set {H : Type} (p : Paths H) (k j : Kind) (h : Option H) : path (hookSet p k h) j = if k = j then h else path p j := by
  cases k <;> cases j <;> rfl

theorem path_sets_gen {H : Type} (k : Kind) : ∀ (l : List (Kind × Option H)) (p : Paths H),
    path (l.foldl (fun p x => hookSet p x.1 x.2) p) k = if l.any (fun y => y.1 == k) then lastSet k l else path p k
  | [], p => rfl
  | x :: r, p => by
    show path (r.foldl _ (hookSet p x.1 x.2)) k = _
    rw [path_sets_gen k r, path_set]
    simp only [lastSet, List.any_cons]
    by_cases hr : r.any (fun y => y.1 == k) = true
    · simp [hr]
    · simp only [Bool.not_eq_true] at hr
      by_cases hx : x.1 = k
      · simp [hr, hx]
      · have : (x.1 == k) = false := by simpa using hx
        simp [hr, hx, this]

/-- Each path is what the hook says that was set last for it; without one it is the path compiled in.
The others do not matter. -/
theorem path_sets {H : Type} (l : List (Kind × Option H)) (k : Kind) : path (sets l) k = lastSet k l := by
  have := path_sets_gen k l {}
  simp only [sets]
  rw [this]
  split
  · rfl
  · rename_i h
    have hp : path ({} : Paths H) k = none := by cases k <;> rfl
    rw [hp]
    cases l with
    | nil => rfl
    | cons x r =>
      simp only [List.any_cons, Bool.or_eq_true, not_or, Bool.not_eq_true] at h
      have hx : x.1 ≠ k := by simpa using h.1
      simp [lastSet, h.2, hx]

/-! ## Cases -/

def nest : Prog := .call 1 (.act 10 (.call 2 (.act 20 .done) (.act 11 .done))) (.act 30 .done)

example : (run ⟨some (fun f => f != 2), true⟩ nest).2 = [.enter 1, .act 10, .enter 2, .leave 2 false, .act 11, .leave 1 true, .act 30] := by decide
example : (run {} nest).2 = [.act 10, .act 20, .act 11, .act 30] := by decide
example : refusedValue 64 = 0xFFFFFFFFFFFFFFFF#64 := by decide
example : path (sets [(.log, some 1), (.conf, some 2), (.log, none)]) .log = none := by decide
example : path (sets [(.log, some 1), (.conf, some 2), (.log, none)]) .conf = some 2 := by decide

end Verif.Hook
