import Verif.LangWatch
import Verif.LangVarProps

/-!
# Theorems about watched variables
-/
namespace Verif.LangWatch

open Verif.LangVar (Data St put alloc valueSet Arg three)

/-! ## When a watch function is called (C274)

The specification does not keep a table: who watches a value is found by looking back in the script for the last
`Watch` or `Unwatch` of it. -/

/-- The last `Watch` or `Unwatch` of `a`, the statements given latest first. -/
def watcher (a : Nat) : List Cmd → Option (Nat × Nat)
  | [] => none
  | .watch b f d :: l => if b = a then some (f, d) else watcher a l
  | .unwatch b :: l => if b = a then none else watcher a l
  | _ :: l => watcher a l

/-- The value a statement changes. -/
def changes : Cmd → Option Nat
  | .assign x _ => some x
  | .inc x => some x
  | _ => none

theorem step_w (s : S) (c : Cmd) (a : Nat) (past : List Cmd) (h : ∀ b, s.w b = watcher b past) :
    (step s c).w a = watcher a (c :: past) := by
  cases c with
  | watch b f d =>
    simp only [step, setWatch, watcher, h]
    by_cases e : b = a
    · simp [e]
    · simp [e, Ne.symm e]
  | watchOther b d => exact h a
  | unwatch b =>
    simp only [step, setWatch, watcher, h]
    by_cases e : b = a
    · simp [e]
    · simp [e, Ne.symm e]
  | assign x y => simp only [step, fire, watcher]; split <;> exact h a
  | inc x => simp only [step, fire, watcher]; split <;> exact h a

/-- A statement calls the watch function of the value it changes, if there is one, once, with the new contents and
the user data; no other statement calls one. -/
theorem step_calls (s : S) (c : Cmd) :
    (step s c).calls = s.calls ++ (match (changes c).bind fun x => (s.w x).map fun p => (x, p) with
      | none => []
      | some (x, f, d) => [⟨f, (step s c).st.heap x, d⟩]) := by
  cases c with
  | watch b f d => simp [step, changes]
  | watchOther b d => simp [step, changes]
  | unwatch b => simp [step, changes]
  | assign x y =>
    simp only [step, fire, changes]
    cases h : s.w x with
    | none => simp [h]
    | some p => obtain ⟨f, d⟩ := p; simp [h]
  | inc x =>
    simp only [step, fire, changes]
    cases h : s.w x with
    | none => simp [h]
    | some p => obtain ⟨f, d⟩ := p; simp [h]

/-- Over a whole script: statement `c` after the statements `past` calls exactly the function that the last `Watch` in
`past` of the changed value has named, unless `Unwatch` came later. -/
theorem watch_called (st : St) (past : List Cmd) (c : Cmd) :
    let s := steps ⟨st, fun _ => none, []⟩ past
    (steps ⟨st, fun _ => none, []⟩ (past ++ [c])).calls = s.calls ++
      (match (changes c).bind fun x => (watcher x past.reverse).map fun p => (x, p) with
       | none => []
       | some (x, f, d) => [⟨f, (step s c).st.heap x, d⟩]) := by
  have hg : ∀ (l : List Cmd) (s : S) (old : List Cmd), (∀ b, s.w b = watcher b old) →
      ∀ a, (steps s l).w a = watcher a (l.reverse ++ old) := by
    intro l
    induction l with
    | nil => intro s old h a; exact h a
    | cons c l ih =>
      intro s old h a
      rw [List.reverse_cons, List.append_assoc]
      exact ih (step s c) (c :: old) (fun b => step_w s c b old h) a
  have hw : ∀ a : Nat, (steps ⟨st, fun _ => none, []⟩ past).w a = watcher a past.reverse := by
    intro a
    rw [hg past _ [] (fun _ => rfl) a, List.append_nil]
  intro s
  have : steps ⟨st, fun _ => none, []⟩ (past ++ [c]) = step s c := by simp [steps, s]
  rw [this, step_calls]
  simp only [s, hw]

/-- Watching changes no contents. -/
theorem watch_silent (s : S) (a f d : Nat) : (step s (.watch a f d)).st = s.st ∧
    (step s (.unwatch a)).st = s.st ∧ step s (.watchOther a d) = s := ⟨rfl, rfl, rfl⟩

example : (steps ⟨three, fun _ => none, []⟩ [.watch 0 7 2, .assign 0 1, .inc 1, .inc 0, .unwatch 0, .inc 0]).calls =
    [⟨7, .int 11, 2⟩, ⟨7, .int 12, 2⟩] := by decide +kernel
example : (steps ⟨three, fun _ => none, []⟩ [.watch 0 7 2, .watchOther 0 1, .watch 0 8 1, .assign 0 2]).calls =
    [⟨8, .int 12, 1⟩] := by decide +kernel

/-! ## The value of an assignment (C275) -/

/-- Without watch function the value is the result. -/
theorem value_partial (lhs res n : Nat) : exprValue none lhs res n = some res := rfl

/-- Refuted: with a watch function of the script there is no value, whatever the function returns. -/
theorem value_null (r : Option Nat) (lhs res n : Nat) : exprValue (some (.script r)) lhs res n = none := rfl

/-- Refuted: with a watch function in C the value is what that function returned. -/
theorem value_internal (r lhs res n : Nat) : exprValue (some (.internal r)) lhs res n = some r := rfl

/-- So `b = a = …` with a watched `a` reads through a null pointer. -/
theorem chain_null (st : St) (r : Option Nat) (a b res n : Nat) :
    outerAssign st b (exprValue (some (.script r)) a res n) = none := rfl

/-- And without watch `b` becomes what the inner assignment gave. -/
theorem chain_partial (st : St) (a b n : Nat) (h : b ≠ a) :
    ∃ st', outerAssign st b (exprValue none a a n) = some st' ∧ st'.heap b = st.heap a :=
  ⟨_, rfl, (Verif.LangVar.assign_partial st b a h).1⟩

example : exprValue none 1 2 9 = some 2 ∧ exprValue (some (.script (some 5))) 1 2 9 = none := by decide +kernel

/-! ## The parameters of a watch function (C276)

`mln_lang_watch_func_build` makes two new variables for the arguments; nothing else refers to them, so they are passed
as they are. -/

/-- The arguments `mln_lang_watch_func_build` makes, mln_lang.c:6770-6782. -/
def watchArgs (newval udata : Nat) : List Arg := [⟨newval, true⟩, ⟨udata, true⟩]

/-- Refuted: with and without `&`, the parameters are the watched value and the user data themselves. -/
theorem params_refer (st : St) (amp0 amp1 : Bool) (newval udata : Nat) :
    Verif.LangVar.call st [amp0, amp1] (watchArgs newval udata) = (st, [newval, udata]) := by
  cases amp0 <;> cases amp1 <;> rfl

/-- So what a watch function assigns to its second parameter is in the variable of the script. -/
theorem udata_changed (st : St) (amp0 amp1 : Bool) (newval udata : Nat) (d : Data) (h : udata < st.next) :
    ∃ st', Verif.LangVar.exec (Verif.LangVar.call st [amp0, amp1] (watchArgs newval udata)).2 st [.const 1 d] = some st' ∧
      st'.heap udata = d := by
  rw [params_refer]
  refine ⟨_, rfl, ?_⟩
  rw [(Verif.LangVar.assign_partial _ udata _ (by simp [alloc]; omega)).1]
  simp [alloc]

example : (do
    let st ← Verif.LangVar.exec (Verif.LangVar.call three [false, false] (watchArgs 0 1)).2 three [.const 1 (.int 8)]
    some (st.heap 1)) = some (.int 8) := by decide +kernel

/-! ## Watch functions that assign (C277) -/

/-- Refuted: an assignment to a value whose watch function assigns to it again never succeeds, however much room there
is on the stack of scopes. -/
theorem watch_loops (watch : Nat → Option Nat) (body : Nat → List Set) (a f : Nat) (hw : watch a = some f)
    (hb : ∃ d, ⟨a, d⟩ ∈ body f) (k : Nat) :
    ∀ (l : List Set) (h : Nat → Data), (∃ d, ⟨a, d⟩ ∈ l) → run watch body k h l = none := by
  induction k with
  | zero =>
    intro l
    induction l with
    | nil => rintro h ⟨d, hd⟩; cases hd
    | cons s l ih =>
      rintro h ⟨d, hd⟩
      rw [run.eq_def]; dsimp only
      cases hs : watch s.a with
      | none =>
        dsimp only
        rcases List.mem_cons.1 hd with e | e
        · subst e; rw [hw] at hs; cases hs
        · exact ih _ ⟨d, e⟩
      | some g => rfl
  | succ k ihk =>
    intro l
    induction l with
    | nil => rintro h ⟨d, hd⟩; cases hd
    | cons s l ih =>
      rintro h ⟨d, hd⟩
      rw [run.eq_def]; dsimp only
      cases hs : watch s.a with
      | none =>
        dsimp only
        rcases List.mem_cons.1 hd with e | e
        · subst e; rw [hw] at hs; cases hs
        · exact ih _ ⟨d, e⟩
      | some g =>
        dsimp only
        rcases List.mem_cons.1 hd with e | e
        · subst e
          rw [hw] at hs
          cases hs
          rw [ihk (body f) _ hb]
        · cases run watch body k (fun x => if x = s.a then s.d else h x) (body g) with
          | none => rfl
          | some h2 => exact ih _ ⟨d, e⟩

/-- The last assignment to `x` in a list. -/
def lastSet (l : List Set) (x : Nat) : Option Data := (l.reverse.find? fun s => s.a = x).map Set.d

theorem lastSet_cons (s : Set) (l : List Set) (x : Nat) :
    lastSet (s :: l) x = (lastSet l x).orElse fun _ => if s.a = x then some s.d else none := by
  simp only [lastSet, List.reverse_cons, List.find?_append]
  cases l.reverse.find? fun s => s.a = x with
  | some t => simp
  | none => by_cases e : s.a = x <;> simp [e]

/-- Assignments to values that nobody watches need no room. -/
theorem run_plain (watch : Nat → Option Nat) (body : Nat → List Set) (k : Nat) (l : List Set) (h : Nat → Data)
    (hl : ∀ s ∈ l, watch s.a = none) :
    run watch body k h l = some (fun x => (lastSet l x).getD (h x)) := by
  induction l generalizing h with
  | nil => rw [run.eq_def]; rfl
  | cons s l ih =>
    rw [run.eq_def]; dsimp only
    rw [hl s List.mem_cons_self]; dsimp only
    rw [ih _ (fun t ht => hl t (List.mem_cons_of_mem _ ht))]
    congr 1; funext x
    rw [lastSet_cons]
    cases lastSet l x with
    | some d => rfl
    | none =>
      by_cases e : s.a = x
      · simp [e]
      · simp [e, Ne.symm e]

/-- With watch functions that assign only to values nobody watches, every assignment succeeds with room for one call:
the value assigned has the new contents unless the watch function is, and the others have what the watch function
assigned to them. -/
theorem watch_partial (watch : Nat → Option Nat) (body : Nat → List Set) (k : Nat) (a : Nat) (d : Data)
    (h : Nat → Data) (hb : ∀ f, watch a = some f → ∀ s ∈ body f, watch s.a = none) :
    ∃ h', run watch body (k + 1) h [⟨a, d⟩] = some h' ∧
      ∀ x, h' x = ((watch a).bind fun f => lastSet (body f) x).getD (if x = a then d else h x) := by
  cases hw : watch a with
  | none =>
    rw [run_plain _ _ _ _ _ (by intro s hs; simp at hs; subst hs; exact hw)]
    refine ⟨_, rfl, fun x => ?_⟩
    by_cases e : a = x
    · simp [lastSet, e]
    · simp [lastSet, e, Ne.symm e]
  | some f =>
    rw [run.eq_def]; dsimp only
    rw [hw]; dsimp only
    rw [run_plain _ _ _ _ _ (hb f hw)]; dsimp only
    rw [run.eq_def]
    exact ⟨_, rfl, fun x => rfl⟩

/-- 0 is watched by a function that sets 1; 2 by one that sets 2. -/
def exBody : Nat → List Set := fun f => if f = 0 then [⟨1, .bool true⟩] else [⟨2, .nil⟩]
def exWatch : Nat → Option Nat := fun a => if a = 0 then some 0 else if a = 2 then some 1 else none

theorem example_sets : ∃ h', run exWatch exBody 1 (fun _ => .nil) [⟨0, .int 5⟩] = some h' ∧ h' 0 = .int 5 ∧
    h' 1 = .bool true := by
  obtain ⟨h', e, hx⟩ := watch_partial exWatch exBody 0 0 (.int 5) (fun _ => .nil) (by
    intro f hf s hs
    have hf : 0 = f := by simpa [exWatch] using hf
    subst hf
    simp [exBody] at hs; subst hs; rfl)
  exact ⟨h', e, by rw [hx]; rfl, by rw [hx]; rfl⟩

example : (run exWatch exBody 1024 (fun _ => .nil) [⟨2, .int 5⟩]).isNone = true := by
  rw [watch_loops exWatch exBody 2 1 rfl ⟨.nil, by simp [exBody]⟩ 1024 _ _ ⟨_, List.mem_singleton.2 rfl⟩]; rfl

end Verif.LangWatch
