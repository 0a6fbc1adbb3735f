import Verif.ClassObj
import Mathlib.Tactic.Tauto
/-!
# Objects are constructed and destructed once
-/
namespace Verif.ClassObj

/-! ## Specification -/

/-- The objects a program has: number and class. -/
abbrev Has := List (Nat × Nat)

/-- A program that deletes only NULL and objects that it has, whatever numbers it gets. -/
def Legal : Has → Prog → Prop
  | _, .done => True
  | os, .new c _ k => Legal os (k 0) ∧ ∀ n, n ≠ 0 → (∀ o ∈ os, o.1 ≠ n) → Legal ((n, c) :: os) (k n)
  | os, .delete n k => (n = 0 ∧ Legal os k) ∨ ∃ c, (n, c) ∈ os ∧ Legal (os.filter fun o => o.1 ≠ n) k

/-- The life of the object `n` in a log: nothing, made, or made and destroyed by its class, then freed. -/
inductive Life (n : Nat) : List Ev → Prop
  | none : Life n []
  | made (c arg : Nat) : Life n [.constructed c n arg]
  | gone (c arg : Nat) : Life n [.constructed c n arg, .destructed c n, .freed n]

/-- The events of an object. -/
def Ev.obj : Ev → Nat
  | .constructed _ n _ | .destructed _ n | .freed n => n

def events (n : Nat) (l : List Ev) : List Ev := l.filter fun e => e.obj = n

/-! ## Proof -/

/-- What the memory has to do with the objects of the program and with the log. -/
structure Inv (m : Mem) (os : Has) : Prop where
  cls : ∀ n c, m.cls n = some c ↔ (n, c) ∈ os
  range : ∀ o ∈ os, o.1 ≠ 0 ∧ o.1 ≤ m.next
  later : ∀ n, m.next < n → events n m.log = []
  zero : events 0 m.log = []
  live : ∀ n c, m.cls n = some c → ∃ arg, events n m.log = [.constructed c n arg]
  life : ∀ n, Life n (events n m.log)
  dead : ∀ n, m.cls n = none → ∀ c arg, events n m.log ≠ [.constructed c n arg]

theorem events_append (n : Nat) (a b : List Ev) : events n (a ++ b) = events n a ++ events n b := List.filter_append ..

theorem inv_new {m : Mem} {os : Has} (h : Inv m os) (c arg : Nat) : Inv (new true m c arg).2 ((m.next + 1, c) :: os) ∧ ∀ o ∈ os, o.1 ≠ m.next + 1 := by
  have hf : ∀ o ∈ os, o.1 ≠ m.next + 1 := fun o ho => by have := (h.range o ho).2; omega
  refine ⟨⟨?_, ?_, ?_, ?_, ?_, ?_, ?_⟩, hf⟩
  · intro n c'
    show (if n = m.next + 1 then some c else m.cls n) = some c' ↔ _
    by_cases e : n = m.next + 1
    · subst e
      rw [if_pos rfl]
      simp only [Option.some.injEq, List.mem_cons, Prod.mk.injEq, true_and]
      constructor
      · rintro rfl; exact .inl rfl
      · rintro (rfl | hm)
        · rfl
        · exact absurd rfl (hf _ hm)
    · rw [if_neg e, h.cls]
      simp [e]
  · intro o ho
    show o.1 ≠ 0 ∧ o.1 ≤ m.next + 1
    rcases List.mem_cons.1 ho with rfl | ho
    · simp
    · have := h.range o ho; omega
  · intro n hn
    have hn : m.next + 1 < n := hn
    show events n (m.log ++ [.constructed c (m.next + 1) arg]) = []
    have hne : m.next + 1 ≠ n := by omega
    rw [events_append, h.later n (by omega)]
    simp [events, Ev.obj, hne]
  · show events 0 (m.log ++ [.constructed c (m.next + 1) arg]) = []
    rw [events_append, h.zero]
    simp [events, Ev.obj]
  · intro n c' hc
    have hc : (if n = m.next + 1 then some c else m.cls n) = some c' := hc
    show ∃ a, events n (m.log ++ [.constructed c (m.next + 1) arg]) = _
    rw [events_append]
    by_cases e : n = m.next + 1
    · subst e
      rw [if_pos rfl] at hc
      cases hc
      exact ⟨arg, by rw [h.later _ (by omega)]; simp [events, Ev.obj]⟩
    · rw [if_neg e] at hc
      obtain ⟨a, ha⟩ := h.live n c' hc
      exact ⟨a, by rw [ha]; simp [events, Ev.obj, Ne.symm e]⟩
  · intro n
    show Life n (events n (m.log ++ [.constructed c (m.next + 1) arg]))
    rw [events_append]
    by_cases e : n = m.next + 1
    · subst e
      rw [h.later _ (by omega)]
      have : events (m.next + 1) [.constructed c (m.next + 1) arg] = [.constructed c (m.next + 1) arg] := by simp [events, Ev.obj]
      rw [this]
      exact .made c arg
    · have : events n [.constructed c (m.next + 1) arg] = [] := by simp [events, Ev.obj, Ne.symm e]
      rw [this, List.append_nil]
      exact h.life n
  · intro n hn c' a
    have hn : (if n = m.next + 1 then some c else m.cls n) = none := hn
    by_cases e : n = m.next + 1
    · simp [e] at hn
    · rw [if_neg e] at hn
      show events n (m.log ++ [.constructed c (m.next + 1) arg]) ≠ _
      have : events n [.constructed c (m.next + 1) arg] = [] := by simp [events, Ev.obj, Ne.symm e]
      rw [events_append, this, List.append_nil]
      exact h.dead n hn c' a

theorem inv_delete {m : Mem} {os : Has} (h : Inv m os) {n c : Nat} (hm : (n, c) ∈ os) :
    ∃ m', delete m (fun _ => n) = some m' ∧ Inv m' (os.filter fun o => o.1 ≠ n) ∧ m'.log = m.log ++ [.destructed c n, .freed n] ∧ m'.next = m.next := by
  have hc := (h.cls n c).2 hm
  have h0 : n ≠ 0 := (h.range _ hm).1
  refine ⟨{ m with cls := fun x => if x = n then none else m.cls x, log := m.log ++ [.destructed c n, .freed n] }, by simp [delete, h0, hc], ?_, rfl, rfl⟩
  have hev : ∀ x, x ≠ n → events x (m.log ++ [.destructed c n, .freed n]) = events x m.log := by
    intro x hx
    rw [events_append]
    simp [events, Ev.obj, Ne.symm hx]
  refine ⟨?_, ?_, ?_, ?_, ?_, ?_, ?_⟩
  · intro x c'
    show (if x = n then none else m.cls x) = some c' ↔ _
    by_cases e : x = n
    · simp [e]
    · rw [if_neg e, h.cls]; simp [e]
  · intro o ho
    exact h.range o (List.mem_of_mem_filter ho)
  · intro x hx
    have hx : m.next < x := hx
    show events x (m.log ++ _) = []
    rw [hev x (by have := (h.range _ hm).2; simp only at this; omega)]
    exact h.later x hx
  · show events 0 (m.log ++ _) = []
    rw [hev 0 (Ne.symm h0)]; exact h.zero
  · intro x c' hx
    have hx : (if x = n then none else m.cls x) = some c' := hx
    show ∃ a, events x (m.log ++ _) = _
    by_cases e : x = n
    · simp [e] at hx
    · rw [if_neg e] at hx
      rw [hev x e]; exact h.live x c' hx
  · intro x
    show Life x (events x (m.log ++ _))
    by_cases e : x = n
    · subst e
      obtain ⟨a, ha⟩ := h.live x c hc
      rw [events_append, ha]
      have : events x [.destructed c x, .freed x] = [.destructed c x, .freed x] := by simp [events, Ev.obj]
      rw [this]
      exact .gone c a
    · rw [hev x e]; exact h.life x
  · intro x hx c' a'
    have hx : (if x = n then none else m.cls x) = none := hx
    show events x (m.log ++ _) ≠ _
    by_cases e : x = n
    · subst e
      obtain ⟨a, ha⟩ := h.live x c hc
      rw [events_append, ha]
      simp [events, Ev.obj]
    · rw [if_neg e] at hx
      rw [hev x e]; exact h.dead x hx c' a'

theorem inv_empty : Inv {} [] :=
  ⟨by simp, by simp, by simp [events], rfl, by simp, fun _ => .none, by simp [events]⟩

theorem run_inv (p : Prog) : ∀ {oks : List Bool} {m : Mem} {os : Has}, Inv m os → Legal os p → ∃ m' os', run oks m p = some m' ∧ Inv m' os' := by
  induction p with
  | done => intro oks m os h _; exact ⟨m, os, rfl, h⟩
  | new c arg k ih =>
    intro oks m os h hl
    rw [run]
    cases hb : oks.headD true with
    | false => simpa [new] using ih 0 (oks := oks.tail) h hl.1
    | true =>
      obtain ⟨h1, h2⟩ := inv_new h c arg
      exact ih (m.next + 1) (oks := oks.tail) h1 (hl.2 (m.next + 1) (by omega) h2)
  | delete n k ih =>
    intro oks m os h hl
    rw [run]
    rcases hl with ⟨rfl, hl⟩ | ⟨c, hm, hl⟩
    · simpa [delete] using ih (oks := oks) h hl
    · obtain ⟨m', h1, h2, _⟩ := inv_delete h hm
      rw [h1]
      exact ih h2 hl

/-! ## Properties -/

/-- C328: in every program that deletes only objects it has, given as values, no memory is used that is not
allocated, and every object is constructed once, and if it was deleted, destructed once by the destructor of its class
and then freed; an object that still exists has only been constructed, and one that does not has not. -/
theorem objects_partial {p : Prog} (hl : Legal [] p) (oks : List Bool) : ∃ m, run oks {} p = some m ∧ (∀ n, Life n (events n m.log)) ∧
    (∀ n c, m.cls n = some c → ∃ arg, events n m.log = [.constructed c n arg]) ∧
    ∀ n, m.cls n = none → ∀ c arg, events n m.log ≠ [.constructed c n arg] := by
  obtain ⟨m, os, h1, h2⟩ := run_inv p (oks := oks) inv_empty hl
  exact ⟨m, h1, h2.life, h2.live, h2.dead⟩

/-- A malloc that fails gives NULL, and no constructor runs; NULL can be deleted. -/
theorem null (m : Mem) (c arg : Nat) : new false m c arg = (0, m) ∧ delete m (fun _ => 0) = some m := ⟨rfl, rfl⟩

/-- `delete` of an object: its destructor gets it, then it is freed, and no other object changes. -/
theorem delete_partial (m : Mem) (n c : Nat) (h0 : n ≠ 0) (hc : m.cls n = some c) :
    ∃ m', delete m (fun _ => n) = some m' ∧ m'.log = m.log ++ [.destructed c n, .freed n] ∧ m'.cls n = none ∧ ∀ x, x ≠ n → m'.cls x = m.cls x := by
  refine ⟨{ m with cls := fun x => if x = n then none else m.cls x, log := m.log ++ [.destructed c n, .freed n] }, by simp [delete, h0, hc], rfl, by simp, ?_⟩
  intro x hx
  simp [hx]

/-- With an expression that gives another object each time, such as `delete(next())`, the object that was tested is
neither destructed nor freed, another one gets the destructor of a third one, and a fourth one is freed without having
been destructed. -/
theorem delete_refuted (m : Mem) (e : Nat → Nat) (c1 c2 c3 : Nat) (h0 : e 0 ≠ 0) (h1 : m.cls (e 1) = some c1) (h2 : m.cls (e 2) = some c2)
    (h3 : m.cls (e 3) = some c3) (d03 : e 0 ≠ e 3) (d23 : e 2 ≠ e 3) :
    ∃ m', delete m e = some m' ∧ m'.log = m.log ++ [.destructed c1 (e 2), .freed (e 3)] ∧ m'.cls (e 0) = m.cls (e 0) ∧ m'.cls (e 2) = some c2 ∧ m'.cls (e 3) = none := by
  refine ⟨{ m with cls := fun x => if x = e 3 then none else m.cls x, log := m.log ++ [.destructed c1 (e 2), .freed (e 3)] }, by simp [delete, h0, h1, h2, h3], rfl, ?_, ?_, ?_⟩
  · simp [d03]
  · simp [d23, h2]
  · simp

/-- An expression that gives NULL from the second time on, such as a function that takes an object out of a list with
one element, makes `delete` use NULL. -/
theorem taken_refuted (m : Mem) (e : Nat → Nat) (h0 : e 0 ≠ 0) (h1 : e 1 = 0) (hm : m.cls 0 = none) : delete m e = none := by
  simp [delete, h0, h1, hm]

/-! ## Examples -/

/-- Two objects, the second allocation fails; both are deleted. -/
def prog : Prog := .new 7 1 fun a => .new 8 2 fun b => .delete a (.delete b .done)

example : Legal [] prog := by
  refine ⟨⟨.inl ⟨rfl, .inl ⟨rfl, trivial⟩⟩, fun n hn _ => .inl ⟨rfl, .inr ⟨8, by simp, trivial⟩⟩⟩, fun n hn _ => ⟨.inr ⟨7, by simp, .inl ⟨rfl, trivial⟩⟩, fun k hk hne => .inr ⟨7, by simp, .inr ⟨8, ?_, trivial⟩⟩⟩⟩
  have : k ≠ n := fun e => hne (n, 7) (by simp) e.symm
  simp [this]

example : ((run [true, false] {} prog).map Mem.log) = some [.constructed 7 1 1, .destructed 7 1, .freed 1] := by decide
example : ((run [] {} prog).map Mem.log) = some [.constructed 7 1 1, .constructed 8 2 2, .destructed 7 1, .freed 1, .destructed 8 2, .freed 2] := by decide

end Verif.ClassObj
