import Verif.LangVar

/-!
# Theorems about assignment, parameters and captured variables
-/
namespace Verif.LangVar

/-! ## Assignment (C271) -/

/-- `x = y` with two values that are not the same one: x gets the contents of y, and nothing else changes. -/
theorem assign_partial (st : St) (x y : Nat) (h : x ≠ y) :
    (valueSet st x y).heap x = st.heap y ∧ ∀ z, z ≠ x → (valueSet st x y).heap z = st.heap z := by
  refine ⟨?_, fun z hz => ?_⟩
  · simp [valueSet, dataFree, put, Ne.symm h]
  · simp [valueSet, dataFree, put, hz]

/-- Refuted for `x = x`: whatever the variable contains, it is nil afterwards. -/
theorem assign_self (st : St) (x : Nat) : (valueSet st x x).heap x = .nil := by
  simp [valueSet, dataFree, put]

/-- So `x = y` does what it says exactly if x and y are different values, or the value is nil. -/
theorem assign_iff (st : St) (x y : Nat) :
    (valueSet st x y).heap x = st.heap y ↔ x ≠ y ∨ st.heap y = .nil := by
  by_cases h : x = y
  · subst h
    rw [assign_self]
    constructor
    · intro e; exact Or.inr e.symm
    · rintro (e | e)
      · exact absurd rfl e
      · exact e.symm
  · exact ⟨fun _ => Or.inl h, fun _ => (assign_partial st x y h).1⟩

example : (valueSet ⟨fun a => .int a, 10⟩ 3 4).heap 3 = .int 4 := by decide
example : (valueSet ⟨fun a => .int a, 10⟩ 3 3).heap 3 = .nil := by decide

/-! ## Parameters (C272) -/

/-- The parameters an assignment list writes to. -/
def dests : List Act → List Nat
  | [] => []
  | .const i _ :: l => i :: dests l
  | .copy i _ :: l => i :: dests l

theorem valueSet_other (st : St) (x y z : Nat) (h : z ≠ x) : (valueSet st x y).heap z = st.heap z := by
  simp [valueSet, dataFree, put, h]

theorem valueSet_next (st : St) (x y : Nat) : (valueSet st x y).next = st.next := rfl

/-- Values that no written parameter has are left as they are. -/
theorem exec_keeps (ps : List Nat) (l : List Act) (st st' : St) (z : Nat) (hz : z < st.next)
    (h : exec ps st l = some st') (hd : ∀ i ∈ dests l, ps[i]? ≠ some z) : st'.heap z = st.heap z := by
  induction l generalizing st with
  | nil => cases h; rfl
  | cons a l ih =>
    cases a with
    | const i d =>
      rw [exec] at h
      cases hi : ps[i]? with
      | none => rw [hi] at h; cases h
      | some x =>
        rw [hi] at h
        have hne : z ≠ x := fun e => hd i List.mem_cons_self (by rw [hi, e])
        rw [ih _ (by rw [valueSet_next]; exact Nat.lt_succ_of_lt hz) h
          (fun j hj => hd j (List.mem_cons_of_mem _ hj)), valueSet_other _ _ _ _ hne]
        simp only [alloc]
        rw [if_neg (by omega)]
    | copy i j =>
      rw [exec] at h
      cases hi : ps[i]? with
      | none => rw [hi] at h; cases h
      | some x =>
        cases hj : ps[j]? with
        | none => rw [hi, hj] at h; cases h
        | some y =>
          rw [hi, hj] at h
          have hne : z ≠ x := fun e => hd i List.mem_cons_self (by rw [hi, e])
          rw [ih _ (by rw [valueSet_next]; exact hz) h (fun k hk => hd k (List.mem_cons_of_mem _ hk)),
            valueSet_other _ _ _ _ hne]

/-- What the parameters are: the argument itself for one that refers or is only the argument, a new value with the
same contents otherwise, a new nil without argument; and the values that were there stay. -/
theorem bind_spec (ts : List Bool) (args : List Arg) (st : St) (ha : ∀ a ∈ args, a.addr < st.next) :
    st.next ≤ (bind st ts args).1.next ∧
    (∀ z, z < st.next → (bind st ts args).1.heap z = st.heap z) ∧
    (bind st ts args).2.length = ts.length ∧
    ∀ (i : Nat) (t : Bool), ts[i]? = some t → ∃ p, (bind st ts args).2[i]? = some p ∧ p < (bind st ts args).1.next ∧
      (match args[i]? with
       | none => st.next ≤ p ∧ (bind st ts args).1.heap p = .nil
       | some a => if a.temp ∨ t = true then p = a.addr else
           st.next ≤ p ∧ (bind st ts args).1.heap p = st.heap a.addr) := by
  induction ts generalizing args st with
  | nil => exact ⟨Nat.le_refl _, fun _ _ => rfl, rfl, fun i t h => by simp at h⟩
  | cons t ts ih =>
    cases args with
    | nil =>
      have hn : (alloc st .nil).1.next = st.next + 1 := rfl
      obtain ⟨g1, g2, g3, g4⟩ := ih [] (alloc st .nil).1 (by simp)
      rw [hn] at g1 g2
      have hsame : ∀ z, z < st.next → (bind st (t :: ts) []).1.heap z = st.heap z := by
        intro z hz
        show (bind (alloc st .nil).1 ts []).1.heap z = _
        rw [g2 z (by omega)]
        simp only [alloc]; rw [if_neg (by omega)]
      refine ⟨by show st.next ≤ (bind (alloc st .nil).1 ts []).1.next; omega, hsame, by simp [bind, g3],
        fun i u hu => ?_⟩
      cases i with
      | zero =>
        refine ⟨st.next, rfl, by show st.next < (bind (alloc st .nil).1 ts []).1.next; omega, ?_⟩
        simp only [List.getElem?_nil]
        refine ⟨Nat.le_refl _, ?_⟩
        show (bind (alloc st .nil).1 ts []).1.heap st.next = _
        rw [g2 _ (by omega)]; simp [alloc]
      | succ i =>
        obtain ⟨p, h1, h2, h3⟩ := g4 i u (by simpa using hu)
        refine ⟨p, by simpa [bind] using h1, h2, ?_⟩
        simp only [List.getElem?_nil] at h3 ⊢
        rw [hn] at h3
        exact ⟨by omega, h3.2⟩
    | cons a as =>
      have haa := ha a List.mem_cons_self
      -- the first parameter
      have hr : ∃ st1 p0, (if a.temp then (st, a.addr) else transform st a.addr t) = (st1, p0) ∧
          st.next ≤ st1.next ∧ p0 < st1.next ∧ (∀ z, z < st.next → st1.heap z = st.heap z) ∧
          (if a.temp ∨ t = true then p0 = a.addr else st.next ≤ p0 ∧ st1.heap p0 = st.heap a.addr) := by
        by_cases hc : a.temp = true ∨ t = true
        · refine ⟨st, a.addr, ?_, Nat.le_refl _, haa, fun _ _ => rfl, by rw [if_pos hc]⟩
          rcases hc with hc | hc
          · rw [if_pos hc]
          · by_cases h1 : a.temp = true
            · rw [if_pos h1]
            · rw [if_neg h1, transform, if_pos hc]
        · refine ⟨(alloc st (st.heap a.addr)).1, st.next, ?_, Nat.le_succ _, Nat.lt_succ_self _, fun z hz => ?_, ?_⟩
          · rw [if_neg (fun e => hc (Or.inl e)), transform, if_neg (fun e => hc (Or.inr e))]; rfl
          · simp only [alloc]; rw [if_neg (by omega)]
          · rw [if_neg hc]; exact ⟨Nat.le_refl _, by simp [alloc]⟩
      obtain ⟨st1, p0, e, k1, k2, k3, k4⟩ := hr
      obtain ⟨g1, g2, g3, g4⟩ := ih as st1 (fun x hx => Nat.lt_of_lt_of_le (ha x (List.mem_cons_of_mem _ hx)) k1)
      have hb : bind st (t :: ts) (a :: as) = ((bind st1 ts as).1, p0 :: (bind st1 ts as).2) := by
        rw [bind]; simp only [e]
      rw [hb]
      refine ⟨Nat.le_trans k1 g1, fun z hz => by rw [g2 z (by omega), k3 z hz], by simp [g3], fun i u hu => ?_⟩
      cases i with
      | zero =>
        have hu' : t = u := by simpa using hu
        subst hu'
        refine ⟨p0, rfl, Nat.lt_of_lt_of_le k2 g1, ?_⟩
        simp only [List.getElem?_cons_zero]
        by_cases hc : a.temp = true ∨ t = true
        · rw [if_pos hc] at k4 ⊢; exact k4
        · rw [if_neg hc] at k4 ⊢; exact ⟨k4.1, by rw [g2 _ k2, k4.2]⟩
      | succ i =>
        obtain ⟨p, h1, h2, h3⟩ := g4 i u (by simpa using hu)
        refine ⟨p, by simpa using h1, h2, ?_⟩
        simp only [List.getElem?_cons_succ]
        cases hai : as[i]? with
        | none => rw [hai] at h3; exact ⟨Nat.le_trans k1 h3.1, h3.2⟩
        | some b =>
          rw [hai] at h3
          simp only at h3 ⊢
          have hbm : b ∈ as := List.mem_of_getElem? hai
          by_cases hc : b.temp = true ∨ u = true
          · rw [if_pos hc] at h3 ⊢; exact h3
          · rw [if_neg hc] at h3 ⊢
            exact ⟨Nat.le_trans k1 h3.1, by rw [h3.2, k3 _ (ha b (List.mem_cons_of_mem _ hbm))]⟩

/-- Which parameters refer: those at or behind the first `&`. -/
theorem argTypes_get (amps : List Bool) (b : Bool) (i : Nat) (hi : i < amps.length) :
    (argTypes b amps)[i]? = some (b || (amps.take (i + 1)).any id) := by
  induction amps generalizing b i with
  | nil => simp at hi
  | cons a l ih =>
    cases i with
    | zero => cases a <;> cases b <;> simp [argTypes]
    | succ i =>
      simp only [argTypes, List.getElem?_cons_succ]
      rw [ih _ i (by simpa using hi)]
      cases a <;> cases b <;> simp

theorem argTypes_len (amps : List Bool) (b : Bool) : (argTypes b amps).length = amps.length := by
  induction amps generalizing b with
  | nil => rfl
  | cons a l ih => simp [argTypes, ih]

/-- By value, for the parameters before the first `&`: the parameter begins with the contents of its argument, and
whatever is assigned to such parameters no variable of the caller changes.  (The caller's variables are the values
that are there and are not arguments only.) -/
theorem by_value_partial (st : St) (amps : List Bool) (args : List Arg) (ha : ∀ a ∈ args, a.addr < st.next)
    (k : Nat) (hk : ∀ i : Nat, i < k → amps[i]? ≠ some true) :
    (∀ (i : Nat) (a : Arg), i < k → i < amps.length → args[i]? = some a →
      ∃ p, (call st amps args).2[i]? = some p ∧ (call st amps args).1.heap p = st.heap a.addr) ∧
    ∀ body st', (∀ i ∈ dests body, i < k) → exec (call st amps args).2 (call st amps args).1 body = some st' →
      ∀ z, z < st.next → (∀ a ∈ args, a.temp = true → a.addr ≠ z) → st'.heap z = st.heap z := by
  have hty : ∀ i, i < k → i < amps.length → (argTypes false amps)[i]? = some false := by
    intro i hik hil
    rw [argTypes_get amps false i hil]
    have : (amps.take (i + 1)).any id = false := by
      rw [List.any_eq_false]
      intro x hx hxt
      obtain ⟨j, hj, e⟩ := List.mem_iff_getElem.1 hx
      rw [List.length_take] at hj
      rw [List.getElem_take] at e
      refine hk j (by omega) ?_
      rw [List.getElem?_eq_getElem (by omega), e]
      exact congrArg some hxt
    rw [this]; rfl
  obtain ⟨b1, b2, b3, b4⟩ := bind_spec (argTypes false amps) args st ha
  refine ⟨fun i a hik hil hai => ?_, fun body st' hd he z hz hzt => ?_⟩
  · obtain ⟨p, h1, h2, h3⟩ := b4 i false (hty i hik hil)
    refine ⟨p, h1, ?_⟩
    rw [hai] at h3
    simp only at h3
    by_cases hc : a.temp = true ∨ (false : Bool) = true
    · rw [if_pos hc] at h3; rw [h3]; exact b2 _ (ha a (List.mem_of_getElem? hai))
    · rw [if_neg hc] at h3; exact h3.2
  · rw [exec_keeps _ body _ st' z (Nat.lt_of_lt_of_le hz b1) he]
    · exact b2 z hz
    · intro i hi
      by_cases hil : i < amps.length
      · obtain ⟨p, h1, h2, h3⟩ := b4 i false (hty i (hd i hi) hil)
        show (bind st (argTypes false amps) args).2[i]? ≠ some z
        rw [h1]
        intro e
        have e := Option.some.inj e
        subst e
        cases hai : args[i]? with
        | none => rw [hai] at h3; omega
        | some a =>
          rw [hai] at h3
          simp only at h3
          by_cases hc : a.temp = true ∨ (false : Bool) = true
          · rw [if_pos hc] at h3
            rcases hc with hc | hc
            · exact hzt a (List.mem_of_getElem? hai) hc h3.symm
            · cases hc
          · rw [if_neg hc] at h3; omega
      · show (bind st (argTypes false amps) args).2[i]? ≠ some z
        rw [List.getElem?_eq_none (by rw [b3, argTypes_len]; omega)]
        intro e; cases e

/-- By reference, for a parameter with `&`: what is assigned to it is in the caller's variable. -/
theorem by_reference (st : St) (amps : List Bool) (args : List Arg) (ha : ∀ a ∈ args, a.addr < st.next)
    (i : Nat) (hi : amps[i]? = some true) (a : Arg) (hai : args[i]? = some a) (d : Data) :
    ∃ st', exec (call st amps args).2 (call st amps args).1 [.const i d] = some st' ∧ st'.heap a.addr = d ∧
      ∀ z, z < st.next → z ≠ a.addr → st'.heap z = st.heap z := by
  have hil : i < amps.length := (List.getElem?_eq_some_iff.1 hi).1
  have hty : (argTypes false amps)[i]? = some true := by
    rw [argTypes_get amps false i hil]
    have : (amps.take (i + 1)).any id = true := by
      rw [List.any_eq_true]
      refine ⟨true, ?_, rfl⟩
      rw [List.mem_iff_getElem?]
      exact ⟨i, by rw [List.getElem?_take, if_pos (Nat.lt_succ_self i)]; exact hi⟩
    rw [this]; rfl
  obtain ⟨b1, b2, b3, b4⟩ := bind_spec (argTypes false amps) args st ha
  obtain ⟨p, h1, h2, h3⟩ := b4 i true hty
  rw [hai] at h3
  simp only [or_true, if_true] at h3
  subst h3
  have hne : a.addr ≠ (bind st (argTypes false amps) args).1.next := by omega
  refine ⟨valueSet (alloc (call st amps args).1 d).1 a.addr (alloc (call st amps args).1 d).2, ?_, ?_, ?_⟩
  · simp only [exec, call, h1]
  · rw [(assign_partial _ _ _ (by exact hne)).1]
    simp [alloc]
  · intro z hz hza
    rw [valueSet_other _ _ _ _ hza]
    show (if z = (bind st (argTypes false amps) args).1.next then d else
      (bind st (argTypes false amps) args).1.heap z) = st.heap z
    rw [if_neg (by omega), b2 z hz]

/-- Refuted behind a parameter with `&`: a parameter without `&` changes the caller's variable all the same. -/
theorem by_value_refuted (st : St) (amps : List Bool) (args : List Arg) (ha : ∀ a ∈ args, a.addr < st.next)
    (j i : Nat) (hji : j < i) (hj : amps[j]? = some true) (hi : amps[i]? = some false) (a : Arg)
    (hai : args[i]? = some a) (d : Data) :
    ∃ st', exec (call st amps args).2 (call st amps args).1 [.const i d] = some st' ∧ st'.heap a.addr = d := by
  have hil : i < amps.length := (List.getElem?_eq_some_iff.1 hi).1
  have hty : (argTypes false amps)[i]? = some true := by
    rw [argTypes_get amps false i hil]
    have : (amps.take (i + 1)).any id = true := by
      rw [List.any_eq_true]
      refine ⟨true, ?_, rfl⟩
      rw [List.mem_iff_getElem?]
      exact ⟨j, by rw [List.getElem?_take, if_pos (by omega)]; exact hj⟩
    rw [this]; rfl
  obtain ⟨b1, b2, b3, b4⟩ := bind_spec (argTypes false amps) args st ha
  obtain ⟨p, h1, h2, h3⟩ := b4 i true hty
  rw [hai] at h3
  simp only [or_true, if_true] at h3
  subst h3
  have hne : a.addr ≠ (bind st (argTypes false amps) args).1.next := by omega
  refine ⟨valueSet (alloc (call st amps args).1 d).1 a.addr (alloc (call st amps args).1 d).2, ?_, ?_⟩
  · simp only [exec, call, h1]
  · rw [(assign_partial _ _ _ (by exact hne)).1]
    simp [alloc]

/-- Three variables 0, 1, 2 that contain 10, 11, 12. -/
def three : St := ⟨fun a => .int (10 + a), 3⟩

example : (do
    let r := call three [false, true] [⟨0, false⟩, ⟨1, false⟩]
    let st ← exec r.2 r.1 [.const 0 (.int 7), .const 1 (.int 8)]
    some (st.heap 0, st.heap 1)) = some (.int 10, .int 8) := by decide +kernel
example : (do
    let r := call three [true, false] [⟨0, false⟩, ⟨1, false⟩]
    let st ← exec r.2 r.1 [.const 1 (.int 8)]
    some (st.heap 0, st.heap 1)) = some (.int 10, .int 8) := by decide +kernel
-- a parameter that is assigned to itself by way of two references to one variable
example : (do
    let r := call three [true, true] [⟨0, false⟩, ⟨0, false⟩]
    let st ← exec r.2 r.1 [.copy 0 1]
    some (st.heap 0)) = some .nil := by decide +kernel

/-! ## Captured variables (C273) -/

theorem captures_len (l : List (Bool × Option Nat)) (b : Bool) (st : St) :
    (captures st b l).2.length = l.length := by
  induction l generalizing b st with
  | nil => rfl
  | cons x l ih => obtain ⟨amp, sym⟩ := x; cases sym <;> simp [captures, ih]

theorem captures_spec (l : List (Bool × Option Nat)) (b : Bool) (st : St)
    (ha : ∀ x ∈ l, ∀ a, x.2 = some a → a < st.next) :
    st.next ≤ (captures st b l).1.next ∧
    (∀ z, z < st.next → (captures st b l).1.heap z = st.heap z) ∧
    ∀ (i : Nat) (amp : Bool) (sym : Option Nat), l[i]? = some (amp, sym) → match sym with
      | none => (captures st b l).2[i]? = some none
      | some a => ∃ p, (captures st b l).2[i]? = some (some p) ∧ (captures st b l).1.heap p = st.heap a ∧
          (p = a ↔ b = true ∨ (l.take (i + 1)).any Prod.fst = true) := by
  induction l generalizing b st with
  | nil => exact ⟨Nat.le_refl _, fun _ _ => rfl, fun i amp sym h => by simp at h⟩
  | cons x l ih =>
    obtain ⟨amp0, sym0⟩ := x
    have hb : (if amp0 then true else b) = (amp0 || b) := by cases amp0 <;> rfl
    cases sym0 with
    | none =>
      obtain ⟨g1, g2, g3⟩ := ih (amp0 || b) st (fun y hy => ha y (List.mem_cons_of_mem _ hy))
      have hc : captures st b ((amp0, none) :: l) = ((captures st (amp0 || b) l).1, none :: (captures st (amp0 || b) l).2) := by
        simp only [captures, hb]
      rw [hc]
      refine ⟨g1, g2, fun i amp sym hi => ?_⟩
      cases i with
      | zero => simp at hi; obtain ⟨_, e⟩ := hi; subst e; rfl
      | succ i =>
        have := g3 i amp sym (by simpa using hi)
        cases sym with
        | none => simpa using this
        | some a =>
          obtain ⟨p, h1, h2, h3⟩ := this
          exact ⟨p, by simpa using h1, h2, by rw [h3]; cases amp0 <;> cases b <;> simp⟩
    | some a0 =>
      have ha0 := ha _ List.mem_cons_self a0 rfl
      have hr : ∃ st1 p0, transform st a0 (amp0 || b) = (st1, p0) ∧ st.next ≤ st1.next ∧ p0 < st1.next ∧
          (∀ z, z < st.next → st1.heap z = st.heap z) ∧ st1.heap p0 = st.heap a0 ∧
          (p0 = a0 ↔ (amp0 || b) = true) := by
        cases hab : (amp0 || b) with
        | true => exact ⟨st, a0, rfl, Nat.le_refl _, ha0, fun _ _ => rfl, rfl, by simp⟩
        | false =>
          refine ⟨_, st.next, rfl, Nat.le_succ _, Nat.lt_succ_self _, fun z hz => ?_, by simp [alloc], ?_⟩
          · simp only [alloc]; rw [if_neg (by omega)]
          · simp; omega
      obtain ⟨st1, p0, e, k1, k2, k3, k4, k5⟩ := hr
      obtain ⟨g1, g2, g3⟩ := ih (amp0 || b) st1
        (fun y hy a hya => Nat.lt_of_lt_of_le (ha y (List.mem_cons_of_mem _ hy) a hya) k1)
      have hc : captures st b ((amp0, some a0) :: l) =
          ((captures st1 (amp0 || b) l).1, some p0 :: (captures st1 (amp0 || b) l).2) := by
        simp only [captures, hb, e]
      rw [hc]
      refine ⟨Nat.le_trans k1 g1, fun z hz => by rw [g2 z (by omega), k3 z hz], fun i amp sym hi => ?_⟩
      cases i with
      | zero =>
        simp at hi; obtain ⟨_, e2⟩ := hi; subst e2
        refine ⟨p0, rfl, by rw [g2 p0 k2, k4], by rw [k5]; cases amp0 <;> cases b <;> simp⟩
      | succ i =>
        have hm := List.mem_of_getElem? (by simpa using hi : l[i]? = some (amp, sym))
        have := g3 i amp sym (by simpa using hi)
        cases sym with
        | none => simpa using this
        | some a =>
          obtain ⟨p, h1, h2, h3⟩ := this
          refine ⟨p, by simpa using h1, ?_, by rw [h3]; cases amp0 <;> cases b <;> simp⟩
          rw [h2, k3 a (ha _ (List.mem_cons_of_mem _ hm) a rfl)]

/-- A captured variable that is defined has the value it has when the function is defined; it is the same variable
exactly if it, or one before it, has `&`. -/
theorem captured_partial (st : St) (l : List (Bool × Option Nat)) (ha : ∀ x ∈ l, ∀ a, x.2 = some a → a < st.next)
    (i : Nat) (amp : Bool) (a : Nat) (hi : l[i]? = some (amp, some a)) :
    ∃ p, (captures st false l).2[i]? = some (some p) ∧ use (captures st false l).1 (some p) = some (st.heap a) ∧
      (p = a ↔ ∃ j ≤ i, (l[j]?).map Prod.fst = some true) := by
  obtain ⟨p, h1, h2, h3⟩ := (captures_spec l false st ha).2.2 i amp (some a) hi
  refine ⟨p, h1, by simp [use, h2], h3.trans ?_⟩
  rw [List.any_eq_true]
  constructor
  · rintro (e | ⟨x, hx, e⟩)
    · cases e
    · obtain ⟨j, hj⟩ := List.mem_iff_getElem?.1 hx
      rw [List.getElem?_take] at hj
      by_cases hji : j < i + 1
      · rw [if_pos hji] at hj; exact ⟨j, by omega, by rw [hj]; exact congrArg some e⟩
      · rw [if_neg hji] at hj; cases hj
  · rintro ⟨j, hji, e⟩
    cases hlj : l[j]? with
    | none => rw [hlj] at e; cases e
    | some x =>
      rw [hlj] at e
      exact Or.inr ⟨x, List.mem_iff_getElem?.2 ⟨j, by rw [List.getElem?_take, if_pos (by omega)]; exact hlj⟩,
        by simpa using e⟩

/-- Refuted for a variable that is not defined where the function is: it has no value at all, and every use of it
reads through a null pointer. -/
theorem captured_undefined (st : St) (l : List (Bool × Option Nat)) (ha : ∀ x ∈ l, ∀ a, x.2 = some a → a < st.next)
    (i : Nat) (amp : Bool) (hi : l[i]? = some (amp, none)) (st' : St) :
    ∃ v, (captures st false l).2[i]? = some v ∧ use st' v = none :=
  ⟨none, (captures_spec l false st ha).2.2 i amp none hi, rfl⟩

example : (captures three false [(false, some 0), (true, some 1), (false, some 2), (false, none)]).2 =
    [some 3, some 1, some 2, none] := by decide +kernel

end Verif.LangVar
