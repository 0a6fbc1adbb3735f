import Verif.LangObj
/-!
# Sets and objects are records with identity

The specification is a memory of places: a variable, or a member of an object given by the object's number, holds
data; what was never written is nil.  A new object has a number never used before.
-/
namespace Verif.LangObj

/-! ## Specification -/

/-- Where data is held. -/
inductive Loc where
  | var (x : Name)
  | mem (k : Nat) (m : Name)
  deriving DecidableEq

/-- The memory: data, the texts of the sets, and the number of the next object. -/
structure Mem where
  val : Loc → Data
  sets : Name → Option (List Decl)
  fresh : Nat

/-- At the begin. -/
def Mem.start : Mem := ⟨fun _ => .nil, fun _ => none, 0⟩

/-- The place an expression denotes, if it denotes one. -/
def locOf (M : Mem) : Place → Option Loc
  | .var x => if (M.sets x).isSome then none else some (.var x)
  | .mem p m =>
    match locOf M p with
    | none => none
    | some l =>
      match M.val l with
      | .obj k => some (.mem k m)
      | _ => none

/-- Data written. -/
def Mem.write (M : Mem) (l : Loc) (d : Data) : Mem := { M with val := fun x => if x = l then d else M.val x }

/-- What the text of a set says about a member: the last declaration counts. -/
def declared (body : List Decl) (m : Name) : Data :=
  match body.reverse.find? (fun d => decide (d.1 = m)) with
  | some (_, some k) => .func k
  | _ => .nil

/-- A new object with the members of the text. -/
def Mem.create (M : Mem) (body : List Decl) : Mem :=
  { M with
    val := fun l =>
      match l with
      | .mem k m => if k = M.fresh then declared body m else M.val l
      | _ => M.val l
    fresh := M.fresh + 1 }

/-- Which set a name gives, following strings. -/
inductive Names (M : Mem) : Name → Option (List Decl) → Prop where
  | set (s b) : M.sets s = some b → Names M s (some b)
  | str (s t r) : M.sets s = none → M.val (.var s) = .str t → Names M t r → Names M s r
  | none (s) : M.sets s = none → (∀ t, M.val (.var s) ≠ .str t) → Names M s none

/-- What a statement should do. -/
inductive Step : Mem → Stmt → Mem → Prop where
  | set (M s b) : Step M (.set s b)
      { M with sets := fun x => if x = s then some b else M.sets x, val := fun l => if l = .var s then .nil else M.val l }
  | assign (M p q l l') : locOf M p = some l → locOf M q = some l' → Step M (.assign p q) (M.write l (M.val l'))
  | lit (M p d l) : locOf M p = some l → Step M (.lit p d) (M.write l d)
  | newNil (M p n s l) : locOf M p = some l → Names M s none → Step M (.new p n s) (M.write l .nil)
  | newObj (M p n s l b) : locOf M p = some l → Names M s (some b) →
      Step M (.new p n s) ((M.create b).write l (.obj M.fresh))

/-- What a script should do. -/
inductive Steps : Mem → List Stmt → Mem → Prop where
  | nil (M) : Steps M [] M
  | cons (M s M1 l M2) : Step M s M1 → Steps M1 l M2 → Steps M (s :: l) M2

/-- The statement does not assign a place to itself, and writes no object by a literal. -/
def Fair (M : Mem) : Stmt → Prop
  | .assign p q => ∀ l, locOf M p = some l → locOf M q ≠ some l
  | .lit _ d => ∀ k, d ≠ .obj k
  | _ => True

/-- No statement of the script does. -/
def AllFair (M : Mem) (l : List Stmt) : Prop :=
  ∀ pre s post M1, l = pre ++ s :: post → Steps M pre M1 → Fair M1 s

/-! ## Invariants -/

/-- The address at a place. -/
def loc (st : St) : Loc → Option Nat
  | .var x => match find st.syms x with | some (.var a) => some a | _ => none
  | .mem k m => find (st.objs k) m

/-- The contents at a place. -/
def cont (st : St) (l : Loc) : Data :=
  match loc st l with
  | some a => st.heap a
  | none => .nil

structure Inv (st : St) : Prop where
  bound : ∀ l a, loc st l = some a → a < st.next
  inj : ∀ l l' a, loc st l = some a → loc st l' = some a → l = l'
  objs : ∀ a k, st.heap a = .obj k → k < st.onext
  empty : ∀ k m a, loc st (.mem k m) = some a → k < st.onext

def setOf (st : St) (s : Name) : Option (List Decl) :=
  match find st.syms s with | some (.set ms) => some ms | _ => none

structure Rel (st : St) (M : Mem) : Prop where
  inv : Inv st
  val : ∀ l, cont st l = M.val l
  sets : ∀ s, setOf st s = (M.sets s).map setBody
  fresh : st.onext = M.fresh

theorem find_filter (l : List (Name × Sym)) (n x : Name) (h : x ≠ n) :
    find (l.filter (fun y => !(y.1 == n))) x = find l x := by
  induction l with
  | nil => rfl
  | cons a l ih =>
    obtain ⟨m, b⟩ := a
    by_cases hm : m = n
    · subst hm
      simp only [List.filter, beq_self_eq_true, Bool.not_true, find, ih]
      rw [if_neg (fun e => h e.symm)]
    · have : (!(m == n)) = true := by simpa using hm
      simp only [List.filter, this, find, ih]

theorem find_join (l : List (Name × Sym)) (n : Name) (s : Sym) (x : Name) :
    find (join l n s) x = if x = n then some s else find l x := by
  unfold join
  rw [find]
  by_cases h : x = n
  · rw [if_pos h.symm, if_pos h]
  · rw [if_neg (fun e => h e.symm), if_neg h, find_filter l n x h]

theorem init_rel : Rel init Mem.start := by
  refine ⟨⟨?_, ?_, ?_, ?_⟩, ?_, ?_, rfl⟩
  · intro l a h; cases l <;> simp [loc, init, find] at h
  · intro l l' a h; cases l <;> simp [loc, init, find] at h
  · intro a k h; simp [init] at h
  · intro k m a h; simp [loc, init, find] at h
  · intro l; cases l <;> simp [cont, loc, init, find, Mem.start]
  · intro s; simp [setOf, init, find, Mem.start]

/-- A new nil value at a place that had none. -/
theorem bind_rel (st st' : St) (M : Mem) (l : Loc) (h : Rel st M)
    (h0 : loc st l = none)
    (h1 : ∀ l', loc st' l' = if l' = l then some st.next else loc st l')
    (h2 : st'.heap = fun x => if x = st.next then .nil else st.heap x)
    (h3 : st'.next = st.next + 1) (h4 : st'.onext = st.onext)
    (h5 : ∀ s, setOf st' s = setOf st s)
    (h6 : ∀ k m, l = .mem k m → k < st.onext) : Rel st' M := by
  obtain ⟨⟨b, i, o, e⟩, hv, hs, hf⟩ := h
  refine ⟨⟨?_, ?_, ?_, ?_⟩, ?_, ?_, ?_⟩
  · intro l' a hl
    rw [h1] at hl
    split at hl
    · injection hl with hl; omega
    · have := b _ _ hl; omega
  · intro l1 l2 a hl1 hl2
    rw [h1] at hl1 hl2
    split at hl1 <;> split at hl2
    · next e1 e2 => rw [e1, e2]
    · next e1 e2 => have := b _ _ hl2; injection hl1 with hl1; omega
    · next e1 e2 => have := b _ _ hl1; injection hl2 with hl2; omega
    · exact i _ _ _ hl1 hl2
  · intro a k hh
    rw [h2] at hh
    dsimp only at hh
    split at hh
    · cases hh
    · rw [h4]; exact o _ _ hh
  · intro k m a hl
    rw [h1] at hl
    rw [h4]
    split at hl
    · next e1 => exact h6 k m e1.symm
    · exact e _ _ _ hl
  · intro l'
    rw [← hv l']
    unfold cont
    rw [h1, h2]
    by_cases hl : l' = l
    · rw [if_pos hl, hl, h0]; dsimp only; rw [if_pos rfl]
    · rw [if_neg hl]
      cases hc : loc st l' with
      | none => rfl
      | some a =>
        have := b _ _ hc
        dsimp only
        rw [if_neg (by omega)]
  · intro s; rw [h5, hs]
  · rw [h4, hf]

/-- A value written at a place. -/
theorem write_rel (st : St) (M : Mem) (l : Loc) (a : Nat) (d : Data) (h : Rel st M) (ha : loc st l = some a)
    (hd : ∀ k, d = .obj k → k < st.onext) : Rel (put st a d) (M.write l d) := by
  obtain ⟨⟨b, i, o, e⟩, hv, hs, hf⟩ := h
  refine ⟨⟨b, i, ?_, e⟩, ?_, hs, hf⟩
  · intro a' k hh
    simp only [put] at hh
    split at hh
    · exact hd k hh
    · exact o _ _ hh
  · intro l'
    show (match loc st l' with | some a' => (put st a d).heap a' | none => .nil) = _
    simp only [Mem.write]
    by_cases hl : l' = l
    · rw [if_pos hl, hl, ha]; simp [put]
    · rw [if_neg hl, ← hv l']
      unfold cont
      cases hc : loc st l' with
      | none => rfl
      | some a' =>
        have : a' ≠ a := by
          intro he; subst he; exact hl (i _ _ _ hc ha)
        simp [put, this]

/-- A value at no place. -/
theorem alloc_rel (st : St) (M : Mem) (d : Data) (h : Rel st M) (hd : ∀ k, d = .obj k → k < st.onext) :
    Rel (alloc st d).1 M := by
  obtain ⟨⟨b, i, o, e⟩, hv, hs, hf⟩ := h
  refine ⟨⟨?_, i, ?_, e⟩, ?_, hs, hf⟩
  · intro l a hl
    have := b l a hl
    show a < st.next + 1
    omega
  · intro a' k hh
    simp only [alloc] at hh
    split at hh
    · exact hd k hh
    · exact o _ _ hh
  · intro l'
    rw [← hv l']
    show (match loc st l' with | some a' => (alloc st d).1.heap a' | none => .nil) = _
    unfold cont
    cases hc : loc st l' with
    | none => rfl
    | some a' =>
      have := b _ _ hc
      have : a' ≠ st.next := by omega
      simp [alloc, this]

theorem valueSet_eq (st : St) (a b : Nat) (h : b ≠ a) : valueSet st a b = put st a (st.heap b) := by
  unfold valueSet put
  dsimp only
  rw [if_neg h]
  congr 1
  funext x
  split <;> rfl

theorem addr_spec (p : Place) (st : St) (M : Mem) (h : Rel st M) :
    (addr st p = none ∧ locOf M p = none) ∨
    ∃ st1 a l, addr st p = some (st1, a) ∧ locOf M p = some l ∧ loc st1 l = some a ∧ Rel st1 M ∧
      (∀ l a, loc st l = some a → loc st1 l = some a) := by
  induction p with
  | var x =>
    have hs := h.sets x
    rw [addr, locOf]
    cases hf : find st.syms x with
    | none =>
      right
      rw [setOf, hf] at hs
      have hn : M.sets x = none := by
        cases hm : M.sets x with
        | none => rfl
        | some b => rw [hm] at hs; cases hs
      have h0 : loc st (.var x) = none := by rw [loc, hf]
      have h1 : ∀ l', loc (addVar (alloc st .nil).1 x st.next) l' =
          if l' = .var x then some st.next else loc st l' := by
        intro l'
        cases l' with
        | var y =>
          simp only [loc, addVar, alloc, find_join]
          by_cases hy : y = x
          · simp [hy]
          · simp [hy]
        | mem k m => simp [loc, addVar, alloc]
      refine ⟨_, _, .var x, rfl, by rw [hn]; rfl, ?_, ?_, ?_⟩
      · rw [show (alloc st Data.nil).2 = st.next from rfl, h1, if_pos rfl]
      · refine bind_rel st _ M (.var x) h h0 h1 rfl rfl rfl ?_ ?_
        · intro s
          simp only [setOf, addVar, alloc, find_join]
          by_cases hy : s = x
          · rw [if_pos hy, hy, hf]
          · rw [if_neg hy]
        · intro k m he; cases he
      · intro l a hl
        rw [show (alloc st Data.nil).2 = st.next from rfl, h1]
        rw [if_neg (by intro he; rw [he, h0] at hl; cases hl)]
        exact hl
    | some y =>
      cases y with
      | var a =>
        right
        rw [setOf, hf] at hs
        have hn : M.sets x = none := by
          cases hm : M.sets x with
          | none => rfl
          | some b => rw [hm] at hs; cases hs
        exact ⟨st, a, .var x, rfl, by rw [hn]; rfl, by rw [loc, hf], h, fun _ _ hl => hl⟩
      | set ms =>
        left
        rw [setOf, hf] at hs
        cases hm : M.sets x with
        | none => rw [hm] at hs; cases hs
        | some b => exact ⟨rfl, rfl⟩
  | mem p m ih =>
    rw [addr, locOf]
    rcases ih with ⟨h1, h2⟩ | ⟨st1, a, l, h1, h2, h3, h4, h5⟩
    · left; rw [h1, h2]; exact ⟨rfl, rfl⟩
    · rw [h1, h2]
      dsimp only
      have hv := h4.val l
      rw [cont, h3] at hv
      dsimp only at hv
      rw [← hv]
      cases hh : st1.heap a with
      | obj k =>
        right
        dsimp only
        have hk := h4.inv.objs a k hh
        cases hf : find (st1.objs k) m with
        | some b => exact ⟨st1, b, .mem k m, rfl, rfl, hf, h4, h5⟩
        | none =>
          have hl1 : ∀ l', loc (addMember (alloc st1 .nil).1 k m st1.next) l' =
              if l' = .mem k m then some st1.next else loc st1 l' := by
            intro l'
            cases l' with
            | var y => simp [loc, addMember, alloc]
            | mem j m' =>
              simp only [loc, addMember, alloc]
              by_cases hj : j = k
              · subst hj
                rw [if_pos rfl, find]
                by_cases hm : m' = m
                · subst hm; simp
                · rw [if_neg (fun e => hm e.symm), if_neg (by intro e; injection e with _ e; exact hm e)]
              · rw [if_neg hj, if_neg (by intro e; injection e with e; exact hj e)]
          refine ⟨_, _, .mem k m, rfl, rfl, ?_, ?_, ?_⟩
          · rw [show (alloc st1 Data.nil).2 = st1.next from rfl, hl1, if_pos rfl]
          · refine bind_rel st1 _ M (.mem k m) h4 hf hl1 rfl rfl rfl (fun _ => rfl) ?_
            intro k' m' he; injection he with he; subst he; exact hk
          · intro l' a' hl
            have hl := h5 _ _ hl
            rw [show (alloc st1 Data.nil).2 = st1.next from rfl, hl1]
            rw [if_neg (by intro he; rw [he, loc, hf] at hl; cases hl)]
            exact hl
      | nil => left; exact ⟨rfl, rfl⟩
      | int i => left; exact ⟨rfl, rfl⟩
      | str s => left; exact ⟨rfl, rfl⟩
      | func g => left; exact ⟨rfl, rfl⟩

theorem find_memberAdd (l : List Decl) (d : Decl) (m : Name) :
    find (memberAdd l d) m = if m = d.1 then some d.2 else find l m := by
  induction l with
  | nil =>
    obtain ⟨n, v⟩ := d
    simp only [memberAdd, find]
    by_cases h : m = n
    · simp [h]
    · rw [if_neg (fun e => h e.symm), if_neg h]
  | cons e l ih =>
    obtain ⟨n, v⟩ := d
    obtain ⟨n', v'⟩ := e
    simp only [memberAdd]
    by_cases hn : n' = n
    · subst hn
      simp only [if_true, find]
      by_cases hm : n' = m
      · subst hm; simp
      · rw [if_neg hm, if_neg hm, if_neg (fun e => hm e.symm)]
    · rw [if_neg hn, find, ih, find]
      dsimp only
      by_cases hm : n' = m
      · subst hm
        rw [if_pos rfl, if_pos rfl, if_neg hn]
      · rw [if_neg hm, if_neg hm]

theorem find_fold (body l : List Decl) (m : Name) :
    find (body.foldl memberAdd l) m =
      match body.reverse.find? (fun d => decide (d.1 = m)) with
      | some d => some d.2
      | none => find l m := by
  induction body generalizing l with
  | nil => rfl
  | cons d body ih =>
    rw [List.foldl, ih, List.reverse_cons, List.find?_append]
    cases body.reverse.find? (fun d => decide (d.1 = m)) with
    | some e => rfl
    | none =>
      simp only [Option.none_or, List.find?]
      rw [find_memberAdd]
      by_cases hm : m = d.1
      · simp [hm]
      · rw [if_neg hm]
        have : decide (d.1 = m) = false := by simpa using fun e => hm e.symm
        rw [this]

theorem declared_eq (body : List Decl) (m : Name) :
    declared body m = match find (setBody body) m with | some v => declData v | none => .nil := by
  unfold declared setBody
  rw [find_fold]
  cases body.reverse.find? (fun d => decide (d.1 = m)) with
  | none => rfl
  | some d => obtain ⟨n, v⟩ := d; cases v <;> rfl

theorem copy_spec (ms : List Decl) (st : St) :
    (copy st ms).1.objs = st.objs ∧ (copy st ms).1.onext = st.onext ∧ (copy st ms).1.syms = st.syms ∧
    st.next ≤ (copy st ms).1.next ∧ (∀ a < st.next, (copy st ms).1.heap a = st.heap a) ∧
    (∀ a k, (copy st ms).1.heap a = .obj k → st.heap a = .obj k) ∧
    (∀ m, (match find (copy st ms).2 m with | some a => (copy st ms).1.heap a | none => .nil) =
      match find ms m with | some v => declData v | none => .nil) ∧
    (∀ m a, find (copy st ms).2 m = some a → st.next ≤ a ∧ a < (copy st ms).1.next) ∧
    (∀ m m' a, find (copy st ms).2 m = some a → find (copy st ms).2 m' = some a → m = m') := by
  induction ms generalizing st with
  | nil =>
    refine ⟨rfl, rfl, rfl, Nat.le_refl _, fun _ _ => rfl, fun _ _ h => h, fun _ => rfl, ?_, ?_⟩
    · intro m a h; cases h
    · intro m m' a h; cases h
  | cons d l ih =>
    obtain ⟨i1, i2, i3, i4, i5, i6, i7, i8, i9⟩ := ih (alloc st (declData d.2)).1
    have hn : (alloc st (declData d.2)).1.next = st.next + 1 := rfl
    have hh : (alloc st (declData d.2)).1.heap = fun x => if x = st.next then declData d.2 else st.heap x := rfl
    rw [hn] at i4 i5 i8
    simp only [copy]
    refine ⟨i1, i2, i3, by omega, ?_, ?_, ?_, ?_, ?_⟩
    · intro a ha
      rw [i5 a (by omega), hh]
      dsimp only
      rw [if_neg (by omega)]
    · intro a k h
      have := i6 a k h
      rw [hh] at this
      dsimp only at this
      split at this
      · cases hd : d.2 with
        | none => rw [hd] at this; cases this
        | some g => rw [hd] at this; cases this
      · exact this
    · intro m
      obtain ⟨n, v⟩ := d
      simp only [find]
      by_cases hm : n = m
      · rw [if_pos hm, if_pos hm]
        dsimp only
        rw [i5 _ (by show st.next < _; omega), hh]
        show (if st.next = st.next then _ else _) = _
        rw [if_pos rfl]
      · rw [if_neg hm, if_neg hm]; exact i7 m
    · intro m a h
      rw [find] at h
      split at h
      · injection h with h
        rw [← h]
        show st.next ≤ st.next ∧ st.next < _
        omega
      · have := i8 _ _ h; omega
    · intro m m' a h h'
      rw [find] at h h'
      split at h <;> split at h'
      · next e1 e2 => rw [← e1, ← e2]
      · have := i8 _ _ h'
        injection h with h
        have hx : st.next = a := h
        omega
      · have := i8 _ _ h
        injection h' with h'
        have hx : st.next = a := h'
        omega
      · exact i9 _ _ _ h h'

theorem newObj_rel (st : St) (M : Mem) (body : List Decl) (h : Rel st M) :
    Rel (newObj st (setBody body)).1 (M.create body) ∧ (newObj st (setBody body)).2 = M.fresh ∧
    (newObj st (setBody body)).1.onext = M.fresh + 1 ∧
    (∀ l a, loc st l = some a → loc (newObj st (setBody body)).1 l = some a) := by
  obtain ⟨⟨b, i, o, e⟩, hv, hs, hf⟩ := h
  obtain ⟨i1, i2, i3, i4, i5, i6, i7, i8, i9⟩ := copy_spec (setBody body) st
  have hloc : ∀ l, loc (newObj st (setBody body)).1 l =
      match l with
      | .mem k m => if k = st.onext then find (copy st (setBody body)).2 m else loc st l
      | .var _ => loc st l := by
    intro l
    cases l with
    | var x => simp only [loc, newObj, i3]
    | mem k m =>
      simp only [loc, newObj, i2, i1]
      split <;> rfl
  have hold : ∀ l a, loc st l = some a → loc (newObj st (setBody body)).1 l = some a := by
    intro l a hl
    rw [hloc]
    cases l with
    | var x => exact hl
    | mem k m =>
      dsimp only
      have := e _ _ _ hl
      rw [if_neg (by omega)]; exact hl
  refine ⟨⟨⟨?_, ?_, ?_, ?_⟩, ?_, ?_, ?_⟩, ?_, ?_, hold⟩
  · intro l a hl
    rw [hloc] at hl
    show a < (copy st (setBody body)).1.next
    cases l with
    | var x => have := b _ _ hl; omega
    | mem k m =>
      dsimp only at hl
      split at hl
      · exact (i8 _ _ hl).2
      · have := b _ _ hl; omega
  · intro l l' a hl hl'
    rw [hloc] at hl hl'
    cases l with
    | var x =>
      cases l' with
      | var y => exact i _ _ _ hl hl'
      | mem k m =>
        dsimp only at hl hl'
        split at hl'
        · have := b _ _ hl; have := i8 _ _ hl'; omega
        · exact i _ _ _ hl hl'
    | mem k m =>
      cases l' with
      | var y =>
        dsimp only at hl hl'
        split at hl
        · have := b _ _ hl'; have := i8 _ _ hl; omega
        · exact i _ _ _ hl hl'
      | mem k' m' =>
        dsimp only at hl hl'
        split at hl <;> split at hl'
        · next e1 e2 => rw [e1, e2, i9 _ _ _ hl hl']
        · have := b _ _ hl'; have := i8 _ _ hl; omega
        · have := b _ _ hl; have := i8 _ _ hl'; omega
        · exact i _ _ _ hl hl'
  · intro a k hh
    have := o _ _ (i6 a k hh)
    show k < (copy st (setBody body)).1.onext + 1
    omega
  · intro k m a hl
    rw [hloc] at hl
    show k < (copy st (setBody body)).1.onext + 1
    dsimp only at hl
    split at hl
    · omega
    · have := e _ _ _ hl; omega
  · intro l
    unfold cont
    rw [hloc]
    show (match _ with | some a => (copy st (setBody body)).1.heap a | none => .nil) = _
    have hvl : (match loc st l with | some a => (copy st (setBody body)).1.heap a | none => .nil) = M.val l := by
      rw [← hv l]
      unfold cont
      cases hc : loc st l with
      | none => rfl
      | some a => exact i5 a (b _ _ hc)
    cases l with
    | var x => exact hvl
    | mem k m =>
      simp only [Mem.create]
      rw [hf]
      by_cases hk : k = M.fresh
      · rw [if_pos hk, if_pos hk, declared_eq]; exact i7 m
      · rw [if_neg hk, if_neg hk]; exact hvl
  · intro s
    show setOf _ s = (M.sets s).map setBody
    rw [← hs s]
    simp only [setOf, newObj, i3]
  · show (copy st (setBody body)).1.onext + 1 = M.fresh + 1
    rw [i2, hf]
  · show (copy st (setBody body)).1.onext = M.fresh
    rw [i2, hf]
  · show (copy st (setBody body)).1.onext + 1 = M.fresh + 1
    rw [i2, hf]

theorem resolve_spec (st : St) (M : Mem) (h : Rel st M) (n : Nat) (s : Name) (r : Option (List Decl))
    (hr : resolve st n s = some r) : ∃ b, Names M s b ∧ r = b.map setBody := by
  induction n generalizing s with
  | zero => cases hr
  | succ n ih =>
    have hs := h.sets s
    have hv := h.val (.var s)
    rw [resolve] at hr
    rw [setOf] at hs
    rw [cont, loc] at hv
    cases hf : find st.syms s with
    | none =>
      rw [hf] at hr hs hv
      injection hr with hr
      have hn : M.sets s = none := by
        cases hm : M.sets s with
        | none => rfl
        | some b => rw [hm] at hs; cases hs
      exact ⟨none, .none s hn (by intro t e; rw [e] at hv; cases hv), hr.symm⟩
    | some y =>
      rw [hf] at hr hs hv
      cases y with
      | set ms =>
        injection hr with hr
        cases hm : M.sets s with
        | none => rw [hm] at hs; cases hs
        | some b =>
          rw [hm] at hs
          injection hs with hs
          exact ⟨some b, .set s b hm, by rw [← hr, hs]; rfl⟩
      | var a =>
        have hn : M.sets s = none := by
          cases hm : M.sets s with
          | none => rfl
          | some b => rw [hm] at hs; cases hs
        dsimp only at hr hv
        cases hh : st.heap a with
        | str t =>
          rw [hh] at hr hv
          obtain ⟨b, hb, e⟩ := ih t hr
          exact ⟨b, .str s t b hn hv.symm hb, e⟩
        | nil => rw [hh] at hr hv; injection hr with hr; exact ⟨none, .none s hn (by intro t e; rw [e] at hv; cases hv), hr.symm⟩
        | int j => rw [hh] at hr hv; injection hr with hr; exact ⟨none, .none s hn (by intro t e; rw [e] at hv; cases hv), hr.symm⟩
        | func j => rw [hh] at hr hv; injection hr with hr; exact ⟨none, .none s hn (by intro t e; rw [e] at hv; cases hv), hr.symm⟩
        | obj j => rw [hh] at hr hv; injection hr with hr; exact ⟨none, .none s hn (by intro t e; rw [e] at hv; cases hv), hr.symm⟩

/-- A temporary value assigned. -/
theorem temp_rel (st : St) (M : Mem) (l : Loc) (a : Nat) (d : Data) (h : Rel st M) (ha : loc st l = some a)
    (hd : ∀ k, d = .obj k → k < st.onext) :
    Rel (valueSet (alloc st d).1 a (alloc st d).2) (M.write l d) := by
  have hb := h.inv.bound l a ha
  have hne : (alloc st d).2 ≠ a := by show st.next ≠ a; omega
  rw [valueSet_eq _ _ _ hne]
  have hd' : (alloc st d).1.heap (alloc st d).2 = d := by simp [alloc]
  rw [hd']
  exact write_rel _ M l a d (alloc_rel st M d h hd) ha hd

theorem exec_step (st st' : St) (M : Mem) (s : Stmt) (h : Rel st M) (hf : Fair M s) (he : exec st s = some st') :
    ∃ M', Step M s M' ∧ Rel st' M' := by
  cases s with
  | set s b =>
    rw [exec] at he
    injection he with he
    subst he
    refine ⟨_, .set M s b, ?_⟩
    have hloc : ∀ l, loc { st with syms := join st.syms s (.set (setBody b)) } l =
        if l = .var s then none else loc st l := by
      intro l
      cases l with
      | var x =>
        simp only [loc, find_join]
        by_cases hx : x = s
        · simp [hx]
        · simp [hx]
      | mem k m => simp [loc]
    obtain ⟨⟨b1, i, o, e⟩, hv, hs, hfr⟩ := h
    refine ⟨⟨?_, ?_, o, ?_⟩, ?_, ?_, hfr⟩
    · intro l a hl
      rw [hloc] at hl
      split at hl
      · cases hl
      · exact b1 _ _ hl
    · intro l l' a hl hl'
      rw [hloc] at hl hl'
      split at hl
      · cases hl
      · split at hl'
        · cases hl'
        · exact i _ _ _ hl hl'
    · intro k m a hl
      rw [hloc, if_neg (by intro e; cases e)] at hl
      exact e _ _ _ hl
    · intro l
      unfold cont
      rw [hloc]
      dsimp only
      by_cases hl : l = .var s
      · rw [if_pos hl, if_pos hl]
      · rw [if_neg hl, if_neg hl, ← hv l]; rfl
    · intro x
      simp only [setOf, find_join]
      by_cases hx : x = s
      · rw [if_pos hx, if_pos hx]; rfl
      · rw [if_neg hx, if_neg hx]; exact hs x
  | assign p q =>
    rw [exec] at he
    rcases addr_spec p st M h with ⟨h1, _⟩ | ⟨st1, a, l, h1, h2, h3, h4, _⟩
    · rw [h1] at he; cases he
    · rw [h1] at he
      dsimp only at he
      rcases addr_spec q st1 M h4 with ⟨g1, _⟩ | ⟨st2, b, l', g1, g2, g3, g4, g5⟩
      · rw [g1] at he; cases he
      · rw [g1] at he
        injection he with he
        subst he
        have hl := g5 _ _ h3
        have hne : b ≠ a := by
          intro e
          subst e
          have := g4.inv.inj _ _ _ hl g3
          subst this
          exact hf _ h2 g2
        have hc := g4.val l'
        rw [cont, g3] at hc
        dsimp only at hc
        refine ⟨_, .assign M p q l l' h2 g2, ?_⟩
        rw [valueSet_eq _ _ _ hne, hc]
        exact write_rel st2 M l a _ g4 hl (fun k hk => g4.inv.objs b k (hc.trans hk))
  | lit p d =>
    rw [exec] at he
    rcases addr_spec p st M h with ⟨h1, _⟩ | ⟨st1, a, l, h1, h2, h3, h4, _⟩
    · rw [h1] at he; cases he
    · rw [h1] at he
      injection he with he
      subst he
      exact ⟨_, .lit M p d l h2, temp_rel st1 M l a d h4 h3 (fun k hk => absurd hk (hf k))⟩
  | new p n s =>
    rw [exec] at he
    rcases addr_spec p st M h with ⟨h1, _⟩ | ⟨st1, a, l, h1, h2, h3, h4, _⟩
    · rw [h1] at he; cases he
    · rw [h1] at he
      dsimp only at he
      cases hr : resolve st1 n s with
      | none => rw [hr] at he; cases he
      | some r =>
        obtain ⟨b, hb, e⟩ := resolve_spec st1 M h4 n s r hr
        rw [hr, e] at he
        cases b with
        | none =>
          injection he with he
          subst he
          exact ⟨_, .newNil M p n s l h2 hb, temp_rel st1 M l a .nil h4 h3 (fun k hk => by cases hk)⟩
        | some b =>
          injection he with he
          subst he
          obtain ⟨r1, r2, r3, r4⟩ := newObj_rel st1 M b h4
          refine ⟨_, .newObj M p n s l b h2 hb, ?_⟩
          have := temp_rel _ _ l a (.obj (newObj st1 (setBody b)).2) r1 (r4 _ _ h3)
            (fun k hk => by injection hk with hk; omega)
          rw [r2] at this ⊢
          exact this

/-! ## Theorems -/

/-- **C298**: a script does what the memory of places says; objects are records, their members are places of their own,
and a new object has exactly the members its set declares.  Missing: places assigned to themselves. -/
theorem objects_partial (l : List Stmt) (st st' : St) (M : Mem) (h : Rel st M) (hf : AllFair M l)
    (hr : run st l = some st') : ∃ M', Steps M l M' ∧ Rel st' M' := by
  induction l generalizing st M with
  | nil =>
    rw [run] at hr
    injection hr with hr
    subst hr
    exact ⟨M, .nil M, h⟩
  | cons s l ih =>
    rw [run] at hr
    cases he : exec st s with
    | none => rw [he] at hr; cases hr
    | some st1 =>
      rw [he] at hr
      obtain ⟨M1, h1, h2⟩ := exec_step st st1 M s h (hf [] s l M rfl (.nil M)) he
      have hf1 : AllFair M1 l := by
        intro pre s' post M2 e hs
        exact hf (s :: pre) s' post M2 (by rw [e]; rfl) (.cons M s M1 pre M2 h1 hs)
      obtain ⟨M2, h3, h4⟩ := ih st1 M1 h2 hf1 hr
      exact ⟨M2, .cons M s M1 l M2 h1 h3, h4⟩

/-- The same from the begin, in terms of what the places hold afterwards. -/
theorem script_partial (l : List Stmt) (st : St) (hf : AllFair Mem.start l) (hr : run init l = some st) :
    ∃ M, Steps Mem.start l M ∧ (∀ x, cont st x = M.val x) := by
  obtain ⟨M, h1, h2⟩ := objects_partial l init st Mem.start init_rel hf hr
  exact ⟨M, h1, h2.val⟩

/-- A statement is refused only when one of its places is a set or a property of something without properties. -/
theorem refused (st : St) (M : Mem) (h : Rel st M) (p q : Place) :
    exec st (.assign p q) = none ↔ locOf M p = none ∨ locOf M q = none := by
  rw [exec]
  rcases addr_spec p st M h with ⟨h1, h2⟩ | ⟨st1, a, l, h1, h2, h3, h4, _⟩
  · rw [h1]; exact ⟨fun _ => .inl h2, fun _ => rfl⟩
  · rw [h1]
    dsimp only
    rcases addr_spec q st1 M h4 with ⟨g1, g2⟩ | ⟨st2, b, l', g1, g2, g3, g4, g5⟩
    · rw [g1]; exact ⟨fun _ => .inr g2, fun _ => rfl⟩
    · rw [g1, h2, g2]; simp

/-- No place holds an object that has not been made. -/
theorem fresh_object (st : St) (M : Mem) (h : Rel st M) (x : Loc) (k : Nat) (hk : M.val x = .obj k) :
    k < M.fresh := by
  have := h.val x
  rw [hk, cont] at this
  cases hc : loc st x with
  | none => rw [hc] at this; cases this
  | some a => rw [hc] at this; rw [← h.fresh]; exact h.inv.objs a k this

/-- **C299**: after `p = $s` with a set, the object is equal to no object any other place holds, its members are those
the set declares, and neither the members of the other objects nor the other variables are changed. -/
theorem new_object (st st' : St) (M : Mem) (h : Rel st M) (p : Place) (n : Nat) (s : Name) (lp : Loc) (b : List Decl)
    (hp : locOf M p = some lp) (hs : M.sets s = some b) (he : exec st (.new p n s) = some st') :
    (∀ x, x ≠ lp → equal (cont st' lp) (cont st' x) = false) ∧
    equal (cont st' lp) (cont st' lp) = true ∧
    (∃ k, cont st' lp = .obj k ∧ ∀ m, cont st' (.mem k m) = declared b m) ∧
    (∀ x, x ≠ lp → (∀ k m, cont st' lp = .obj k → x ≠ .mem k m) → cont st' x = cont st x) := by
  obtain ⟨M', h1, h2⟩ := exec_step st st' M (.new p n s) h trivial he
  have hM : M' = (M.create b).write lp (.obj M.fresh) := by
    cases h1 with
    | newNil _ _ _ l g1 g2 =>
      cases g2 with
      | str _ t _ e => rw [hs] at e; cases e
      | none _ e => rw [hs] at e; cases e
    | newObj _ _ _ l b' g1 g2 =>
      rw [hp] at g1
      injection g1 with g1
      cases g2 with
      | str _ t _ e => rw [hs] at e; cases e
      | set _ _ e => rw [hs] at e; injection e with e; rw [g1, e]
  have hlp : ∀ k m, lp = .mem k m → k < M.fresh := by
    intro k m e
    cases p with
    | var x =>
      rw [locOf] at hp
      split at hp
      · cases hp
      · injection hp with hp; rw [← hp] at e; cases e
    | mem p m' =>
      rw [locOf] at hp
      split at hp
      · cases hp
      · next l' hl' =>
        cases hv : M.val l' with
        | obj k' =>
          rw [hv] at hp
          injection hp with hp
          rw [e] at hp
          injection hp with hp
          rw [← hp]; exact fresh_object st M h l' k' hv
        | nil => rw [hv] at hp; cases hp
        | int i => rw [hv] at hp; cases hp
        | str i => rw [hv] at hp; cases hp
        | func i => rw [hv] at hp; cases hp
  have hvlp : cont st' lp = .obj M.fresh := by rw [h2.val, hM]; simp [Mem.write]
  have hdecl : ∀ m k, declared b m ≠ .obj k := by
    intro m k
    unfold declared
    split <;> (intro e; cases e)
  refine ⟨?_, ?_, ⟨M.fresh, hvlp, ?_⟩, ?_⟩
  · intro x hx
    rw [hvlp, h2.val, hM]
    simp only [Mem.write, hx, if_false]
    cases hc : (M.create b).val x with
    | obj k =>
      cases x with
      | var y =>
        have := fresh_object st M h (.var y) k hc
        simp only [equal, beq_eq_false_iff_ne]; omega
      | mem j m =>
        simp only [Mem.create] at hc
        split at hc
        · exact absurd hc (hdecl m k)
        · have := fresh_object st M h (.mem j m) k hc
          simp only [equal, beq_eq_false_iff_ne]; omega
    | nil => rfl
    | int i => rfl
    | str i => rfl
    | func i => rfl
  · rw [hvlp]; simp [equal]
  · intro m
    rw [h2.val, hM]
    have : Loc.mem M.fresh m ≠ lp := by
      intro e; have := hlp _ _ e.symm; omega
    simp [Mem.write, this, Mem.create]
  · intro x hx hk
    rw [h2.val, hM, h.val]
    simp only [Mem.write, hx, if_false]
    cases x with
    | var y => rfl
    | mem j m =>
      simp only [Mem.create]
      split
      · next e => exact absurd rfl (hk j m (by rw [hvlp, e]))
      · rfl

/-- **C300**: after `p = q` with an object, both places give the same members: each place of a property of one is the
place of the property of the other. -/
theorem shared (M M' : Mem) (p q : Place) (l l' : Loc) (hp : locOf M p = some l) (hq : locOf M q = some l')
    (hs : Step M (.assign p q) M') (hpx : locOf M' p = some l) (hqx : locOf M' q = some l')
    (m : Name) : locOf M' (.mem p m) = locOf M' (.mem q m) := by
  cases hs with
  | assign _ _ x x' g1 g2 =>
    rw [hp] at g1; rw [hq] at g2
    injection g1 with g1; injection g2 with g2
    subst g1 g2
    rw [locOf, locOf, hpx, hqx]
    simp only [Mem.write, if_true]
    by_cases e : l' = l
    · rw [if_pos e]
    · rw [if_neg e]

/-- After `x = y; x.m = d;` with an object in `y`, `y.m` is `d`. -/
theorem seen (st st1 st2 : St) (M : Mem) (h : Rel st M) (x y m : Name) (d : Data) (k : Nat) (hd : ∀ j, d ≠ .obj j)
    (hy : M.val (.var y) = .obj k) (hxy : x ≠ y) (h1 : exec st (.assign (.var x) (.var y)) = some st1)
    (h2 : exec st1 (.lit (.mem (.var x) m) d) = some st2) :
    cont st2 (.var y) = .obj k ∧ cont st2 (.var x) = .obj k ∧ cont st2 (.mem k m) = d := by
  have hne : Loc.var x ≠ Loc.var y := by intro e; injection e with e; exact hxy e
  have hl : ∀ (M : Mem) (z : Name) l, locOf M (.var z) = some l → l = .var z := by
    intro M z l e
    rw [locOf] at e
    split at e
    · cases e
    · injection e with e; exact e.symm
  obtain ⟨M1, a1, r1⟩ := exec_step st st1 M _ h
    (show Fair M (.assign (.var x) (.var y)) from fun l e e' => hne ((hl _ _ _ e).symm.trans (hl _ _ _ e'))) h1
  obtain ⟨M2, a2, r2⟩ := exec_step st1 st2 M1 _ r1 (show Fair M1 (.lit (.mem (.var x) m) d) from hd) h2
  cases a1 with
  | assign _ _ l l' g1 g2 =>
    have e1 := hl _ _ _ g1
    have e2 := hl _ _ _ g2
    subst e1 e2
    cases a2 with
    | lit _ _ l g3 =>
      rw [locOf] at g3
      split at g3
      · cases g3
      · next l1 hl1 =>
        have e3 := hl _ _ _ hl1
        subst e3
        have hv : (M.write (.var x) (M.val (.var y))).val (.var x) = .obj k := by simp [Mem.write, hy]
        rw [hv] at g3
        injection g3 with g3
        subst g3
        rw [r2.val, r2.val, r2.val]
        simp [Mem.write, hy]

/-- Equality of objects is identity: it holds exactly if a member written through one is seen through the other. -/
theorem equal_iff (M : Mem) (p q : Place) (l l' : Loc) (j k : Nat) (hp : locOf M p = some l) (hq : locOf M q = some l')
    (hj : M.val l = .obj j) (hk : M.val l' = .obj k) (m : Name) :
    (equal (M.val l) (M.val l') = true ↔ locOf M (.mem p m) = locOf M (.mem q m)) ∧
    nonequal (M.val l) (M.val l') = !equal (M.val l) (M.val l') := by
  rw [locOf, locOf, hp, hq, hj, hk]
  constructor
  · simp only [equal, hj, hk, beq_iff_eq, Option.some.injEq, Loc.mem.injEq, and_true]
  · simp [equal, nonequal]

/-! ## Methods -/

/-- Where the name of a method leads: to the member of this name, or if there is none the variable; strings lead on. -/
inductive Leads (M : Mem) (has : Name → Prop) (k : Nat) : Name → Nat → Prop where
  | func (f g) : has f → M.val (.mem k f) = .func g → Leads M has k f g
  | str (f t g) : has f → M.val (.mem k f) = .str t → Leads M has k t g → Leads M has k f g
  | alias (f t g) : ¬ has f → M.val (.var f) = .str t → Leads M has k t g → Leads M has k f g

/-- **C301**: a call of a method calls the function its name leads to, and is refused or does not end if it leads to
none. -/
theorem method_partial (st : St) (M : Mem) (h : Rel st M) (k : Nat) (f : Name) (g : Nat) :
    (∃ n, method st k n f = some (some g)) ↔
      Leads M (fun m => (find (st.objs k) m).isSome) k f g := by
  constructor
  · rintro ⟨n, hn⟩
    induction n generalizing f with
    | zero => cases hn
    | succ n ih =>
      rw [method] at hn
      have hv := h.val (.mem k f)
      have hw := h.val (.var f)
      rw [cont, loc] at hv
      rw [cont, loc] at hw
      cases hc : find (st.objs k) f with
      | some a =>
        rw [hc] at hn hv
        dsimp only at hn hv
        have hh : (find (st.objs k) f).isSome := by rw [hc]; rfl
        cases ha : st.heap a with
        | func g' =>
          rw [ha] at hn hv
          injection hn with hn
          injection hn with hn
          subst hn
          exact .func f _ hh hv.symm
        | str t => rw [ha] at hn hv; exact .str f t g hh hv.symm (ih t hn)
        | nil => rw [ha] at hn; cases hn
        | int i => rw [ha] at hn; cases hn
        | obj i => rw [ha] at hn; cases hn
      | none =>
        rw [hc] at hn
        dsimp only at hn
        have hh : ¬ (find (st.objs k) f).isSome := by rw [hc]; exact fun e => by cases e
        cases hs : find st.syms f with
        | none => rw [hs] at hn; cases hn
        | some y =>
          rw [hs] at hn hw
          cases y with
          | set ms => cases hn
          | var a =>
            dsimp only at hn hw
            cases ha : st.heap a with
            | str t => rw [ha] at hn hw; exact .alias f t g hh hw.symm (ih t hn)
            | nil => rw [ha] at hn; cases hn
            | int i => rw [ha] at hn; cases hn
            | obj i => rw [ha] at hn; cases hn
            | func i => rw [ha] at hn; cases hn
  · intro hl
    induction hl with
    | func f g hh hv =>
      refine ⟨1, ?_⟩
      have hx := h.val (.mem k f)
      rw [hv, cont, loc] at hx
      rw [method]
      cases hc : find (st.objs k) f with
      | none => rw [hc] at hh; cases hh
      | some a => rw [hc] at hx; dsimp only at hx ⊢; rw [hx]
    | str f t g hh hv _ ih =>
      obtain ⟨n, ih⟩ := ih
      refine ⟨n + 1, ?_⟩
      have hx := h.val (.mem k f)
      rw [hv, cont, loc] at hx
      rw [method]
      cases hc : find (st.objs k) f with
      | none => rw [hc] at hh; cases hh
      | some a => rw [hc] at hx; dsimp only at hx ⊢; rw [hx]; exact ih
    | alias f t g hh hv _ ih =>
      obtain ⟨n, ih⟩ := ih
      refine ⟨n + 1, ?_⟩
      have hx := h.val (.var f)
      rw [hv, cont, loc] at hx
      rw [method]
      cases hc : find (st.objs k) f with
      | some a => rw [hc] at hh; exact absurd rfl hh
      | none =>
        dsimp only
        cases hs : find st.syms f with
        | none => rw [hs] at hx; cases hx
        | some y =>
          rw [hs] at hx
          cases y with
          | set ms => cases hx
          | var a => dsimp only at hx ⊢; rw [hx]; exact ih

/-- Refuted: a member, or without a member a variable, that holds its own name makes the call never return. -/
theorem method_hangs (st : St) (M : Mem) (h : Rel st M) (k : Nat) (f : Name)
    (hf : M.val (.mem k f) = .str f ∨ (find (st.objs k) f = none ∧ M.val (.var f) = .str f)) (n : Nat) :
    method st k n f = none := by
  induction n with
  | zero => rfl
  | succ n ih =>
    rw [method]
    rcases hf with hf | ⟨hc, hf⟩
    · have hx := h.val (.mem k f)
      rw [hf, cont, loc] at hx
      cases hc : find (st.objs k) f with
      | none => rw [hc] at hx; cases hx
      | some a => rw [hc] at hx; dsimp only at hx ⊢; rw [hx]; exact ih
    · have hx := h.val (.var f)
      rw [hf, cont, loc] at hx
      rw [hc]
      dsimp only
      cases hs : find st.syms f with
      | none => rw [hs] at hx; cases hx
      | some y =>
        rw [hs] at hx
        cases y with
        | set ms => cases hx
        | var a => dsimp only at hx ⊢; rw [hx]; exact ih

/-! ## `this` -/

/-- **C302** refuted: in a method called for the capitalised variable `X`, an assignment to `X` changes `this` as well. -/
theorem this_changes (st st' : St) (X : Name) (a : Nat) (d : Data) (hX : capital X = true)
    (hx : find st.syms X = some (.var a)) (hb : a < st.next)
    (hr : run (callee st a) [.lit (.var X) d] = some st') : cont st' (.var this) = d := by
  have hX' : X ≠ this := by intro e; subst e; cases hX
  have hfind : ∀ (l : List (Name × Sym)), find (l.filter (fun x => capital x.1)) X = find l X := by
    intro l
    induction l with
    | nil => rfl
    | cons y l ih =>
      obtain ⟨n, v⟩ := y
      by_cases hn : n = X
      · subst hn; simp [List.filter, hX, find]
      · simp only [List.filter]
        cases capital n with
        | true => simp only [find, if_neg hn, ih]
        | false => simp only [find, if_neg hn, ih]
  have h1 : addr (callee st a) (.var X) = some (callee st a, a) := by
    rw [addr]
    have : find (callee st a).syms X = some (.var a) := by
      show find ((this, Sym.var a) :: _) X = _
      rw [find, if_neg (fun e => hX' e.symm), hfind, hx]
    rw [this]
  rw [run, exec, h1] at hr
  dsimp only at hr
  rw [run] at hr
  injection hr with hr
  subst hr
  have hne : st.next ≠ a := by omega
  simp [cont, loc, callee, find, valueSet, put, alloc, hne]

/-- And an assignment to `this` changes the variable before the dot for the caller. -/
theorem this_assigned (st st' : St) (a : Nat) (d : Data) (hb : a < st.next)
    (hr : run (callee st a) [.lit (.var this) d] = some st') : st'.heap a = d := by
  have h1 : addr (callee st a) (.var this) = some (callee st a, a) := by
    simp [addr, callee, find]
  rw [run, exec, h1] at hr
  dsimp only at hr
  rw [run] at hr
  injection hr with hr
  subst hr
  have hne : st.next ≠ a := by omega
  simp [callee, valueSet, put, alloc, hne]

/-- At the begin of a method `this` is the value before the dot, and the other names that are not capitalised are
unknown. -/
theorem this_partial (st : St) (a : Nat) :
    cont (callee st a) (.var this) = st.heap a ∧
    ∀ x, x ≠ this → capital x = false → find (callee st a).syms x = none := by
  constructor
  · simp [cont, loc, callee, find]
  · intro x hx hc
    show find ((this, Sym.var a) :: _) x = none
    rw [find, if_neg (fun e => hx e.symm)]
    induction st.syms with
    | nil => rfl
    | cons y l ih =>
      obtain ⟨n, v⟩ := y
      simp only [List.filter]
      cases hn : capital n with
      | false => exact ih
      | true =>
        rw [find, if_neg (by intro e; subst e; rw [hc] at hn; cases hn)]
        exact ih

/-! ## Cases -/

def hs : Name := [104]
def xa : Name := [97]
def xb : Name := [98]
def xc : Name := [99]
def mn : Name := [110]
def mf : Name := [102]
def big : Name := [65]

/-- `h { n; @f() {} n; } a = $h; b = $h; c = a; c.n = 5;` -/
def demo : List Stmt :=
  [.set hs [(mn, none), (mf, some 7), (mn, none)], .new (.var xa) 5 hs, .new (.var xb) 5 hs,
   .assign (.var xc) (.var xa), .lit (.mem (.var xc) mn) (.int 5)]

/-- What the script leaves at a chain of properties. -/
def look (l : List Stmt) (p : Place) : Option Data :=
  match run init l with
  | none => none
  | some st => match addr st p with | none => none | some (st1, a) => some (st1.heap a)

example : look demo (.mem (.var xa) mn) = some (.int 5) := by decide
example : look demo (.mem (.var xb) mn) = some .nil := by decide
example : look demo (.mem (.var xb) mf) = some (.func 7) := by decide
example : look demo (.mem (.mem (.var xb) mf) mn) = none := by decide
example : look demo (.var xc) = look demo (.var xa) ∧ look demo (.var xc) ≠ look demo (.var xb) := by decide
example : look (demo ++ [.set hs [], .new (.var xc) 5 hs]) (.mem (.var xc) mf) = some .nil := by decide
example : look (demo ++ [.set hs []]) (.mem (.var xa) mf) = some (.func 7) := by decide
example : look (demo ++ [.lit (.var big) (.str hs), .new (.var xc) 5 big]) (.mem (.var xc) mf) = some (.func 7) := by
  decide
example : look [.lit (.var big) (.str big), .new (.var xc) 9 big] (.var xc) = none := by decide
example : (run init (demo ++ [.lit (.mem (.var xb) mn) (.str mf)])).bind (fun st => method st 1 5 mn) = some (some 7) := by
  decide

end Verif.LangObj
