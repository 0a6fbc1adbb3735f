import Verif.LangFunc
/-!
# When functions of a Melang program are equal
-/
namespace Verif.LangFunc

/-! ## Specification -/

/-- Where a function comes from. -/
inductive Origin
  | library (process : Nat)
  | defined (d : Def) (captured : List Int)

/-- `f` is a function with this origin: made by its definition, or a copy of such a function. -/
inductive Made : Origin → Func → Prop
  | library (p : Nat) : Made (.library p) (builtin p)
  | defined (d : Def) (env : Nat → Int) : Made (.defined d (d.uses.map env)) (define d env)
  | copy {o : Origin} {f : Func} : Made o f → Made o (dup f)

/-- The two come from the same place of the program, or are the same function of the library. -/
def SamePlace : Origin → Origin → Prop
  | .library p, .library q => p = q
  | .defined d _, .defined e _ => d.id = e.id
  | _, _ => False

/-- Defined with a body that is not empty. -/
def Solid : Origin → Prop
  | .library _ => True
  | .defined d _ => d.body ≠ []

/-! ## Proof -/

theorem push_eq (vs acc : List Int) : push acc vs = acc ++ vs := by
  induction vs generalizing acc with
  | nil => simp [push]
  | cons v vs ih => simp [push, ih]

/-- A copy is the same. -/
theorem dup_eq (f : Func) : dup f = f := by cases f; simp [dup, push_eq]

/-- What a function with this origin looks like. -/
def Shape : Origin → Func → Prop
  | .library p, f => f = builtin p
  | .defined d c, f => f.kind = .external ∧ f.data = (if d.body = [] then none else some d.id) ∧ f.captured = c

theorem made_shape {o : Origin} {f : Func} (h : Made o f) : Shape o f := by
  induction h with
  | library p => rfl
  | defined d env => exact ⟨rfl, rfl, rfl⟩
  | copy _ ih => rw [dup_eq]; exact ih

theorem equal_iff (f g : Func) : equal (.func f) (.func g) = true ↔ f.kind = g.kind ∧ f.data = g.data := by
  simp only [equal]
  by_cases h1 : f.kind = g.kind <;> by_cases h2 : f.data = g.data <;> simp [h1, h2]

/-! ## Properties -/

/-- C331: functions with bodies are equal exactly when they are the same function of the library or come from the same
definition; copies do not matter. -/
theorem equal_partial {o q : Origin} {f g : Func} (hf : Made o f) (hg : Made q g) (so : Solid o) (sq : Solid q) :
    equal (.func f) (.func g) = true ↔ SamePlace o q := by
  have h1 := made_shape hf
  have h2 := made_shape hg
  rw [equal_iff]
  cases o with
  | library p =>
    cases q with
    | library p' => simp only [Shape] at h1 h2; subst h1 h2; simp [builtin, SamePlace]
    | defined d c => simp only [Shape] at h1 h2; subst h1; simp [builtin, SamePlace, h2.1]
  | defined d c =>
    cases q with
    | library p' => simp only [Shape] at h1 h2; subst h2; simp [builtin, SamePlace, h1.1]
    | defined e c' =>
      simp only [Solid] at so sq
      simp only [Shape] at h1 h2
      rw [h1.1, h2.1, h1.2.1, h2.2.1, if_neg so, if_neg sq]
      simp [SamePlace]

/-- `!=` is the opposite of `==`, for all values. -/
theorem nonequal_eq (a b : V) : nonequal a b = !equal a b := by
  cases a <;> cases b <;> try rfl
  rename_i f g
  simp only [nonequal, equal]
  split <;> [rfl; skip]
  split <;> rfl

/-- `==` on functions is an equivalence, and no function equals a value that is no function. -/
theorem equal_equiv (f g h : Func) (v : V) : equal (.func f) (.func f) = true ∧
    equal (.func f) (.func g) = equal (.func g) (.func f) ∧
    (equal (.func f) (.func g) = true → equal (.func g) (.func h) = true → equal (.func f) (.func h) = true) ∧
    ((∀ k, v ≠ .func k) → equal (.func f) v = false) := by
  refine ⟨(equal_iff f f).2 ⟨rfl, rfl⟩, ?_, ?_, ?_⟩
  · rw [Bool.eq_iff_iff, equal_iff, equal_iff]
    exact ⟨fun h => ⟨h.1.symm, h.2.symm⟩, fun h => ⟨h.1.symm, h.2.symm⟩⟩
  · intro h1 h2
    rw [equal_iff] at *
    exact ⟨h1.1.trans h2.1, h1.2.trans h2.2⟩
  · intro hv
    cases v with
    | func k => exact absurd rfl (hv k)
    | str => rfl
    | other t => rfl

/-- Any two functions with empty bodies are equal, wherever they are defined and whatever they capture. -/
theorem empty_refuted (d e : Def) (env env' : Nat → Int) (hd : d.body = []) (he : e.body = []) :
    equal (.func (define d env)) (.func (define e env')) = true := by
  rw [equal_iff]; exact ⟨rfl, by simp [define, hd, he]⟩

/-- Functions made by one definition are equal even when they captured different values. -/
theorem captured_refuted (d : Def) (env env' : Nat → Int) : equal (.func (define d env)) (.func (define d env')) = true :=
  (equal_iff _ _).2 ⟨rfl, rfl⟩

/-- The operators that functions have. -/
def Has (op : Op) : Prop :=
  op = .assign ∨ op = .equal ∨ op = .nonequal ∨ op = .not ∨ op = .plus ∨ op = .pluseq

/-- Without overloaded operators all others are errors; `+` and `+=` are errors when there is no string. -/
theorem unsupported (op : Op) (mem : Bool) (a b : V) :
    (¬Has op → apply op none mem a b = .err) ∧ (a ≠ .str → apply .pluseq none mem a b = .err) ∧
    (b ≠ .str → apply .plus none mem a b = .err) := by
  refine ⟨?_, ?_, ?_⟩
  · intro h
    cases op <;> first | rfl | exact absurd (by simp [Has]) h
  · intro h; cases a <;> first | rfl | exact absurd rfl h
  · intro h; cases b <;> first | rfl | exact absurd rfl h

/-- An overloaded operator that is there decides alone; one that is not (0) changes nothing. -/
theorem overloaded (op : Op) (rc : Int) (mem : Bool) (a b : V) :
    (0 < rc → apply op (some rc) mem a b = .overloaded) ∧ (rc < 0 → apply op (some rc) mem a b = .err) ∧
    apply op (some 0) mem a b = apply op none mem a b := by
  refine ⟨fun h => ?_, fun h => ?_, rfl⟩
  · have h' : ¬rc < 0 := by omega
    simp [apply, h, h']
  · simp [apply, h]

/-- With memory, comparisons give what the specification says; `!f` is false; an assignment gives its right operand. -/
theorem supported (a b : V) : apply .equal none true a b = .bool (equal a b) ∧ apply .nonequal none true a b = .bool (!equal a b) ∧
    apply .not none true a b = .bool false ∧ apply .assign none true a b = .assigned b := by
  refine ⟨rfl, ?_, rfl, rfl⟩
  rw [← nonequal_eq]; rfl

/-- Without memory no operator gives a value of its own. -/
theorem no_memory (op : Op) (a b : V) : apply op none false a b = .err ∨ apply op none false a b = .string := by
  cases op <;> try exact Or.inl rfl
  · cases a <;> first | exact Or.inl rfl | exact Or.inr rfl
  · cases b <;> first | exact Or.inl rfl | exact Or.inr rfl

/-! ## Examples -/

-- a function equals its copy, not another one with the same body
example : equal (.func (define ⟨1, [7], [3, 4]⟩ fun _ => 5)) (.func (dup (define ⟨1, [7], [3, 4]⟩ fun _ => 5))) = true := by decide
example : equal (.func (define ⟨1, [], [3, 4]⟩ fun _ => 5)) (.func (define ⟨2, [], [3, 4]⟩ fun _ => 5)) = false := by decide
example : equal (.func (builtin 3)) (.func (define ⟨3, [], [1]⟩ fun _ => 0)) = false := by decide
-- `@f() {} @g() {}`
example : equal (.func (define ⟨1, [], []⟩ fun _ => 5)) (.func (define ⟨2, [], []⟩ fun _ => 5)) = true := by decide

end Verif.LangFunc
