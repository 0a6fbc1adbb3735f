import Verif.Lang

/-!
# What the script language computes: expressions

The reference evaluation `E.ev` below is the ordinary one: operands from left
to right, each operator applied to the values of its operands, `&&` binding
tighter than `||` and both stopping early.  `machine_evaluates` says that the
stack machine of `Verif.Lang` computes it.
-/

namespace Verif.Lang

variable {V : Type}

/-! ## The reference -/

def Fac.rv : Fac V → RV V
  | .id x => .loc x
  | .lit v => .tmp v

mutual
/-- The value of an expression (a variable or a temporary) and the store
afterwards; `none` if an operator fails. -/
def E.ev (A : Alg V) : E V → St V → Option (RV V × St V)
  | .spf f, σ => some (f.rv, σ)
  | .paren es, σ => es.ev A (.tmp A.nil) σ
  | .pre op e, σ => (e.ev A σ).bind fun p => (A.un op (rd p.2 p.1)).map fun v => (.tmp v, p.2)
  | .preInc op e, σ => (e.ev A σ).bind fun p =>
      (A.inc op (rd p.2 p.1)).map fun v => (.tmp v.2, (wr p.2 p.1 v.1).2)
  | .loc e, σ => e.ev A σ
  | .suf0 e, σ => e.ev A σ
  | .suf op e, σ => (e.ev A σ).bind fun p =>
      (A.inc op (rd p.2 p.1)).map fun v => (.tmp v.2, (wr p.2 p.1 v.1).2)
  | .not0 e, σ => e.ev A σ
  | .not e, σ => (e.ev A σ).bind fun p => (A.un .not (rd p.2 p.1)).map fun v => (.tmp v, p.2)
  | .bin l tl, σ => (l.ev A σ).bind fun p => tl.ev A p.1 p.2
  | .logic l tl, σ => (l.ev A σ).bind fun p => tl.ev A p.1 p.2
  | .asg0 l, σ => l.ev A σ
  | .set l r, σ => (l.ev A σ).bind fun p => (r.ev A p.2).bind fun q =>
      some (wr q.2 p.1 (rd q.2 q.1))
  | .asg l op r, σ => (l.ev A σ).bind fun p => (r.ev A p.2).bind fun q =>
      (A.asg op (rd q.2 p.1) (rd q.2 q.1)).map fun v => wr q.2 p.1 v

/-- `a op₁ b op₂ c …` is `((a op₁ b) op₂ c) …`. -/
def Tl.ev (A : Alg V) : Tl V → RV V → St V → Option (RV V × St V)
  | .nil, a, σ => some (a, σ)
  | .cons op l tl, a, σ => (l.ev A σ).bind fun q =>
      (A.bin op (rd q.2 a) (rd q.2 q.1)).bind fun v => tl.ev A (.tmp v) q.2

/-- After the operand `a` of a chain of `&&` and `||`: a true operand ends the
chain at `||`; a false one skips what is joined to it by `&&`. -/
def LTl.ev (A : Alg V) : LTl V → RV V → St V → Option (RV V × St V)
  | .nil, a, σ => some (a, σ)
  | .cons isOr l tl, a, σ =>
    if A.truth (rd σ a) then
      if isOr then some (a, σ) else (l.ev A σ).bind fun q => tl.ev A q.1 q.2
    else
      if isOr then (l.ev A σ).bind fun q => tl.ev A q.1 q.2 else tl.ev A a σ

/-- `e₁, e₂, …`: all of them, the value is the last one's. -/
def Es.ev (A : Alg V) : Es V → RV V → St V → Option (RV V × St V)
  | .nil, a, σ => some (a, σ)
  | .cons e nx, _, σ => (e.ev A σ).bind fun p => nx.ev A p.1 p.2
end

mutual
/-- The variables an expression may be a reference to. -/
def E.refs : E V → List Nat
  | .spf (.id x) => [x]
  | .spf (.lit _) => []
  | .paren es => es.refs []
  | .pre _ _ => []
  | .preInc _ _ => []
  | .loc e => e.refs
  | .suf0 e => e.refs
  | .suf _ _ => []
  | .not0 e => e.refs
  | .not _ => []
  | .bin l .nil => l.refs
  | .bin _ (.cons _ _ _) => []
  | .logic l tl => l.refs ++ tl.refs
  | .asg0 l => l.refs
  | .set l _ => l.refs
  | .asg l _ _ => l.refs
def LTl.refs : LTl V → List Nat
  | .nil => []
  | .cons _ l tl => l.refs ++ tl.refs
def Es.refs : Es V → List Nat → List Nat
  | .nil, d => d
  | .cons e nx, _ => nx.refs e.refs
end

mutual
/-- No empty parentheses, and nothing is assigned with `=` what may be a
reference to itself. -/
def E.Ok : E V → Prop
  | .spf _ => True
  | .paren .nil => False
  | .paren (.cons e nx) => e.Ok ∧ nx.Ok
  | .pre _ e => e.Ok
  | .preInc _ e => e.Ok
  | .loc e => e.Ok
  | .suf0 e => e.Ok
  | .suf _ e => e.Ok
  | .not0 e => e.Ok
  | .not e => e.Ok
  | .bin l tl => l.Ok ∧ tl.Ok
  | .logic l tl => l.Ok ∧ tl.Ok
  | .asg0 l => l.Ok
  | .set l r => l.Ok ∧ r.Ok ∧ ∀ x ∈ l.refs, x ∉ r.refs
  | .asg l _ r => l.Ok ∧ r.Ok
def Tl.Ok : Tl V → Prop
  | .nil => True
  | .cons _ l tl => l.Ok ∧ tl.Ok
def LTl.Ok : LTl V → Prop
  | .nil => True
  | .cons _ l tl => l.Ok ∧ tl.Ok
def Es.Ok : Es V → Prop
  | .nil => True
  | .cons e nx => e.Ok ∧ nx.Ok
end

/-- The machine comes from `c` to `c'`. -/
def Reach (A : Alg V) (c c' : Ctx V) : Prop := ∃ n, run A n c = some c'

/-- The machine comes from `c` to a context that has quit. -/
def Fails (A : Alg V) (c : Ctx V) : Prop := ∃ c', Reach A c c' ∧ c'.quit = true

/-! ## Runs -/

theorem run_add (A : Alg V) (m n : Nat) (c : Ctx V) :
    run A (m + n) c = (run A m c).bind (run A n) := by
  induction m generalizing c with
  | zero => simp [run]
  | succ m ih =>
    rw [Nat.succ_add]
    simp only [run]
    cases h : step A c with
    | none => simp
    | some c' => simp [ih]

theorem Reach.refl (A : Alg V) (c : Ctx V) : Reach A c c := ⟨0, rfl⟩

theorem Reach.trans {A : Alg V} {a b c : Ctx V} (h1 : Reach A a b) (h2 : Reach A b c) : Reach A a c := by
  obtain ⟨m, h1⟩ := h1
  obtain ⟨n, h2⟩ := h2
  exact ⟨m + n, by rw [run_add, h1]; exact h2⟩

theorem Reach.head {A : Alg V} {a b c : Ctx V} (h1 : step A a = some b) (h2 : Reach A b c) : Reach A a c := by
  obtain ⟨n, h2⟩ := h2
  exact ⟨n + 1, by simp [run, h1, h2]⟩

theorem Fails.head {A : Alg V} {a b : Ctx V} (h1 : step A a = some b) (h2 : Fails A b) : Fails A a := by
  obtain ⟨c, h, q⟩ := h2
  exact ⟨c, h.head h1, q⟩

theorem Fails.of_reach {A : Alg V} {a b : Ctx V} (h1 : Reach A a b) (h2 : Fails A b) : Fails A a := by
  obtain ⟨c, h, q⟩ := h2
  exact ⟨c, h1.trans h, q⟩

/-- A context in the middle of a run. -/
abbrev C (S : List (Node V)) (r : Option (RV V)) (σ : St V) : Ctx V := ⟨S, r, σ, false, false⟩

/-- An expression whose node is above `S` has been evaluated with the given result. -/
def Ends (A : Alg V) (c : Ctx V) (S : List (Node V)) : Option (RV V × St V) → Prop
  | some (a, σ') => Reach A c (C (popuntil S) (some a) σ')
  | none => Fails A c

theorem Ends.head {A : Alg V} {a b : Ctx V} {S : List (Node V)} {o} (h1 : step A a = some b)
    (h2 : Ends A b S o) : Ends A a S o := by
  cases o with
  | none => exact Fails.head h1 h2
  | some p => exact Reach.head h1 h2

theorem Ends.bind {A : Alg V} {c : Ctx V} {S1 S : List (Node V)} {o} {k : RV V × St V → Option (RV V × St V)}
    (h1 : Ends A c S1 o)
    (h2 : ∀ a σ', o = some (a, σ') → Ends A (C (popuntil S1) (some a) σ') S (k (a, σ'))) :
    Ends A c S (o.bind k) := by
  cases o with
  | none => exact h1
  | some p =>
    obtain ⟨a, σ'⟩ := p
    have h2 := h2 a σ' rfl
    simp only [Option.bind_some]
    cases h : k (a, σ') with
    | none => rw [h] at h2; exact Fails.of_reach h1 h2
    | some q => rw [h] at h2; exact Reach.trans h1 h2

theorem popuntil_popuntil (S : List (Node V)) : popuntil (popuntil S) = popuntil S := by
  induction S with
  | nil => rfl
  | cons n S ih =>
    by_cases h : n.step = -1
    · simp only [popuntil, h, if_true]; exact ih
    · simp only [popuntil, h, if_false]

/-- `S` and `S'` are the same once the finished nodes are gone. -/
theorem Ends.congr {A : Alg V} {c : Ctx V} {S S' : List (Node V)} {o} (h : popuntil S = popuntil S')
    (h1 : Ends A c S o) : Ends A c S' o := by
  cases o with
  | none => exact h1
  | some p => simp only [Ends] at *; rw [← h]; exact h1

/-! ## References -/

mutual
theorem E.refs_sound (A : Alg V) : ∀ (x : E V) {σ σ' : St V} {y : Nat},
    x.ev A σ = some (.loc y, σ') → y ∈ x.refs
  | .spf f, σ, σ', y, h => by
    cases f with
    | id x => simp [E.ev, Fac.rv] at h; simp [E.refs, h.1]
    | lit v => simp [E.ev, Fac.rv] at h
  | .paren es, σ, σ', y, h => by
    simp only [E.ev] at h
    simp only [E.refs]
    exact Es.refs_sound A es (by simp) h
  | .pre op e, σ, σ', y, h => by
    simp only [E.ev, Option.bind_eq_some_iff, Option.map_eq_some_iff] at h
    obtain ⟨p, _, v, _, hv⟩ := h
    simp at hv
  | .preInc op e, σ, σ', y, h => by
    simp only [E.ev, Option.bind_eq_some_iff, Option.map_eq_some_iff] at h
    obtain ⟨p, _, v, _, hv⟩ := h
    simp at hv
  | .loc e, σ, σ', y, h => by
    simp only [E.ev] at h; simp only [E.refs]; exact E.refs_sound A e h
  | .suf0 e, σ, σ', y, h => by
    simp only [E.ev] at h; simp only [E.refs]; exact E.refs_sound A e h
  | .suf op e, σ, σ', y, h => by
    simp only [E.ev, Option.bind_eq_some_iff, Option.map_eq_some_iff] at h
    obtain ⟨p, _, v, _, hv⟩ := h
    simp at hv
  | .not0 e, σ, σ', y, h => by
    simp only [E.ev] at h; simp only [E.refs]; exact E.refs_sound A e h
  | .not e, σ, σ', y, h => by
    simp only [E.ev, Option.bind_eq_some_iff, Option.map_eq_some_iff] at h
    obtain ⟨p, _, v, _, hv⟩ := h
    simp at hv
  | .bin l tl, σ, σ', y, h => by
    simp only [E.ev, Option.bind_eq_some_iff] at h
    obtain ⟨p, hp, h⟩ := h
    cases tl with
    | nil =>
      simp only [Tl.ev, Option.some.injEq, Prod.mk.injEq] at h
      simp only [E.refs]
      obtain ⟨p1, p2⟩ := p
      simp only at h
      rw [h.1] at hp
      exact E.refs_sound A l hp
    | cons op l' tl' =>
      exfalso
      simp only [Tl.ev, Option.bind_eq_some_iff] at h
      obtain ⟨q, _, v, _, h⟩ := h
      exact Tl.tmp A tl' h
  | .logic l tl, σ, σ', y, h => by
    simp only [E.ev, Option.bind_eq_some_iff] at h
    obtain ⟨⟨p1, p2⟩, hp, h⟩ := h
    simp only [E.refs, List.mem_append]
    refine LTl.refs_sound A tl (fun z hz => ?_) h
    subst hz
    exact E.refs_sound A l hp
  | .asg0 e, σ, σ', y, h => by
    simp only [E.ev] at h; simp only [E.refs]; exact E.refs_sound A e h
  | .set l r, σ, σ', y, h => by
    simp only [E.ev, Option.bind_eq_some_iff, Option.some.injEq] at h
    obtain ⟨⟨p1, p2⟩, hp, q, _, h⟩ := h
    cases p1 with
    | tmp v => simp [wr] at h
    | loc z =>
      simp only [wr, Prod.mk.injEq, RV.loc.injEq] at h
      simp only [E.refs]
      rw [← h.1]
      exact E.refs_sound A l hp
  | .asg l op r, σ, σ', y, h => by
    simp only [E.ev, Option.bind_eq_some_iff, Option.map_eq_some_iff] at h
    obtain ⟨⟨p1, p2⟩, hp, q, _, v, _, h⟩ := h
    cases p1 with
    | tmp v => simp [wr] at h
    | loc z =>
      simp only [wr, Prod.mk.injEq, RV.loc.injEq] at h
      simp only [E.refs]
      rw [← h.1]
      exact E.refs_sound A l hp
theorem Tl.tmp (A : Alg V) : ∀ (tl : Tl V) {v : V} {σ σ' : St V} {y : Nat},
    tl.ev A (.tmp v) σ = some (.loc y, σ') → False
  | .nil, v, σ, σ', y, h => by simp [Tl.ev] at h
  | .cons op l tl, v, σ, σ', y, h => by
    simp only [Tl.ev, Option.bind_eq_some_iff] at h
    obtain ⟨q, _, v, _, h⟩ := h
    exact Tl.tmp A tl h
theorem LTl.refs_sound (A : Alg V) : ∀ (tl : LTl V) {P : Nat → Prop} {a : RV V} {σ σ' : St V} {y : Nat},
    (∀ z, a = .loc z → P z) → tl.ev A a σ = some (.loc y, σ') → P y ∨ y ∈ tl.refs
  | .nil, P, a, σ, σ', y, ha, h => by
    simp only [LTl.ev, Option.some.injEq, Prod.mk.injEq] at h
    exact Or.inl (ha y h.1)
  | .cons isOr l tl, P, a, σ, σ', y, ha, h => by
    simp only [LTl.ev] at h
    have key : ((l.ev A σ).bind fun q => tl.ev A q.1 q.2) = some (.loc y, σ') → P y ∨ y ∈ (LTl.cons isOr l tl).refs := by
      intro h
      simp only [Option.bind_eq_some_iff] at h
      obtain ⟨⟨p1, p2⟩, hp, h⟩ := h
      right
      simp only [LTl.refs, List.mem_append]
      refine LTl.refs_sound A tl (fun z hz => ?_) h
      subst hz
      exact E.refs_sound A l hp
    split at h
    · split at h
      · simp only [Option.some.injEq, Prod.mk.injEq] at h
        exact Or.inl (ha y h.1)
      · exact key h
    · split at h
      · exact key h
      · have := LTl.refs_sound A tl ha h
        simp only [LTl.refs, List.mem_append]
        rcases this with h | h
        · exact Or.inl h
        · exact Or.inr (Or.inr h)
theorem Es.refs_sound (A : Alg V) : ∀ (es : Es V) {a : RV V} {d : List Nat} {σ σ' : St V} {y : Nat},
    (∀ z, a = .loc z → z ∈ d) → es.ev A a σ = some (.loc y, σ') → y ∈ es.refs d
  | .nil, a, d, σ, σ', y, ha, h => by
    simp only [Es.ev, Option.some.injEq, Prod.mk.injEq] at h
    exact ha y h.1
  | .cons e nx, a, d, σ, σ', y, ha, h => by
    simp only [Es.ev, Option.bind_eq_some_iff] at h
    obtain ⟨⟨p1, p2⟩, hp, h⟩ := h
    simp only [Es.refs]
    refine Es.refs_sound A nx (fun z hz => ?_) h
    subst hz
    exact E.refs_sound A e hp
end


/-! ## The machine evaluates expressions -/

theorem bind_some' {α : Type} (o : Option α) : o.bind some = o := by cases o <;> rfl

theorem bind_eta {α β : Type} (o : Option (α × β)) : (o.bind fun p => some (p.1, p.2)) = o := by
  cases o <;> rfl

def RunsE (A : Alg V) (x : E V) : Prop :=
  ∀ S r σ, Ends A (C (fresh (.e x) :: S) r σ) S (x.ev A σ)

def RunsJ (A : Alg V) (x : E V) : Prop :=
  ∀ S r σ, Ends A (C (fresh x.jump :: S) r σ) S (x.ev A σ)

/-- The machine is done with an expression. -/
theorem Ends.done {A : Alg V} {S : List (Node V)} {a : RV V} {σ : St V} :
    Ends A (C (popuntil S) (some a) σ) S (some (a, σ)) := Reach.refl _ _

theorem Ends.fail {A : Alg V} {c : Ctx V} {S : List (Node V)} (h : c.quit = true) :
    Ends A c S none := ⟨c, Reach.refl _ _, h⟩

/-- The first step of a node, then its left operand. -/
theorem enter_ends {A : Alg V} {x l : E V} {n? : Bool} (S : List (Node V)) (r : Option (RV V)) (σ : St V)
    {k : RV V × St V → Option (RV V × St V)}
    (hs : ∀ c n S, n.step = 0 → hE A x n S c = some (enter c n S l n?))
    (hl : RunsJ A l)
    (h0 : n? = true → k = some)
    (h1 : n? = false → ∀ a σ', l.ev A σ = some (a, σ') →
      Ends A (C (⟨.e x, 1, none⟩ :: S) (some a) σ') S (k (a, σ'))) :
    Ends A (C (fresh (.e x) :: S) r σ) S ((l.ev A σ).bind k) := by
  have hstep : step A (C (fresh (.e x) :: S) r σ) = some (enter (C (fresh (.e x) :: S) r σ) (fresh (.e x)) S l n?) := by
    show hE A x (fresh (.e x)) S _ = _
    exact hs _ _ _ rfl
  refine Ends.head hstep ?_
  cases hn : n? with
  | false =>
    subst hn
    refine Ends.bind (S1 := ⟨.e x, 1, none⟩ :: S) (hl _ none σ) ?_
    intro a σ' ha
    exact h1 rfl a σ' ha
  | true =>
    subst hn
    rw [h0 rfl, bind_some'] 
    by_cases hf : l.jump.isFac = true
    · have : enter (C (fresh (.e x) :: S) r σ) (fresh (.e x)) S l true = C (fresh l.jump :: popuntil S) none σ := by
        simp [enter, hf]
      rw [this]
      exact (hl (popuntil S) none σ).congr (popuntil_popuntil S)
    · have : enter (C (fresh (.e x) :: S) r σ) (fresh (.e x)) S l true =
          C (fresh l.jump :: ⟨.e x, -1, none⟩ :: S) none σ := by
        simp [enter, hf, fresh]
      rw [this]
      exact (hl _ none σ).congr (by simp [popuntil])

theorem unary_ends {A : Alg V} {op : UOp} {x : E V} {a : RV V} {σ : St V} {S : List (Node V)}
    (hs : step A (C (⟨.e x, 1, none⟩ :: S) (some a) σ) = unary A op (C (⟨.e x, 1, none⟩ :: S) (some a) σ) S) :
    Ends A (C (⟨.e x, 1, none⟩ :: S) (some a) σ) S ((A.un op (rd σ a)).map fun v => (.tmp v, σ)) := by
  cases h : A.un op (rd σ a) with
  | none =>
    refine Ends.head (b := (C (⟨.e x, 1, none⟩ :: S) (some a) σ).fail) ?_ (Ends.fail rfl)
    rw [hs]; simp [unary, h]
  | some v =>
    refine Ends.head (b := C (popuntil S) (some (.tmp v)) σ) ?_ Ends.done
    rw [hs]; simp [unary, h, out]

theorem incr_ends {A : Alg V} {op : IOp} {x : E V} {a : RV V} {σ : St V} {S : List (Node V)}
    (hs : step A (C (⟨.e x, 1, none⟩ :: S) (some a) σ) = incr A op (C (⟨.e x, 1, none⟩ :: S) (some a) σ) S) :
    Ends A (C (⟨.e x, 1, none⟩ :: S) (some a) σ) S
      ((A.inc op (rd σ a)).map fun v => (.tmp v.2, (wr σ a v.1).2)) := by
  cases h : A.inc op (rd σ a) with
  | none =>
    refine Ends.head (b := (C (⟨.e x, 1, none⟩ :: S) (some a) σ).fail) ?_ (Ends.fail rfl)
    rw [hs]; simp [incr, h]
  | some v =>
    refine Ends.head (b := C (popuntil S) (some (.tmp v.2)) (wr σ a v.1).2) ?_ Ends.done
    rw [hs]; simp [incr, h, out]

theorem bin_runs {A : Alg V} {l : E V} {tl : Tl V} (hl : RunsJ A l)
    (ht : tl ≠ .nil → ∀ S a σ, Ends A (C (⟨.e (.bin l tl), 2, some a⟩ :: S) none σ) S (tl.ev A a σ)) :
    RunsE A (.bin l tl) := by
  intro S r σ
  simp only [E.ev]
  cases tl with
  | nil =>
    refine enter_ends (n? := true) S r σ (fun c n S h => by simp [hE, h]) hl ?_ (by simp)
    intro _; funext p; simp [Tl.ev]
  | cons op r' tl' =>
    refine enter_ends (n? := false) S r σ (fun c n S h => by simp [hE, h]) hl (by simp) ?_
    intro _ a σ' _
    have := ht (by simp) S a σ'
    -- the first step with the value in the context goes where the second one goes
    have e1 : step A (C (⟨.e (.bin l (.cons op r' tl')), 1, none⟩ :: S) (some a) σ') =
        step A (C (⟨.e (.bin l (.cons op r' tl')), 2, some a⟩ :: S) none σ') := rfl
    revert this
    cases (Tl.cons op r' tl').ev A a σ' with
    | none =>
      rintro ⟨c', ⟨n, hn⟩, hq⟩
      cases n with
      | zero => simp only [run, Option.some.injEq] at hn; subst hn; cases hq
      | succ n => exact ⟨c', ⟨n + 1, by simpa only [run, e1] using hn⟩, hq⟩
    | some q =>
      rintro ⟨n, hn⟩
      cases n with
      | zero =>
        simp only [run, Option.some.injEq, C, Ctx.mk.injEq] at hn
        exact absurd hn.2.1 (by simp)
      | succ n => exact ⟨n + 1, by simpa only [run, e1] using hn⟩

theorem logic_runs {A : Alg V} {l : E V} {tl : LTl V} (hl : RunsJ A l)
    (ht : tl ≠ .nil → ∀ S a σ, Ends A (C (⟨.e (.logic l tl), 1, none⟩ :: S) (some a) σ) S (tl.ev A a σ)) :
    RunsE A (.logic l tl) := by
  intro S r σ
  simp only [E.ev]
  cases tl with
  | nil =>
    refine enter_ends (n? := true) S r σ (fun c n S h => by simp [hE, h]) hl ?_ (by simp)
    intro _; funext p; simp [LTl.ev]
  | cons isOr r' tl' =>
    refine enter_ends (n? := false) S r σ (fun c n S h => by simp [hE, h]) hl (by simp) ?_
    intro _ a σ' _
    exact ht (by simp) S a σ'

/-- Where the machine is after the search for the next `||`. -/
def skipTo (i : Item V) (S : List (Node V)) (a : RV V) (σ : St V) (tl : LTl V) : Ctx V :=
  match tl.skip with
  | some (r, tl') => C (fresh (.e (.logic r tl')) :: ⟨i, 2, none⟩ :: S) (some a) σ
  | none => C (⟨i, 2, none⟩ :: S) (some a) σ

theorem logic_out {A : Alg V} {l r : E V} {isOr : Bool} {tl : LTl V} {S : List (Node V)} {a : RV V} {σ : St V} :
    Ends A (C (⟨.e (.logic l (.cons isOr r tl)), 2, none⟩ :: S) (some a) σ) S (some (a, σ)) :=
  Ends.head (b := C (popuntil S) (some a) σ) rfl Ends.done

theorem logic_sub {A : Alg V} {l r r' : E V} {isOr : Bool} {tl tl' : LTl V} {S : List (Node V)} {a} {σ : St V}
    (h : RunsE A (.logic r' tl')) :
    Ends A (C (fresh (.e (.logic r' tl')) :: ⟨.e (.logic l (.cons isOr r tl)), 2, none⟩ :: S) a σ) S
      ((r'.ev A σ).bind fun q => tl'.ev A q.1 q.2) := by
  have := Ends.bind (k := some) (h (⟨.e (.logic l (.cons isOr r tl)), 2, none⟩ :: S) a σ)
    (fun a σ' _ => logic_out (A := A) (l := l) (r := r) (isOr := isOr) (tl := tl) (S := S) (a := a) (σ := σ'))
  simpa only [E.ev, bind_some'] using this

/-- The way of an expression list: state after `again:`. -/
def esAgain (e : E V) (nx : Es V) (S : List (Node V)) : List (Node V) :=
  match nx with
  | .nil => if e.jump.isFac then fresh e.jump :: S else fresh e.jump :: ⟨.es e .nil, -1, none⟩ :: S
  | nx => fresh e.jump :: ⟨.es e nx, 1, none⟩ :: S

mutual
theorem E.runs (A : Alg V) : ∀ x : E V, x.Ok → RunsE A x ∧ RunsJ A x
  | .spf f, _ => by
    have hf : ∀ S r σ, Ends A (C (fresh (.fac f) :: S) r σ) S (some (f.rv, σ)) := by
      intro S r σ
      cases f <;> exact Ends.head rfl Ends.done
    refine ⟨?_, ?_⟩
    · intro S r σ
      refine Ends.head (b := C (fresh (.fac f) :: popuntil S) none σ) rfl ?_
      exact (hf (popuntil S) none σ).congr (popuntil_popuntil S)
    · exact hf
  | .paren .nil, h => by simp [E.Ok] at h
  | .paren (.cons e nx), h => by
    simp only [E.Ok] at h
    have he := E.runs A e h.1
    have hx := Es.runs A nx h.2 e he.2
    have : RunsE A (.paren (.cons e nx)) := by
      intro S r σ
      refine Ends.head (b := C (fresh (.es e nx) :: ⟨.e (.paren (.cons e nx)), 2, none⟩ :: S) none σ) rfl ?_
      have h1 : step A (C (fresh (.es e nx) :: ⟨.e (.paren (.cons e nx)), 2, none⟩ :: S) none σ) =
          some (C (esAgain e nx (⟨.e (.paren (.cons e nx)), 2, none⟩ :: S)) none σ) := by
        cases nx with
        | nil =>
          by_cases hf : e.jump.isFac = true
          · simp [step, hEs, fresh, esAgain, hf]
          · simp [step, hEs, fresh, esAgain, hf]
        | cons e' nx' => simp [step, hEs, fresh, esAgain]
      refine Ends.head h1 ?_
      have h2 := Ends.bind (S := S) (k := some) (hx (⟨.e (.paren (.cons e nx)), 2, none⟩ :: S) σ)
        (fun a σ' _ => Ends.head (b := C (popuntil S) (some a) σ') rfl Ends.done)
      simpa only [E.ev, Es.ev, bind_some'] using h2
    exact ⟨this, this⟩
  | .pre op e, h => by
    simp only [E.Ok] at h
    have he := E.runs A e h
    have : RunsE A (.pre op e) := by
      intro S r σ
      refine Ends.head (b := C (fresh (.e e) :: ⟨.e (.pre op e), 1, none⟩ :: S) none σ) rfl ?_
      simp only [E.ev]
      exact Ends.bind (he.1 _ none σ) (fun a σ' _ => unary_ends rfl)
    exact ⟨this, this⟩
  | .preInc op e, h => by
    simp only [E.Ok] at h
    have he := E.runs A e h
    have : RunsE A (.preInc op e) := by
      intro S r σ
      refine Ends.head (b := C (fresh (.e e) :: ⟨.e (.preInc op e), 1, none⟩ :: S) none σ) rfl ?_
      simp only [E.ev]
      exact Ends.bind (he.1 _ none σ) (fun a σ' _ => incr_ends rfl)
    exact ⟨this, this⟩
  | .loc e, h => by
    simp only [E.Ok] at h
    have he := E.runs A e h
    refine ⟨?_, he.2⟩
    intro S r σ
    have := enter_ends (A := A) (x := .loc e) (l := e) (n? := true) (k := some) S r σ
      (fun c n S h => by simp [hE, h]) he.2 (fun _ => rfl) (by simp)
    simpa only [E.ev, bind_some'] using this
  | .suf0 e, h => by
    simp only [E.Ok] at h
    have he := E.runs A e h
    refine ⟨?_, he.2⟩
    intro S r σ
    have := enter_ends (A := A) (x := .suf0 e) (l := e) (n? := true) (k := some) S r σ
      (fun c n S h => by simp [hE, h]) he.2 (fun _ => rfl) (by simp)
    simpa only [E.ev, bind_some'] using this
  | .suf op e, h => by
    simp only [E.Ok] at h
    have he := E.runs A e h
    have : RunsE A (.suf op e) := by
      intro S r σ
      simp only [E.ev]
      exact enter_ends (n? := false) S r σ (fun c n S h => by simp [hE, h]) he.2 (by simp)
        (fun _ a σ' _ => incr_ends rfl)
    exact ⟨this, this⟩
  | .not0 e, h => by
    simp only [E.Ok] at h
    have he := E.runs A e h
    refine ⟨?_, he.2⟩
    intro S r σ
    refine Ends.head (b := C (fresh e.jump :: ⟨.e (.not0 e), -1, none⟩ :: S) none σ) rfl ?_
    exact (he.2 _ none σ).congr (by simp [popuntil])
  | .not e, h => by
    simp only [E.Ok] at h
    have he := E.runs A e h
    have : RunsE A (.not e) := by
      intro S r σ
      refine Ends.head (b := C (fresh (.e e) :: ⟨.e (.not e), 1, none⟩ :: S) none σ) rfl ?_
      simp only [E.ev]
      exact Ends.bind (he.1 _ none σ) (fun a σ' _ => unary_ends rfl)
    exact ⟨this, this⟩
  | .bin l tl, h => by
    simp only [E.Ok] at h
    have hl := E.runs A l h.1
    have ht := Tl.runs A tl h.2
    have := bin_runs hl.2 (ht l)
    refine ⟨this, ?_⟩
    cases tl with
    | nil =>
      intro S r σ
      simpa only [E.ev, Tl.ev, E.jump, bind_eta] using hl.2 S r σ
    | cons op r' tl' => exact this
  | .logic l tl, h => by
    simp only [E.Ok] at h
    have hl := E.runs A l h.1
    have ht := (LTl.runs A tl h.2).1 l hl.2
    refine ⟨ht, ?_⟩
    cases tl with
    | nil =>
      intro S r σ
      simpa only [E.ev, LTl.ev, E.jump, bind_eta] using hl.2 S r σ
    | cons op r' tl' => exact ht
  | .asg0 e, h => by
    simp only [E.Ok] at h
    have he := E.runs A e h
    refine ⟨?_, he.2⟩
    intro S r σ
    have := enter_ends (A := A) (x := .asg0 e) (l := e) (n? := true) (k := some) S r σ
      (fun c n S h => by simp [hE, h]) he.2 (fun _ => rfl) (by simp)
    simpa only [E.ev, bind_some'] using this
  | .set l r, h => by
    simp only [E.Ok] at h
    obtain ⟨hl, hr, hd⟩ := h
    have hl := E.runs A l hl
    have hr := E.runs A r hr
    have : RunsE A (.set l r) := by
      intro S r0 σ
      simp only [E.ev]
      refine enter_ends (n? := false) S r0 σ (fun c n S h => by simp [hE, h]) hl.2 (by simp) ?_
      intro _ a σ1 ha
      refine Ends.head (b := C (fresh (.e r) :: ⟨.e (.set l r), 2, some a⟩ :: S) none σ1) rfl ?_
      refine Ends.bind (hr.1 _ none σ1) (fun b σ2 hb => ?_)
      show Ends A (C (⟨.e (.set l r), 2, some a⟩ :: S) (some b) σ2) S _
      have hv : valueSet A σ2 a b = wr σ2 a (rd σ2 b) := by
        cases a with
        | tmp v => rfl
        | loc y =>
          have hy := E.refs_sound A l ha
          cases b with
          | tmp v =>
            simp only [valueSet, wr, rd]
            congr 1
            funext z; simp only [upd]; split <;> rfl
          | loc z =>
            have hz := E.refs_sound A r hb
            have hne : z ≠ y := fun e => hd y hy (e ▸ hz)
            simp only [valueSet, wr, rd, upd, if_neg hne]
            congr 1
            funext w; simp only [upd]; split <;> rfl
      refine Ends.head (b := C (popuntil S) (some (wr σ2 a (rd σ2 b)).1) (wr σ2 a (rd σ2 b)).2) ?_ Ends.done
      simp [step, hE, hv, out]
    exact ⟨this, this⟩
  | .asg l op r, h => by
    simp only [E.Ok] at h
    have hl := E.runs A l h.1
    have hr := E.runs A r h.2
    have : RunsE A (.asg l op r) := by
      intro S r0 σ
      simp only [E.ev]
      refine enter_ends (n? := false) S r0 σ (fun c n S h => by simp [hE, h]) hl.2 (by simp) ?_
      intro _ a σ1 _
      refine Ends.head (b := C (fresh (.e r) :: ⟨.e (.asg l op r), 2, some a⟩ :: S) none σ1) rfl ?_
      refine Ends.bind (hr.1 _ none σ1) (fun b σ2 _ => ?_)
      show Ends A (C (⟨.e (.asg l op r), 2, some a⟩ :: S) (some b) σ2) S _
      cases hb : A.asg op (rd σ2 a) (rd σ2 b) with
      | none =>
        refine Ends.head (b := (C (⟨.e (.asg l op r), 2, some a⟩ :: S) (some b) σ2).fail) ?_ (Ends.fail rfl)
        simp [step, hE, hb]
      | some v =>
        refine Ends.head (b := C (popuntil S) (some (wr σ2 a v).1) (wr σ2 a v).2) ?_ Ends.done
        simp [step, hE, hb, out]
    exact ⟨this, this⟩

theorem Tl.runs (A : Alg V) : ∀ tl : Tl V, tl.Ok → ∀ l : E V, tl ≠ .nil → ∀ S a σ,
    Ends A (C (⟨.e (.bin l tl), 2, some a⟩ :: S) none σ) S (tl.ev A a σ)
  | .nil, _, _, h, _, _, _ => absurd rfl h
  | .cons op r tl, h, l, _, S, a, σ => by
    simp only [Tl.Ok] at h
    have hr := E.runs A r h.1
    have ht := Tl.runs A tl h.2 r
    refine Ends.head (b := C (fresh (.e r) :: ⟨.e (.bin l (.cons op r tl)), 3, some a⟩ :: S) none σ) rfl ?_
    simp only [Tl.ev]
    refine Ends.bind (hr.1 _ none σ) (fun b σ2 _ => ?_)
    show Ends A (C (⟨.e (.bin l (.cons op r tl)), 3, some a⟩ :: S) (some b) σ2) S _
    cases hb : A.bin op (rd σ2 a) (rd σ2 b) with
    | none =>
      refine Ends.head (b := (C (⟨.e (.bin l (.cons op r tl)), 3, some a⟩ :: S) (some b) σ2).fail) ?_ (Ends.fail rfl)
      simp [step, hE, hb]
    | some v =>
      cases tl with
      | nil =>
        refine Ends.head (b := C (popuntil S) (some (.tmp v)) σ2) ?_ Ends.done
        simp [step, hE, hb, out]
      | cons op' r' tl' =>
        refine Ends.head (b := C (⟨.e (.bin r (.cons op' r' tl')), 2, some (.tmp v)⟩ :: S) none σ2) ?_ ?_
        · simp [step, hE, hb]
        · exact ht (by simp) S (.tmp v) σ2

theorem LTl.runs (A : Alg V) : ∀ tl : LTl V, tl.Ok →
    (∀ l, RunsJ A l → RunsE A (.logic l tl)) ∧
    (∀ l0 o0 r0 t0 S a σ, A.truth (rd σ a) = false →
      Ends A (skipTo (.e (.logic l0 (.cons o0 r0 t0))) S a σ tl) S (tl.ev A a σ))
  | .nil, _ => by
    refine ⟨fun l hl => logic_runs hl (fun h => absurd rfl h), ?_⟩
    intro l0 o0 r0 t0 S a σ _
    simp only [skipTo, LTl.skip, LTl.ev]
    exact logic_out
  | .cons isOr r tl, h => by
    simp only [LTl.Ok] at h
    have hr := E.runs A r h.1
    have ht := LTl.runs A tl h.2
    have hrt := ht.1 r hr.2
    have hskip : ∀ l0 o0 r0 t0 S a σ, A.truth (rd σ a) = false →
      Ends A (skipTo (.e (.logic l0 (.cons o0 r0 t0))) S a σ (.cons isOr r tl)) S ((LTl.cons isOr r tl).ev A a σ) := by
      intro l0 o0 r0 t0 S a σ ha
      cases isOr with
      | true =>
        simp only [skipTo, LTl.skip, LTl.ev, ha]
        exact logic_sub hrt
      | false =>
        have := ht.2 l0 o0 r0 t0 S a σ ha
        simpa only [skipTo, LTl.skip, LTl.ev, ha, Bool.false_eq_true, if_false] using this
    refine ⟨fun l hl => logic_runs hl (fun _ S a σ => ?_), hskip⟩
    cases ha : A.truth (rd σ a) with
    | false =>
      refine Ends.head (b := skipTo (.e (.logic l (.cons isOr r tl))) S a σ (.cons isOr r tl)) ?_ (hskip l isOr r tl S a σ ha)
      simp only [step, hE, skipTo, ha]
      cases (LTl.cons isOr r tl).skip with
      | none => rfl
      | some q => rfl
    | true =>
      cases isOr with
      | true =>
        refine Ends.head (b := C (⟨.e (.logic l (.cons true r tl)), 2, none⟩ :: S) (some a) σ) ?_ ?_
        · simp [step, hE, ha]
        · simp only [LTl.ev, ha, if_true]; exact logic_out
      | false =>
        refine Ends.head (b := C (fresh (.e (.logic r tl)) :: ⟨.e (.logic l (.cons false r tl)), 2, none⟩ :: S) (some a) σ) ?_ ?_
        · simp [step, hE, ha]
        · simp only [LTl.ev, ha, if_true, Bool.false_eq_true, if_false]; exact logic_sub hrt

theorem Es.runs (A : Alg V) : ∀ nx : Es V, nx.Ok → ∀ e, RunsJ A e → ∀ S σ,
    Ends A (C (esAgain e nx S) none σ) S ((e.ev A σ).bind fun p => nx.ev A p.1 p.2)
  | .nil, _, e, he, S, σ => by
    simp only [Es.ev, bind_eta, esAgain]
    split
    · exact he S none σ
    · exact (he _ none σ).congr (by simp [popuntil])
  | .cons e' nx', h, e, he, S, σ => by
    simp only [Es.Ok] at h
    have he' := E.runs A e' h.1
    have ht := Es.runs A nx' h.2 e' he'.2
    simp only [esAgain]
    refine Ends.bind (he _ none σ) (fun a σ' _ => ?_)
    refine Ends.head (b := C (esAgain e' nx' S) none σ') ?_ ?_
    · cases nx' with
      | nil =>
        by_cases hf : e'.jump.isFac = true
        · simp [step, hEs, popuntil, esAgain, hf]
        · simp [step, hEs, popuntil, esAgain, hf]
      | cons e2 nx2 => simp [step, hEs, popuntil, esAgain]
    · simp only [Es.ev]; exact ht S σ'
end

end Verif.Lang
