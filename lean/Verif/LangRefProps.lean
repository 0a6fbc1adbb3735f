import Verif.LangHaltProps

/-!
# Where scripts do not do what they say

The constructs left out by `E.Ok` and `Stm.Ok`: what the machine does with
them, against the reference.
-/

namespace Verif.Lang

open Ex

variable {V : Type}

/-- A literal. -/
def lit (v : V) : E V := .spf (.lit v)

/-- `x = e;` -/
def asgn (x : Nat) (e : E V) (s : Stm V) : Stm V := st (.set (left x) e) s

theorem upd_same (σ : St V) (x : Nat) (v : V) : upd σ x v x = v := by simp [upd]

theorem upd_other (σ : St V) {x y : Nat} (v : V) (h : y ≠ x) : upd σ x v y = σ y := by simp [upd, h]

/-! ## Assigning a variable to itself -/

/-- **`x = x;` makes `x` nil**, whatever it was. -/
theorem self_assignment_destroys (A : Alg V) (x : Nat) (σ : St V) :
    ∃ σ', Reach A (start (asgn x (at' (Ex.id x)) .nil) σ) ⟨[], none, σ', false, false⟩ ∧
      σ' x = A.nil ∧ ∀ y, y ≠ x → σ' y = σ y := by
  refine ⟨upd (upd σ x A.nil) x (upd σ x A.nil x), ⟨20, rfl⟩, ?_, ?_⟩
  · simp [upd]
  · intro y hy; simp [upd, hy]

/-- The reference leaves it alone. -/
theorem self_assignment_reference (A : Alg V) (x : Nat) (σ : St V) :
    ∃ k σ', (asgn x (at' (Ex.id x)) .nil).ex A k σ = some (.norm, σ') ∧ ∀ y, σ' y = σ y := by
  refine ⟨5, upd σ x (σ x), rfl, ?_⟩
  intro y
  by_cases h : y = x
  · subst h; simp [upd]
  · simp [upd, h]

/-- **`x = (x = v);` makes `x` nil** as well. -/
theorem double_assignment_destroys (A : Alg V) (x : Nat) (v : V) (σ : St V) :
    ∃ σ', Reach A (start (asgn x (.set (left x) (at' (lit v))) .nil) σ) ⟨[], none, σ', false, false⟩ ∧
      σ' x = A.nil := by
  refine ⟨upd (upd (upd (upd σ x A.nil) x v) x A.nil) x (upd (upd (upd σ x A.nil) x v) x A.nil x), ⟨30, rfl⟩, ?_⟩
  simp [upd]

/-! ## Reading operands late -/

/-- `y = x + (x = v);` -/
def lateRead (x y : Nat) (v : V) : Stm V :=
  asgn y (op2 .add (Ex.id x) (.paren (one (.set (left x) (at' (lit v)))))) .nil

/-- **The left operand is read after the right one has been evaluated**: the sum is `v + v`,
whatever `x` was. -/
theorem operands_read_late (A : Alg V) (hA : A.truth A.tru = true) (x y : Nat) (v w : V)
    (hw : A.bin .add v v = some w) (σ : St V) :
    ∃ σ', Reach A (start (lateRead x y v) σ) ⟨[], none, σ', false, false⟩ ∧ σ' y = w := by
  have hok : (lateRead x y v).Ok := by
    simp [lateRead, asgn, st, one, at', left, un, Ex.id, lit, op2, Stm.Ok, Block.Ok, Es.Ok, Es.one, E.Ok, Tl.Ok, LTl.Ok,
      E.refs, LTl.refs]
  refine ⟨upd (upd σ x v) y w, ?_, by simp [upd]⟩
  refine script_executes A hA hok (k := 5) (o := .norm) ?_
  simp [lateRead, asgn, st, one, at', left, un, Ex.id, lit, op2, Stm.ex, Block.ex, expEx, Es.ev, E.ev, Tl.ev, LTl.ev, wr,
    rd, upd, Fac.rv, andThen, hw]

example : ∃ σ', Reach alg (start (lateRead 0 1 (some 5)) σ0) ⟨[], none, σ', false, false⟩ ∧ σ' 1 = some 10 :=
  operands_read_late alg rfl 0 1 (some 5) (some 10) rfl σ0

/-! ## Several expressions in one statement -/

/-- **`e, e₂, …;` evaluates `e` only**, whatever the others are. -/
theorem comma_statement_runs_first_only (A : Alg V) {e : E V} (he : e.Ok) (nx : Es V) {σ σ' : St V} {a : RV V}
    (hv : e.ev A σ = some (a, σ')) :
    Reach A (start (.block (.exp (.cons e nx)) .nil) σ) ⟨[], none, σ', false, false⟩ := by
  have hj := (E.runs A e he).2 [⟨.stm (.block (.exp (.cons e nx)) .nil), 1, none⟩] none σ
  rw [hv] at hj
  refine Reach.head (b := C [fresh e.jump, ⟨.stm (.block (.exp (.cons e nx)) .nil), 1, none⟩] none σ) rfl
    (Reach.trans hj ?_)
  exact Reach.one rfl

/-- The reference evaluates all. -/
theorem comma_statement_reference (A : Alg V) {e : E V} {nx : Es V} {σ σ1 σ2 : St V} {a a' : RV V}
    (hv : e.ev A σ = some (a, σ1)) (hv' : nx.ev A a σ1 = some (a', σ2)) :
    (Stm.block (.exp (.cons e nx)) .nil).ex A 2 σ = some (.norm, σ2) := by
  simp [Stm.ex, Block.ex, expEx, Es.ev, hv, hv', andThen]

/-- `x = 1, y = 2;` -/
example :
    let s : Stm (Option Int) := .block (.exp (.cons (.set (left 0) (at' (num 1))) (one (.set (left 1) (at' (num 2)))))) .nil
    ((s.ex alg 5 σ0).map fun p => (p.2 0, p.2 1)) = some (some 1, some 2) ∧
    ((run alg 60 (start s σ0)).map fun c => (c.stack.length, c.st 0, c.st 1)) = some (0, some 1, some 0) := by
  decide +kernel

/-! ## Null pointers -/

/-- **An empty statement is an access through a null pointer.** -/
theorem empty_statement_null (A : Alg V) (s : Stm V) (σ : St V) :
    run A 1 (start (.block (.exp .nil) s) σ) = none := rfl

/-- Also after other statements. -/
theorem empty_statement_later_null (A : Alg V) {e : E V} (he : e.Ok) (s : Stm V) {σ σ' : St V} {a : RV V}
    (hv : e.ev A σ = some (a, σ')) :
    ∃ n, run A n (start (st e (.block (.exp .nil) s)) σ) = none := by
  have hj := (E.runs A e he).2 [⟨.stm (st e (.block (.exp .nil) s)), 1, none⟩] none σ
  rw [hv] at hj
  obtain ⟨n, h⟩ := Reach.head (A := A) (a := start (st e (.block (.exp .nil) s)) σ)
    (b := C [fresh e.jump, ⟨.stm (st e (.block (.exp .nil) s)), 1, none⟩] none σ) rfl hj
  exact ⟨n + 1, by rw [run_add, h]; rfl⟩

/-- `case v:` with no statements, for the value switched on. -/
def emptyCase (v : V) (cs : Cases V) (nx : Stm V) : Stm V := .sw (one (at' (lit v))) (.cons (some (.lit v)) .nil cs) nx

/-- **A matching case without statements is an access through a null pointer.** -/
theorem empty_case_null (A : Alg V) {v t : V} (heq : A.bin .eq v v = some t) (ht : A.truth t = true) (cs : Cases V)
    (nx : Stm V) (σ : St V) : ∃ n, run A n (start (emptyCase v cs nx) σ) = none := by
  refine ⟨9, ?_⟩
  simp [run, start, emptyCase, one, at', un, lit, step, hStm, stmGo, fresh, hSw, hEs, hE, E.jump, Item.isFac, hFac, out, popuntil,
    hSwstm, rd, heq, ht]

/-- `switch (1) { case 1: case 2: x = 3; }` should set `x`. -/
example :
    let cs : Cases (Option Int) := .cons (some (.lit (some 2))) (asgn 0 (at' (num 3)) .nil) .nil
    (((emptyCase (some 1) cs .nil).ex alg 8 σ0).map fun p => p.2 0) = some (some 3) ∧
    (run alg 30 (start (emptyCase (some 1) cs .nil) σ0)).isNone = true := by decide +kernel

/-- **`x = ();` is an access through a null pointer.** -/
theorem empty_parens_null (A : Alg V) (x : Nat) (s : Stm V) (σ : St V) :
    ∃ n, run A n (start (asgn x (at' (.paren .nil)) s) σ) = none := ⟨20, rfl⟩

/-- **`if () …` is an access through a null pointer.** -/
theorem empty_if_null (A : Alg V) (b : Block V) (s : Stm V) (σ : St V) :
    ∃ n, run A n (start (.block (.ifN .nil b) s) σ) = none := ⟨5, rfl⟩

/-! ## `for` without a condition -/

/-- **`for (e; ; m) body` never runs its body** when `e` is false: the value of `e` is taken for the condition. -/
theorem for_without_condition_tests_init (A : Alg V) {e : E V} (he : e.Ok) (m : Es V) (b : Block V) {σ σ' : St V}
    {a : RV V} (hv : e.ev A σ = some (a, σ')) (hf : A.truth (rd σ' a) = false) :
    Reach A (start (.fr (one e) .nil m b .nil) σ) ⟨[], none, σ', false, false⟩ := by
  have hok : (Es.cons e .nil).Ok := by simp [Es.Ok, he]
  have hw := es_wait A hok ⟨.fr (one e) .nil m b, 1, none⟩ (show (1 : Int) ≠ -1 by decide)
    [⟨.stm (.fr (one e) .nil m b .nil), 1, none⟩] none σ (.tmp A.nil)
  refine Reach.head (b := C [fresh (.fr (one e) .nil m b), ⟨.stm (.fr (one e) .nil m b .nil), 1, none⟩] none σ) rfl ?_
  refine Reach.head rfl ((hw.1 a σ' (by simp [Es.ev, hv])).trans ?_)
  refine Reach.head (b := C [⟨.stm (.fr (one e) .nil m b .nil), 1, none⟩] (some a) σ') ?_ (Reach.one rfl)
  simp [step, hFor, hf]

/-- The reference runs it for ever, if the body only evaluates an expression that does not fail. -/
theorem for_without_condition_reference (A : Alg V) {e : E V} (he : ∀ σ, ∃ p, e.ev A σ = some p) :
    ∀ k σ, forEx A k .nil .nil (.exp (one e)) σ = none
  | 0, _ => rfl
  | k + 1, σ => by
    cases k with
    | zero => simp [forEx, condEx, Block.ex, inLoop]
    | succ k =>
      obtain ⟨p, hp⟩ := he σ
      have := for_without_condition_reference A he (k + 1) p.2
      rw [forEx]
      simp [condEx, Block.ex, inLoop, expEx, one, Es.ev, hp]
      exact this

/-- **`for (; ; ) e;` stops after the first round** in which `e` is false: here the first one. -/
theorem endless_for_stops (A : Alg V) {e : E V} (he : e.Ok) {σ σ' : St V} {a : RV V}
    (hv : e.ev A σ = some (a, σ')) (hf : A.truth (rd σ' a) = false) :
    Reach A (start (.fr .nil .nil .nil (.exp (one e)) .nil) σ) ⟨[], none, σ', false, false⟩ := by
  let L : Stm V := .fr .nil .nil .nil (.exp (one e)) .nil
  let N : Node V := ⟨.fr .nil .nil .nil (.exp (one e)), 3, none⟩
  have hj := (E.runs A e he).2 [⟨.block (.exp (one e)), -1, none⟩, N, ⟨.stm L, 1, none⟩] none σ
  rw [hv] at hj
  refine Reach.head rfl (Reach.head rfl (Reach.head rfl (Reach.trans hj ?_)))
  refine Reach.head (b := C [⟨.stm L, 1, none⟩] (some a) σ') ?_ (Reach.one rfl)
  simp [step, hFor, popuntil, N, hf]

/-- `for (;;) x = 0;` -/
example : (run alg 60 (start (.fr .nil .nil .nil (.exp (one (.set (left 0) (at' (num 0))))) .nil) σ0)).map (·.stack.length) =
    some 0 := by decide +kernel

/-! ## `continue` in a switch -/

/-- `while (x) { switch (x) { default: continue; } x = z; }` -/
def contSwitch (x : Nat) (z : V) : Stm V :=
  .whl (one (at' (Ex.id x)))
    (bl (.sw (one (at' (Ex.id x))) (.cons none (.block .cont .nil) .nil) (asgn x (at' (lit z)) .nil))) .nil

/-- **`continue` in a switch only leaves the switch**: what follows it in the loop is executed. -/
theorem continue_leaves_switch_only (A : Alg V) (x : Nat) {z : V} (hz : A.truth z = false) {σ : St V}
    (hx : A.truth (σ x) = true) :
    ∃ σ', Reach A (start (contSwitch x z) σ) ⟨[], none, σ', false, false⟩ ∧ σ' x = z := by
  let B : Block V := bl (.sw (one (at' (Ex.id x))) (.cons none (.block .cont .nil) .nil) (asgn x (at' (lit z)) .nil))
  let N : Node V := ⟨.stm (.whl (one (at' (Ex.id x))) B .nil), 1, none⟩
  let c1 : Ctx V := C [⟨.whl (one (at' (Ex.id x))) B, 1, none⟩, N] (some (.loc x)) σ
  let c2 : Ctx V := C [fresh (.block B), ⟨.whl (one (at' (Ex.id x))) B, 0, none⟩, N] (some (.loc x)) σ
  let σ' : St V := upd (upd σ x A.nil) x z
  let c3 : Ctx V := C [⟨.whl (one (at' (Ex.id x))) B, 1, none⟩, N] (some (.loc x)) σ'
  have h1 : Reach A (start (contSwitch x z) σ) c1 := ⟨4, rfl⟩
  have h2 : step A c1 = some c2 := by
    simp [step, c1, c2, hWhl, rd, hx]
  have h3 : Reach A c2 c3 := ⟨22, rfl⟩
  have h4 : step A c3 = some (C [N] none σ') := by
    simp [step, c3, hWhl, rd, σ', upd, hz]
  exact ⟨σ', ((h1.trans (Reach.one h2)).trans h3).trans (Reach.head h4 (Reach.one rfl)), by simp [σ', upd]⟩

/-- The reference goes on with the loop, for ever. -/
theorem continue_in_switch_reference (A : Alg V) (x : Nat) (z : V) {σ : St V} (hx : A.truth (σ x) = true) (k : Nat) :
    (contSwitch x z).ex A k σ = none := by
  have hb : ∀ k, Block.ex A k (bl (.sw (one (at' (Ex.id x))) (.cons none (.block .cont .nil) .nil) (asgn x (at' (lit z)) .nil))) σ = none ∨
      Block.ex A k (bl (.sw (one (at' (Ex.id x))) (.cons none (.block .cont .nil) .nil) (asgn x (at' (lit z)) .nil))) σ =
        some (.cont, σ) := by
    intro k
    rcases k with _ | _ | _ | _ | _ | k <;>
      simp [bl, Block.ex, Stm.ex, one, at', un, Ex.id, Es.ev, E.ev, LTl.ev, Tl.ev, Fac.rv, pick, pickCase, pickDefault, casesEx,
        andThen, inSwitch]
  have hw : ∀ k, whileEx A k (one (at' (Ex.id x)))
      (bl (.sw (one (at' (Ex.id x))) (.cons none (.block .cont .nil) .nil) (asgn x (at' (lit z)) .nil))) σ = none := by
    intro k
    induction k with
    | zero => rfl
    | succ k ih =>
      rw [whileEx]
      have hc : condEx A (one (at' (Ex.id x))) σ = some (true, σ) := by
        simp [condEx, one, at', un, Ex.id, Es.ev, E.ev, LTl.ev, Tl.ev, Fac.rv, rd, hx]
      rw [hc]
      simp only [if_true]
      rcases hb k with h | h <;> rw [h]
      · rfl
      · exact ih
  cases k with
  | zero => rfl
  | succ k => rw [contSwitch, Stm.ex, hw]; rfl

/-! ## `default` before other cases -/

/-- `switch (v) { default: x = a; break; case v: x = b; }` -/
def defaultFirst (x : Nat) (v a b : V) : Stm V :=
  .sw (one (at' (lit v))) (.cons none (asgn x (at' (lit a)) (.block .brk .nil)) <|
    .cons (some (.lit v)) (asgn x (at' (lit b)) .nil) .nil) .nil

/-- **A `default` that comes first is taken** although a case matches. -/
theorem default_first_taken (A : Alg V) (x : Nat) (v a b : V) (σ : St V) :
    ∃ σ', Reach A (start (defaultFirst x v a b) σ) ⟨[], none, σ', false, false⟩ ∧ σ' x = a := by
  refine ⟨upd (upd σ x A.nil) x a, ⟨40, rfl⟩, by simp [upd]⟩

/-- The reference takes the case. -/
theorem default_first_reference (A : Alg V) (x : Nat) {v t : V} (a b : V) (heq : A.bin .eq v v = some t)
    (ht : A.truth t = true) (σ : St V) :
    ∃ k σ', (defaultFirst x v a b).ex A k σ = some (.norm, σ') ∧ σ' x = b := by
  refine ⟨8, upd σ x b, ?_, by simp [upd]⟩
  simp [defaultFirst, asgn, st, one, at', left, un, Ex.id, lit, Stm.ex, Block.ex, expEx, Es.ev, E.ev, Tl.ev, LTl.ev, wr,
    rd, Fac.rv, andThen, pick, pickCase, heq, ht, casesEx, inSwitch]

end Verif.Lang
