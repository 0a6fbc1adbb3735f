import Verif.LangProps

/-!
# What the script language computes: statements

The reference execution `Stm.ex` below is that of C: `while` and `for` loops, a
missing condition is true, `switch` finds the matching case (or `default`) and
falls through, `break` leaves the innermost loop or switch, `continue` goes to
the next round of the innermost loop, `return` ends the script.
`machine_executes` says that the stack machine does the same, for scripts
that keep off some constructs (`Stm.Ok`); the theorems at the end say what
it does with those.
-/

namespace Verif.Lang

variable {V : Type}

/-! ## The reference -/

inductive Out (V : Type)
  | norm
  | brk
  | cont
  | ret (a : RV V)
  | err

/-- A condition: `none` is an error.  A missing one is true. -/
def condEx (A : Alg V) (c : Es V) (σ : St V) : Option (Bool × St V) :=
  match c with
  | .nil => some (true, σ)
  | c => (c.ev A (.tmp A.nil) σ).map fun p => (A.truth (rd p.2 p.1), p.2)

/-- The expressions of a list are evaluated for their effects. -/
def expEx (A : Alg V) (e : Es V) (σ : St V) : Option (St V) :=
  (e.ev A (.tmp A.nil) σ).map (·.2)

/-- The cases from the first one equal to `v` on; `none` if a comparison fails. -/
def pickCase (A : Alg V) (σ : St V) (v : V) : Cases V → Option (Cases V)
  | .nil => some .nil
  | .cons none _ nx => pickCase A σ v nx
  | .cons (some f) s nx =>
    (A.bin .eq v (rd σ f.rv)).bind fun t =>
      if A.truth t then some (.cons (some f) s nx) else pickCase A σ v nx

/-- The cases from `default` on. -/
def pickDefault : Cases V → Cases V
  | .nil => .nil
  | .cons none s nx => .cons none s nx
  | .cons (some _) _ nx => pickDefault nx

/-- Where a switch on `v` goes. -/
def pick (A : Alg V) (σ : St V) (v : V) (cs : Cases V) : Option (Cases V) :=
  (pickCase A σ v cs).map fun r => match r with | .nil => pickDefault cs | r => r

/-- First one, then, if it ends normally, the other. -/
def andThen (o : Option (Out V × St V)) (f : St V → Option (Out V × St V)) : Option (Out V × St V) :=
  match o with
  | none => none
  | some (.norm, σ) => f σ
  | some (o, σ) => some (o, σ)

/-- The end of a loop's body: go on, or leave the loop. -/
def inLoop (o : Option (Out V × St V)) (f : St V → Option (Out V × St V)) : Option (Out V × St V) :=
  match o with
  | none => none
  | some (.norm, σ) => f σ
  | some (.cont, σ) => f σ
  | some (.brk, σ) => some (.norm, σ)
  | some (o, σ) => some (o, σ)

/-- The end of a switch. -/
def inSwitch (o : Option (Out V × St V)) : Option (Out V × St V) :=
  match o with
  | some (.brk, σ) => some (.norm, σ)
  | o => o

mutual
/-- Execution, with fuel: `none` if the fuel does not suffice. -/
def Stm.ex (A : Alg V) : Nat → Stm V → St V → Option (Out V × St V)
  | 0, _, _ => none
  | _ + 1, .nil, σ => some (.norm, σ)
  | k + 1, .block b nx, σ => andThen (Block.ex A k b σ) (Stm.ex A k nx)
  | k + 1, .whl c b nx, σ => andThen (whileEx A k c b σ) (Stm.ex A k nx)
  | k + 1, .fr i c m b nx, σ =>
    match expEx A i σ with
    | none => some (.err, σ)
    | some σ1 => andThen (forEx A k c m b σ1) (Stm.ex A k nx)
  | k + 1, .sw c cs nx, σ =>
    match c.ev A (.tmp A.nil) σ with
    | none => some (.err, σ)
    | some (a, σ1) =>
      match pick A σ1 (rd σ1 a) cs with
      | none => some (.err, σ1)
      | some cs' => andThen (inSwitch (casesEx A k cs' σ1)) (Stm.ex A k nx)

def Block.ex (A : Alg V) : Nat → Block V → St V → Option (Out V × St V)
  | 0, _, _ => none
  | _ + 1, .exp e, σ =>
    match expEx A e σ with
    | none => some (.err, σ)
    | some σ1 => some (.norm, σ1)
  | k + 1, .stm s, σ => Stm.ex A k s σ
  | _ + 1, .cont, σ => some (.cont, σ)
  | _ + 1, .brk, σ => some (.brk, σ)
  | _ + 1, .ret e, σ =>
    match e.ev A (.tmp A.nil) σ with
    | none => some (.err, σ)
    | some (a, σ1) => some (.ret a, σ1)
  | k + 1, .ifN c b, σ =>
    match condEx A c σ with
    | none => some (.err, σ)
    | some (t, σ1) => if t then Block.ex A k b σ1 else some (.norm, σ1)
  | k + 1, .ifE c b e, σ =>
    match condEx A c σ with
    | none => some (.err, σ)
    | some (t, σ1) => if t then Block.ex A k b σ1 else Block.ex A k e σ1

def whileEx (A : Alg V) : Nat → Es V → Block V → St V → Option (Out V × St V)
  | 0, _, _, _ => none
  | k + 1, c, b, σ =>
    match condEx A c σ with
    | none => some (.err, σ)
    | some (t, σ1) =>
      if t then inLoop (Block.ex A k b σ1) (whileEx A k c b) else some (.norm, σ1)

def forEx (A : Alg V) : Nat → Es V → Es V → Block V → St V → Option (Out V × St V)
  | 0, _, _, _, _ => none
  | k + 1, c, m, b, σ =>
    match condEx A c σ with
    | none => some (.err, σ)
    | some (t, σ1) =>
      if t then
        inLoop (Block.ex A k b σ1) fun σ2 =>
          match expEx A m σ2 with
          | none => some (.err, σ2)
          | some σ3 => forEx A k c m b σ3
      else some (.norm, σ1)

/-- The statements of the cases, one after the other. -/
def casesEx (A : Alg V) : Nat → Cases V → St V → Option (Out V × St V)
  | 0, _, _ => none
  | _ + 1, .nil, σ => some (.norm, σ)
  | k + 1, .cons _ s nx, σ => andThen (Stm.ex A k s σ) (casesEx A k nx)
end

mutual
/-- No `continue` that belongs to a loop outside. -/
def Stm.nc : Stm V → Prop
  | .nil => True
  | .block b nx => b.nc ∧ nx.nc
  | .whl _ _ nx => nx.nc
  | .fr _ _ _ _ nx => nx.nc
  | .sw _ cs nx => cs.nc ∧ nx.nc
def Block.nc : Block V → Prop
  | .exp _ => True
  | .stm s => s.nc
  | .cont => False
  | .brk => True
  | .ret _ => True
  | .ifN _ b => b.nc
  | .ifE _ b e => b.nc ∧ e.nc
def Cases.nc : Cases V → Prop
  | .nil => True
  | .cons _ s nx => s.nc ∧ nx.nc
end

/-- An expression statement: a single expression, or none. -/
def Es.one : Es V → Prop
  | .nil => True
  | .cons _ .nil => True
  | .cons _ (.cons _ _) => False

mutual
/-- What the theorem asks of a script: expressions as in `E.Ok`; no `,` in an
expression statement; no empty statement (`;`) in a sequence; `for`, `if` and
`switch` have a condition; a `case` has statements; `default` comes last; no
`continue` in a switch for a loop around it. -/
def Stm.Ok : Stm V → Prop
  | .nil => True
  | .block b nx => b.Ok ∧ nx.Ok ∧ (match b with | .exp .nil => False | _ => True)
  | .whl c b nx => c.Ok ∧ b.Ok ∧ nx.Ok
  | .fr i c m b nx => i.Ok ∧ c.Ok ∧ m.Ok ∧ b.Ok ∧ nx.Ok ∧ c ≠ .nil
  | .sw c cs nx => c.Ok ∧ cs.Ok ∧ nx.Ok ∧ cs.nc ∧ c ≠ .nil
def Block.Ok : Block V → Prop
  | .exp e => e.Ok ∧ e.one
  | .stm s => s.Ok
  | .cont => True
  | .brk => True
  | .ret e => e.Ok
  | .ifN c b => c.Ok ∧ b.Ok ∧ c ≠ .nil
  | .ifE c b e => c.Ok ∧ b.Ok ∧ e.Ok ∧ c ≠ .nil
def Cases.Ok : Cases V → Prop
  | .nil => True
  | .cons none s nx => s.Ok ∧ nx = .nil
  | .cons (some _) s nx => s.Ok ∧ nx.Ok ∧ s ≠ .nil
end

/-! ## Finished nodes under a statement -/

/-- The finished nodes on top of the stack are those of blocks. -/
def OutOK : List (Node V) → Prop
  | [] => True
  | n :: S => n.step = -1 → (∃ b, n.item = .block b ∧ ∀ e, b ≠ .ret e) ∧ OutOK S

theorem outs (A : Alg V) : ∀ (S : List (Node V)), OutOK S → ∀ r σ,
    ∃ r', Reach A (C S r σ) (C (popuntil S) r' σ)
  | [], _, r, σ => ⟨r, Reach.refl _ _⟩
  | n :: S, h, r, σ => by
    by_cases hn : n.step = -1
    · obtain ⟨⟨b, hb, hr⟩, hS⟩ := h hn
      obtain ⟨r', h'⟩ := outs A S hS none σ
      refine ⟨r', Reach.head (b := C S none σ) ?_ (by simpa only [popuntil, hn, if_true] using h')⟩
      simp only [step, hb, hBlock, hn]
      cases b <;> simp_all
    · exact ⟨r, by simpa only [popuntil, hn, if_false] using Reach.refl _ _⟩

theorem retTo_cons (n : Node V) {S : List (Node V)} (h : S ≠ []) : retTo (n :: S) = retTo S := by
  cases S with
  | nil => exact absurd rfl h
  | cons m S => rfl

/-! ## Outcomes of the machine -/

/-- `break` and `continue`. -/
def Leaves (A : Alg V) (c : Ctx V) (σ' : St V) : Option (List (Node V)) → Prop
  | some S' => Reach A c (C S' none σ')
  | none => Fails A c

/-- The statements whose node is above `S` are done. -/
def SDone (A : Alg V) (c : Ctx V) (S : List (Node V)) : Out V → St V → Prop
  | .norm, σ' => Reach A c (C S none σ')
  | .brk, σ' => Leaves A c σ' (brkTo S)
  | .cont, σ' => Leaves A c σ' (contTo S)
  | .ret a, σ' => ∃ s', Reach A c ⟨retTo (⟨.stm s', 1, none⟩ :: S), some a, σ', true, false⟩
  | .err, _ => Fails A c

/-- The block whose node is above `S` is done. -/
def BDone (A : Alg V) (c : Ctx V) (S : List (Node V)) : Out V → St V → Prop
  | .norm, σ' => ∃ r, Reach A c (C (popuntil S) r σ')
  | .brk, σ' => Leaves A c σ' (brkTo S)
  | .cont, σ' => Leaves A c σ' (contTo S)
  | .ret a, σ' => Reach A c ⟨retTo S, some a, σ', true, false⟩
  | .err, _ => Fails A c

/-- The loop or switch whose node is above `S` is done. -/
def LDone (A : Alg V) (c : Ctx V) (S : List (Node V)) : Out V → St V → Prop
  | .norm, σ' => ∃ r, Reach A c (C S r σ')
  | .brk, _ => False
  | .cont, _ => False
  | .ret a, σ' => Reach A c ⟨retTo S, some a, σ', true, false⟩
  | .err, _ => Fails A c

theorem Leaves.of_reach {A : Alg V} {a b : Ctx V} {σ' : St V} {o} (h1 : Reach A a b) (h2 : Leaves A b σ' o) :
    Leaves A a σ' o := by
  cases o with
  | none => exact Fails.of_reach h1 h2
  | some S' => exact Reach.trans h1 h2

theorem SDone.of_reach {A : Alg V} {a b : Ctx V} {S : List (Node V)} {o} {σ' : St V} (h1 : Reach A a b)
    (h2 : SDone A b S o σ') : SDone A a S o σ' := by
  cases o with
  | norm => exact h1.trans h2
  | brk => exact Leaves.of_reach h1 h2
  | cont => exact Leaves.of_reach h1 h2
  | ret a => obtain ⟨s', h2⟩ := h2; exact ⟨s', h1.trans h2⟩
  | err => exact Fails.of_reach h1 h2

theorem BDone.of_reach {A : Alg V} {a b : Ctx V} {S : List (Node V)} {o} {σ' : St V} (h1 : Reach A a b)
    (h2 : BDone A b S o σ') : BDone A a S o σ' := by
  cases o with
  | norm => obtain ⟨r, h2⟩ := h2; exact ⟨r, h1.trans h2⟩
  | brk => exact Leaves.of_reach h1 h2
  | cont => exact Leaves.of_reach h1 h2
  | ret a => exact h1.trans h2
  | err => exact Fails.of_reach h1 h2

theorem LDone.of_reach {A : Alg V} {a b : Ctx V} {S : List (Node V)} {o} {σ' : St V} (h1 : Reach A a b)
    (h2 : LDone A b S o σ') : LDone A a S o σ' := by
  cases o with
  | norm => obtain ⟨r, h2⟩ := h2; exact ⟨r, h1.trans h2⟩
  | brk => exact h2
  | cont => exact h2
  | ret a => exact h1.trans h2
  | err => exact Fails.of_reach h1 h2

theorem Reach.one {A : Alg V} {a b : Ctx V} (h : step A a = some b) : Reach A a b := (Reach.refl A b).head h

/-! ## Expressions in statements -/

theorem es_step (A : Alg V) (e : E V) (nx : Es V) (S : List (Node V)) (r : Option (RV V)) (σ : St V) :
    step A (C (fresh (.es e nx) :: S) r σ) = some (C (esAgain e nx S) none σ) := by
  cases nx with
  | nil =>
    by_cases hf : e.jump.isFac = true
    · simp [step, hEs, fresh, esAgain, hf]
    · simp [step, hEs, fresh, esAgain, hf]
  | cons e' nx' => simp [step, hEs, fresh, esAgain]

theorem es_ends (A : Alg V) {e : E V} {nx : Es V} (h : (Es.cons e nx).Ok) (S : List (Node V))
    (r : Option (RV V)) (σ : St V) (a : RV V) :
    Ends A (C (fresh (.es e nx) :: S) r σ) S ((Es.cons e nx).ev A a σ) := by
  simp only [Es.Ok] at h
  refine Ends.head (es_step A e nx S r σ) ?_
  simp only [Es.ev]
  exact Es.runs A nx h.2 e (E.runs A e h.1).2 S σ

/-- What the node of a statement pushes. -/
def stmItem : Stm V → Item V
  | .block (.exp (.cons e _)) _ => e.jump
  | .block b _ => .block b
  | .whl c b _ => .whl c b
  | .fr i c m b _ => .fr i c m b
  | .sw c cs _ => .sw c cs
  | .nil => .stm .nil

/-- The statement's node is there, its part pushed. -/
def stmC (s : Stm V) (S : List (Node V)) (r : Option (RV V)) (σ : St V) : Ctx V :=
  C (fresh (stmItem s) :: ⟨.stm s, 1, none⟩ :: S) r σ

theorem stmGo_ok {s : Stm V} (h : s.Ok) (hn : s ≠ .nil) {n : Node V} (hr : n.ret = none) (S S0 : List (Node V))
    (r : Option (RV V)) (σ : St V) : stmGo s n S (C S0 r σ) = some (stmC s S r σ) := by
  cases s with
  | nil => exact absurd rfl hn
  | block b nx =>
    cases b with
    | exp e =>
      cases e with
      | nil => simp [Stm.Ok] at h
      | cons e nx' => simp [stmGo, stmC, stmItem, hr]
    | _ => simp [stmGo, stmC, stmItem, hr]
  | whl c b nx => simp [stmGo, stmC, stmItem, hr]
  | fr i c m b nx => simp [stmGo, stmC, stmItem, hr]
  | sw c cs nx => simp [stmGo, stmC, stmItem, hr]

theorem stm_step {A : Alg V} {s : Stm V} (h : s.Ok) (hn : s ≠ .nil) (S : List (Node V)) (r : Option (RV V)) (σ : St V) :
    step A (C (fresh (.stm s) :: S) r σ) = some (stmC s S r σ) := by
  show hStm s (fresh (.stm s)) S _ = _
  simp only [hStm, fresh, if_true]
  exact stmGo_ok h hn rfl _ _ _ _

theorem Stm.Ok.next {s : Stm V} (h : s.Ok) : s.next.Ok := by
  cases s <;> simp_all [Stm.Ok, Stm.next]

/-- One statement is done: on to the next one. -/
theorem advance {A : Alg V} {k : Nat} {s : Stm V} (hs : s.Ok)
    (ih : ∀ s : Stm V, s.Ok → s ≠ .nil → ∀ S r σ o σ', s.ex A k σ = some (o, σ') → SDone A (stmC s S r σ) S o σ')
    (S : List (Node V)) (r : Option (RV V)) (σ : St V) {o : Out V} {σ' : St V}
    (he : s.next.ex A k σ = some (o, σ')) :
    SDone A (C (⟨.stm s, 1, none⟩ :: S) r σ) S o σ' := by
  cases hx : s.next with
  | nil =>
    rw [hx] at he
    cases k with
    | zero => simp [Stm.ex] at he
    | succ k =>
      simp only [Stm.ex, Option.some.injEq, Prod.mk.injEq] at he
      obtain ⟨rfl, rfl⟩ := he
      refine Reach.one ?_
      simp [step, hStm, hx]
  | _ =>
    have hok := hs.next
    have hne : s.next ≠ .nil := by rw [hx]; simp
    refine SDone.of_reach (b := stmC s.next S r σ) (Reach.one ?_) (ih s.next hok hne S r σ o σ' he)
    have := stmGo_ok hok hne (n := ⟨.stm s, 1, none⟩) rfl S (⟨.stm s, 1, none⟩ :: S) r σ
    rw [hx] at this
    simp only [step, hStm, hx]
    simpa using this

/-! ## Scripts without a `continue` in a switch -/

theorem pickCase_nc {A : Alg V} {σ : St V} {v : V} : ∀ {cs cs' : Cases V},
    pickCase A σ v cs = some cs' → cs.nc → cs'.nc
  | .nil, cs', h, hn => by simp only [pickCase, Option.some.injEq] at h; rw [← h]; exact hn
  | .cons none s nx, cs', h, hn => by
    simp only [pickCase] at h; simp only [Cases.nc] at hn; exact pickCase_nc h hn.2
  | .cons (some f) s nx, cs', h, hn => by
    simp only [pickCase, Option.bind_eq_some_iff] at h
    obtain ⟨t, _, h⟩ := h
    split at h
    · simp only [Option.some.injEq] at h; rw [← h]; exact hn
    · simp only [Cases.nc] at hn; exact pickCase_nc h hn.2

theorem pickDefault_nc : ∀ {cs : Cases V}, cs.nc → (pickDefault cs).nc
  | .nil, h => h
  | .cons none s nx, h => h
  | .cons (some f) s nx, h => by
    simp only [Cases.nc] at h; simp only [pickDefault]; exact pickDefault_nc h.2

theorem pick_nc {A : Alg V} {σ : St V} {v : V} {cs cs' : Cases V} (h : pick A σ v cs = some cs') (hn : cs.nc) :
    cs'.nc := by
  simp only [pick, Option.map_eq_some_iff] at h
  obtain ⟨r, hr, h⟩ := h
  cases r with
  | nil => simp only at h; rw [← h]; exact pickDefault_nc hn
  | cons f s nx => simp only at h; rw [← h]; exact pickCase_nc hr hn

/-! ## The machine executes statements -/

mutual
theorem Stm.nc_ex (A : Alg V) : ∀ (k : Nat) (s : Stm V), s.nc → ∀ {σ σ' : St V} {o : Out V},
    s.ex A k σ = some (o, σ') → o ≠ .cont
  | 0, s, _, σ, σ', o, he => by simp [Stm.ex] at he
  | k + 1, .nil, _, σ, σ', o, he => by
    simp only [Stm.ex, Option.some.injEq, Prod.mk.injEq] at he
    rw [← he.1]; simp
  | k + 1, .block b nx, h, σ, σ', o, he => by
    simp only [Stm.nc] at h
    simp only [Stm.ex] at he
    cases hb : Block.ex A k b σ with
    | none => simp [hb, andThen] at he
    | some p =>
      obtain ⟨o1, σ1⟩ := p
      have := Block.nc_ex A k b h.1 hb
      cases o1 <;> simp [hb, andThen] at he this
      · exact Stm.nc_ex A k nx h.2 he
      all_goals (rw [← he.1]; simp)
  | k + 1, .whl c b nx, h, σ, σ', o, he => by
    simp only [Stm.nc] at h
    simp only [Stm.ex] at he
    cases hb : whileEx A k c b σ with
    | none => simp [hb, andThen] at he
    | some p =>
      obtain ⟨o1, σ1⟩ := p
      have := while_nc A k hb
      cases o1 <;> simp [hb, andThen] at he this
      · exact Stm.nc_ex A k nx h he
      all_goals (rw [← he.1]; simp)
  | k + 1, .fr i c m b nx, h, σ, σ', o, he => by
    simp only [Stm.nc] at h
    simp only [Stm.ex] at he
    cases hi : expEx A i σ with
    | none => simp only [hi, Option.some.injEq, Prod.mk.injEq] at he; rw [← he.1]; simp
    | some σ1 =>
      simp only [hi] at he
      cases hb : forEx A k c m b σ1 with
      | none => simp [hb, andThen] at he
      | some p =>
        obtain ⟨o1, σ2⟩ := p
        have := for_nc A k hb
        cases o1 <;> simp [hb, andThen] at he this
        · exact Stm.nc_ex A k nx h he
        all_goals (rw [← he.1]; simp)
  | k + 1, .sw c cs nx, h, σ, σ', o, he => by
    simp only [Stm.nc] at h
    simp only [Stm.ex] at he
    cases hc : c.ev A (.tmp A.nil) σ with
    | none => simp only [hc, Option.some.injEq, Prod.mk.injEq] at he; rw [← he.1]; simp
    | some p =>
      obtain ⟨a, σ1⟩ := p
      simp only [hc] at he
      cases hp : pick A σ1 (rd σ1 a) cs with
      | none => simp only [hp, Option.some.injEq, Prod.mk.injEq] at he; rw [← he.1]; simp
      | some cs' =>
        simp only [hp] at he
        have hcs' : cs'.nc := pick_nc hp h.1
        cases hb : casesEx A k cs' σ1 with
        | none => simp [hb, andThen, inSwitch] at he
        | some p =>
          obtain ⟨o1, σ2⟩ := p
          have := cases_nc A k cs' hcs' hb
          cases o1 <;> simp [hb, andThen, inSwitch] at he this
          · exact Stm.nc_ex A k nx h.2 he
          · exact Stm.nc_ex A k nx h.2 he
          all_goals (rw [← he.1]; simp)
theorem Block.nc_ex (A : Alg V) : ∀ (k : Nat) (b : Block V), b.nc → ∀ {σ σ' : St V} {o : Out V},
    b.ex A k σ = some (o, σ') → o ≠ .cont
  | 0, b, _, σ, σ', o, he => by simp [Block.ex] at he
  | k + 1, .exp e, _, σ, σ', o, he => by
    simp only [Block.ex] at he
    split at he <;> (simp only [Option.some.injEq, Prod.mk.injEq] at he; rw [← he.1]; simp)
  | k + 1, .stm s, h, σ, σ', o, he => by
    simp only [Block.ex] at he; exact Stm.nc_ex A k s h he
  | k + 1, .cont, h, _, _, _, _ => absurd h (by simp [Block.nc])
  | k + 1, .brk, _, σ, σ', o, he => by
    simp only [Block.ex, Option.some.injEq, Prod.mk.injEq] at he; rw [← he.1]; simp
  | k + 1, .ret e, _, σ, σ', o, he => by
    simp only [Block.ex] at he
    split at he <;> (simp only [Option.some.injEq, Prod.mk.injEq] at he; rw [← he.1]; simp)
  | k + 1, .ifN c b, h, σ, σ', o, he => by
    simp only [Block.nc] at h
    simp only [Block.ex] at he
    split at he
    · simp only [Option.some.injEq, Prod.mk.injEq] at he; rw [← he.1]; simp
    · split at he
      · exact Block.nc_ex A k b h he
      · simp only [Option.some.injEq, Prod.mk.injEq] at he; rw [← he.1]; simp
  | k + 1, .ifE c b e, h, σ, σ', o, he => by
    simp only [Block.nc] at h
    simp only [Block.ex] at he
    split at he
    · simp only [Option.some.injEq, Prod.mk.injEq] at he; rw [← he.1]; simp
    · split at he
      · exact Block.nc_ex A k b h.1 he
      · exact Block.nc_ex A k e h.2 he
theorem while_nc (A : Alg V) : ∀ (k : Nat) {c : Es V} {b : Block V} {σ σ' : St V} {o : Out V},
    whileEx A k c b σ = some (o, σ') → o ≠ .cont ∧ o ≠ .brk
  | 0, c, b, σ, σ', o, he => by simp [whileEx] at he
  | k + 1, c, b, σ, σ', o, he => by
    simp only [whileEx] at he
    split at he
    · simp only [Option.some.injEq, Prod.mk.injEq] at he; rw [← he.1]; simp
    · rename_i t σ1 _
      split at he
      · cases hb : Block.ex A k b σ1 with
        | none => simp [hb, inLoop] at he
        | some p =>
          obtain ⟨o1, σ2⟩ := p
          cases o1 <;> simp [hb, inLoop] at he
          · exact while_nc A k he
          · rw [← he.1]; simp
          · exact while_nc A k he
          all_goals (rw [← he.1]; simp)
      · simp only [Option.some.injEq, Prod.mk.injEq] at he; rw [← he.1]; simp
theorem for_nc (A : Alg V) : ∀ (k : Nat) {c m : Es V} {b : Block V} {σ σ' : St V} {o : Out V},
    forEx A k c m b σ = some (o, σ') → o ≠ .cont ∧ o ≠ .brk
  | 0, c, m, b, σ, σ', o, he => by simp [forEx] at he
  | k + 1, c, m, b, σ, σ', o, he => by
    simp only [forEx] at he
    split at he
    · simp only [Option.some.injEq, Prod.mk.injEq] at he; rw [← he.1]; simp
    · rename_i t σ1 _
      split at he
      · cases hb : Block.ex A k b σ1 with
        | none => simp [hb, inLoop] at he
        | some p =>
          obtain ⟨o1, σ2⟩ := p
          have key : (match expEx A m σ2 with
              | none => some (Out.err, σ2)
              | some σ3 => forEx A k c m b σ3) = some (o, σ') → o ≠ .cont ∧ o ≠ .brk := by
            intro he
            split at he
            · simp only [Option.some.injEq, Prod.mk.injEq] at he; rw [← he.1]; simp
            · exact for_nc A k he
          cases o1 <;> simp only [hb, inLoop] at he
          · exact key he
          · simp only [Option.some.injEq, Prod.mk.injEq] at he; rw [← he.1]; simp
          · exact key he
          all_goals (simp only [Option.some.injEq, Prod.mk.injEq] at he; rw [← he.1]; simp)
      · simp only [Option.some.injEq, Prod.mk.injEq] at he; rw [← he.1]; simp
theorem cases_nc (A : Alg V) : ∀ (k : Nat) (cs : Cases V), cs.nc → ∀ {σ σ' : St V} {o : Out V},
    casesEx A k cs σ = some (o, σ') → o ≠ .cont
  | 0, cs, _, σ, σ', o, he => by simp [casesEx] at he
  | k + 1, .nil, _, σ, σ', o, he => by
    simp only [casesEx, Option.some.injEq, Prod.mk.injEq] at he; rw [← he.1]; simp
  | k + 1, .cons f s nx, h, σ, σ', o, he => by
    simp only [Cases.nc] at h
    simp only [casesEx] at he
    cases hb : Stm.ex A k s σ with
    | none => simp [hb, andThen] at he
    | some p =>
      obtain ⟨o1, σ1⟩ := p
      have := Stm.nc_ex A k s h.1 hb
      cases o1 <;> simp [hb, andThen] at he this
      · exact cases_nc A k nx h.2 he
      all_goals (rw [← he.1]; simp)
end

/-! ## One round of everything -/

/-- What is known for fuel `k`. -/
structure Runs (A : Alg V) (k : Nat) : Prop where
  stm : ∀ s : Stm V, s.Ok → s ≠ .nil → ∀ S r σ o σ',
    s.ex A k σ = some (o, σ') → SDone A (stmC s S r σ) S o σ'
  block : ∀ b : Block V, b.Ok → ∀ S : List (Node V), S ≠ [] → OutOK S → ∀ r σ o σ',
    b.ex A k σ = some (o, σ') → BDone A (C (fresh (.block b) :: S) r σ) S o σ'
  whl : ∀ (c : Es V) (b : Block V) nx, c.Ok → b.Ok → ∀ S0 r σ o σ',
    whileEx A k c b σ = some (o, σ') →
    LDone A (C (fresh (.whl c b) :: ⟨.stm (.whl c b nx), 1, none⟩ :: S0) r σ)
      (⟨.stm (.whl c b nx), 1, none⟩ :: S0) o σ'
  fr : ∀ (i : Es V) ce cn (m : Es V) (b : Block V) nx, (Es.cons ce cn).Ok → m.Ok → b.Ok → ∀ S0 r σ o σ',
    forEx A k (.cons ce cn) m b σ = some (o, σ') →
    LDone A (C (fresh (.es ce cn) :: ⟨.fr i (.cons ce cn) m b, 2, none⟩ ::
        ⟨.stm (.fr i (.cons ce cn) m b nx), 1, none⟩ :: S0) r σ)
      (⟨.stm (.fr i (.cons ce cn) m b nx), 1, none⟩ :: S0) o σ'
  cases : ∀ f (s : Stm V) nx, s.Ok → nx.Ok → s.nc → nx.nc → s ≠ .nil →
    ∀ sc scs snx x, (x = none ∨ nx = .nil) → ∀ S0 r σ o σ',
    inSwitch (casesEx A k (.cons f s nx) σ) = some (o, σ') →
    LDone A (C (fresh (.stm s) :: ⟨.swstm (.cons f s nx), 4, none⟩ :: ⟨.sw sc scs, 2, x⟩ ::
        ⟨.stm (.sw sc scs snx), 1, none⟩ :: S0) r σ)
      (⟨.stm (.sw sc scs snx), 1, none⟩ :: S0) o σ'

theorem runs_zero (A : Alg V) : Runs A 0 where
  stm := by intro s _ _ S r σ o σ' h; simp [Stm.ex] at h
  block := by intro s _ S _ _ r σ o σ' h; simp [Block.ex] at h
  whl := by intro c b nx _ _ S r σ o σ' h; simp [whileEx] at h
  fr := by intro i ce cn m b nx _ _ _ S r σ o σ' h; simp [forEx] at h
  cases := by intro f s nx _ _ _ _ _ sc scs snx x _ S r σ o σ' h; simp [casesEx, inSwitch] at h

/-- The part of a statement is done, its node is next: the rest of the sequence. -/
theorem stm_after {A : Alg V} {k : Nat} (ih : Runs A k) {s : Stm V} (hs : s.Ok) {c : Ctx V}
    {S : List (Node V)} {o1 : Out V} {σ1 : St V}
    (h : LDone A c (⟨.stm s, 1, none⟩ :: S) o1 σ1) {o : Out V} {σ' : St V}
    (he : andThen (some (o1, σ1)) (s.next.ex A k) = some (o, σ')) : SDone A c S o σ' := by
  cases o1 with
  | norm =>
    obtain ⟨r, h⟩ := h
    exact SDone.of_reach h (advance hs ih.stm S r σ1 he)
  | brk => exact absurd h id
  | cont => exact absurd h id
  | ret a =>
    simp only [andThen, Option.some.injEq, Prod.mk.injEq] at he
    obtain ⟨rfl, rfl⟩ := he
    exact ⟨s, h⟩
  | err =>
    simp only [andThen, Option.some.injEq, Prod.mk.injEq] at he
    obtain ⟨rfl, rfl⟩ := he
    exact h

theorem stm_after_block {A : Alg V} {k : Nat} (ih : Runs A k) {b : Block V} {nx : Stm V}
    (hs : (Stm.block b nx).Ok) {c : Ctx V}
    {S : List (Node V)} {o1 : Out V} {σ1 : St V}
    (h : BDone A c (⟨.stm (.block b nx), 1, none⟩ :: S) o1 σ1) {o : Out V} {σ' : St V}
    (he : andThen (some (o1, σ1)) (nx.ex A k) = some (o, σ')) : SDone A c S o σ' := by
  cases o1 with
  | norm =>
    obtain ⟨r, h⟩ := h
    exact SDone.of_reach h (advance hs ih.stm S r σ1 he)
  | brk =>
    simp only [andThen, Option.some.injEq, Prod.mk.injEq] at he
    obtain ⟨rfl, rfl⟩ := he
    exact h
  | cont =>
    simp only [andThen, Option.some.injEq, Prod.mk.injEq] at he
    obtain ⟨rfl, rfl⟩ := he
    exact h
  | ret a =>
    simp only [andThen, Option.some.injEq, Prod.mk.injEq] at he
    obtain ⟨rfl, rfl⟩ := he
    exact ⟨_, h⟩
  | err =>
    simp only [andThen, Option.some.injEq, Prod.mk.injEq] at he
    obtain ⟨rfl, rfl⟩ := he
    exact h

/-- The evaluation of a list, from a node that waits for it. -/
theorem es_wait (A : Alg V) {e : E V} {nx : Es V} (h : (Es.cons e nx).Ok) (n : Node V) (hn : n.step ≠ -1)
    (S : List (Node V)) (r : Option (RV V)) (σ : St V) (a : RV V) :
    (∀ a' σ', (Es.cons e nx).ev A a σ = some (a', σ') →
      Reach A (C (fresh (.es e nx) :: n :: S) r σ) (C (n :: S) (some a') σ')) ∧
    ((Es.cons e nx).ev A a σ = none → Fails A (C (fresh (.es e nx) :: n :: S) r σ)) := by
  have := es_ends A h (n :: S) r σ a
  have hp : popuntil (n :: S) = n :: S := by simp [popuntil, hn]
  refine ⟨fun a' σ' he => ?_, fun he => ?_⟩
  · rw [he] at this; simp only [Ends, hp] at this; exact this
  · rw [he] at this; exact this

theorem block_step (A : Alg V) {k : Nat} (ih : Runs A k) (b : Block V) (hb : b.Ok) (S : List (Node V))
    (hS : S ≠ []) (hO : OutOK S) (r : Option (RV V)) (σ : St V) (o : Out V) (σ' : St V)
    (he : b.ex A (k + 1) σ = some (o, σ')) : BDone A (C (fresh (.block b) :: S) r σ) S o σ' := by
  have hout : ∀ b' : Block V, (∀ e, b' ≠ .ret e) → OutOK (⟨.block b', -1, none⟩ :: S) :=
    fun b' h _ => ⟨⟨b', rfl, h⟩, hO⟩
  cases b with
  | exp e =>
    cases e with
    | nil =>
      simp only [Block.ex, expEx, Es.ev, Option.map_some, Option.some.injEq, Prod.mk.injEq] at he
      obtain ⟨rfl, rfl⟩ := he
      obtain ⟨r', h⟩ := outs A S hO none σ
      exact ⟨r', Reach.head rfl h⟩
    | cons e nx =>
      cases nx with
      | cons _ _ => simp [Block.Ok, Es.one] at hb
      | nil =>
        simp only [Block.Ok, Es.Ok] at hb
        have hj := (E.runs A e hb.1.1).2 (⟨.block (.exp (.cons e .nil)), -1, none⟩ :: S) none σ
        have hstep : step A (C (fresh (.block (.exp (.cons e .nil))) :: S) r σ) =
          some (C (fresh e.jump :: ⟨.block (.exp (.cons e .nil)), -1, none⟩ :: S) none σ) := rfl
        simp only [Block.ex, expEx, Es.ev] at he
        cases hv : e.ev A σ with
        | none =>
          simp only [hv, Option.bind_none, Option.map_none, Option.some.injEq, Prod.mk.injEq] at he
          obtain ⟨rfl, rfl⟩ := he
          rw [hv] at hj
          exact Fails.head hstep hj
        | some p =>
          simp only [hv, Option.bind_some, Option.map_some, Option.some.injEq, Prod.mk.injEq] at he
          obtain ⟨rfl, rfl⟩ := he
          rw [hv] at hj
          refine ⟨some p.1, Reach.head hstep ?_⟩
          simpa [Ends, popuntil] using hj
  | stm s =>
    by_cases hs : s = .nil
    · subst hs
      simp only [Block.ex] at he
      cases k with
      | zero => simp [Stm.ex] at he
      | succ k =>
        simp only [Stm.ex, Option.some.injEq, Prod.mk.injEq] at he
        obtain ⟨rfl, rfl⟩ := he
        obtain ⟨r', h⟩ := outs A S hO none σ
        exact ⟨r', Reach.head rfl h⟩
    · simp only [Block.ex] at he
      simp only [Block.Ok] at hb
      have h := ih.stm s hb hs (⟨.block (.stm s), -1, none⟩ :: S) none σ o σ' he
      have hstep : step A (C (fresh (.block (.stm s)) :: S) r σ) =
          some (C (fresh (.stm s) :: ⟨.block (.stm s), -1, none⟩ :: S) none σ) := by
        cases s <;> first | exact absurd rfl hs | rfl
      have hr := (Reach.one hstep).trans (Reach.one (stm_step (A := A) hb hs (⟨.block (.stm s), -1, none⟩ :: S) none σ))
      refine BDone.of_reach hr ?_
      cases o with
      | norm =>
        obtain ⟨r', h'⟩ := outs A _ (hout (.stm s) (by simp)) none σ'
        exact ⟨r', by simpa [popuntil] using Reach.trans h h'⟩
      | brk => exact h
      | cont => exact h
      | err => exact h
      | ret a =>
        obtain ⟨s', h⟩ := h
        rw [retTo_cons _ (by simp), retTo_cons _ hS] at h
        exact h
  | cont =>
    simp only [Block.ex, Option.some.injEq, Prod.mk.injEq] at he
    obtain ⟨rfl, rfl⟩ := he
    simp only [BDone]
    cases h : contTo S with
    | none =>
      exact ⟨⟨[], none, σ, false, true⟩, Reach.one (by simp [step, hBlock, fresh, h]), rfl⟩
    | some S' => exact Reach.one (by simp [step, hBlock, fresh, h])
  | brk =>
    simp only [Block.ex, Option.some.injEq, Prod.mk.injEq] at he
    obtain ⟨rfl, rfl⟩ := he
    simp only [BDone]
    cases h : brkTo S with
    | none =>
      exact ⟨⟨[], none, σ, false, true⟩, Reach.one (by simp [step, hBlock, fresh, h]), rfl⟩
    | some S' => exact Reach.one (by simp [step, hBlock, fresh, h])
  | ret e =>
    have hfin : ∀ a σ, step A (C (⟨.block (.ret e), 1, none⟩ :: S) (some a) σ) =
        some ⟨retTo S, some a, σ, true, false⟩ := by
      intro a σ
      simp [step, hBlock, retTo_cons _ hS]
    simp only [Block.ex] at he
    cases e with
    | nil =>
      simp only [Es.ev, Option.some.injEq, Prod.mk.injEq] at he
      obtain ⟨rfl, rfl⟩ := he
      exact Reach.head rfl (Reach.one (hfin _ σ))
    | cons e nx =>
      simp only [Block.Ok] at hb
      have hw := es_wait A hb ⟨.block (.ret (.cons e nx)), 1, none⟩ (show (1 : Int) ≠ -1 by decide) S none σ (.tmp A.nil)
      have hstep : step A (C (fresh (.block (.ret (.cons e nx))) :: S) r σ) =
        some (C (fresh (.es e nx) :: ⟨.block (.ret (.cons e nx)), 1, none⟩ :: S) none σ) := rfl
      split at he
      · rename_i hv
        simp only [Option.some.injEq, Prod.mk.injEq] at he
        obtain ⟨rfl, rfl⟩ := he
        exact Fails.head hstep (hw.2 hv)
      · rename_i a σ1 hv
        simp only [Option.some.injEq, Prod.mk.injEq] at he
        obtain ⟨rfl, rfl⟩ := he
        exact Reach.head hstep ((hw.1 _ _ hv).trans (Reach.one (hfin _ _)))
  | ifN c b =>
    cases c with
    | nil => simp [Block.Ok] at hb
    | cons e nx =>
      simp only [Block.Ok] at hb
      have hw := es_wait A hb.1 ⟨.ite (.cons e nx) b none, 1, none⟩ (show (1 : Int) ≠ -1 by decide)
        (⟨.block (.ifN (.cons e nx) b), -1, none⟩ :: S) none σ (.tmp A.nil)
      have hr : Reach A (C (fresh (.block (.ifN (.cons e nx) b)) :: S) r σ)
          (C (fresh (.es e nx) :: ⟨.ite (.cons e nx) b none, 1, none⟩ ::
            ⟨.block (.ifN (.cons e nx) b), -1, none⟩ :: S) none σ) := Reach.head rfl (Reach.one rfl)
      refine BDone.of_reach hr ?_
      simp only [Block.ex, condEx] at he
      cases hv : (Es.cons e nx).ev A (.tmp A.nil) σ with
      | none =>
        simp only [hv, Option.map_none, Option.some.injEq, Prod.mk.injEq] at he
        obtain ⟨rfl, rfl⟩ := he
        exact hw.2 hv
      | some p =>
        obtain ⟨a, σ1⟩ := p
        simp only [hv, Option.map_some] at he
        refine BDone.of_reach (hw.1 _ _ hv) ?_
        by_cases ht : A.truth (rd σ1 a) = true
        · simp only [ht, if_true] at he
          have h := ih.block b hb.2.1 (⟨.block (.ifN (.cons e nx) b), -1, none⟩ :: S) (by simp)
            (hout _ (by simp)) (some a) σ1 o σ' he
          refine BDone.of_reach (Reach.one (b := C (fresh (.block b) :: ⟨.block (.ifN (.cons e nx) b), -1, none⟩ :: S) (some a) σ1)
            (by simp [step, hIf, ht])) ?_
          cases o with
          | norm => simpa [BDone, popuntil] using h
          | brk => exact h
          | cont => exact h
          | err => exact h
          | ret a => simpa only [BDone, retTo_cons _ hS] using h
        · simp [ht] at he
          obtain ⟨rfl, rfl⟩ := he
          obtain ⟨r', h'⟩ := outs A _ (hout (.ifN (.cons e nx) b) (by simp)) none σ1
          refine ⟨r', Reach.head (b := C (⟨.block (.ifN (.cons e nx) b), -1, none⟩ :: S) none σ1) (by simp [step, hIf, ht]) ?_⟩
          simpa [popuntil] using h'
  | ifE c b els =>
    cases c with
    | nil => simp [Block.Ok] at hb
    | cons e nx =>
      simp only [Block.Ok] at hb
      have hw := es_wait A hb.1 ⟨.ite (.cons e nx) b (some els), 1, none⟩ (show (1 : Int) ≠ -1 by decide)
        (⟨.block (.ifE (.cons e nx) b els), -1, none⟩ :: S) none σ (.tmp A.nil)
      have hr : Reach A (C (fresh (.block (.ifE (.cons e nx) b els)) :: S) r σ)
          (C (fresh (.es e nx) :: ⟨.ite (.cons e nx) b (some els), 1, none⟩ ::
            ⟨.block (.ifE (.cons e nx) b els), -1, none⟩ :: S) none σ) := Reach.head rfl (Reach.one rfl)
      refine BDone.of_reach hr ?_
      simp only [Block.ex, condEx] at he
      cases hv : (Es.cons e nx).ev A (.tmp A.nil) σ with
      | none =>
        simp only [hv, Option.map_none, Option.some.injEq, Prod.mk.injEq] at he
        obtain ⟨rfl, rfl⟩ := he
        exact hw.2 hv
      | some p =>
        obtain ⟨a, σ1⟩ := p
        simp only [hv, Option.map_some] at he
        refine BDone.of_reach (hw.1 _ _ hv) ?_
        have key : ∀ b' : Block V, b'.Ok → b'.ex A k σ1 = some (o, σ') →
            step A (C (⟨.ite (.cons e nx) b (some els), 1, none⟩ :: ⟨.block (.ifE (.cons e nx) b els), -1, none⟩ :: S) (some a) σ1) =
              some (C (fresh (.block b') :: ⟨.block (.ifE (.cons e nx) b els), -1, none⟩ :: S) (some a) σ1) →
            BDone A (C (⟨.ite (.cons e nx) b (some els), 1, none⟩ :: ⟨.block (.ifE (.cons e nx) b els), -1, none⟩ :: S) (some a) σ1) S o σ' := by
          intro b' hb' he' hst
          have h := ih.block b' hb' (⟨.block (.ifE (.cons e nx) b els), -1, none⟩ :: S) (by simp)
            (hout _ (by simp)) (some a) σ1 o σ' he'
          refine BDone.of_reach (Reach.one hst) ?_
          cases o with
          | norm => simpa [BDone, popuntil] using h
          | brk => exact h
          | cont => exact h
          | err => exact h
          | ret a => simpa only [BDone, retTo_cons _ hS] using h
        by_cases ht : A.truth (rd σ1 a) = true
        · simp only [ht, if_true] at he
          exact key b hb.2.1 he (by simp [step, hIf, ht])
        · simp [ht] at he
          exact key els hb.2.2.1 he (by simp [step, hIf, ht])

theorem whl_step (A : Alg V) {k : Nat} (ih : Runs A k) (c : Es V) (b : Block V) (nx : Stm V)
    (hA : A.truth A.tru = true)
    (hc : c.Ok) (hb : b.Ok) (S0 : List (Node V)) (r : Option (RV V)) (σ : St V) (o : Out V) (σ' : St V)
    (he : whileEx A (k + 1) c b σ = some (o, σ')) :
    LDone A (C (fresh (.whl c b) :: ⟨.stm (.whl c b nx), 1, none⟩ :: S0) r σ)
      (⟨.stm (.whl c b nx), 1, none⟩ :: S0) o σ' := by
  -- the body, then the loop again
  have body : ∀ r1 σ1, inLoop (Block.ex A k b σ1) (whileEx A k c b) = some (o, σ') →
      LDone A (C (fresh (.block b) :: ⟨.whl c b, 0, none⟩ :: ⟨.stm (.whl c b nx), 1, none⟩ :: S0) r1 σ1)
        (⟨.stm (.whl c b nx), 1, none⟩ :: S0) o σ' := by
    intro r1 σ1 he
    cases hx : Block.ex A k b σ1 with
    | none => simp [hx, inLoop] at he
    | some p =>
      obtain ⟨o1, σ2⟩ := p
      have h := ih.block b hb (⟨.whl c b, 0, none⟩ :: ⟨.stm (.whl c b nx), 1, none⟩ :: S0) (by simp)
        (fun h => absurd h (show (0 : Int) ≠ -1 by decide)) r1 σ1 o1 σ2 hx
      cases o1 with
      | norm =>
        obtain ⟨r2, h⟩ := h
        simp only [hx, inLoop] at he
        exact LDone.of_reach h (ih.whl c b nx hc hb S0 r2 σ2 o σ' he)
      | cont =>
        simp only [hx, inLoop] at he
        exact LDone.of_reach h (ih.whl c b nx hc hb S0 none σ2 o σ' he)
      | brk =>
        simp only [hx, inLoop, Option.some.injEq, Prod.mk.injEq] at he
        obtain ⟨rfl, rfl⟩ := he
        exact ⟨none, h⟩
      | ret a =>
        simp only [hx, inLoop, Option.some.injEq, Prod.mk.injEq] at he
        obtain ⟨rfl, rfl⟩ := he
        exact h
      | err =>
        simp only [hx, inLoop, Option.some.injEq, Prod.mk.injEq] at he
        obtain ⟨rfl, rfl⟩ := he
        exact h
  simp only [whileEx] at he
  cases c with
  | nil =>
    simp only [condEx, if_true] at he
    refine LDone.of_reach (Reach.one ?_) (body (some (.tmp A.tru)) σ he)
    simp [step, hWhl, fresh, rd, hA]
  | cons e nx' =>
    have hw := es_wait A hc ⟨.whl (.cons e nx') b, 1, none⟩ (show (1 : Int) ≠ -1 by decide)
      (⟨.stm (.whl (.cons e nx') b nx), 1, none⟩ :: S0) r σ (.tmp A.nil)
    refine LDone.of_reach (Reach.one (b := C (fresh (.es e nx') :: ⟨.whl (.cons e nx') b, 1, none⟩ ::
      ⟨.stm (.whl (.cons e nx') b nx), 1, none⟩ :: S0) r σ) rfl) ?_
    simp only [condEx] at he
    cases hv : (Es.cons e nx').ev A (.tmp A.nil) σ with
    | none =>
      simp only [hv, Option.map_none, Option.some.injEq, Prod.mk.injEq] at he
      obtain ⟨rfl, rfl⟩ := he
      exact hw.2 hv
    | some p =>
      obtain ⟨a, σ1⟩ := p
      simp only [hv, Option.map_some] at he
      refine LDone.of_reach (hw.1 _ _ hv) ?_
      by_cases ht : A.truth (rd σ1 a) = true
      · simp only [ht, if_true] at he
        refine LDone.of_reach (Reach.one ?_) (body (some a) σ1 he)
        simp [step, hWhl, ht]
      · simp [ht] at he
        obtain ⟨rfl, rfl⟩ := he
        exact ⟨none, Reach.one (by simp [step, hWhl, ht])⟩

theorem fr_step (A : Alg V) {k : Nat} (ih : Runs A k) (i : Es V) (ce : E V) (cn m : Es V) (b : Block V) (nx : Stm V)
    (hc : (Es.cons ce cn).Ok) (hm : m.Ok) (hb : b.Ok) (S0 : List (Node V)) (r : Option (RV V)) (σ : St V)
    (o : Out V) (σ' : St V) (he : forEx A (k + 1) (.cons ce cn) m b σ = some (o, σ')) :
    LDone A (C (fresh (.es ce cn) :: ⟨.fr i (.cons ce cn) m b, 2, none⟩ ::
        ⟨.stm (.fr i (.cons ce cn) m b nx), 1, none⟩ :: S0) r σ)
      (⟨.stm (.fr i (.cons ce cn) m b nx), 1, none⟩ :: S0) o σ' := by
  -- the third expression, then the loop again
  have again : ∀ r1 σ1, (match expEx A m σ1 with
        | none => some (.err, σ1)
        | some σ3 => forEx A k (.cons ce cn) m b σ3) = some (o, σ') →
      LDone A (C (⟨.fr i (.cons ce cn) m b, 3, none⟩ :: ⟨.stm (.fr i (.cons ce cn) m b nx), 1, none⟩ :: S0) r1 σ1)
        (⟨.stm (.fr i (.cons ce cn) m b nx), 1, none⟩ :: S0) o σ' := by
    intro r1 σ1 he
    cases m with
    | nil =>
      simp only [expEx, Es.ev, Option.map_some] at he
      exact LDone.of_reach (Reach.one (by simp [step, hFor]))
        (ih.fr i ce cn .nil b nx hc hm hb S0 r1 σ1 o σ' he)
    | cons me mn =>
      have hw := es_wait A hm ⟨.fr i (.cons ce cn) (.cons me mn) b, 1, none⟩ (show (1 : Int) ≠ -1 by decide)
        (⟨.stm (.fr i (.cons ce cn) (.cons me mn) b nx), 1, none⟩ :: S0) r1 σ1 (.tmp A.nil)
      refine LDone.of_reach (Reach.one (b := C (fresh (.es me mn) :: ⟨.fr i (.cons ce cn) (.cons me mn) b, 1, none⟩ ::
        ⟨.stm (.fr i (.cons ce cn) (.cons me mn) b nx), 1, none⟩ :: S0) r1 σ1) (by simp [step, hFor])) ?_
      simp only [expEx] at he
      cases hv : (Es.cons me mn).ev A (.tmp A.nil) σ1 with
      | none =>
        simp only [hv, Option.map_none, Option.some.injEq, Prod.mk.injEq] at he
        obtain ⟨rfl, rfl⟩ := he
        exact hw.2 hv
      | some p =>
        obtain ⟨a, σ2⟩ := p
        simp only [hv, Option.map_some] at he
        exact LDone.of_reach ((hw.1 _ _ hv).trans (Reach.one (by simp [step, hFor])))
          (ih.fr i ce cn (.cons me mn) b nx hc hm hb S0 (some a) σ2 o σ' he)
  simp only [forEx, condEx] at he
  have hw := es_wait A hc ⟨.fr i (.cons ce cn) m b, 2, none⟩ (show (2 : Int) ≠ -1 by decide)
    (⟨.stm (.fr i (.cons ce cn) m b nx), 1, none⟩ :: S0) r σ (.tmp A.nil)
  cases hv : (Es.cons ce cn).ev A (.tmp A.nil) σ with
  | none =>
    simp only [hv, Option.map_none, Option.some.injEq, Prod.mk.injEq] at he
    obtain ⟨rfl, rfl⟩ := he
    exact hw.2 hv
  | some p =>
    obtain ⟨a, σ1⟩ := p
    simp only [hv, Option.map_some] at he
    refine LDone.of_reach (hw.1 _ _ hv) ?_
    by_cases ht : A.truth (rd σ1 a) = true
    · simp only [ht, if_true] at he
      refine LDone.of_reach (Reach.one (b := C (fresh (.block b) :: ⟨.fr i (.cons ce cn) m b, 3, none⟩ ::
        ⟨.stm (.fr i (.cons ce cn) m b nx), 1, none⟩ :: S0) (some a) σ1) (by simp [step, hFor, ht])) ?_
      cases hx : Block.ex A k b σ1 with
      | none => simp [hx, inLoop] at he
      | some p =>
        obtain ⟨o1, σ2⟩ := p
        have h := ih.block b hb (⟨.fr i (.cons ce cn) m b, 3, none⟩ :: ⟨.stm (.fr i (.cons ce cn) m b nx), 1, none⟩ :: S0) (by simp)
          (fun h => absurd h (show (3 : Int) ≠ -1 by decide)) (some a) σ1 o1 σ2 hx
        cases o1 with
        | norm =>
          obtain ⟨r2, h⟩ := h
          simp only [hx, inLoop] at he
          exact LDone.of_reach h (again r2 σ2 he)
        | cont =>
          simp only [hx, inLoop] at he
          exact LDone.of_reach h (again none σ2 he)
        | brk =>
          simp only [hx, inLoop, Option.some.injEq, Prod.mk.injEq] at he
          obtain ⟨rfl, rfl⟩ := he
          exact ⟨none, h⟩
        | ret a =>
          simp only [hx, inLoop, Option.some.injEq, Prod.mk.injEq] at he
          obtain ⟨rfl, rfl⟩ := he
          exact h
        | err =>
          simp only [hx, inLoop, Option.some.injEq, Prod.mk.injEq] at he
          obtain ⟨rfl, rfl⟩ := he
          exact h
    · simp [ht] at he
      obtain ⟨rfl, rfl⟩ := he
      exact ⟨some a, Reach.one (by simp [step, hFor, ht])⟩

/-- The cases of a switch, none of them left to compare with. -/
theorem cases_step (A : Alg V) {k : Nat} (ih : Runs A k) (f : Option (Fac V)) (s : Stm V) (nx : Cases V)
    (hs : s.Ok) (hnx : nx.Ok) (hsn : s.nc) (hnn : nx.nc) (hne : s ≠ .nil) (sc : Es V) (scs : Cases V)
    (snx : Stm V) (x : Option (RV V)) (hx : x = none ∨ nx = .nil) (S0 : List (Node V)) (r : Option (RV V))
    (σ : St V) (o : Out V) (σ' : St V)
    (he : inSwitch (casesEx A (k + 1) (.cons f s nx) σ) = some (o, σ')) :
    LDone A (C (fresh (.stm s) :: ⟨.swstm (.cons f s nx), 4, none⟩ :: ⟨.sw sc scs, 2, x⟩ ::
        ⟨.stm (.sw sc scs snx), 1, none⟩ :: S0) r σ)
      (⟨.stm (.sw sc scs snx), 1, none⟩ :: S0) o σ' := by
  simp only [casesEx] at he
  cases hv : s.ex A k σ with
  | none => simp [hv, andThen, inSwitch] at he
  | some p =>
    obtain ⟨o1, σ1⟩ := p
    have h := ih.stm s hs hne (⟨.swstm (.cons f s nx), 4, none⟩ :: ⟨.sw sc scs, 2, x⟩ ::
      ⟨.stm (.sw sc scs snx), 1, none⟩ :: S0) r σ o1 σ1 hv
    refine LDone.of_reach (Reach.one (stm_step hs hne _ r σ)) ?_
    have hnc := Stm.nc_ex A k s hsn hv
    cases o1 with
    | norm =>
      refine LDone.of_reach h ?_
      simp only [hv, andThen] at he
      cases nx with
      | nil =>
        cases k with
        | zero => simp [casesEx, inSwitch] at he
        | succ k =>
          simp only [casesEx, inSwitch, Option.some.injEq, Prod.mk.injEq] at he
          obtain ⟨rfl, rfl⟩ := he
          exact ⟨none, Reach.head (b := C (⟨.sw sc scs, 2, x⟩ :: ⟨.stm (.sw sc scs snx), 1, none⟩ :: S0) none σ1)
            (by simp [step, hSwstm]) (Reach.one (by simp [step, hSw]))⟩
      | cons f' s' nx' =>
        rcases hx with rfl | hx
        · refine LDone.of_reach (Reach.one (b := C (fresh (.swstm (.cons f' s' nx')) :: ⟨.sw sc scs, 2, none⟩ ::
            ⟨.stm (.sw sc scs snx), 1, none⟩ :: S0) none σ1) (by simp [step, hSwstm])) ?_
          by_cases hs' : s' = .nil
          · subst hs'
            cases f' with
            | some f' => simp [Cases.Ok] at hnx
            | none =>
              simp only [Cases.Ok] at hnx
              obtain ⟨_, rfl⟩ := hnx
              cases k with
              | zero => simp [casesEx, inSwitch] at he
              | succ k =>
                cases k with
                | zero => simp [casesEx, Stm.ex, andThen, inSwitch] at he
                | succ k =>
                  simp only [casesEx, Stm.ex, andThen, inSwitch, Option.some.injEq, Prod.mk.injEq] at he
                  obtain ⟨rfl, rfl⟩ := he
                  exact ⟨none, Reach.head (b := C (⟨.sw sc scs, 2, none⟩ :: ⟨.stm (.sw sc scs snx), 1, none⟩ :: S0) none σ1)
                    (by simp [step, hSwstm, fresh]) (Reach.one (by simp [step, hSw]))⟩
          · have hok : s'.Ok ∧ nx'.Ok := by
              cases f' with
              | none => simp only [Cases.Ok] at hnx; exact ⟨hnx.1, by rw [hnx.2]; simp [Cases.Ok]⟩
              | some f' => simp only [Cases.Ok] at hnx; exact ⟨hnx.1, hnx.2.1⟩
            simp only [Cases.nc] at hnn
            refine LDone.of_reach (Reach.one ?_) (ih.cases f' s' nx' hok.1 hok.2 hnn.1 hnn.2 hs' sc scs snx none (Or.inl rfl) S0 none σ1 o σ' he)
            cases s' <;> simp_all [step, hSwstm, fresh]
        · simp at hx
    | brk =>
      simp only [hv, andThen, inSwitch, Option.some.injEq, Prod.mk.injEq] at he
      obtain ⟨rfl, rfl⟩ := he
      exact ⟨none, h⟩
    | cont => exact absurd rfl hnc
    | ret a =>
      simp only [hv, andThen, inSwitch, Option.some.injEq, Prod.mk.injEq] at he
      obtain ⟨rfl, rfl⟩ := he
      obtain ⟨s', h⟩ := h
      exact h
    | err =>
      simp only [hv, andThen, inSwitch, Option.some.injEq, Prod.mk.injEq] at he
      obtain ⟨rfl, rfl⟩ := he
      exact h

/-- The cases of a switch, to be compared with `a`. -/
theorem cases_cmp (A : Alg V) {k : Nat} (ih : Runs A k) (a : RV V) (sc : Es V) (scs : Cases V)
    (snx : Stm V) (S0 : List (Node V)) (σ : St V) : ∀ (cs : Cases V), cs.Ok → cs.nc → cs ≠ .nil →
    ∀ r : Option (RV V),
    (pick A σ (rd σ a) cs = none →
      Fails A (C (fresh (.swstm cs) :: ⟨.sw sc scs, 2, some a⟩ :: ⟨.stm (.sw sc scs snx), 1, none⟩ :: S0) r σ)) ∧
    (∀ cs' o σ', pick A σ (rd σ a) cs = some cs' → inSwitch (casesEx A k cs' σ) = some (o, σ') →
      LDone A (C (fresh (.swstm cs) :: ⟨.sw sc scs, 2, some a⟩ :: ⟨.stm (.sw sc scs snx), 1, none⟩ :: S0) r σ)
        (⟨.stm (.sw sc scs snx), 1, none⟩ :: S0) o σ')
  | .nil, _, _, hn, _ => absurd rfl hn
  | .cons none s nx, hok, hnc, _, r => by
    simp only [Cases.Ok] at hok
    obtain ⟨hs, rfl⟩ := hok
    simp only [Cases.nc] at hnc
    have hp : pick A σ (rd σ a) (.cons none s .nil) = some (.cons none s .nil) := by
      simp [pick, pickCase, pickDefault]
    refine ⟨fun h => by rw [hp] at h; simp at h, fun cs' o σ' h he => ?_⟩
    rw [hp, Option.some.injEq] at h
    subst h
    by_cases hs' : s = .nil
    · subst hs'
      cases k with
      | zero => simp [casesEx, inSwitch] at he
      | succ k =>
        cases k with
        | zero => simp [casesEx, Stm.ex, andThen, inSwitch] at he
        | succ k =>
          simp only [casesEx, Stm.ex, andThen, inSwitch, Option.some.injEq, Prod.mk.injEq] at he
          obtain ⟨rfl, rfl⟩ := he
          exact ⟨none, Reach.head (b := C (⟨.sw sc scs, 2, some a⟩ :: ⟨.stm (.sw sc scs snx), 1, none⟩ :: S0) none σ)
            (by simp [step, hSwstm, fresh]) (Reach.one (by simp [step, hSw]))⟩
    · refine LDone.of_reach (Reach.one ?_) (ih.cases none s .nil hs (by simp [Cases.Ok]) hnc.1 hnc.2 hs' sc scs snx (some a)
        (Or.inr rfl) S0 none σ o σ' he)
      cases s <;> simp_all [step, hSwstm, fresh]
  | .cons (some f) s nx, hok, hnc, _, r => by
    simp only [Cases.Ok] at hok
    simp only [Cases.nc] at hnc
    have hfac : Reach A (C (fresh (.swstm (.cons (some f) s nx)) :: ⟨.sw sc scs, 2, some a⟩ :: ⟨.stm (.sw sc scs snx), 1, none⟩ :: S0) r σ)
        (C (⟨.swstm (.cons (some f) s nx), 1, none⟩ :: ⟨.sw sc scs, 2, some a⟩ :: ⟨.stm (.sw sc scs snx), 1, none⟩ :: S0) (some f.rv) σ) := by
      refine Reach.head (b := C (fresh (.fac f) :: ⟨.swstm (.cons (some f) s nx), 1, none⟩ :: ⟨.sw sc scs, 2, some a⟩ ::
        ⟨.stm (.sw sc scs snx), 1, none⟩ :: S0) none σ) (by simp [step, hSwstm, fresh]) (Reach.one ?_)
      cases f <;> simp [step, hFac, out, popuntil, fresh, Fac.rv]
    cases hv : A.bin .eq (rd σ a) (rd σ f.rv) with
    | none =>
      have hp : pick A σ (rd σ a) (.cons (some f) s nx) = none := by simp [pick, pickCase, hv]
      refine ⟨fun _ => Fails.of_reach hfac ?_, fun cs' o σ' h he => by rw [hp] at h; simp at h⟩
      exact ⟨_, Reach.one (by simp only [step, hSwstm, hv]; rfl), rfl⟩
    | some v =>
      by_cases ht : A.truth v = true
      · have hp : pick A σ (rd σ a) (.cons (some f) s nx) = some (.cons (some f) s nx) := by
          simp [pick, pickCase, hv, ht]
        refine ⟨fun h => by rw [hp] at h; simp at h, fun cs' o σ' h he => ?_⟩
        rw [hp, Option.some.injEq] at h
        subst h
        refine LDone.of_reach (hfac.trans (Reach.one ?_)) (ih.cases (some f) s nx hok.1 hok.2.1 hnc.1 hnc.2 hok.2.2 sc scs snx none
          (Or.inl rfl) S0 (some (.tmp v)) σ o σ' he)
        simp [step, hSwstm, hv, ht]
      · have hp : pick A σ (rd σ a) (.cons (some f) s nx) = pick A σ (rd σ a) nx := by
          simp [pick, pickCase, hv, ht, pickDefault]
        by_cases hnx : nx = .nil
        · subst hnx
          have hp' : pick A σ (rd σ a) (.cons (some f) s .nil) = some .nil := by
            rw [hp]; simp [pick, pickCase, pickDefault]
          refine ⟨fun h => by rw [hp'] at h; simp at h, fun cs' o σ' h he => ?_⟩
          rw [hp', Option.some.injEq] at h
          subst h
          cases k with
          | zero => simp [casesEx, inSwitch] at he
          | succ k =>
            simp only [casesEx, inSwitch, Option.some.injEq, Prod.mk.injEq] at he
            obtain ⟨rfl, rfl⟩ := he
            exact ⟨some (.tmp v), hfac.trans (Reach.head (b := C (⟨.sw sc scs, 2, some a⟩ :: ⟨.stm (.sw sc scs snx), 1, none⟩ :: S0) (some (.tmp v)) σ)
              (by simp [step, hSwstm, hv, ht]) (Reach.one (by simp [step, hSw])))⟩
        · have hgo : Reach A (C (fresh (.swstm (.cons (some f) s nx)) :: ⟨.sw sc scs, 2, some a⟩ :: ⟨.stm (.sw sc scs snx), 1, none⟩ :: S0) r σ)
              (C (fresh (.swstm nx) :: ⟨.sw sc scs, 2, some a⟩ :: ⟨.stm (.sw sc scs snx), 1, none⟩ :: S0) (some (.tmp v)) σ) := by
            refine hfac.trans (Reach.one ?_)
            cases nx <;> simp_all [step, hSwstm]
          have h := cases_cmp A ih a sc scs snx S0 σ nx hok.2.1 hnc.2 hnx (some (.tmp v))
          rw [hp]
          exact ⟨fun hn => Fails.of_reach hgo (h.1 hn), fun cs' o σ' h1 h2 => LDone.of_reach hgo (h.2 cs' o σ' h1 h2)⟩

theorem stm_step_runs (A : Alg V) {k : Nat} (ih : Runs A k) (s : Stm V) (hs : s.Ok)
    (hn : s ≠ .nil) (S : List (Node V)) (r : Option (RV V)) (σ : St V) (o : Out V) (σ' : St V)
    (he : s.ex A (k + 1) σ = some (o, σ')) : SDone A (stmC s S r σ) S o σ' := by
  cases s with
  | nil => exact absurd rfl hn
  | block b nx =>
    simp only [Stm.ex] at he
    cases hv : b.ex A k σ with
    | none => simp [hv, andThen] at he
    | some p =>
      obtain ⟨o1, σ1⟩ := p
      rw [hv] at he
      have hs' := hs
      simp only [Stm.Ok] at hs'
      by_cases hexp : ∃ e, b = .exp e
      · obtain ⟨es, rfl⟩ := hexp
        cases es with
        | nil => simp at hs'
        | cons e nx' =>
          cases nx' with
          | cons _ _ => simp [Block.Ok, Es.one] at hs'
          | nil =>
            simp only [Block.Ok, Es.Ok] at hs'
            refine stm_after_block ih hs ?_ he
            have hj := (E.runs A e hs'.1.1.1).2 (⟨.stm (.block (.exp (.cons e .nil)) nx), 1, none⟩ :: S) r σ
            cases k with
            | zero => simp [Block.ex] at hv
            | succ k =>
              simp only [Block.ex, expEx, Es.ev] at hv
              cases hev : e.ev A σ with
              | none =>
                simp only [hev, Option.bind_none, Option.map_none, Option.some.injEq, Prod.mk.injEq] at hv
                obtain ⟨rfl, rfl⟩ := hv
                rw [hev] at hj
                exact hj
              | some p =>
                simp only [hev, Option.bind_some, Option.map_some, Option.some.injEq, Prod.mk.injEq] at hv
                obtain ⟨rfl, rfl⟩ := hv
                rw [hev] at hj
                exact ⟨some p.1, hj⟩
      · have h := ih.block b hs'.1 (⟨.stm (.block b nx), 1, none⟩ :: S) (by simp)
          (fun h => absurd h (show (1 : Int) ≠ -1 by decide)) r σ o1 σ1 hv
        have hc : stmC (.block b nx) S r σ = C (fresh (.block b) :: ⟨.stm (.block b nx), 1, none⟩ :: S) r σ := by
          cases b <;> first | exact absurd ⟨_, rfl⟩ hexp | rfl
        rw [hc]
        exact stm_after_block ih hs h he
  | whl c b nx =>
    have hs' := hs
    simp only [Stm.Ok] at hs'
    simp only [Stm.ex] at he
    cases hv : whileEx A k c b σ with
    | none => simp [hv, andThen] at he
    | some p =>
      obtain ⟨o1, σ1⟩ := p
      rw [hv] at he
      exact stm_after ih hs (ih.whl c b nx hs'.1 hs'.2.1 S r σ o1 σ1 hv) he
  | fr i c m b nx =>
    have hs' := hs
    simp only [Stm.Ok] at hs'
    obtain ⟨hi, hc, hm, hb, hnx, hcn⟩ := hs'
    simp only [Stm.ex] at he
    cases c with
    | nil => exact absurd rfl hcn
    | cons ce cn =>
    have hfin : ∀ r1 σ1, andThen (forEx A k (.cons ce cn) m b σ1) (Stm.ex A k nx) = some (o, σ') →
        SDone A (C (fresh (.es ce cn) :: ⟨.fr i (.cons ce cn) m b, 2, none⟩ ::
          ⟨.stm (.fr i (.cons ce cn) m b nx), 1, none⟩ :: S) r1 σ1) S o σ' := by
      intro r1 σ1 he
      cases hv : forEx A k (.cons ce cn) m b σ1 with
      | none => simp [hv, andThen] at he
      | some p =>
        obtain ⟨o1, σ2⟩ := p
        rw [hv] at he
        exact stm_after ih hs (ih.fr i ce cn m b nx hc hm hb S r1 σ1 o1 σ2 hv) he
    cases i with
    | nil =>
      simp only [expEx, Es.ev, Option.map_some] at he
      exact SDone.of_reach (Reach.one (by simp [stmC, stmItem, step, hFor, fresh])) (hfin r σ he)
    | cons ie inx =>
      have hw := es_wait A hi ⟨.fr (.cons ie inx) (.cons ce cn) m b, 1, none⟩ (show (1 : Int) ≠ -1 by decide)
        (⟨.stm (.fr (.cons ie inx) (.cons ce cn) m b nx), 1, none⟩ :: S) r σ (.tmp A.nil)
      refine SDone.of_reach (Reach.one (b := C (fresh (.es ie inx) :: ⟨.fr (.cons ie inx) (.cons ce cn) m b, 1, none⟩ ::
        ⟨.stm (.fr (.cons ie inx) (.cons ce cn) m b nx), 1, none⟩ :: S) r σ) rfl) ?_
      simp only [expEx] at he
      cases hv : (Es.cons ie inx).ev A (.tmp A.nil) σ with
      | none =>
        simp only [hv, Option.map_none, Option.some.injEq, Prod.mk.injEq] at he
        obtain ⟨rfl, rfl⟩ := he
        exact hw.2 hv
      | some p =>
        obtain ⟨a, σ1⟩ := p
        simp only [hv, Option.map_some] at he
        exact SDone.of_reach ((hw.1 _ _ hv).trans (Reach.one (by simp [step, hFor]))) (hfin (some a) σ1 he)
  | sw c cs nx =>
    have hs' := hs
    simp only [Stm.Ok] at hs'
    obtain ⟨hc, hcs, hnx, hcn, hcc⟩ := hs'
    simp only [Stm.ex] at he
    cases c with
    | nil => exact absurd rfl hcc
    | cons e en =>
      by_cases hnil : cs = .nil
      · subst hnil
        have hw := es_wait A hc ⟨.sw (.cons e en) .nil, 2, none⟩ (show (2 : Int) ≠ -1 by decide)
          (⟨.stm (.sw (.cons e en) .nil nx), 1, none⟩ :: S) r σ (.tmp A.nil)
        refine SDone.of_reach (Reach.one (b := C (fresh (.es e en) :: ⟨.sw (.cons e en) .nil, 2, none⟩ ::
          ⟨.stm (.sw (.cons e en) .nil nx), 1, none⟩ :: S) r σ) rfl) ?_
        cases hv : (Es.cons e en).ev A (.tmp A.nil) σ with
        | none =>
          simp only [hv, Option.some.injEq, Prod.mk.injEq] at he
          obtain ⟨rfl, rfl⟩ := he
          exact hw.2 hv
        | some p =>
          obtain ⟨a, σ1⟩ := p
          simp only [hv, pick, pickCase, pickDefault, Option.map_some] at he
          refine SDone.of_reach (hw.1 _ _ hv) ?_
          cases k with
          | zero => simp [casesEx, inSwitch, andThen] at he
          | succ k =>
            have h1 : inSwitch (casesEx A (k + 1) .nil σ1) = some (.norm, σ1) := rfl
            rw [h1] at he
            exact stm_after ih hs (o1 := .norm) ⟨some a, Reach.one (by simp [step, hSw])⟩ he
      · have hw := es_wait A hc ⟨.sw (.cons e en) cs, 1, none⟩ (show (1 : Int) ≠ -1 by decide)
          (⟨.stm (.sw (.cons e en) cs nx), 1, none⟩ :: S) r σ (.tmp A.nil)
        refine SDone.of_reach (Reach.one (b := C (fresh (.es e en) :: ⟨.sw (.cons e en) cs, 1, none⟩ ::
          ⟨.stm (.sw (.cons e en) cs nx), 1, none⟩ :: S) r σ) ?_) ?_
        · cases cs with
          | nil => exact absurd rfl hnil
          | cons _ _ _ => rfl
        cases hv : (Es.cons e en).ev A (.tmp A.nil) σ with
        | none =>
          simp only [hv, Option.some.injEq, Prod.mk.injEq] at he
          obtain ⟨rfl, rfl⟩ := he
          exact hw.2 hv
        | some p =>
          obtain ⟨a, σ1⟩ := p
          simp only [hv] at he
          have hcmp := cases_cmp A ih a (.cons e en) cs nx S σ1 cs hcs hcn hnil none
          refine SDone.of_reach ((hw.1 _ _ hv).trans (Reach.one
            (b := C (fresh (.swstm cs) :: ⟨.sw (.cons e en) cs, 2, some a⟩ :: ⟨.stm (.sw (.cons e en) cs nx), 1, none⟩ :: S) none σ1)
            (by simp [step, hSw]))) ?_
          cases hp : pick A σ1 (rd σ1 a) cs with
          | none =>
            simp only [hp, Option.some.injEq, Prod.mk.injEq] at he
            obtain ⟨rfl, rfl⟩ := he
            exact hcmp.1 hp
          | some cs' =>
            simp only [hp] at he
            cases hx : inSwitch (casesEx A k cs' σ1) with
            | none => rw [hx] at he; simp [andThen] at he
            | some p =>
              obtain ⟨o1, σ2⟩ := p
              rw [hx] at he
              exact stm_after ih hs (hcmp.2 cs' o1 σ2 hp hx) he

theorem runs (A : Alg V) (hA : A.truth A.tru = true) : ∀ k, Runs A k
  | 0 => runs_zero A
  | k + 1 =>
    have ih := runs A hA k
    { stm := fun s hs hn S r σ o σ' he => stm_step_runs A ih s hs hn S r σ o σ' he
      block := fun b hb S hS hO r σ o σ' he => block_step A ih b hb S hS hO r σ o σ' he
      whl := fun c b nx hc hb S0 r σ o σ' he => whl_step A ih c b nx hA hc hb S0 r σ o σ' he
      fr := fun i ce cn m b nx hc hm hb S0 r σ o σ' he => fr_step A ih i ce cn m b nx hc hm hb S0 r σ o σ' he
      cases := fun f s nx hs hnx h1 h2 h3 sc scs snx x hx S0 r σ o σ' he =>
        cases_step A ih f s nx hs hnx h1 h2 h3 sc scs snx x hx S0 r σ o σ' he }

end Verif.Lang
