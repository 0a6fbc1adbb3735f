import Verif.LangStmProps

/-!
# When scripts end

`LangStmProps` says that the machine does what the reference execution does,
when the latter ends.  Here is the converse: when the reference execution does
not end for any fuel, the machine goes on for ever.  Together: the
machine stops exactly for the scripts that end, and it never accesses memory
through a null pointer.
-/

namespace Verif.Lang

variable {V : Type}

/-- The machine has not stopped. -/
def Alive (c : Ctx V) : Prop := c.stack ≠ [] ∧ c.quit = false

/-- After `n` steps the machine has not stopped. -/
def Lasts (A : Alg V) (n : Nat) (c : Ctx V) : Prop := ∃ c', run A n c = some c' ∧ Alive c'

theorem step_stopped (A : Alg V) {c : Ctx V} (h : ¬ Alive c) : step A c = some c := by
  unfold step
  split
  · rfl
  · rename_i hq
    split
    · rfl
    · rename_i n S hS
      exact absurd ⟨by rw [hS]; simp, by simpa using hq⟩ h

theorem run_stopped (A : Alg V) {c : Ctx V} (h : ¬ Alive c) : ∀ n, run A n c = some c
  | 0 => rfl
  | n + 1 => by simp only [run, step_stopped A h, Option.bind_some]; exact run_stopped A h n

theorem Lasts.of_add {A : Alg V} {m n : Nat} {c : Ctx V} (h : Lasts A (m + n) c) : Lasts A m c := by
  obtain ⟨c', h, ha⟩ := h
  rw [run_add] at h
  cases hm : run A m c with
  | none => rw [hm] at h; simp at h
  | some c1 =>
    refine ⟨c1, hm, ?_⟩
    rw [hm, Option.bind_some] at h
    by_cases h1 : Alive c1
    · exact h1
    · rw [run_stopped A h1, Option.some.injEq] at h
      rw [h]; exact ha

theorem Lasts.mono {A : Alg V} {m n : Nat} {c : Ctx V} (h : Lasts A n c) (hmn : m ≤ n) : Lasts A m c := by
  obtain ⟨d, rfl⟩ := Nat.le.dest hmn
  exact h.of_add

theorem Lasts.of_reach {A : Alg V} {a b : Ctx V} {m : Nat} (h1 : Reach A a b) (h2 : Lasts A m b) : Lasts A m a := by
  obtain ⟨n, h1⟩ := h1
  obtain ⟨c', h2, ha⟩ := h2
  have : Lasts A (n + m) a := ⟨c', by rw [run_add, h1]; exact h2, ha⟩
  exact this.mono (Nat.le_add_left m n)

theorem Lasts.head {A : Alg V} {a b : Ctx V} {m : Nat} (h1 : step A a = some b) (h2 : Lasts A m b) :
    Lasts A (m + 1) a := by
  obtain ⟨c', h2, ha⟩ := h2
  exact ⟨c', by simp [run, h1, h2], ha⟩

theorem Lasts.zero {A : Alg V} {n : Node V} {S : List (Node V)} {r : Option (RV V)} {σ : St V} :
    Lasts A 0 (C (n :: S) r σ) := ⟨_, rfl, by simp, rfl⟩

/-! ## One round of everything -/

structure Stays (A : Alg V) (k : Nat) : Prop where
  stm : ∀ s : Stm V, s.Ok → s ≠ .nil → ∀ S r σ, s.ex A k σ = none → Lasts A (k / 2) (stmC s S r σ)
  block : ∀ b : Block V, b.Ok → ∀ S : List (Node V), S ≠ [] → OutOK S → ∀ r σ,
    b.ex A k σ = none → Lasts A ((k + 1) / 2) (C (fresh (.block b) :: S) r σ)
  whl : ∀ (c : Es V) (b : Block V) nx, c.Ok → b.Ok → ∀ S0 r σ, whileEx A k c b σ = none →
    Lasts A ((k + 1) / 2) (C (fresh (.whl c b) :: ⟨.stm (.whl c b nx), 1, none⟩ :: S0) r σ)
  fr : ∀ (i : Es V) ce cn (m : Es V) (b : Block V) nx, (Es.cons ce cn).Ok → m.Ok → b.Ok → ∀ S0 r σ,
    forEx A k (.cons ce cn) m b σ = none →
    Lasts A ((k + 1) / 2) (C (fresh (.es ce cn) :: ⟨.fr i (.cons ce cn) m b, 2, none⟩ ::
        ⟨.stm (.fr i (.cons ce cn) m b nx), 1, none⟩ :: S0) r σ)
  cases : ∀ f (s : Stm V) nx, s.Ok → nx.Ok → s.nc → nx.nc → s ≠ .nil →
    ∀ sc scs snx x, (x = none ∨ nx = .nil) → ∀ S0 r σ, casesEx A k (.cons f s nx) σ = none →
    Lasts A ((k + 1) / 2) (C (fresh (.stm s) :: ⟨.swstm (.cons f s nx), 4, none⟩ :: ⟨.sw sc scs, 2, x⟩ ::
        ⟨.stm (.sw sc scs snx), 1, none⟩ :: S0) r σ)

theorem stays_zero (A : Alg V) : Stays A 0 where
  stm := by intro s _ _ S r σ _; exact Lasts.zero
  block := by intro s _ S _ _ r σ _; exact Lasts.zero
  whl := by intro c b nx _ _ S r σ _; exact Lasts.zero
  fr := by intro i ce cn m b nx _ _ _ S r σ _; exact Lasts.zero
  cases := by intro f s nx _ _ _ _ _ sc scs snx x _ S r σ _; exact Lasts.zero

theorem half (k : Nat) : (k + 1 + 1) / 2 = k / 2 + 1 := by omega

theorem block_stays (A : Alg V) {k : Nat} (st : Stays A k) (b : Block V) (hb : b.Ok)
    (S : List (Node V)) (hS : S ≠ []) (hO : OutOK S) (r : Option (RV V)) (σ : St V)
    (he : b.ex A (k + 1) σ = none) : Lasts A ((k + 1 + 1) / 2) (C (fresh (.block b) :: S) r σ) := by
  rw [half]
  have hout : ∀ b' : Block V, (∀ e, b' ≠ .ret e) → OutOK (⟨.block b', -1, none⟩ :: S) :=
    fun b' h _ => ⟨⟨b', rfl, h⟩, hO⟩
  have hle : k / 2 ≤ (k + 1) / 2 := by omega
  cases b with
  | exp e => simp only [Block.ex] at he; split at he <;> simp at he
  | stm s =>
    simp only [Block.ex] at he
    simp only [Block.Ok] at hb
    by_cases hs : s = .nil
    · subst hs
      cases k with
      | zero =>
        cases S with
        | nil => exact absurd rfl hS
        | cons n S => exact Lasts.head (b := C (n :: S) none σ) rfl Lasts.zero
      | succ k => simp [Stm.ex] at he
    · have hstep : step A (C (fresh (.block (.stm s)) :: S) r σ) =
          some (C (fresh (.stm s) :: ⟨.block (.stm s), -1, none⟩ :: S) none σ) := by
        cases s <;> first | exact absurd rfl hs | rfl
      exact Lasts.head hstep (Lasts.of_reach (Reach.one (stm_step hb hs _ _ _)) (st.stm s hb hs _ none σ he))
  | cont => simp [Block.ex] at he
  | brk => simp [Block.ex] at he
  | ret e => simp only [Block.ex] at he; split at he <;> simp at he
  | ifN c b =>
    cases c with
    | nil => simp [Block.Ok] at hb
    | cons e nx =>
      simp only [Block.Ok] at hb
      have hw := es_wait A hb.1 ⟨.ite (.cons e nx) b none, 1, none⟩ (show (1 : Int) ≠ -1 by decide)
        (⟨.block (.ifN (.cons e nx) b), -1, none⟩ :: S) none σ (.tmp A.nil)
      refine Lasts.head (b := C (fresh (.ite (.cons e nx) b none) :: ⟨.block (.ifN (.cons e nx) b), -1, none⟩ :: S) none σ) rfl ?_
      refine Lasts.of_reach (Reach.one rfl) ?_
      simp only [Block.ex, condEx] at he
      cases hv : (Es.cons e nx).ev A (.tmp A.nil) σ with
      | none => simp [hv] at he
      | some p =>
        obtain ⟨a, σ1⟩ := p
        simp only [hv, Option.map_some] at he
        refine Lasts.of_reach (hw.1 _ _ hv) ?_
        by_cases ht : A.truth (rd σ1 a) = true
        · simp only [ht, if_true] at he
          refine Lasts.of_reach (Reach.one (by simp [step, hIf, ht]; rfl))
            ((st.block b hb.2.1 _ (by simp) (hout _ (by simp)) (some a) σ1 he).mono hle)
        · simp [ht] at he
  | ifE c b els =>
    cases c with
    | nil => simp [Block.Ok] at hb
    | cons e nx =>
      simp only [Block.Ok] at hb
      have hw := es_wait A hb.1 ⟨.ite (.cons e nx) b (some els), 1, none⟩ (show (1 : Int) ≠ -1 by decide)
        (⟨.block (.ifE (.cons e nx) b els), -1, none⟩ :: S) none σ (.tmp A.nil)
      refine Lasts.head (b := C (fresh (.ite (.cons e nx) b (some els)) :: ⟨.block (.ifE (.cons e nx) b els), -1, none⟩ :: S) none σ) rfl ?_
      refine Lasts.of_reach (Reach.one rfl) ?_
      simp only [Block.ex, condEx] at he
      cases hv : (Es.cons e nx).ev A (.tmp A.nil) σ with
      | none => simp [hv] at he
      | some p =>
        obtain ⟨a, σ1⟩ := p
        simp only [hv, Option.map_some] at he
        refine Lasts.of_reach (hw.1 _ _ hv) ?_
        by_cases ht : A.truth (rd σ1 a) = true
        · simp only [ht, if_true] at he
          refine Lasts.of_reach (Reach.one (by simp [step, hIf, ht]; rfl))
            ((st.block b hb.2.1 _ (by simp) (hout _ (by simp)) (some a) σ1 he).mono hle)
        · simp [ht] at he
          refine Lasts.of_reach (Reach.one (by simp [step, hIf, ht]; rfl))
            ((st.block els hb.2.2.1 _ (by simp) (hout _ (by simp)) (some a) σ1 he).mono hle)

theorem whl_stays (A : Alg V) {k : Nat} (ih : Runs A k) (st : Stays A k) (c : Es V) (b : Block V) (nx : Stm V)
    (hA : A.truth A.tru = true) (hc : c.Ok) (hb : b.Ok) (S0 : List (Node V)) (r : Option (RV V)) (σ : St V)
    (he : whileEx A (k + 1) c b σ = none) :
    Lasts A ((k + 1 + 1) / 2) (C (fresh (.whl c b) :: ⟨.stm (.whl c b nx), 1, none⟩ :: S0) r σ) := by
  rw [half]
  have hle : k / 2 ≤ (k + 1) / 2 := by omega
  have body : ∀ r1 σ1, inLoop (Block.ex A k b σ1) (whileEx A k c b) = none →
      Lasts A (k / 2) (C (fresh (.block b) :: ⟨.whl c b, 0, none⟩ :: ⟨.stm (.whl c b nx), 1, none⟩ :: S0) r1 σ1) := by
    intro r1 σ1 he
    cases hx : Block.ex A k b σ1 with
    | none => exact (st.block b hb (⟨.whl c b, 0, none⟩ :: ⟨.stm (.whl c b nx), 1, none⟩ :: S0) (by simp)
        (fun h => absurd h (show (0 : Int) ≠ -1 by decide)) r1 σ1 hx).mono hle
    | some p =>
      obtain ⟨o1, σ2⟩ := p
      have h := ih.block b hb (⟨.whl c b, 0, none⟩ :: ⟨.stm (.whl c b nx), 1, none⟩ :: S0) (by simp)
        (fun h => absurd h (show (0 : Int) ≠ -1 by decide)) r1 σ1 o1 σ2 hx
      cases o1 with
      | norm =>
        obtain ⟨r2, h⟩ := h
        simp only [hx, inLoop] at he
        exact Lasts.of_reach h ((st.whl c b nx hc hb S0 r2 σ2 he).mono hle)
      | cont =>
        simp only [hx, inLoop] at he
        exact Lasts.of_reach h ((st.whl c b nx hc hb S0 none σ2 he).mono hle)
      | brk => simp [hx, inLoop] at he
      | ret a => simp [hx, inLoop] at he
      | err => simp [hx, inLoop] at he
  simp only [whileEx] at he
  cases c with
  | nil =>
    simp only [condEx, if_true] at he
    refine Lasts.head ?_ (body (some (.tmp A.tru)) σ he)
    simp [step, hWhl, fresh, rd, hA]
  | cons e nx' =>
    have hw := es_wait A hc ⟨.whl (.cons e nx') b, 1, none⟩ (show (1 : Int) ≠ -1 by decide)
      (⟨.stm (.whl (.cons e nx') b nx), 1, none⟩ :: S0) r σ (.tmp A.nil)
    refine Lasts.head (b := C (fresh (.es e nx') :: ⟨.whl (.cons e nx') b, 1, none⟩ ::
      ⟨.stm (.whl (.cons e nx') b nx), 1, none⟩ :: S0) r σ) rfl ?_
    simp only [condEx] at he
    cases hv : (Es.cons e nx').ev A (.tmp A.nil) σ with
    | none => simp [hv] at he
    | some p =>
      obtain ⟨a, σ1⟩ := p
      simp only [hv, Option.map_some] at he
      refine Lasts.of_reach (hw.1 _ _ hv) ?_
      by_cases ht : A.truth (rd σ1 a) = true
      · simp only [ht, if_true] at he
        refine Lasts.of_reach (Reach.one ?_) (body (some a) σ1 he)
        simp [step, hWhl, ht]
      · simp [ht] at he

theorem fr_stays (A : Alg V) {k : Nat} (ih : Runs A k) (st : Stays A k) (i : Es V) (ce : E V) (cn m : Es V)
    (b : Block V) (nx : Stm V)
    (hc : (Es.cons ce cn).Ok) (hm : m.Ok) (hb : b.Ok) (S0 : List (Node V)) (r : Option (RV V)) (σ : St V)
    (he : forEx A (k + 1) (.cons ce cn) m b σ = none) :
    Lasts A ((k + 1 + 1) / 2) (C (fresh (.es ce cn) :: ⟨.fr i (.cons ce cn) m b, 2, none⟩ ::
        ⟨.stm (.fr i (.cons ce cn) m b nx), 1, none⟩ :: S0) r σ) := by
  rw [half]
  have hle : k / 2 ≤ (k + 1) / 2 := by omega
  have again : ∀ r1 σ1, (match expEx A m σ1 with
        | none => some (.err, σ1)
        | some σ3 => forEx A k (.cons ce cn) m b σ3) = none →
      Lasts A (k / 2) (C (⟨.fr i (.cons ce cn) m b, 3, none⟩ :: ⟨.stm (.fr i (.cons ce cn) m b nx), 1, none⟩ :: S0) r1 σ1) := by
    intro r1 σ1 he
    cases m with
    | nil =>
      simp only [expEx, Es.ev, Option.map_some] at he
      exact Lasts.of_reach (Reach.one (by simp [step, hFor]))
        ((st.fr i ce cn .nil b nx hc hm hb S0 r1 σ1 he).mono hle)
    | cons me mn =>
      have hw := es_wait A hm ⟨.fr i (.cons ce cn) (.cons me mn) b, 1, none⟩ (show (1 : Int) ≠ -1 by decide)
        (⟨.stm (.fr i (.cons ce cn) (.cons me mn) b nx), 1, none⟩ :: S0) r1 σ1 (.tmp A.nil)
      refine Lasts.of_reach (Reach.one (b := C (fresh (.es me mn) :: ⟨.fr i (.cons ce cn) (.cons me mn) b, 1, none⟩ ::
        ⟨.stm (.fr i (.cons ce cn) (.cons me mn) b nx), 1, none⟩ :: S0) r1 σ1) (by simp [step, hFor])) ?_
      simp only [expEx] at he
      cases hv : (Es.cons me mn).ev A (.tmp A.nil) σ1 with
      | none => simp [hv] at he
      | some p =>
        obtain ⟨a, σ2⟩ := p
        simp only [hv, Option.map_some] at he
        exact Lasts.of_reach ((hw.1 _ _ hv).trans (Reach.one (by simp [step, hFor])))
          ((st.fr i ce cn (.cons me mn) b nx hc hm hb S0 (some a) σ2 he).mono hle)
  simp only [forEx, condEx] at he
  have hw := es_ends A hc (⟨.fr i (.cons ce cn) m b, 2, none⟩ :: ⟨.stm (.fr i (.cons ce cn) m b nx), 1, none⟩ :: S0) r σ (.tmp A.nil)
  have hstep := es_step A ce cn (⟨.fr i (.cons ce cn) m b, 2, none⟩ :: ⟨.stm (.fr i (.cons ce cn) m b nx), 1, none⟩ :: S0) r σ
  cases hv : (Es.cons ce cn).ev A (.tmp A.nil) σ with
  | none => simp [hv] at he
  | some p =>
    obtain ⟨a, σ1⟩ := p
    simp only [hv, Option.map_some] at he
    have hrun := Es.runs A cn (by simp only [Es.Ok] at hc; exact hc.2) ce (E.runs A ce (by simp only [Es.Ok] at hc; exact hc.1)).2
      (⟨.fr i (.cons ce cn) m b, 2, none⟩ :: ⟨.stm (.fr i (.cons ce cn) m b nx), 1, none⟩ :: S0) σ
    simp only [Es.ev] at hv
    rw [hv] at hrun
    refine Lasts.head hstep (Lasts.of_reach hrun ?_)
    show Lasts A _ (C (⟨.fr i (.cons ce cn) m b, 2, none⟩ :: ⟨.stm (.fr i (.cons ce cn) m b nx), 1, none⟩ :: S0) (some a) σ1)
    by_cases ht : A.truth (rd σ1 a) = true
    · simp only [ht, if_true] at he
      refine Lasts.of_reach (Reach.one (b := C (fresh (.block b) :: ⟨.fr i (.cons ce cn) m b, 3, none⟩ ::
        ⟨.stm (.fr i (.cons ce cn) m b nx), 1, none⟩ :: S0) (some a) σ1) (by simp [step, hFor, ht])) ?_
      cases hx : Block.ex A k b σ1 with
      | none => exact (st.block b hb (⟨.fr i (.cons ce cn) m b, 3, none⟩ :: ⟨.stm (.fr i (.cons ce cn) m b nx), 1, none⟩ :: S0) (by simp)
          (fun h => absurd h (show (3 : Int) ≠ -1 by decide)) _ σ1 hx).mono hle
      | some p =>
        obtain ⟨o1, σ2⟩ := p
        have h := ih.block b hb (⟨.fr i (.cons ce cn) m b, 3, none⟩ :: ⟨.stm (.fr i (.cons ce cn) m b nx), 1, none⟩ :: S0) (by simp)
          (fun h => absurd h (show (3 : Int) ≠ -1 by decide)) (some a) σ1 o1 σ2 hx
        cases o1 with
        | norm =>
          obtain ⟨r2, h⟩ := h
          simp only [hx, inLoop] at he
          exact Lasts.of_reach h (again r2 σ2 he)
        | cont =>
          simp only [hx, inLoop] at he
          exact Lasts.of_reach h (again none σ2 he)
        | brk => simp [hx, inLoop] at he
        | ret a => simp [hx, inLoop] at he
        | err => simp [hx, inLoop] at he
    · simp [ht] at he

theorem cases_stays (A : Alg V) {k : Nat} (ih : Runs A k) (st : Stays A k) (f : Option (Fac V)) (s : Stm V)
    (nx : Cases V) (hs : s.Ok) (hnx : nx.Ok) (_hsn : s.nc) (hnn : nx.nc) (hne : s ≠ .nil) (sc : Es V)
    (scs : Cases V) (snx : Stm V) (x : Option (RV V)) (hx : x = none ∨ nx = .nil) (S0 : List (Node V))
    (r : Option (RV V)) (σ : St V) (he : casesEx A (k + 1) (.cons f s nx) σ = none) :
    Lasts A ((k + 1 + 1) / 2) (C (fresh (.stm s) :: ⟨.swstm (.cons f s nx), 4, none⟩ :: ⟨.sw sc scs, 2, x⟩ ::
        ⟨.stm (.sw sc scs snx), 1, none⟩ :: S0) r σ) := by
  rw [half]
  have hle : k / 2 ≤ (k + 1) / 2 := by omega
  simp only [casesEx] at he
  refine Lasts.head (stm_step hs hne _ r σ) ?_
  cases hv : s.ex A k σ with
  | none => exact st.stm s hs hne _ r σ hv
  | some p =>
    obtain ⟨o1, σ1⟩ := p
    have h := ih.stm s hs hne (⟨.swstm (.cons f s nx), 4, none⟩ :: ⟨.sw sc scs, 2, x⟩ ::
      ⟨.stm (.sw sc scs snx), 1, none⟩ :: S0) r σ o1 σ1 hv
    cases o1 with
    | norm =>
      simp only [hv, andThen] at he
      cases nx with
      | nil =>
        cases k with
        | zero => exact Lasts.zero
        | succ k => simp [casesEx] at he
      | cons f' s' nx' =>
        rcases hx with rfl | hx
        · by_cases hs' : s' = .nil
          · subst hs'
            cases f' with
            | some f' => simp [Cases.Ok] at hnx
            | none =>
              simp only [Cases.Ok] at hnx
              obtain ⟨_, rfl⟩ := hnx
              cases k with
              | zero => exact Lasts.zero
              | succ k =>
                cases k with
                | zero => exact Lasts.zero
                | succ k => simp [casesEx, Stm.ex, andThen] at he
          · refine Lasts.of_reach h ?_
            refine Lasts.of_reach (Reach.one (b := C (fresh (.swstm (.cons f' s' nx')) :: ⟨.sw sc scs, 2, none⟩ ::
              ⟨.stm (.sw sc scs snx), 1, none⟩ :: S0) none σ1) (by simp [step, hSwstm])) ?_
            have hok : s'.Ok ∧ nx'.Ok := by
              cases f' with
              | none => simp only [Cases.Ok] at hnx; exact ⟨hnx.1, by rw [hnx.2]; simp [Cases.Ok]⟩
              | some f' => simp only [Cases.Ok] at hnx; exact ⟨hnx.1, hnx.2.1⟩
            simp only [Cases.nc] at hnn
            refine Lasts.of_reach (Reach.one ?_) ((st.cases f' s' nx' hok.1 hok.2 hnn.1 hnn.2 hs' sc scs snx none (Or.inl rfl) S0 none σ1 he).mono hle)
            cases s' <;> simp_all [step, hSwstm, fresh]
        · simp at hx
    | brk => simp [hv, andThen] at he
    | cont => simp [hv, andThen] at he
    | ret a => simp [hv, andThen] at he
    | err => simp [hv, andThen] at he

theorem cmp_stays (A : Alg V) {k : Nat} (st : Stays A k) (a : RV V) (sc : Es V) (scs : Cases V)
    (snx : Stm V) (S0 : List (Node V)) (σ : St V) : ∀ (cs : Cases V), cs.Ok → cs.nc → cs ≠ .nil →
    ∀ (r : Option (RV V)) cs', pick A σ (rd σ a) cs = some cs' → casesEx A k cs' σ = none →
      Lasts A ((k + 1) / 2) (C (fresh (.swstm cs) :: ⟨.sw sc scs, 2, some a⟩ :: ⟨.stm (.sw sc scs snx), 1, none⟩ :: S0) r σ)
  | .nil, _, _, hn, _, _, _, _ => absurd rfl hn
  | .cons none s nx, hok, hnc, _, r, cs', h, he => by
    simp only [Cases.Ok] at hok
    obtain ⟨hs, rfl⟩ := hok
    simp only [Cases.nc] at hnc
    have hp : pick A σ (rd σ a) (.cons none s .nil) = some (.cons none s .nil) := by
      simp [pick, pickCase, pickDefault]
    rw [hp, Option.some.injEq] at h
    subst h
    by_cases hs' : s = .nil
    · subst hs'
      cases k with
      | zero => exact Lasts.zero
      | succ k =>
        cases k with
        | zero =>
          exact Lasts.head (b := C (⟨.sw sc scs, 2, some a⟩ :: ⟨.stm (.sw sc scs snx), 1, none⟩ :: S0) none σ)
            (by simp [step, hSwstm, fresh]) Lasts.zero
        | succ k => simp [casesEx, Stm.ex, andThen] at he
    · refine Lasts.of_reach (Reach.one ?_) (st.cases none s .nil hs (by simp [Cases.Ok]) hnc.1 hnc.2 hs' sc scs snx (some a)
        (Or.inr rfl) S0 none σ he)
      cases s <;> simp_all [step, hSwstm, fresh]
  | .cons (some f) s nx, hok, hnc, _, r, cs', h, he => by
    simp only [Cases.Ok] at hok
    simp only [Cases.nc] at hnc
    have hfac : Reach A (C (fresh (.swstm (.cons (some f) s nx)) :: ⟨.sw sc scs, 2, some a⟩ :: ⟨.stm (.sw sc scs snx), 1, none⟩ :: S0) r σ)
        (C (⟨.swstm (.cons (some f) s nx), 1, none⟩ :: ⟨.sw sc scs, 2, some a⟩ :: ⟨.stm (.sw sc scs snx), 1, none⟩ :: S0) (some f.rv) σ) := by
      refine Reach.head (b := C (fresh (.fac f) :: ⟨.swstm (.cons (some f) s nx), 1, none⟩ :: ⟨.sw sc scs, 2, some a⟩ ::
        ⟨.stm (.sw sc scs snx), 1, none⟩ :: S0) none σ) (by simp [step, hSwstm, fresh]) (Reach.one ?_)
      cases f <;> simp [step, hFac, out, popuntil, fresh, Fac.rv]
    cases hv : A.bin .eq (rd σ a) (rd σ f.rv) with
    | none => simp [pick, pickCase, hv] at h
    | some v =>
      by_cases ht : A.truth v = true
      · have hp : pick A σ (rd σ a) (.cons (some f) s nx) = some (.cons (some f) s nx) := by
          simp [pick, pickCase, hv, ht]
        rw [hp, Option.some.injEq] at h
        subst h
        refine Lasts.of_reach (hfac.trans (Reach.one ?_)) (st.cases (some f) s nx hok.1 hok.2.1 hnc.1 hnc.2 hok.2.2 sc scs snx none
          (Or.inl rfl) S0 (some (.tmp v)) σ he)
        simp [step, hSwstm, hv, ht]
      · have hp : pick A σ (rd σ a) (.cons (some f) s nx) = pick A σ (rd σ a) nx := by
          simp [pick, pickCase, hv, ht, pickDefault]
        rw [hp] at h
        by_cases hnx : nx = .nil
        · subst hnx
          simp only [pick, pickCase, pickDefault, Option.map_some, Option.some.injEq] at h
          subst h
          cases k with
          | zero => exact Lasts.zero
          | succ k => simp [casesEx] at he
        · refine Lasts.of_reach (hfac.trans (Reach.one ?_))
            (cmp_stays A st a sc scs snx S0 σ nx hok.2.1 hnc.2 hnx (some (.tmp v)) cs' h he)
          cases nx <;> simp_all [step, hSwstm]

/-- On to the next statement. -/
theorem advance_stays {A : Alg V} {k : Nat} {s : Stm V} (hs : s.Ok) (st : Stays A k)
    (S : List (Node V)) (r : Option (RV V)) (σ : St V) (he : s.next.ex A k σ = none) :
    Lasts A ((k + 1) / 2) (C (⟨.stm s, 1, none⟩ :: S) r σ) := by
  cases hx : s.next with
  | nil =>
    rw [hx] at he
    cases k with
    | zero => exact Lasts.zero
    | succ k => simp [Stm.ex] at he
  | _ =>
    have hok := hs.next
    have hne : s.next ≠ .nil := by rw [hx]; simp
    have h1 : step A (C (⟨.stm s, 1, none⟩ :: S) r σ) = some (stmC s.next S r σ) := by
      have := stmGo_ok hok hne (n := ⟨.stm s, 1, none⟩) rfl S (⟨.stm s, 1, none⟩ :: S) r σ
      rw [hx] at this ⊢
      simp only [step, hStm, hx]
      simpa using this
    exact (Lasts.head h1 (st.stm s.next hok hne S r σ he)).mono (by omega)

theorem stm_after_stays {A : Alg V} {k : Nat} (st : Stays A k) {s : Stm V} (hs : s.Ok) {c : Ctx V}
    {S : List (Node V)} {o1 : Out V} {σ1 : St V}
    (h : o1 = .norm → ∃ r, Reach A c (C (⟨.stm s, 1, none⟩ :: S) r σ1))
    (he : andThen (some (o1, σ1)) (s.next.ex A k) = none) : Lasts A ((k + 1) / 2) c := by
  cases o1 with
  | norm =>
    obtain ⟨r, h⟩ := h rfl
    exact Lasts.of_reach h (advance_stays hs st S r σ1 he)
  | brk => simp [andThen] at he
  | cont => simp [andThen] at he
  | ret a => simp [andThen] at he
  | err => simp [andThen] at he

theorem stm_stays (A : Alg V) {k : Nat} (ih : Runs A k) (st : Stays A k) (s : Stm V) (hs : s.Ok)
    (hn : s ≠ .nil) (S : List (Node V)) (r : Option (RV V)) (σ : St V)
    (he : s.ex A (k + 1) σ = none) : Lasts A ((k + 1) / 2) (stmC s S r σ) := by
  cases s with
  | nil => exact absurd rfl hn
  | block b nx =>
    simp only [Stm.ex] at he
    have hs' := hs
    simp only [Stm.Ok] at hs'
    by_cases hexp : ∃ e, b = .exp e
    · obtain ⟨es, rfl⟩ := hexp
      cases k with
      | zero => exact Lasts.zero
      | succ k =>
        cases es with
        | nil => simp at hs'
        | cons e nx' =>
          cases nx' with
          | cons _ _ => simp [Block.Ok, Es.one] at hs'
          | nil =>
            simp only [Block.Ok, Es.Ok] at hs'
            have hj := (E.runs A e hs'.1.1.1).2 (⟨.stm (.block (.exp (.cons e .nil)) nx), 1, none⟩ :: S) r σ
            simp only [Block.ex, expEx, Es.ev] at he
            cases hev : e.ev A σ with
            | none => simp [hev, andThen] at he
            | some p =>
              simp only [hev, Option.bind_some, Option.map_some] at he
              rw [hev] at hj
              exact stm_after_stays st hs (o1 := .norm) (σ1 := p.2) (fun _ => ⟨some p.1, hj⟩) he
    · have hc : stmC (.block b nx) S r σ = C (fresh (.block b) :: ⟨.stm (.block b nx), 1, none⟩ :: S) r σ := by
        cases b <;> first | exact absurd ⟨_, rfl⟩ hexp | rfl
      rw [hc]
      cases hv : b.ex A k σ with
      | none => exact st.block b hs'.1 (⟨.stm (.block b nx), 1, none⟩ :: S) (by simp)
                  (fun h => absurd h (show (1 : Int) ≠ -1 by decide)) r σ hv
      | some p =>
        obtain ⟨o1, σ1⟩ := p
        rw [hv] at he
        have h := ih.block b hs'.1 (⟨.stm (.block b nx), 1, none⟩ :: S) (by simp)
          (fun h => absurd h (show (1 : Int) ≠ -1 by decide)) r σ o1 σ1 hv
        exact stm_after_stays st hs (fun ho => by subst ho; exact h) he
  | whl c b nx =>
    have hs' := hs
    simp only [Stm.Ok] at hs'
    simp only [Stm.ex] at he
    cases hv : whileEx A k c b σ with
    | none => exact st.whl c b nx hs'.1 hs'.2.1 S r σ hv
    | some p =>
      obtain ⟨o1, σ1⟩ := p
      rw [hv] at he
      exact stm_after_stays st hs (fun ho => by subst ho; exact ih.whl c b nx hs'.1 hs'.2.1 S r σ _ σ1 hv) he
  | fr i c m b nx =>
    have hs' := hs
    simp only [Stm.Ok] at hs'
    obtain ⟨hi, hc, hm, hb, hnx, hcn⟩ := hs'
    simp only [Stm.ex] at he
    cases c with
    | nil => exact absurd rfl hcn
    | cons ce cn =>
    have hfin : ∀ r1 σ1, andThen (forEx A k (.cons ce cn) m b σ1) (Stm.ex A k nx) = none →
        Lasts A ((k + 1) / 2) (C (fresh (.es ce cn) :: ⟨.fr i (.cons ce cn) m b, 2, none⟩ ::
          ⟨.stm (.fr i (.cons ce cn) m b nx), 1, none⟩ :: S) r1 σ1) := by
      intro r1 σ1 he
      cases hv : forEx A k (.cons ce cn) m b σ1 with
      | none => exact st.fr i ce cn m b nx hc hm hb S r1 σ1 hv
      | some p =>
        obtain ⟨o1, σ2⟩ := p
        rw [hv] at he
        exact stm_after_stays st hs (fun ho => by subst ho; exact ih.fr i ce cn m b nx hc hm hb S r1 σ1 _ σ2 hv) he
    cases i with
    | nil =>
      simp only [expEx, Es.ev, Option.map_some] at he
      exact Lasts.of_reach (Reach.one (by simp [stmC, stmItem, step, hFor, fresh])) (hfin r σ he)
    | cons ie inx =>
      have hw := es_wait A hi ⟨.fr (.cons ie inx) (.cons ce cn) m b, 1, none⟩ (show (1 : Int) ≠ -1 by decide)
        (⟨.stm (.fr (.cons ie inx) (.cons ce cn) m b nx), 1, none⟩ :: S) r σ (.tmp A.nil)
      refine Lasts.of_reach (Reach.one (b := C (fresh (.es ie inx) :: ⟨.fr (.cons ie inx) (.cons ce cn) m b, 1, none⟩ ::
        ⟨.stm (.fr (.cons ie inx) (.cons ce cn) m b nx), 1, none⟩ :: S) r σ) rfl) ?_
      simp only [expEx] at he
      cases hv : (Es.cons ie inx).ev A (.tmp A.nil) σ with
      | none => simp [hv] at he
      | some p =>
        obtain ⟨a, σ1⟩ := p
        simp only [hv, Option.map_some] at he
        exact Lasts.of_reach ((hw.1 _ _ hv).trans (Reach.one (by simp [step, hFor]))) (hfin (some a) σ1 he)
  | sw c cs nx =>
    have hs' := hs
    simp only [Stm.Ok] at hs'
    obtain ⟨hc, hcs, hnx, hcn, hcc⟩ := hs'
    simp only [Stm.ex] at he
    cases c with
    | nil => exact absurd rfl hcc
    | cons e en =>
      by_cases hnil : cs = .nil
      · subst hnil
        have hw := es_wait A hc ⟨.sw (.cons e en) .nil, 2, none⟩ (show (2 : Int) ≠ -1 by decide)
          (⟨.stm (.sw (.cons e en) .nil nx), 1, none⟩ :: S) r σ (.tmp A.nil)
        refine Lasts.of_reach (Reach.one (b := C (fresh (.es e en) :: ⟨.sw (.cons e en) .nil, 2, none⟩ ::
          ⟨.stm (.sw (.cons e en) .nil nx), 1, none⟩ :: S) r σ) rfl) ?_
        cases hv : (Es.cons e en).ev A (.tmp A.nil) σ with
        | none => simp [hv] at he
        | some p =>
          obtain ⟨a, σ1⟩ := p
          simp only [hv, pick, pickCase, pickDefault, Option.map_some] at he
          refine Lasts.of_reach (hw.1 _ _ hv) ?_
          cases k with
          | zero => exact Lasts.zero
          | succ k =>
            have h1 : inSwitch (casesEx A (k + 1) .nil σ1) = some (.norm, σ1) := rfl
            rw [h1] at he
            exact stm_after_stays st hs (o1 := .norm) (S := S) (fun _ => ⟨some a, Reach.one (by simp [step, hSw])⟩) he
      · have hw := es_wait A hc ⟨.sw (.cons e en) cs, 1, none⟩ (show (1 : Int) ≠ -1 by decide)
          (⟨.stm (.sw (.cons e en) cs nx), 1, none⟩ :: S) r σ (.tmp A.nil)
        refine Lasts.of_reach (Reach.one (b := C (fresh (.es e en) :: ⟨.sw (.cons e en) cs, 1, none⟩ ::
          ⟨.stm (.sw (.cons e en) cs nx), 1, none⟩ :: S) r σ) ?_) ?_
        · cases cs with
          | nil => exact absurd rfl hnil
          | cons _ _ _ => rfl
        cases hv : (Es.cons e en).ev A (.tmp A.nil) σ with
        | none => simp [hv] at he
        | some p =>
          obtain ⟨a, σ1⟩ := p
          simp only [hv] at he
          have hcmp := cases_cmp A ih a (.cons e en) cs nx S σ1 cs hcs hcn hnil none
          refine Lasts.of_reach ((hw.1 _ _ hv).trans (Reach.one
            (b := C (fresh (.swstm cs) :: ⟨.sw (.cons e en) cs, 2, some a⟩ :: ⟨.stm (.sw (.cons e en) cs nx), 1, none⟩ :: S) none σ1)
            (by simp [step, hSw]))) ?_
          cases hp : pick A σ1 (rd σ1 a) cs with
          | none => simp [hp] at he
          | some cs' =>
            simp only [hp] at he
            cases hx : casesEx A k cs' σ1 with
            | none => exact cmp_stays A st a (.cons e en) cs nx S σ1 cs hcs hcn hnil none cs' hp hx
            | some q =>
              cases hx2 : inSwitch (some q) with
              | none => obtain ⟨q1, q2⟩ := q; cases q1 <;> simp [inSwitch] at hx2
              | some p =>
                obtain ⟨o2, σ3⟩ := p
                rw [hx, hx2] at he
                exact stm_after_stays st hs (fun ho => by
                  subst ho
                  exact hcmp.2 cs' _ σ3 hp (by rw [hx, hx2])) he

theorem stays (A : Alg V) (hA : A.truth A.tru = true) : ∀ k, Stays A k
  | 0 => stays_zero A
  | k + 1 =>
    have ih := runs A hA k
    have st := stays A hA k
    { stm := fun s hs hn S r σ he => stm_stays A ih st s hs hn S r σ he
      block := fun b hb S hS hO r σ he => block_stays A st b hb S hS hO r σ he
      whl := fun c b nx hc hb S0 r σ he => whl_stays A ih st c b nx hA hc hb S0 r σ he
      fr := fun i ce cn m b nx hc hm hb S0 r σ he => fr_stays A ih st i ce cn m b nx hc hm hb S0 r σ he
      cases := fun f s nx hs hnx h1 h2 h3 sc scs snx x hx S0 r σ he =>
        cases_stays A ih st f s nx hs hnx h1 h2 h3 sc scs snx x hx S0 r σ he }

/-! ## The theorems -/

/-- **Expressions.**  The machine evaluates an expression as the reference does: it leaves
the value in the return variable, the store as it should be, and the stack
below without its finished nodes; it quits when an operator fails. -/
theorem machine_evaluates (A : Alg V) (x : E V) (hx : x.Ok) (S : List (Node V)) (r : Option (RV V)) (σ : St V) :
    (∀ a σ', x.ev A σ = some (a, σ') →
      Reach A ⟨fresh (.e x) :: S, r, σ, false, false⟩ ⟨popuntil S, some a, σ', false, false⟩) ∧
    (x.ev A σ = none → Fails A ⟨fresh (.e x) :: S, r, σ, false, false⟩) := by
  have h := (E.runs A x hx).1 S r σ
  refine ⟨fun a σ' he => ?_, fun he => ?_⟩
  · rw [he] at h; exact h
  · rw [he] at h; exact h

/-- How a script should end. -/
def Final (A : Alg V) (s : Stm V) (σ : St V) : Out V → St V → Prop
  | .norm, σ' => Reach A (start s σ) ⟨[], none, σ', false, false⟩
  | .ret a, σ' => Reach A (start s σ) ⟨[], some a, σ', false, false⟩
  | _, _ => Fails A (start s σ)

theorem start_step (A : Alg V) {s : Stm V} (hs : s.Ok) (hn : s ≠ .nil) (σ : St V) :
    step A (start s σ) = some (stmC s [] none σ) := by
  have : start s σ = C (fresh (.stm s) :: []) none σ := by
    cases s with
    | nil => exact absurd rfl hn
    | _ => rfl
  rw [this]
  exact stm_step hs hn [] none σ

/-- **Scripts.**  When the reference execution ends, the machine ends the same
way: with the same variables, the same returned value, or an error. -/
theorem script_executes (A : Alg V) (hA : A.truth A.tru = true) {s : Stm V} (hs : s.Ok) {k : Nat} {σ σ' : St V}
    {o : Out V} (he : s.ex A k σ = some (o, σ')) : Final A s σ o σ' := by
  by_cases hn : s = .nil
  · subst hn
    cases k with
    | zero => simp [Stm.ex] at he
    | succ k =>
      simp only [Stm.ex, Option.some.injEq, Prod.mk.injEq] at he
      obtain ⟨rfl, rfl⟩ := he
      exact Reach.refl _ _
  · have h := (runs A hA k).stm s hs hn [] none σ o σ' he
    have hst := Reach.one (start_step A hs hn σ)
    cases o with
    | norm => exact hst.trans h
    | brk => exact Fails.of_reach hst h
    | cont => exact Fails.of_reach hst h
    | err => exact Fails.of_reach hst h
    | ret a =>
      obtain ⟨s', h⟩ := h
      exact (hst.trans h).trans (Reach.one (by simp [retTo, step, hStm]))

/-- **Endless scripts.**  When the reference execution ends for no fuel, the machine goes on for ever. -/
theorem script_diverges (A : Alg V) (hA : A.truth A.tru = true) {s : Stm V} (hs : s.Ok) {σ : St V}
    (he : ∀ k, s.ex A k σ = none) (n : Nat) : Lasts A n (start s σ) := by
  have hn : s ≠ .nil := by
    intro hn; subst hn; have := he 1; simp [Stm.ex] at this
  have h := (stays A hA (2 * n)).stm s hs hn [] none σ (he (2 * n))
  rw [show 2 * n / 2 = n by omega] at h
  exact (Lasts.head (start_step A hs hn σ) h).mono (by omega)

theorem Fails.stops {A : Alg V} {c : Ctx V} (h : Fails A c) : ∃ n c', run A n c = some c' ∧ ¬ Alive c' := by
  obtain ⟨c', ⟨n, h⟩, q⟩ := h
  exact ⟨n, c', h, fun ha => by rw [ha.2] at q; simp at q⟩

/-- **The machine stops exactly for the scripts that end.** -/
theorem script_halts_iff (A : Alg V) (hA : A.truth A.tru = true) {s : Stm V} (hs : s.Ok) (σ : St V) :
    (∃ n c, run A n (start s σ) = some c ∧ ¬ Alive c) ↔ ∃ k p, s.ex A k σ = some p := by
  constructor
  · rintro ⟨n, c, h, hc⟩
    apply Classical.byContradiction
    intro hno
    obtain ⟨c', h', ha⟩ := script_diverges A hA hs (σ := σ) (fun k => by
      cases hk : s.ex A k σ with
      | none => rfl
      | some p => exact absurd ⟨k, p, hk⟩ hno) n
    rw [h, Option.some.injEq] at h'
    exact hc (h' ▸ ha)
  · rintro ⟨k, ⟨o, σ'⟩, he⟩
    have h := script_executes A hA hs he
    cases o with
    | norm => obtain ⟨n, h⟩ := h; exact ⟨n, _, h, fun ha => ha.1 rfl⟩
    | ret a => obtain ⟨n, h⟩ := h; exact ⟨n, _, h, fun ha => ha.1 rfl⟩
    | brk => exact Fails.stops h
    | cont => exact Fails.stops h
    | err => exact Fails.stops h

/-- **No null pointers.** -/
theorem script_never_null (A : Alg V) (hA : A.truth A.tru = true) {s : Stm V} (hs : s.Ok) (σ : St V) (n : Nat) :
    ∃ c, run A n (start s σ) = some c := by
  by_cases h : ∃ k p, s.ex A k σ = some p
  · obtain ⟨m, c, hm, hc⟩ := (script_halts_iff A hA hs σ).2 h
    by_cases hmn : m ≤ n
    · obtain ⟨d, rfl⟩ := Nat.le.dest hmn
      exact ⟨c, by rw [run_add, hm, Option.bind_some, run_stopped A hc]⟩
    · obtain ⟨d, rfl⟩ := Nat.le.dest (Nat.le_of_not_le hmn)
      rw [run_add] at hm
      cases hx : run A n (start s σ) with
      | none => rw [hx] at hm; simp at hm
      | some c' => exact ⟨c', rfl⟩
  · obtain ⟨c, hc, _⟩ := script_diverges A hA hs (σ := σ) (fun k => by
      cases hk : s.ex A k σ with
      | none => rfl
      | some p => exact absurd ⟨k, p, hk⟩ h) n
    exact ⟨c, hc⟩

/-! ## `&&` and `||` -/

/-- The truth of `a && b || c …`: `cur` is the conjunction so far; each further
operand comes with the operator before it (`true` for `||`). -/
def orAnds (cur : Bool) : List (Bool × Bool) → Bool
  | [] => cur
  | (true, b) :: rest => cur || orAnds b rest
  | (false, b) :: rest => orAnds (cur && b) rest

/-- The operands after the first one have no effect, and these truth values. -/
def LTl.Vals (A : Alg V) (σ : St V) : LTl V → List (Bool × Bool) → Prop
  | .nil, bs => bs = []
  | .cons isOr l tl, bs => ∃ a rest, l.ev A σ = some (a, σ) ∧ tl.Vals A σ rest ∧
      bs = (isOr, A.truth (rd σ a)) :: rest

theorem orAnds_false : ∀ bs : List (Bool × Bool), orAnds false bs = true → ∃ b ∈ bs, b.1 = true
  | [], h => by simp [orAnds] at h
  | (true, b) :: rest, _ => ⟨_, List.mem_cons_self, rfl⟩
  | (false, b) :: rest, h => by
    obtain ⟨c, hc, h⟩ := orAnds_false rest (by simpa [orAnds] using h)
    exact ⟨c, List.mem_cons_of_mem _ hc, h⟩

theorem LTl.truth (A : Alg V) (σ : St V) : ∀ (tl : LTl V) (bs : List (Bool × Bool)) (a : RV V),
    tl.Vals A σ bs → ∃ a', tl.ev A a σ = some (a', σ) ∧ A.truth (rd σ a') = orAnds (A.truth (rd σ a)) bs
  | .nil, bs, a, h => by
    simp only [LTl.Vals] at h; subst h; exact ⟨a, rfl, rfl⟩
  | .cons isOr l tl, bs, a, h => by
    simp only [LTl.Vals] at h
    obtain ⟨b, rest, hl, ht, rfl⟩ := h
    cases hta : A.truth (rd σ a) <;> cases isOr
    · obtain ⟨a', h1, h2⟩ := LTl.truth A σ tl rest a ht
      exact ⟨a', by simp [LTl.ev, hta, h1], by rw [h2, hta]; simp [orAnds]⟩
    · obtain ⟨a', h1, h2⟩ := LTl.truth A σ tl rest b ht
      exact ⟨a', by simp [LTl.ev, hta, hl, h1], by rw [h2]; simp [orAnds]⟩
    · obtain ⟨a', h1, h2⟩ := LTl.truth A σ tl rest b ht
      exact ⟨a', by simp [LTl.ev, hta, hl, h1], by rw [h2]; simp [orAnds]⟩
    · exact ⟨a, by simp [LTl.ev, hta], by rw [hta]; simp [orAnds]⟩

/-- **`&&` binds tighter than `||`.**  The machine's value of a chain of operands without
effects is true exactly when the or of the ands is. -/
theorem logic_truth (A : Alg V) {l : E V} {tl : LTl V} (hok : (E.logic l tl).Ok) {σ : St V} {a : RV V}
    (hl : l.ev A σ = some (a, σ)) {bs : List (Bool × Bool)} (hbs : tl.Vals A σ bs) (S : List (Node V))
    (r : Option (RV V)) :
    ∃ a', Reach A ⟨fresh (.e (.logic l tl)) :: S, r, σ, false, false⟩ ⟨popuntil S, some a', σ, false, false⟩ ∧
      A.truth (rd σ a') = orAnds (A.truth (rd σ a)) bs := by
  obtain ⟨a', h1, h2⟩ := LTl.truth A σ tl bs a hbs
  exact ⟨a', (machine_evaluates A _ hok S r σ).1 a' σ (by simp [E.ev, hl, h1]), h2⟩

/-- **Short circuit.**  After a true operand nothing to the right of `||` is evaluated, after a
false one nothing to the right of `&&` up to the next `||`: whatever those operands are. -/
theorem or_skips (A : Alg V) {l : E V} (tl : LTl V) (x : E V) (hok : (E.logic l (.cons true x tl)).Ok) {σ σ' : St V}
    {a : RV V} (hl : l.ev A σ = some (a, σ')) (ht : A.truth (rd σ' a) = true) (S : List (Node V))
    (r : Option (RV V)) :
    Reach A ⟨fresh (.e (.logic l (.cons true x tl))) :: S, r, σ, false, false⟩
      ⟨popuntil S, some a, σ', false, false⟩ :=
  (machine_evaluates A _ hok S r σ).1 a σ' (by simp [E.ev, LTl.ev, hl, ht])

theorem and_skips (A : Alg V) {l : E V} (x : E V) (hok : (E.logic l (.cons false x .nil)).Ok) {σ σ' : St V}
    {a : RV V} (hl : l.ev A σ = some (a, σ')) (ht : A.truth (rd σ' a) = false) (S : List (Node V))
    (r : Option (RV V)) :
    Reach A ⟨fresh (.e (.logic l (.cons false x .nil))) :: S, r, σ, false, false⟩
      ⟨popuntil S, some a, σ', false, false⟩ :=
  (machine_evaluates A _ hok S r σ).1 a σ' (by simp [E.ev, LTl.ev, hl, ht])

/-! ## Some scripts -/

namespace Ex

/-- Integers and nil, with a few operators; division by zero fails. -/
def alg : Alg (Option Int) where
  nil := none
  tru := some 1
  truth v := match v with | some i => i ≠ 0 | none => false
  bin op a b := match op, a, b with
    | .add, some a, some b => some (some (a + b))
    | .sub, some a, some b => some (some (a - b))
    | .mul, some a, some b => some (some (a * b))
    | .div, some a, some b => if b = 0 then none else some (some (a / b))
    | .lt, some a, some b => some (some (if a < b then 1 else 0))
    | .eq, a, b => some (some (if a = b then 1 else 0))
    | _, _, _ => none
  asg op a b := match op, a, b with
    | .add, some a, some b => some (some (a + b))
    | _, _, _ => none
  un op a := match op, a with
    | .neg, some a => some (some (-a))
    | _, _ => none
  inc op a := match op, a with
    | .sinc, some a => some (some (a + 1), some a)
    | .pinc, some a => some (some (a + 1), some (a + 1))
    | _, _ => none

abbrev X := E (Option Int)

/-- The way from a factor up to the level of operands of `&&`. -/
def un {V : Type} (x : E V) : E V := .bin (.bin (.bin (.bin (.bin (.bin (.not0 (.suf0 (.loc x))) .nil) .nil) .nil) .nil) .nil) .nil
def at' {V : Type} (x : E V) : E V := .asg0 (.logic (un x) .nil)
def id {V : Type} (x : Nat) : E V := .spf (.id x)
def num (i : Int) : X := .spf (.lit (some i))
def left {V : Type} (x : Nat) : E V := .logic (un (id x)) .nil
def one {V : Type} (e : E V) : Es V := .cons e .nil
def st {V : Type} (e : E V) (s : Stm V) : Stm V := .block (.exp (one e)) s
/-- A block `{ … }`. -/
def bl {V : Type} (s : Stm V) : Block V := .stm s
/-- `a < b`, `a * b`, `a - b` as expressions. -/
def op2 {V : Type} (o : BOp) (a b : E V) : E V := .asg0 (.logic (.bin (.not0 (.suf0 (.loc a))) (.cons o (.not0 (.suf0 (.loc b))) .nil)) .nil)

/-- `x = 5; r = 1; while (x) { r = r * x; x = x - 1; if (r == 120) break; } return r;` -/
def fact : Stm (Option Int) :=
  st (.set (left 0) (at' (num 5))) <| st (.set (left 1) (at' (num 1))) <|
  .whl (one (at' (id 0)))
    (bl (st (.asg (left 2) .add (at' (num 1))) <|
      st (.set (left 3) (op2 .mul (id 1) (id 0))) <|
      st (.set (left 1) (at' (id 3))) <|
      st (.set (left 3) (op2 .sub (id 0) (num 1))) <|
      st (.set (left 0) (at' (id 3))) <|
      .block (.ifN (one (op2 .eq (id 1) (num 120))) .brk) .nil)) <|
  .block (.ret (one (at' (id 1)))) .nil

def σ0 : St (Option Int) := fun _ => some 0

example : fact.Ok := by
  simp [fact, st, bl, one, at', left, un, id, num, op2, Stm.Ok, Block.Ok, Es.Ok, Es.one, E.Ok, Tl.Ok, LTl.Ok, E.refs,
    LTl.refs]

/-- The reference: `x` is 1, `r` is 120, four rounds. -/
example : ((fact.ex alg 40 σ0).map fun p => (match p.1 with | .ret a => rd p.2 a | _ => none, p.2 0, p.2 1, p.2 2)) =
    some (some 120, some 1, some 120, some 4) := by decide +kernel

/-- The machine. -/
example : ((run alg 500 (start fact σ0)).map fun c => (c.stack.length, c.quit, (c.ret.map (rd c.st)), c.st 0, c.st 2)) =
    some (0, false, some (some 120), some 1, some 4) := by decide +kernel

/-- `for (i = 0; i < 4; i++) switch (i) { case 1: a++; case 2: b++; break; default: c++; }` -/
def sws : Stm (Option Int) :=
  .fr (one (.set (left 0) (at' (num 0)))) (one (op2 .lt (id 0) (num 4))) (one (at' (.suf .sinc (.loc (id 0)))))
    (bl (.sw (one (at' (id 0)))
      (.cons (some (.lit (some 1))) (st (at' (.suf .sinc (.loc (id 1)))) .nil) <|
       .cons (some (.lit (some 2))) (st (at' (.suf .sinc (.loc (id 2)))) (.block .brk .nil)) <|
       .cons none (st (at' (.suf .sinc (.loc (id 3)))) .nil) .nil) .nil)) .nil

example : sws.Ok := by
  simp [sws, st, bl, one, at', left, un, id, num, op2, Stm.Ok, Block.Ok, Es.Ok, Es.one, E.Ok, Tl.Ok, LTl.Ok, E.refs,
    LTl.refs, Cases.Ok, Cases.nc, Stm.nc, Block.nc]

example : ((sws.ex alg 40 σ0).map fun p => (p.2 0, p.2 1, p.2 2, p.2 3)) =
    some (some 4, some 1, some 2, some 2) := by decide +kernel

example : ((run alg 500 (start sws σ0)).map fun c => (c.stack.length, c.st 0, c.st 1, c.st 2, c.st 3)) =
    some (0, some 4, some 1, some 2, some 2) := by decide +kernel

/-- `x = 1 / 0;` ends in an error; a script that only has `break` as well. -/
example : ((run alg 60 (start (st (.set (left 0) (op2 .div (num 1) (num 0))) .nil) σ0)).map (·.quit)) = some true ∧
    ((run alg 60 (start (.block .brk .nil) σ0)).map (·.quit)) = some true := by decide +kernel

/-- `while () ;` runs for ever. -/
example : (Stm.whl .nil (.exp .nil) .nil : Stm (Option Int)).Ok ∧
    ((Stm.whl .nil (.exp .nil) .nil).ex alg 30 σ0).isNone ∧
    ((run alg 100 (start (.whl .nil (.exp .nil) .nil) σ0)).map (·.stack.length)).isSome := by
  refine ⟨by simp [Stm.Ok, Block.Ok, Es.Ok, Es.one], by decide +kernel, by decide +kernel⟩

/-- `0 && 1 || 2` and `1 || 0 && 0`. -/
example : orAnds false [(false, true), (true, true)] = true ∧ orAnds true [(true, false), (false, false)] = true ∧
    orAnds true [(false, false), (false, true)] = false := by decide

end Ex

end Verif.Lang
