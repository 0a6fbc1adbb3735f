import Verif.EventOnceProps

/-
Lemmas for the delivery of events: what happens is only added to, nothing is marked as processed outside of
handlers, and an event that waits for its handler waits until the handler is called.
-/
namespace Verif.Event

/-! ## What happened stays -/

theorem log_run {s s' : St} {o : Op} (I : Inv s) (h : run s o = .ok s') : s'.log = .did o :: s.log := by
  unfold run at h
  have I₀ : Inv { s with log := .did o :: s.log } := inv_frame I rfl rfl rfl rfl rfl rfl
  cases o with
  | set fd mask o ap t hh =>
    obtain ⟨id, b, other, hb, -, rfl⟩ := fdSet_eq h
    exact (settled_fields _ fd mask o t hh id b other).2.1
  | clr fd =>
    change clrSet _ fd = _ at h
    cases ht : s.tree fd with
    | none => unfold clrSet at h; simp only [ht] at h; cases h; rfl
    | some x =>
      obtain ⟨e, he, -⟩ := I.tree fd x ht
      rw [clrSet_eq (s := { s with log := .did (.clr fd) :: s.log }) ht he] at h
      subst h
      dsimp only
      split <;> rfl
  | onTimeout fd hh =>
    change onTimeout _ fd hh = _ at h
    unfold onTimeout at h
    cases ht : s.tree fd with
    | none => simp [ht] at h
    | some x =>
      simp only [ht, bind_ok] at h
      obtain ⟨e, he, h⟩ := h
      cases h; rfl
  | timer ms hh => cases h; rfl
  | cancel id =>
    change timerCancel _ id = _ at h
    unfold timerCancel at h
    split at h
    · cases h; rfl
    · cases h
  | brk b => cases h; rfl
  | tick us => cases h; rfl

/-- What holds of what happened and of everything longer holds throughout. -/
theorem log_law {Q : List Ev → Prop} (hQ : ∀ x l, Q l → Q (x :: l)) : Law (fun _ => True) (fun _ s => Q s.log) where
  run I T h := by rw [log_run I h]; exact hQ _ _ T
  start {s s' id d} I T hd ha h := by rw [start_eq hd] at h; cases h; exact T
  hush I T hd hp := T
  weaken I T hd ha hh := T
  event I T hd hp hc hb ha hh := hQ _ _ T
  done I T hd hp := T
  finish {s s' id d} I T hd hp h := by
    have := finish_eq I hd hp h
    split at this <;> (subst this; exact T)
  timer I T ht he hh hl := hQ _ _ T
  timerNone I T ht hh := T
  unlist {s s' id d} I T hd ht h := by rw [unlist_eq hd h]; exact T
  timeout {s s' id d h} I T hd ht ha he hh hx := by rw [expire_eq hd hx]; exact hQ _ _ T
  timeoutNone {s s' id d} I T hd ht ha hh hx := by rw [expire_eq hd hx]; exact T
  serve {s s' e} _ I T h := by
    rcases serve_quiet I h with rfl | ⟨_, _, _, _, _, _, _, h1, _, _⟩
    · exact T
    · rw [h1]; exact T

theorem Law.and {R : Report → Prop} {P Q : Option (Nat × Kind) → St → Prop} (L : Law R P) (L' : Law R Q) :
    Law R (fun c s => P c s ∧ Q c s) where
  run I T h := ⟨L.run I T.1 h, L'.run I T.2 h⟩
  start I T hd ha h := ⟨L.start I T.1 hd ha h, L'.start I T.2 hd ha h⟩
  hush I T hd hp := ⟨L.hush I T.1 hd hp, L'.hush I T.2 hd hp⟩
  weaken I T hd ha hh := ⟨L.weaken I T.1 hd ha hh, L'.weaken I T.2 hd ha hh⟩
  event I T hd hp hc hb ha hh := ⟨L.event I T.1 hd hp hc hb ha hh, L'.event I T.2 hd hp hc hb ha hh⟩
  done I T hd hp := ⟨L.done I T.1 hd hp, L'.done I T.2 hd hp⟩
  finish I T hd hp h := ⟨L.finish I T.1 hd hp h, L'.finish I T.2 hd hp h⟩
  timer I T ht he hh hl := ⟨L.timer I T.1 ht he hh hl, L'.timer I T.2 ht he hh hl⟩
  timerNone I T ht hh := ⟨L.timerNone I T.1 ht hh, L'.timerNone I T.2 ht hh⟩
  unlist I T hd ht h := ⟨L.unlist I T.1 hd ht h, L'.unlist I T.2 hd ht h⟩
  timeout I T hd ht ha he hh hx := ⟨L.timeout I T.1 hd ht ha he hh hx, L'.timeout I T.2 hd ht ha he hh hx⟩
  timeoutNone I T hd ht ha hh hx := ⟨L.timeoutNone I T.1 hd ht ha hh hx, L'.timeoutNone I T.2 hd ht ha hh hx⟩
  serve hR I T h := ⟨L.serve hR I T.1 h, L'.serve hR I T.2 h⟩

theorem Good.ok {P : St → Prop} {m : M St} {s : St} (h : Good P m) (hm : m = .ok s) : P s := by
  rw [hm] at h; exact h

/-! ## What is marked as processed -/

/-- Nothing but `p` is marked as processed. -/
def Only (p : Option Nat) (s : St) : Prop := ∀ i d, s.heap i = some d → d.inProcess = true → p = some i

theorem Only.upd {p : Option Nat} {s s' : St} {id : Nat} {d' : Desc} (T : Only p s)
    (hh : s'.heap = upd s.heap id (some d')) (hp : d'.inProcess = true → p = some id) : Only p s' := by
  intro i e hi he
  rw [hh] at hi
  by_cases hx : i = id
  · rw [hx, upd_same] at hi; cases hi; rw [hx]; exact hp he
  · rw [upd_other _ _ hx] at hi; exact T i e hi he

theorem Only.drop {p : Option Nat} {s s' : St} {id : Nat} (T : Only p s)
    (hh : s'.heap = Event.upd s.heap id none) : Only p s' := by
  intro i e hi he
  rw [hh] at hi
  by_cases hx : i = id
  · rw [hx, upd_same] at hi; cases hi
  · rw [upd_other _ _ hx] at hi; exact T i e hi he

theorem only_run {p : Option Nat} {s s' : St} {o : Op} (I : Inv s) (T : Only p s) (h : run s o = .ok s') :
    Only p s' := by
  unfold run at h
  have I₀ : Inv { s with log := .did o :: s.log } := inv_frame I rfl rfl rfl rfl rfl rfl
  have T₀ : Only p { s with log := .did o :: s.log } := T
  cases o with
  | set fd mask o ap t hh =>
    obtain ⟨id, b, other, hb, -, rfl⟩ := fdSet_eq h
    refine T₀.upd (settled_heap _ fd mask o t hh id b other) ?_
    rw [grant_inProcess, arm_inProcess]
    rcases base_cases I₀ hb with ⟨-, rfl, rfl, -⟩ | ⟨d, ht, hd, hfd, ⟨hc, -, rfl, -⟩ | ⟨hc, -, ⟨-, rfl⟩ | ⟨-, rfl⟩⟩⟩
    · intro h; cases h
    · exact T id d hd
    · exact T id b hd
    · exact T id d hd
  | clr fd =>
    change clrSet _ fd = _ at h
    cases ht : s.tree fd with
    | none => unfold clrSet at h; simp only [ht] at h; cases h; exact T
    | some x =>
      obtain ⟨e, he, -⟩ := I.tree fd x ht
      rw [clrSet_eq (s := { s with log := .did (.clr fd) :: s.log }) ht he] at h
      subst h
      dsimp only
      split
      · exact T₀.upd rfl (fun h => T x e he ((arm_inProcess s.now .unlimited e).symm.trans h))
      · exact T₀.drop rfl
  | onTimeout fd hh =>
    change onTimeout _ fd hh = _ at h
    unfold onTimeout at h
    cases ht : s.tree fd with
    | none => simp [ht] at h
    | some x =>
      simp only [ht, bind_ok] at h
      obtain ⟨e, he, h⟩ := h
      cases h
      rw [deref_ok] at he
      exact T₀.upd rfl (T x e he)
  | timer ms hh => cases h; exact T
  | cancel id =>
    change timerCancel _ id = _ at h
    unfold timerCancel at h
    split at h
    · cases h; exact T
    · cases h
  | brk b => cases h; exact T
  | tick us => cases h; exact T

theorem only_runAll {p : Option Nat} : ∀ {os : List Op} {s s' : St}, Inv s → Only p s → runAll s os = .ok s' →
    Inv s' ∧ Only p s'
  | [], s, s', I, T, h => by cases h; exact ⟨I, T⟩
  | o :: os, s, s', I, T, h => by
    unfold runAll at h
    rw [bind_ok] at h
    obtain ⟨s₁, h₁, h⟩ := h
    exact only_runAll (inv_run I h₁) (only_run I T h₁) h

theorem only_callOpt {p : Option Nat} {s s' : St} {f : Nat → Call} {h : Option Nat} (I : Inv s) (T : Only p s)
    (hc : callOpt s f h = .ok s') : Inv s' ∧ Only p s' := by
  cases h with
  | none => cases hc; exact ⟨I, T⟩
  | some x => exact only_runAll (inv_begin I) (s := begin s (f x)) T hc

theorem only_start {s s' : St} {id : Nat} {d : Desc} (T : Only none s) (hd : s.heap id = some d)
    (h : start s id = .ok s') : Only (some id) s' := by
  rw [start_eq hd] at h
  cases h
  refine Only.upd (s := s) (p := some id) (id := id)
    (d' := { arm s.now .unlimited d with inActive := false, inProcess := true }) ?_ rfl (fun _ => rfl)
  intro i e hi he
  cases T i e hi he

theorem hush_ok {s s' : St} {id : Nat} {d : Desc} (hd : s.heap id = some d) (h : hush s id = .ok s') :
    s' = if d.isClear || s.isBreak then put s id { d with act := {} } else s := by
  simp only [hush, bind, Except.bind, deref, hd] at h
  cases h; rfl

/-- The parts of a part. -/
theorem part_ok {k : Kind} {s s' : St} {id : Nat} {d : Desc} (hd : s.heap id = some d) (h : part k s id = .ok s') :
    ∃ s₁ d₁, s₁ = (if d.isClear || s.isBreak then put s id { d with act := {} } else s) ∧ s₁.heap id = some d₁ ∧
      d₁ = (if d.isClear || s.isBreak then { d with act := {} } else d) ∧
      ((d₁.act.get k = true ∧ ∃ s₂, callOpt s₁ (.event k d₁.fd) (d₁.h k) = .ok s₂ ∧ done k s₂ id = .ok s') ∨
       (d₁.act.get k = false ∧ s' = s₁)) := by
  unfold part at h
  rw [bind_ok] at h
  obtain ⟨s₁, h₁, h⟩ := h
  rw [bind_ok] at h
  obtain ⟨d₁, hd₁, h⟩ := h
  rw [deref_ok] at hd₁
  have e := hush_ok hd h₁
  refine ⟨s₁, d₁, e, hd₁, ?_, ?_⟩
  · rw [e] at hd₁
    split at hd₁
    · next q => rw [if_pos q]; simp only [put, upd_same] at hd₁; cases hd₁; rfl
    · next q => rw [if_neg q]; rw [hd] at hd₁; cases hd₁; rfl
  · split at h
    · next q =>
      rw [bind_ok] at h
      obtain ⟨s₂, h₂, h⟩ := h
      exact .inl ⟨q, s₂, h₂, h⟩
    · next q => cases h; exact .inr ⟨by simpa using q, rfl⟩

theorem true_law : Law (fun _ => True) (fun _ _ => True) where
  run _ _ _ := trivial
  start _ _ _ _ _ := trivial
  hush _ _ _ _ := trivial
  weaken _ _ _ _ _ := trivial
  event _ _ _ _ _ _ _ _ := trivial
  done _ _ _ _ := trivial
  finish _ _ _ _ _ := trivial
  timer _ _ _ _ _ _ := trivial
  timerNone _ _ _ _ := trivial
  unlist _ _ _ _ _ := trivial
  timeout _ _ _ _ _ _ _ _ := trivial
  timeoutNone _ _ _ _ _ _ _ := trivial
  serve _ _ _ _ := trivial

theorem only_done {p : Option Nat} {k : Kind} {s s' : St} {id : Nat} (T : Only p s) (h : done k s id = .ok s') :
    Only p s' := by
  unfold done at h
  rw [bind_ok] at h
  obtain ⟨d, hd, h⟩ := h
  rw [deref_ok] at hd
  cases h
  exact T.upd rfl (T id d hd)

theorem only_part {p : Option Nat} {k : Kind} {s s' : St} {id : Nat} (I : Inv s) (A : Alive id s) (T : Only p s)
    (h : part k s id = .ok s') : Inv s' ∧ Alive id s' ∧ Only p s' := by
  obtain ⟨I', -, A'⟩ := Good.ok (true_law.part I trivial A) h
  refine ⟨I', A', ?_⟩
  obtain ⟨d, hd, hp⟩ := A
  obtain ⟨s₁, d₁, e₁, hd₁, -, hr⟩ := part_ok hd h
  have T₁ : Only p s₁ := by
    rw [e₁]; split
    · exact T.upd rfl (T id d hd)
    · exact T
  have I₁ : Inv s₁ := by
    rw [e₁]; split
    · exact inv_put I hd rfl rfl rfl (I.clear id d hd) (I.proc id d hd)
    · exact I
  rcases hr with ⟨-, s₂, h₂, h₃⟩ | ⟨-, rfl⟩
  · exact only_done (only_callOpt I₁ T₁ h₂).2 h₃
  · exact T₁

theorem only_finish {s s' : St} {id : Nat} (I : Inv s) (A : Alive id s) (T : Only (some id) s)
    (h : finish s id = .ok s') : Only none s' := by
  obtain ⟨d, hd, hp⟩ := A
  have := finish_eq I hd hp h
  have key : ∀ (v : Option Desc), (∀ e, v = some e → e.inProcess = false) → s'.heap = upd s.heap id v → Only none s' := by
    intro v hv hh i e hi he
    rw [hh] at hi
    by_cases hx : i = id
    · rw [hx, upd_same] at hi; rw [hv e hi] at he; cases he
    · rw [upd_other _ _ hx] at hi
      have := T i e hi he
      cases this; exact absurd rfl hx
  split at this
  · subst this; exact key none (by simp) rfl
  · subst this; exact key _ (by rintro e ⟨⟩; rfl) rfl

theorem only_activeStep {s s' : St} {id : Nat} (I : Inv s) (hm : id ∈ s.active) (T : Only none s)
    (h : activeStep s id = .ok s') : Inv s' ∧ Only none s' := by
  have I' := (Good.ok (true_law.activeStep I trivial hm) h).1
  refine ⟨I', ?_⟩
  obtain ⟨d, hd, ha⟩ := (I.act id).mp hm
  unfold activeStep at h
  simp only [bind_ok] at h
  obtain ⟨s₁, h₁, s₂, h₂, s₃, h₃, s₄, h₄, h⟩ := h
  obtain ⟨I₁, A₁⟩ := inv_start I hd ha h₁
  obtain ⟨I₂, A₂, T₂⟩ := only_part I₁ A₁ (only_start T hd h₁) h₂
  obtain ⟨I₃, A₃, T₃⟩ := only_part I₂ A₂ T₂ h₃
  obtain ⟨I₄, A₄, T₄⟩ := only_part I₃ A₃ T₃ h₄
  exact only_finish I₄ A₄ T₄ h

theorem only_activeLoop : ∀ {n : Nat} {s s' : St}, Inv s → Only none s → activeLoop n s = .ok s' → Only none s'
  | n + 1, s, s', I, T, h => by
    unfold activeLoop at h
    split at h
    · cases h; exact T
    · next id l hl =>
      rw [bind_ok] at h
      obtain ⟨s₁, h₁, h⟩ := h
      obtain ⟨I₁, T₁⟩ := only_activeStep I (by rw [hl]; simp) T h₁
      split at h
      · cases h; exact T₁
      · exact only_activeLoop I₁ T₁ h

theorem only_timerLoop {now : Nat} : ∀ {n : Nat} {s s' : St}, Inv s → Only none s → timerLoop now n s = .ok s' →
    Only none s'
  | n + 1, s, s', I, T, h => by
    unfold timerLoop at h
    split at h
    · cases h; exact T
    · next t ht =>
      split at h
      · cases h; exact T
      · rw [bind_ok] at h
        obtain ⟨s₁, h₁, h⟩ := h
        obtain ⟨I₁, T₁⟩ := only_callOpt (s := { s with timers := s.timers.filter (·.id != t.id) })
          (inv_frame I rfl rfl rfl rfl rfl rfl) T h₁
        split at h
        · cases h; exact T₁
        · exact only_timerLoop I₁ T₁ h

theorem only_timeoutLoop {now : Nat} : ∀ {n : Nat} {s s' : St}, Inv s → Only none s → timeoutLoop now n s = .ok s' →
    Only none s'
  | n + 1, s, s', I, T, h => by
    unfold timeoutLoop at h
    split at h
    · cases h; exact T
    · next id hid =>
      obtain ⟨d, hd, ht⟩ := (I.tmo id).mp (least_mem hid)
      obtain ⟨s₁, hs₁, I₁, hd₁, hn₁⟩ := inv_unlist I hd
      have T₁ : Only none s₁ := by
        rw [unlist_eq hd hs₁]
        exact T.upd (d' := { d with inActive := false }) rfl (T id d hd)
      rw [hs₁] at h
      simp only [bind, Except.bind, deref, hd₁] at h
      split at h
      · cases h; exact T₁
      · obtain ⟨s₂, hs₂, I₂, A₂, hn₂⟩ := inv_expire I₁ hd₁ rfl
        rw [hs₂] at h
        simp only at h
        have T₂ : Only (some id) s₂ := by
          rw [expire_eq hd₁ hs₂]
          refine Only.upd (s := s₁) (id := id)
            (d' := { { d with inActive := false } with inProcess := true, timed := false, endUs := 0 }) ?_ rfl (fun _ => rfl)
          intro i e hi he; cases T₁ i e hi he
        cases hc : Event.callOpt s₂ (.timeout d.fd) d.tmo with
        | error x => rw [hc] at h; cases h
        | ok s₃ =>
          rw [hc] at h
          simp only at h
          obtain ⟨I₃, T₃⟩ := only_callOpt I₂ T₂ hc
          have A₃ : Alive id s₃ := by
            have := true_law.callOpt (c := none) (f := .timeout d.fd) (h := d.tmo) I₂ A₂ (fun _ => trivial) (fun _ _ => trivial)
            exact (Good.ok this hc).2.2
          cases hf : finish s₃ id with
          | error x => rw [hf] at h; cases h
          | ok s₄ =>
            rw [hf] at h
            simp only at h
            have T₄ := only_finish I₃ A₃ T₃ hf
            obtain ⟨d₃, hd₃, hp₃⟩ := A₃
            have I₄ := inv_finish I₃ hd₃ hp₃ hf
            split at h
            · cases h; exact T₄
            · exact only_timeoutLoop I₄ T₄ h

theorem again_inProcess {s s' : St} {e : Report} {id : Nat} {k : Kind} {d : Desc} (hd : s.heap id = some d)
    (h : again e s id k = .ok s') : ∃ d', s'.heap = upd s.heap id (some d') ∧ d'.inProcess = d.inProcess ∧
      d'.inActive = d.inActive ∧ d'.act = d.act ∧ d'.isClear = d.isClear ∧ s'.tree = s.tree ∧ s'.isBreak = s.isBreak := by
  simp only [again, bind, Except.bind, deref, hd] at h
  split at h
  · obtain ⟨-, rfl⟩ := (appendSet_eq hd).mp h
    dsimp only
    refine ⟨grant (maskOf k) true (d.h k) d, ?_, rfl, rfl, rfl, rfl, ?_⟩
    · split
      · rw [(ctl_heap _ _ _ _).1]; rfl
      · rfl
    · split
      · obtain ⟨c1, c2, c3, c4, c5, c6, c7, c8, c9, c10, c11⟩ := ctl_heap { s with heap := upd s.heap id (some (grant (maskOf k) true (d.h k) (arm s.now .unmodified d))), timeouts := armList .unmodified d id s.timeouts } true d.fd { mask := (grant (maskOf k) true (d.h k) (arm s.now .unmodified d)).flag, oneshot := true, id := id }
        exact ⟨c2, c10⟩
      · exact ⟨rfl, rfl⟩
  · cases h
    exact ⟨d, (upd_id hd).symm, rfl, rfl, rfl, rfl, rfl, rfl⟩

theorem regrant_keeps (e : Report) (id : Nat) (p : Desc × Reg) (k : Kind) :
    (regrant e id p k).1.inProcess = p.1.inProcess ∧ (regrant e id p k).1.inActive = p.1.inActive ∧
    (regrant e id p k).1.act = p.1.act ∧ (regrant e id p k).1.isClear = p.1.isClear := by
  unfold regrant
  split <;> exact ⟨rfl, rfl, rfl, rfl⟩

theorem regrantAll_keeps (e : Report) (id : Nat) (d : Desc) (r : Reg) :
    (regrantAll e id d r).1.inProcess = d.inProcess ∧ (regrantAll e id d r).1.inActive = d.inActive ∧
    (regrantAll e id d r).1.act = d.act ∧ (regrantAll e id d r).1.isClear = d.isClear := by
  unfold regrantAll
  obtain ⟨a1, a2, a3, a4⟩ := regrant_keeps e id (d, r) .recv
  obtain ⟨b1, b2, b3, b4⟩ := regrant_keeps e id (regrant e id (d, r) .recv) .send
  obtain ⟨c1, c2, c3, c4⟩ := regrant_keeps e id (regrant e id (regrant e id (d, r) .recv) .send) .error
  exact ⟨by rw [c1, b1, a1], by rw [c2, b2, a2], by rw [c3, b3, a3], by rw [c4, b4, a4]⟩

theorem mark_keeps (k : Kind) (b : Bool) (d : Desc) : (if b then mark k d else d).inProcess = d.inProcess ∧
    (if b then mark k d else d).isClear = d.isClear := by
  cases b
  · exact ⟨rfl, rfl⟩
  · simp only [if_true, mark]; split <;> exact ⟨rfl, rfl⟩

theorem markAll_keeps (e : Report) (d : Desc) : (markAll e d).inProcess = d.inProcess ∧
    (markAll e d).isClear = d.isClear := by
  unfold markAll
  simp only
  rw [(mark_keeps _ _ _).1, (mark_keeps _ _ _).1, (mark_keeps _ _ _).1, (mark_keeps _ _ _).2, (mark_keeps _ _ _).2,
    (mark_keeps _ _ _).2]
  exact ⟨rfl, rfl⟩

theorem serve_isBreak {s s' : St} {e : Report} (I : Inv s) (h : serve s e = .ok s') : s'.isBreak = s.isBreak := by
  unfold serve at h
  split at h
  · cases h; rfl
  next r hr =>
  split at h
  rotate_left
  · cases h; rfl
  obtain ⟨d, hd, hfd⟩ := I.tree _ _ (I.regs _ _ hr)
  simp only [take, bind, Except.bind, deref, hd] at h
  split at h
  · cases h; rfl
  split at h
  · split at h
    · cases h
    next s₁ h₁ =>
    split at h
    · cases h
    next s₂ h₂ =>
    obtain ⟨d₁, a1, -, -, -, -, -, a2⟩ := again_inProcess (by exact hd) h₁
    obtain ⟨d₂, b1, -, -, -, -, -, b2⟩ := again_inProcess (id := r.id) (by rw [a1]; exact upd_same _ _ _) h₂
    obtain ⟨d₃, c1, -, -, -, -, -, c2⟩ := again_inProcess (id := r.id) (by rw [b1]; exact upd_same _ _ _) h
    rw [c2, b2, a2]
  · cases h
    unfold Event.arrive
    dsimp only
    split
    · rw [(ctl_heap _ _ _ _).2.2.2.2.2.2.2.2.2.1]; rfl
    · rfl

theorem only_serve {s s' : St} {e : Report} (I : Inv s) (T : Only none s) (h : serve s e = .ok s') : Only none s' := by
  rcases serve_cases I h with rfl | ⟨r, id, d, d', r', hr, hl, hid, hd, hfd, hc, q1, q2, q3, q4, q5⟩
  · exact T
  refine T.upd q1 fun hp => T id d hd ?_
  rcases q5 with ⟨-, rfl, -, -⟩ | ⟨-, q5⟩
  · exact (markAll_keeps e d).1.symm.trans hp
  · have := (regrantAll_keeps e id d (switched r)).1
    rw [← q5] at this
    exact this.symm.trans hp

theorem only_serveAll : ∀ {es : List Report} {s s' : St}, Inv s → Only none s → serveAll s es = .ok s' →
    Inv s' ∧ Only none s'
  | [], s, s', I, T, h => by cases h; exact ⟨I, T⟩
  | e :: es, s, s', I, T, h => by
    unfold serveAll at h
    rw [bind_ok] at h
    obtain ⟨s₁, h₁, h⟩ := h
    exact only_serveAll (Good.ok (inv_serve I) h₁) (only_serve I T h₁) h

/-! ## The phases of a round -/

/-- What holds before epoll is asked, after the phases of a round that does not end early. -/
theorem round_phases {n : Nat} {E : Env} {s s' : St} (h : round n E s = .ok s') (hb : s.isBreak = false) :
    ∃ s₁, timerProcess n s = .ok s₁ ∧ (s₁.isBreak = true ∧ s' = s₁ ∨ s₁.isBreak = false ∧
    ∃ s₂, activePhase n E.busy s₁ = .ok s₂ ∧ (s₂.isBreak = true ∧ s' = s₂ ∨ s₂.isBreak = false ∧
    ∃ s₃, timeoutProcess n s₂ = .ok s₃ ∧ (s₃.isBreak = true ∧ s' = s₃ ∨ s₃.isBreak = false ∧
    ∃ s₄, timerProcess n s₃ = .ok s₄ ∧ (s₄.isBreak = true ∧ s' = s₄ ∨ s₄.isBreak = false ∧
    ∃ s₅, run s₄ (.tick E.elapsed) = .ok s₅ ∧ serveAll s₅ E.reports = .ok s')))) := by
  unfold round at h
  rw [hb] at h
  simp only [Bool.false_eq_true, if_false] at h
  rw [bind_ok] at h
  obtain ⟨s₁, h₁, h⟩ := h
  refine ⟨s₁, h₁, ?_⟩
  split at h
  · next hq => cases h; exact .inl ⟨hq, rfl⟩
  next hq =>
  refine .inr ⟨by simpa using hq, ?_⟩
  rw [bind_ok] at h
  obtain ⟨s₂, h₂, h⟩ := h
  refine ⟨s₂, h₂, ?_⟩
  split at h
  · next hq => cases h; exact .inl ⟨hq, rfl⟩
  next hq =>
  refine .inr ⟨by simpa using hq, ?_⟩
  rw [bind_ok] at h
  obtain ⟨s₃, h₃, h⟩ := h
  refine ⟨s₃, h₃, ?_⟩
  split at h
  · next hq => cases h; exact .inl ⟨hq, rfl⟩
  next hq =>
  refine .inr ⟨by simpa using hq, ?_⟩
  rw [bind_ok] at h
  obtain ⟨s₄, h₄, h⟩ := h
  refine ⟨s₄, h₄, ?_⟩
  split at h
  · next hq => cases h; exact .inl ⟨hq, rfl⟩
  next hq =>
  refine .inr ⟨by simpa using hq, ?_⟩
  rw [bind_ok] at h
  exact h

theorem only_phase {n : Nat} {b : Bool} {s s' : St} (I : Inv s) (T : Only none s) (h : activePhase n b s = .ok s') :
    Inv s' ∧ Only none s' := by
  unfold activePhase at h
  split at h
  · cases h; exact ⟨I, T⟩
  · exact ⟨(Good.ok (true_law.activeLoop n s I trivial) h).1, only_activeLoop I T h⟩

theorem only_timers {n : Nat} {s s' : St} (I : Inv s) (T : Only none s) (h : timerProcess n s = .ok s') :
    Inv s' ∧ Only none s' :=
  ⟨(Good.ok (true_law.timerLoop s.now n s I trivial (Nat.le_refl _)) h).1, only_timerLoop I T h⟩

theorem only_timeouts {n : Nat} {s s' : St} (I : Inv s) (T : Only none s) (h : timeoutProcess n s = .ok s') :
    Inv s' ∧ Only none s' :=
  ⟨(Good.ok (true_law.timeoutLoop s.now n s I trivial (Nat.le_refl _)) h).1, only_timeoutLoop I T h⟩

theorem only_round {n : Nat} {E : Env} {s s' : St} (I : Inv s) (T : Only none s) (h : round n E s = .ok s') :
    Inv s' ∧ Only none s' := by
  cases hb : s.isBreak with
  | true =>
    unfold round at h
    rw [hb] at h
    cases h; exact ⟨I, T⟩
  | false =>
    obtain ⟨s₁, h₁, ⟨-, rfl⟩ | ⟨-, s₂, h₂, ⟨-, rfl⟩ | ⟨-, s₃, h₃, ⟨-, rfl⟩ | ⟨-, s₄, h₄, ⟨-, rfl⟩ | ⟨-, s₅, h₅, h₆⟩⟩⟩⟩⟩ :=
      round_phases h hb
    all_goals obtain ⟨I₁, T₁⟩ := only_timers I T h₁
    · exact ⟨I₁, T₁⟩
    all_goals obtain ⟨I₂, T₂⟩ := only_phase I₁ T₁ h₂
    · exact ⟨I₂, T₂⟩
    all_goals obtain ⟨I₃, T₃⟩ := only_timeouts I₂ T₂ h₃
    · exact ⟨I₃, T₃⟩
    all_goals obtain ⟨I₄, T₄⟩ := only_timers I₃ T₃ h₄
    · exact ⟨I₄, T₄⟩
    exact only_serveAll (inv_run I₄ h₅) (only_run I₄ T₄ h₅) h₆

theorem only_dispatch {n : Nat} : ∀ {Es : List Env} {s s' : St}, Inv s → Only none s → dispatch n Es s = .ok s' →
    Inv s' ∧ Only none s'
  | [], s, s', I, T, h => by cases h; exact ⟨I, T⟩
  | E :: Es, s, s', I, T, h => by
    unfold dispatch at h
    rw [bind_ok] at h
    obtain ⟨s₁, h₁, h⟩ := h
    obtain ⟨I₁, T₁⟩ := only_round I T h₁
    exact only_dispatch I₁ T₁ h

theorem only_program {n : Nat} : ∀ {is : List Item} {s s' : St}, Inv s → Only none s → program n is s = .ok s' →
    Inv s' ∧ Only none s'
  | [], s, s', I, T, h => by cases h; exact ⟨I, T⟩
  | .op o :: is, s, s', I, T, h => by
    unfold program at h
    rw [bind_ok] at h
    obtain ⟨s₁, h₁, h⟩ := h
    exact only_program (inv_run I h₁) (only_run I T h₁) h
  | .dispatch Es :: is, s, s', I, T, h => by
    unfold program at h
    rw [bind_ok] at h
    obtain ⟨s₁, h₁, h⟩ := h
    obtain ⟨I₁, T₁⟩ := only_dispatch I T h₁
    exact only_program I₁ T₁ h

/-! ## What is active -/

/-- Nothing becomes active but by epoll. -/
theorem idle_law : Law (fun _ => False) (fun _ s => s.active = []) where
  run {c s s' o} I T h := by
    unfold Event.run at h
    cases o with
    | set fd mask o ap t hh =>
      obtain ⟨id, b, other, hb, -, rfl⟩ := fdSet_eq h
      unfold settled
      dsimp only
      split
      · rw [(ctl_heap _ _ _ _).2.2.2.1]; exact T
      · exact T
    | clr fd =>
      change clrSet _ fd = _ at h
      cases ht : s.tree fd with
      | none => unfold clrSet at h; simp only [ht] at h; cases h; exact T
      | some x =>
        obtain ⟨e, he, -⟩ := I.tree fd x ht
        rw [clrSet_eq (s := { s with log := .did (.clr fd) :: s.log }) ht he] at h
        subst h
        dsimp only
        split
        · exact T
        · simp only [T, List.erase_nil, ite_self]
    | onTimeout fd hh =>
      change onTimeout _ fd hh = _ at h
      unfold onTimeout at h
      cases ht : s.tree fd with
      | none => simp [ht] at h
      | some x =>
        simp only [ht, bind_ok] at h
        obtain ⟨e, he, h⟩ := h
        cases h; exact T
    | timer ms hh => cases h; exact T
    | cancel id =>
      change timerCancel _ id = _ at h
      unfold timerCancel at h
      split at h
      · cases h; exact T
      · cases h
    | brk b => cases h; exact T
    | tick us => cases h; exact T
  start {s s' id d} I T hd ha h := by rw [start_eq hd] at h; cases h; simp [T]
  hush I T hd hp := T
  weaken I T hd ha hh := T
  event I T hd hp hc hb ha hh := T
  done I T hd hp := T
  finish {s s' id d} I T hd hp h := by
    have := finish_eq I hd hp h
    split at this <;> (subst this; exact T)
  timer I T ht he hh hl := T
  timerNone I T ht hh := T
  unlist {s s' id d} I T hd ht h := by rw [unlist_eq hd h]; simp [T]
  timeout {s s' id d h} I T hd ht ha he hh hx := by rw [expire_eq hd hx]; exact T
  timeoutNone {s s' id d} I T hd ht ha hh hx := by rw [expire_eq hd hx]; exact T
  serve hR := hR.elim

theorem activeLoop_empty : ∀ {n : Nat} {s s' : St}, activeLoop n s = .ok s' → s'.isBreak = false → s'.active = []
  | n + 1, s, s', h, hb => by
    unfold activeLoop at h
    split at h
    · next hl => cases h; exact hl
    · rw [bind_ok] at h
      obtain ⟨s₁, h₁, h⟩ := h
      split at h
      · next q => cases h; rw [hb] at q; cases q
      · exact activeLoop_empty h hb

/-! ## Events that wait -/

/-- An event waits for its handler; the descriptor is active (`a`) or is being processed. -/
def Held (k : Kind) (fd id : Nat) (a : Bool) (s : St) : Prop :=
  s.isBreak = false ∧ s.tree fd = some id ∧ ∃ d, s.heap id = some d ∧ d.isClear = false ∧ d.act.get k = true ∧
    d.inActive = a ∧ d.inProcess = !a

theorem Held.frame {k : Kind} {fd id : Nat} {a : Bool} {s s' : St} (H : Held k fd id a s)
    (h1 : s'.heap id = s.heap id) (h2 : s'.tree fd = s.tree fd) (h3 : s'.isBreak = s.isBreak) : Held k fd id a s' := by
  unfold Held at H ⊢
  rw [h1, h2, h3]; exact H

theorem held_run {k : Kind} {fd id : Nat} {a : Bool} {s s' : St} {o : Op} (I : Inv s) (H : Held k fd id a s)
    (h : run s o = .ok s') : o = .clr fd ∨ o = .brk true ∨ Held k fd id a s' := by
  unfold run at h
  have I₀ : Inv { s with log := .did o :: s.log } := inv_frame I rfl rfl rfl rfl rfl rfl
  have H₀ : Held k fd id a { s with log := .did o :: s.log } := H
  obtain ⟨hb, ht, d, hd, hc, hact, hia, hip⟩ := H
  have hfd : d.fd = fd := by
    obtain ⟨d', hd', hf⟩ := I.tree _ _ ht
    rw [hd] at hd'; cases hd'; exact hf
  cases o with
  | set f mask o ap t hh =>
    right; right
    obtain ⟨x, b, other, hbase, -, rfl⟩ := fdSet_eq h
    have fh := settled_heap { s with log := .did (.set f mask o ap t hh) :: s.log } f mask o t hh x b other
    obtain ⟨f1, -, -, -, -, f2, -⟩ := settled_fields { s with log := .did (.set f mask o ap t hh) :: s.log } f mask o t hh x b other
    by_cases hf : f = fd
    · subst hf
      rcases base_cases I₀ hbase with ⟨ht', -⟩ | ⟨e, ht', hd', hfd', hh'⟩
      · rw [show s.tree f = none from ht'] at ht; cases ht
      · rw [show s.tree f = some x from ht'] at ht; cases ht
        rw [show s.heap id = some e from hd'] at hd; cases hd
        have key : b.isClear = false ∧ b.act.get k = true ∧ b.inActive = a ∧ b.inProcess = !a := by
          rcases hh' with ⟨hc', -⟩ | ⟨-, -, ⟨-, rfl⟩ | ⟨-, rfl⟩⟩
          · rw [hc] at hc'; cases hc'
          · exact ⟨hc, hact, hia, hip⟩
          · exact ⟨hc, hact, hia, hip⟩
        refine ⟨by rw [f2]; exact hb, by rw [f1]; exact upd_same _ _ _, _, by rw [fh]; exact upd_same _ _ _, ?_, ?_, ?_, ?_⟩
        · exact (arm_isClear _ _ _).trans key.1
        · show (arm s.now t b).act.get k = true
          rw [(alike_arm s.now t b).2.1]; exact key.2.1
        · exact (arm_inActive _ _ _).trans key.2.2.1
        · exact (arm_inProcess _ _ _).trans key.2.2.2
    · have hx : id ≠ x := by
        rintro rfl
        rcases base_cases I₀ hbase with ⟨-, rfl, -⟩ | ⟨e, ht', hd', hfd', -⟩
        · have := (I.live _ _ hd).2
          simp at this
        · rw [show s.heap id = some e from hd'] at hd; cases hd
          exact hf (hfd'.symm.trans hfd)
      exact H₀.frame (by rw [fh]; exact upd_other _ _ hx) (by rw [f1]; exact upd_other _ _ (fun e => hf e.symm)) f2
  | clr f =>
    by_cases hf : f = fd
    · subst hf; exact .inl rfl
    right; right
    change clrSet _ f = _ at h
    cases ht' : s.tree f with
    | none => unfold clrSet at h; simp only [ht'] at h; cases h; exact H₀
    | some x =>
      obtain ⟨e, he, hef⟩ := I.tree f x ht'
      have hx : id ≠ x := by
        rintro rfl; rw [hd] at he; cases he; exact hf (hef.symm.trans hfd)
      rw [clrSet_eq (s := { s with log := .did (.clr f) :: s.log }) ht' he] at h
      subst h
      dsimp only
      split
      · exact H₀.frame (upd_other _ _ hx) rfl rfl
      · exact H₀.frame (upd_other _ _ hx) (upd_other _ _ (fun e => hf e.symm)) rfl
  | onTimeout f hh =>
    right; right
    change onTimeout _ f hh = _ at h
    unfold onTimeout at h
    cases ht' : s.tree f with
    | none => simp [ht'] at h
    | some x =>
      simp only [ht', bind_ok] at h
      obtain ⟨e, he, h⟩ := h
      cases h
      rw [deref_ok] at he
      by_cases hx : id = x
      · subst hx
        rw [show s.heap id = some e from he] at hd; cases hd
        exact ⟨hb, ht, _, upd_same _ _ _, hc, hact, hia, hip⟩
      · exact H₀.frame (upd_other _ _ hx) rfl rfl
  | timer ms hh => cases h; exact .inr (.inr H₀)
  | cancel id =>
    change timerCancel _ id = _ at h
    unfold timerCancel at h
    split at h
    · cases h; exact .inr (.inr H₀)
    · cases h
  | brk b =>
    cases b with
    | true => exact .inr (.inl rfl)
    | false => cases h; exact .inr (.inr ⟨rfl, ht, d, hd, hc, hact, hia, hip⟩)
  | tick us => cases h; exact .inr (.inr H₀)

end Verif.Event
