import Verif.Event

/-
No descriptor is used after it was freed: an invariant of the states of Event, kept by every operation
and every step of dispatching, whatever the handlers do and epoll reports.
-/
namespace Verif.Event

/-! ## Equations of the operations -/

theorem bind_ok {α β} {x : M α} {f : α → M β} {y : β} :
    (x >>= f) = .ok y ↔ ∃ a, x = .ok a ∧ f a = .ok y := by
  cases x with
  | error e => simp [bind, Except.bind]
  | ok a => simp [bind, Except.bind]

theorem upd_same {α} (f : Nat → Option α) (i : Nat) (v : Option α) : upd f i v i = v := by simp [upd]

theorem upd_other {α} (f : Nat → Option α) {i j : Nat} (v : Option α) (h : j ≠ i) : upd f i v j = f j := by
  simp [upd, h]

theorem upd_upd {α} (f : Nat → Option α) (i : Nat) (v w : Option α) : upd (upd f i v) i w = upd f i w := by
  funext x; by_cases h : x = i <;> simp [upd, h]

theorem upd_id {α} {f : Nat → Option α} {i : Nat} {v : Option α} (h : f i = v) : upd f i v = f := by
  funext x; by_cases hx : x = i <;> simp [upd, hx, h]

theorem deref_ok {s : St} {id : Nat} {d : Desc} : deref s id = .ok d ↔ s.heap id = some d := by
  unfold deref; cases s.heap id <;> simp

/-- What a timeout makes of a descriptor. -/
def arm (now : Nat) (t : Timeout) (d : Desc) : Desc :=
  match t with
  | .unmodified => d
  | .unlimited => if d.timed then { d with timed := false, endUs := 0 } else d
  | .ms v => { d with timed := true, endUs := now + v * 1000 }

/-- And of the list of timeouts. -/
def armList (t : Timeout) (d : Desc) (id : Nat) (l : List Nat) : List Nat :=
  match t with
  | .unmodified => l
  | .unlimited => if d.timed then l.erase id else l
  | .ms _ => l.erase id ++ [id]

theorem arm_unmodified (now : Nat) (d : Desc) : arm now .unmodified d = d := rfl
theorem armList_unmodified (d : Desc) (id : Nat) (l : List Nat) : armList .unmodified d id l = l := rfl

theorem arm_fd (now : Nat) (t : Timeout) (d : Desc) : (arm now t d).fd = d.fd := by
  unfold arm; repeat (first | rfl | split)
theorem arm_inProcess (now : Nat) (t : Timeout) (d : Desc) : (arm now t d).inProcess = d.inProcess := by
  unfold arm; repeat (first | rfl | split)
theorem arm_inActive (now : Nat) (t : Timeout) (d : Desc) : (arm now t d).inActive = d.inActive := by
  unfold arm; repeat (first | rfl | split)
theorem arm_isClear (now : Nat) (t : Timeout) (d : Desc) : (arm now t d).isClear = d.isClear := by
  unfold arm; repeat (first | rfl | split)
theorem arm_unlimited_timed (now : Nat) (d : Desc) : (arm now .unlimited d).timed = false := by
  unfold arm; by_cases h : d.timed <;> simp [h]

def small : Timeout → Prop
  | .ms v => v * 1000 < 2 ^ 31
  | _ => True

theorem untime_eq {s : St} {id : Nat} {d : Desc} (h : s.heap id = some d) :
    untime s id = .ok { s with heap := upd s.heap id (some (arm s.now .unlimited d)),
                               timeouts := armList .unlimited d id s.timeouts } := by
  unfold untime
  rw [show deref s id = .ok d from deref_ok.mpr h]
  show (Except.ok _ : M St) = _
  by_cases ht : d.timed
  · simp [ht, put, arm, armList]
  · simp [ht, arm, armList, upd_id h]

theorem timeoutSet_eq {s s' : St} {id : Nat} {t : Timeout} {d : Desc} (h : s.heap id = some d) :
    timeoutSet s id t = .ok s' ↔ small t ∧ s' = { s with heap := upd s.heap id (some (arm s.now t d)),
                                                         timeouts := armList t d id s.timeouts } := by
  cases t with
  | unmodified =>
    simp only [timeoutSet, arm, armList, upd_id h, small, Except.ok.injEq, true_and]
    exact eq_comm
  | unlimited =>
    show untime s id = _ ↔ _
    rw [untime_eq h]
    simp [small, eq_comm]
  | ms v =>
    show (deref s id >>= _) = _ ↔ _
    rw [show deref s id = .ok d from deref_ok.mpr h]
    show (if v * 1000 ≥ 2 ^ 31 then (Except.error Bad.overflow : M St) else .ok _) = _ ↔ _
    by_cases hv : v * 1000 ≥ 2 ^ 31
    · rw [if_pos hv]; constructor
      · intro h; cases h
      · intro h; exact absurd h.1 (by simp only [small]; omega)
    · rw [if_neg hv]; constructor
      · intro h; cases h; exact ⟨by simp only [small]; omega, rfl⟩
      · intro h; rw [h.2]; rfl

/-- What setting events makes of a descriptor. -/
def grant (mask : Mask) (oneshot : Bool) (h : Option Nat) (d : Desc) : Desc :=
  { d with flag := d.flag.or mask,
           rcv := if mask.r then h else d.rcv,
           snd := if mask.s then h else d.snd,
           err := if mask.e then h else d.err,
           one := if oneshot then d.one.or mask else d.one }

theorem appendSet_eq {s s' : St} {id fd : Nat} {mask : Mask} {o : Bool} {t : Timeout} {h : Option Nat}
    {other : Bool} {d : Desc} (hd : s.heap id = some d) :
    appendSet s id fd mask o t h other = .ok s' ↔ small t ∧
      s' = (let d' := grant mask o h (arm s.now t d)
            let s₁ := { s with heap := upd s.heap id (some d'), timeouts := armList t d id s.timeouts }
            if d'.flag.any then ctl s₁ other fd { mask := d'.flag, oneshot := o, id := id } else s₁) := by
  unfold appendSet
  rw [bind_ok]
  constructor
  · rintro ⟨a, ha, hb⟩
    obtain ⟨ht, rfl⟩ := (timeoutSet_eq hd).mp ha
    refine ⟨ht, ?_⟩
    rw [bind_ok] at hb
    obtain ⟨b, hb, hc⟩ := hb
    rw [deref_ok] at hb
    simp only [upd_same] at hb
    cases hb
    cases hc
    simp only [put, upd_upd]
    rfl
  · rintro ⟨ht, rfl⟩
    refine ⟨_, (timeoutSet_eq hd).mpr ⟨ht, rfl⟩, ?_⟩
    rw [bind_ok]
    refine ⟨arm s.now t d, deref_ok.mpr (upd_same _ _ _), ?_⟩
    simp only [put, upd_upd]
    rfl

/-- What a descriptor is before its events are set: nothing for a new one, and what was there for an old
one, without its events if they are replaced. -/
def base (s : St) (fd : Nat) (append : Bool) : Option (Nat × Desc × Bool) :=
  match s.tree fd with
  | none => some (s.next, { fd := fd }, false)
  | some id =>
    match s.heap id with
    | none => none
    | some d =>
      if append then if d.isClear then none else some (id, d, true)
      else if d.isClear then some (id, { fd := fd, inProcess := d.inProcess }, false)
      else some (id, { d with flag := {}, one := {}, fd := fd }, true)

/-- The state after mln_event_fd_set. -/
def settled (s : St) (fd : Nat) (mask : Mask) (o : Bool) (t : Timeout) (h : Option Nat)
    (id : Nat) (b : Desc) (other : Bool) : St :=
  let d' := grant mask o h (arm s.now t b)
  let s₁ := { s with heap := upd s.heap id (some d'), timeouts := armList t b id s.timeouts,
                     tree := upd s.tree fd (some id), next := if s.tree fd = none then s.next + 1 else s.next }
  if d'.flag.any then ctl s₁ other fd { mask := d'.flag, oneshot := o, id := id } else s₁

theorem fdSet_eq {s s' : St} {fd : Nat} {mask : Mask} {o ap : Bool} {t : Timeout} {h : Option Nat}
    (hs : fdSet s fd mask o ap t h = .ok s') :
    ∃ id b other, base s fd ap = some (id, b, other) ∧ small t ∧ s' = settled s fd mask o t h id b other := by
  unfold fdSet at hs
  cases htree : s.tree fd with
  | none =>
    rw [htree] at hs
    refine ⟨s.next, { fd := fd }, false, by simp [base, htree], ?_⟩
    simp only [normalNew, bind_ok] at hs
    obtain ⟨a, ha, hb⟩ := hs
    obtain ⟨ht, rfl⟩ := (timeoutSet_eq (upd_same _ _ _)).mp ha
    refine ⟨ht, ?_⟩
    obtain ⟨-, rfl⟩ := (appendSet_eq (upd_same _ _ _)).mp hb
    simp only [put, upd_upd, settled, htree, if_true, arm_unmodified, armList_unmodified]
  | some id =>
    rw [htree] at hs
    simp only [bind_ok] at hs
    obtain ⟨d, hd, hs⟩ := hs
    rw [deref_ok] at hd
    cases ap with
    | true =>
      rw [if_pos rfl] at hs
      cases hc : d.isClear with
      | true => rw [hc] at hs; simp at hs
      | false =>
        rw [hc] at hs
        simp only [Bool.false_eq_true, if_false] at hs
        refine ⟨id, d, true, by simp [base, htree, hd, hc], ?_⟩
        obtain ⟨ht, rfl⟩ := (appendSet_eq hd).mp hs
        refine ⟨ht, ?_⟩
        simp only [settled, htree, upd_id htree]
        rfl
    | false =>
      simp only [Bool.false_eq_true, if_false, normalOld, bind_ok] at hs
      obtain ⟨d₁, hd₁, a, ha, hb⟩ := hs
      rw [deref_ok, hd] at hd₁
      cases hd₁
      obtain ⟨ht, rfl⟩ := (timeoutSet_eq (upd_same _ _ _)).mp ha
      obtain ⟨-, rfl⟩ := (appendSet_eq (upd_same _ _ _)).mp hb
      cases hc : d.isClear with
      | true =>
        refine ⟨id, { fd := fd, inProcess := d.inProcess }, false, by simp [base, htree, hd, hc], ht, ?_⟩
        simp only [put, upd_upd, settled, htree, upd_id htree, arm_unmodified, armList_unmodified, if_true, Bool.not_true]
        rfl
      | false =>
        refine ⟨id, { d with flag := {}, one := {}, fd := fd }, true, by simp [base, htree, hd, hc], ht, ?_⟩
        simp only [put, upd_upd, settled, htree, upd_id htree, arm_unmodified, armList_unmodified, hc, Bool.false_eq_true, if_false, Bool.not_false]
        rfl

/-- The state after mln_event_fd_set with M_EV_CLR. -/
theorem clrSet_eq {s s' : St} {fd id : Nat} {d : Desc} (ht : s.tree fd = some id) (hd : s.heap id = some d) :
    clrSet s fd = .ok s' ↔
      s' = (let s₁ := { s with timeouts := armList .unlimited d id s.timeouts, regs := upd s.regs fd none }
            if d.inProcess then { s₁ with heap := upd s.heap id (some { arm s.now .unlimited d with isClear := true }) }
            else { s₁ with tree := upd s.tree fd none, heap := upd s.heap id none,
                           active := if d.inActive then s.active.erase id else s.active }) := by
  unfold clrSet
  rw [ht]
  simp only [untime_eq hd]
  have h1 : (arm s.now .unlimited d).inProcess = d.inProcess := arm_inProcess _ _ _
  have h2 : (arm s.now .unlimited d).inActive = d.inActive := arm_inActive _ _ _
  simp only [bind, Except.bind, deref, upd_same]
  by_cases hp : d.inProcess
  · rw [if_pos (h1.trans hp), if_pos hp]
    simp only [put, upd_upd, Except.ok.injEq]
    exact eq_comm
  · rw [if_neg (by rw [h1]; exact hp), if_neg hp, h2]
    simp only [upd_upd, Except.ok.injEq]
    exact eq_comm

/-! ## The invariant -/

structure Inv (s : St) : Prop where
  live : ∀ id d, s.heap id = some d → s.tree d.fd = some id ∧ id < s.next
  tree : ∀ fd id, s.tree fd = some id → ∃ d, s.heap id = some d ∧ d.fd = fd
  regs : ∀ fd r, s.regs fd = some r → s.tree fd = some r.id
  clear : ∀ id d, s.heap id = some d → d.isClear = true →
    d.inProcess = true ∧ d.timed = false ∧ s.regs d.fd = none
  proc : ∀ id d, s.heap id = some d → d.inProcess = true → d.inActive = false
  actNodup : s.active.Nodup
  act : ∀ id, id ∈ s.active ↔ ∃ d, s.heap id = some d ∧ d.inActive = true
  tmoNodup : s.timeouts.Nodup
  tmo : ∀ id, id ∈ s.timeouts ↔ ∃ d, s.heap id = some d ∧ d.timed = true

theorem inv_new (plan : List (List Op)) : Inv (new plan) := by
  constructor <;> simp [new]

/-- One descriptor is changed. -/
theorem inv_upd {s s' : St} {id : Nat} {d d' : Desc} (I : Inv s) (hd : s.heap id = some d)
    (hh : s'.heap = upd s.heap id (some d')) (ht : s'.tree = s.tree) (hn : s'.next = s.next)
    (hr : ∀ fd r, s'.regs fd = some r → s.tree fd = some r.id)
    (hr' : ∀ fd, fd ≠ d.fd → s.regs fd = none → s'.regs fd = none)
    (hfd : d'.fd = d.fd)
    (a1 : s'.active.Nodup) (a2 : ∀ x, x ∈ s'.active ↔ if x = id then d'.inActive = true else x ∈ s.active)
    (t1 : s'.timeouts.Nodup) (t2 : ∀ x, x ∈ s'.timeouts ↔ if x = id then d'.timed = true else x ∈ s.timeouts)
    (hc : d'.isClear = true → d'.inProcess = true ∧ d'.timed = false ∧ s'.regs d'.fd = none)
    (hp : d'.inProcess = true → d'.inActive = false) : Inv s' := by
  have key : ∀ x e, s'.heap x = some e → (x = id ∧ e = d') ∨ (x ≠ id ∧ s.heap x = some e) := by
    intro x e h
    rw [hh] at h
    by_cases hx : x = id
    · rw [hx, upd_same] at h; cases h; exact .inl ⟨hx, rfl⟩
    · rw [upd_other _ _ hx] at h; exact .inr ⟨hx, h⟩
  refine ⟨?_, ?_, ?_, ?_, ?_, a1, ?_, t1, ?_⟩
  · intro x e h
    rw [ht, hn]
    rcases key x e h with ⟨rfl, rfl⟩ | ⟨_, h⟩
    · rw [hfd]; exact I.live _ _ hd
    · exact I.live _ _ h
  · intro fd x h
    rw [ht] at h
    obtain ⟨e, he, hf⟩ := I.tree fd x h
    rw [hh]
    by_cases hx : x = id
    · subst hx; rw [hd] at he; cases he
      exact ⟨d', upd_same _ _ _, hfd.trans hf⟩
    · exact ⟨e, by rw [upd_other _ _ hx]; exact he, hf⟩
  · intro fd r h
    rw [ht]; exact hr fd r h
  · intro x e h hcl
    rcases key x e h with ⟨rfl, rfl⟩ | ⟨hx, h⟩
    · exact hc hcl
    · obtain ⟨c1, c2, c3⟩ := I.clear x e h hcl
      refine ⟨c1, c2, hr' _ (fun hne => hx ?_) c3⟩
      have q1 := (I.live _ _ h).1
      have q2 := (I.live _ _ hd).1
      rw [hne, q2] at q1; cases q1; rfl
  · intro x e h hpp
    rcases key x e h with ⟨rfl, rfl⟩ | ⟨hx, h⟩
    · exact hp hpp
    · exact I.proc x e h hpp
  · intro x
    rw [a2, hh]
    by_cases hx : x = id
    · rw [if_pos hx, hx, upd_same]; simp
    · rw [if_neg hx, upd_other _ _ hx]; exact I.act x
  · intro x
    rw [t2, hh]
    by_cases hx : x = id
    · rw [if_pos hx, hx, upd_same]; simp
    · rw [if_neg hx, upd_other _ _ hx]; exact I.tmo x

/-- The same with the lists and epoll as they were. -/
theorem inv_put {s : St} {id : Nat} {d d' : Desc} (I : Inv s) (hd : s.heap id = some d) (hfd : d'.fd = d.fd)
    (ha : d'.inActive = d.inActive) (ht : d'.timed = d.timed)
    (hc : d'.isClear = true → d'.inProcess = true ∧ d'.timed = false ∧ s.regs d.fd = none)
    (hp : d'.inProcess = true → d'.inActive = false) : Inv (put s id d') := by
  refine inv_upd I hd rfl rfl rfl I.regs (fun _ _ h => h) hfd I.actNodup ?_ I.tmoNodup ?_
    (by rw [hfd]; exact hc) hp
  · intro x
    by_cases hx : x = id
    · subst hx; rw [if_pos rfl, show (put s x d').active = s.active from rfl, I.act, ha]
      simp [hd]
    · rw [if_neg hx]; rfl
  · intro x
    by_cases hx : x = id
    · subst hx; rw [if_pos rfl, show (put s x d').timeouts = s.timeouts from rfl, I.tmo, ht]
      simp [hd]
    · rw [if_neg hx]; rfl

/-- Everything else may change. -/
theorem inv_frame {s s' : St} (I : Inv s) (h1 : s'.heap = s.heap) (h2 : s'.tree = s.tree) (h3 : s'.next = s.next)
    (h4 : s'.regs = s.regs) (h5 : s'.active = s.active) (h6 : s'.timeouts = s.timeouts) : Inv s' := by
  constructor
  · rw [h1, h2, h3]; exact I.live
  · rw [h1, h2]; exact I.tree
  · rw [h2, h4]; exact I.regs
  · rw [h1, h4]; exact I.clear
  · rw [h1]; exact I.proc
  · rw [h5]; exact I.actNodup
  · rw [h1, h5]; exact I.act
  · rw [h6]; exact I.tmoNodup
  · rw [h1, h6]; exact I.tmo

/-- The lists of timeouts stay right. -/
theorem armList_nodup {t : Timeout} {d : Desc} {id : Nat} {l : List Nat} (h : l.Nodup) :
    (armList t d id l).Nodup := by
  unfold armList
  split
  · exact h
  · split
    · exact h.erase _
    · exact h
  · rw [List.nodup_append]
    refine ⟨h.erase _, by simp, ?_⟩
    intro a ha b hb
    simp only [List.mem_singleton] at hb
    subst hb
    rintro rfl
    exact absurd ha (by rw [h.mem_erase_iff]; simp)

theorem armList_mem {now : Nat} {t : Timeout} {d : Desc} {id : Nat} {l : List Nat} (h : l.Nodup)
    (hm : id ∈ l ↔ d.timed = true) (x : Nat) :
    x ∈ armList t d id l ↔ if x = id then (arm now t d).timed = true else x ∈ l := by
  unfold armList arm
  cases t with
  | unmodified =>
    by_cases hx : x = id
    · subst hx; simp [hm]
    · simp [hx]
  | unlimited =>
    by_cases ht : d.timed = true
    · simp only [ht, if_true]
      rw [h.mem_erase_iff]
      by_cases hx : x = id <;> simp [hx]
    · simp only [ht]
      by_cases hx : x = id
      · subst hx; simp [hm]
      · simp [hx]
  | ms v =>
    simp only [List.mem_append, List.mem_singleton]
    rw [h.mem_erase_iff]
    by_cases hx : x = id <;> simp [hx]

/-! ## Operations -/

theorem ctl_heap (s : St) (m : Bool) (fd : Nat) (r : Reg) :
    (ctl s m fd r).heap = s.heap ∧ (ctl s m fd r).tree = s.tree ∧ (ctl s m fd r).next = s.next ∧
    (ctl s m fd r).active = s.active ∧ (ctl s m fd r).timeouts = s.timeouts ∧ (ctl s m fd r).log = s.log ∧
    (ctl s m fd r).now = s.now ∧ (ctl s m fd r).timers = s.timers ∧ (ctl s m fd r).nextTimer = s.nextTimer ∧
    (ctl s m fd r).isBreak = s.isBreak ∧ (ctl s m fd r).plan = s.plan := by
  unfold ctl; split <;> simp

theorem ctl_regs (s : St) (m : Bool) (fd : Nat) (r : Reg) :
    (ctl s m fd r).regs = if (s.regs fd).isSome = m then upd s.regs fd (some r) else s.regs := by
  unfold ctl; split <;> simp

/-- Setting epoll for a descriptor that is not cleared. -/
theorem inv_ctl {s : St} {m : Bool} {id fd : Nat} {r : Reg} {d : Desc} (I : Inv s) (hd : s.heap id = some d)
    (hfd : fd = d.fd) (hr : r.id = id) (hc : d.isClear = false) : Inv (ctl s m fd r) := by
  subst hfd
  unfold ctl
  split
  · refine ⟨I.live, I.tree, ?_, ?_, I.proc, I.actNodup, I.act, I.tmoNodup, I.tmo⟩
    · intro fd r' h
      simp only at h
      by_cases hx : fd = d.fd
      · rw [hx, upd_same] at h; cases h
        rw [hr, hx]; exact (I.live _ _ hd).1
      · rw [upd_other _ _ hx] at h; exact I.regs _ _ h
    · intro x e h hcl
      obtain ⟨c1, c2, c3⟩ := I.clear x e h hcl
      refine ⟨c1, c2, ?_⟩
      simp only
      rw [upd_other _ _ ?_]
      · exact c3
      · intro hne
        have q1 := (I.live _ _ h).1
        have q2 := (I.live _ _ hd).1
        rw [hne, q2] at q1; cases q1
        rw [hd] at h; cases h
        rw [hc] at hcl; cases hcl
  · exact I

/-- A new descriptor. -/
theorem inv_create {s : St} {fd : Nat} (I : Inv s) (h : s.tree fd = none) :
    Inv (put { s with next := s.next + 1, tree := upd s.tree fd (some s.next) } s.next { fd := fd }) := by
  have hnone : s.heap s.next = none := by
    cases hx : s.heap s.next with
    | none => rfl
    | some d => exact absurd (I.live _ _ hx).2 (by omega)
  have key : ∀ x e, upd s.heap s.next (some ({ fd := fd } : Desc)) x = some e →
      (x = s.next ∧ e = { fd := fd }) ∨ (x ≠ s.next ∧ s.heap x = some e ∧ e.fd ≠ fd) := by
    intro x e hx
    by_cases hne : x = s.next
    · rw [hne, upd_same] at hx; cases hx; exact .inl ⟨hne, rfl⟩
    · rw [upd_other _ _ hne] at hx
      refine .inr ⟨hne, hx, ?_⟩
      rintro rfl
      rw [(I.live _ _ hx).1] at h; cases h
  refine ⟨?_, ?_, ?_, ?_, ?_, I.actNodup, ?_, I.tmoNodup, ?_⟩
  · intro x e hx
    rcases key x e hx with ⟨rfl, rfl⟩ | ⟨_, hx, hf⟩
    · exact ⟨upd_same _ _ _, Nat.lt_succ_self _⟩
    · obtain ⟨h1, h2⟩ := I.live _ _ hx
      exact ⟨by show upd s.tree fd _ e.fd = _; rw [upd_other _ _ hf]; exact h1, Nat.lt_succ_of_lt h2⟩
  · intro f x hx
    change upd s.tree fd (some s.next) f = some x at hx
    by_cases hf : f = fd
    · rw [hf, upd_same] at hx; cases hx
      exact ⟨_, upd_same _ _ _, hf.symm⟩
    · rw [upd_other _ _ hf] at hx
      obtain ⟨e, he, hfe⟩ := I.tree f x hx
      refine ⟨e, ?_, hfe⟩
      show upd s.heap _ _ x = _
      rw [upd_other _ _ ?_]; · exact he
      rintro rfl; rw [hnone] at he; cases he
  · intro f r hr
    change s.regs f = some r at hr
    show upd s.tree fd (some s.next) f = some r.id
    have := I.regs f r hr
    rw [upd_other _ _ ?_]; · exact this
    rintro rfl; rw [h] at this; cases this
  · intro x e hx hc
    rcases key x e hx with ⟨rfl, rfl⟩ | ⟨_, hx, hf⟩
    · cases hc
    · exact I.clear x e hx hc
  · intro x e hx hp
    rcases key x e hx with ⟨rfl, rfl⟩ | ⟨_, hx, hf⟩
    · cases hp
    · exact I.proc x e hx hp
  · intro x
    show x ∈ s.active ↔ _
    rw [I.act]
    constructor
    · rintro ⟨e, he, ha⟩
      refine ⟨e, ?_, ha⟩
      show upd s.heap _ _ x = _
      rw [upd_other _ _ ?_]; · exact he
      rintro rfl; rw [hnone] at he; cases he
    · rintro ⟨e, he, ha⟩
      rcases key x e he with ⟨rfl, rfl⟩ | ⟨_, hx, hf⟩
      · cases ha
      · exact ⟨e, hx, ha⟩
  · intro x
    show x ∈ s.timeouts ↔ _
    rw [I.tmo]
    constructor
    · rintro ⟨e, he, ha⟩
      refine ⟨e, ?_, ha⟩
      show upd s.heap _ _ x = _
      rw [upd_other _ _ ?_]; · exact he
      rintro rfl; rw [hnone] at he; cases he
    · rintro ⟨e, he, ha⟩
      rcases key x e he with ⟨rfl, rfl⟩ | ⟨_, hx, hf⟩
      · cases ha
      · exact ⟨e, hx, ha⟩

/-- Timeouts. -/
theorem inv_arm {s : St} {id : Nat} {d : Desc} {t : Timeout} (I : Inv s) (hd : s.heap id = some d)
    (hc : d.isClear = true → t = .unlimited) :
    Inv { s with heap := upd s.heap id (some (arm s.now t d)), timeouts := armList t d id s.timeouts } := by
  refine inv_upd I hd rfl rfl rfl I.regs (fun _ _ h => h) (arm_fd _ _ _) I.actNodup ?_
    (armList_nodup I.tmoNodup) ?_ ?_ ?_
  · intro x
    by_cases hx : x = id
    · subst hx; rw [if_pos rfl, arm_inActive]; show x ∈ s.active ↔ _; rw [I.act]; simp [hd]
    · rw [if_neg hx]
  · exact armList_mem I.tmoNodup (by rw [I.tmo]; simp [hd])
  · rw [arm_isClear]
    intro h
    have := hc h
    subst this
    obtain ⟨c1, c2, c3⟩ := I.clear id d hd h
    exact ⟨by rw [arm_inProcess]; exact c1, arm_unlimited_timed _ _, by rw [arm_fd]; exact c3⟩
  · rw [arm_inProcess, arm_inActive]; exact I.proc id d hd

theorem inv_untime {s s' : St} {id : Nat} {d : Desc} (I : Inv s) (hd : s.heap id = some d)
    (h : untime s id = .ok s') : Inv s' := by
  rw [untime_eq hd] at h; cases h
  exact inv_arm I hd (fun _ => rfl)

theorem inv_timeoutSet {s s' : St} {id : Nat} {d : Desc} {t : Timeout} (I : Inv s) (hd : s.heap id = some d)
    (hc : d.isClear = false) (h : timeoutSet s id t = .ok s') : Inv s' := by
  obtain ⟨-, rfl⟩ := (timeoutSet_eq hd).mp h
  exact inv_arm I hd (by simp [hc])

theorem inv_appendSet {s s' : St} {id fd : Nat} {mask : Mask} {o : Bool} {t : Timeout} {h : Option Nat}
    {other : Bool} {d : Desc} (I : Inv s) (hd : s.heap id = some d) (hc : d.isClear = false)
    (hfd : fd = d.fd) (hs : appendSet s id fd mask o t h other = .ok s') : Inv s' := by
  obtain ⟨-, rfl⟩ := (appendSet_eq hd).mp hs
  have I₁ := inv_arm (t := t) I hd (by simp [hc])
  have I₂ := inv_put (d' := grant mask o h (arm s.now t d)) I₁ (upd_same _ _ _) rfl rfl rfl
    (by simp [grant, arm_isClear, hc]) (fun hp => by
      simp only [grant, arm_inProcess, arm_inActive] at hp ⊢; exact I.proc id d hd hp)
  simp only [put, upd_upd] at I₂
  dsimp only
  split
  · exact inv_ctl I₂ (upd_same _ _ _) (by simp [grant, arm_fd, hfd]) rfl (by simp [grant, arm_isClear, hc])
  · exact I₂

theorem inv_clrSet {s s' : St} {fd : Nat} (I : Inv s) (h : clrSet s fd = .ok s') : Inv s' := by
  cases ht : s.tree fd with
  | none =>
    unfold clrSet at h
    rw [ht] at h; cases h; exact I
  | some id =>
    obtain ⟨d, hd, rfl⟩ := I.tree fd id ht
    rw [clrSet_eq ht hd] at h
    have I₁ := inv_arm (t := .unlimited) I hd (fun _ => rfl)
    subst h
    dsimp only
    split
    · next hp =>
      refine inv_upd (d' := { arm s.now .unlimited d with isClear := true }) I₁ (upd_same _ _ _)
        (by simp only [upd_upd]) rfl rfl ?_ ?_ rfl
        I.actNodup ?_ I₁.tmoNodup ?_ ?_ ?_
      · intro f r hr
        simp only at hr
        by_cases hf : f = d.fd
        · rw [hf, upd_same] at hr; cases hr
        · rw [upd_other _ _ hf] at hr; exact I.regs f r hr
      · intro f hf hr
        simp only at hr ⊢
        rw [upd_other _ _ (by rw [arm_fd] at hf; exact hf)]; exact hr
      · intro x
        simp only [arm_inActive]
        by_cases hx : x = id
        · subst hx; rw [if_pos rfl, I.act]; simp [hd]
        · rw [if_neg hx]
      · intro x
        simp only [arm_unlimited_timed]
        by_cases hx : x = id
        · subst hx
          rw [if_pos rfl]
          have := I₁.tmo x
          simp only [upd_same] at this
          rw [this]
          simp [arm_unlimited_timed]
        · rw [if_neg hx]
      · intro _
        exact ⟨by simp [arm_inProcess, hp], arm_unlimited_timed _ _, by simp [arm_fd, upd_same]⟩
      · intro _; simp only [arm_inActive]; exact I.proc id d hd hp
    · next hp =>
      have key : ∀ x e, upd s.heap id none x = some e → x ≠ id ∧ s.heap x = some e ∧ e.fd ≠ d.fd := by
        intro x e hx
        by_cases hne : x = id
        · rw [hne, upd_same] at hx; cases hx
        · rw [upd_other _ _ hne] at hx
          refine ⟨hne, hx, fun hf => hne ?_⟩
          have := (I.live _ _ hx).1
          rw [hf, ht] at this; cases this; rfl
      refine ⟨?_, ?_, ?_, ?_, ?_, ?_, ?_, I₁.tmoNodup, ?_⟩
      · intro x e hx
        obtain ⟨_, hx, hf⟩ := key x e hx
        obtain ⟨h1, h2⟩ := I.live _ _ hx
        exact ⟨by simp only; rw [upd_other _ _ hf]; exact h1, h2⟩
      · intro f x hx
        simp only at hx ⊢
        by_cases hf : f = d.fd
        · rw [hf, upd_same] at hx; cases hx
        · rw [upd_other _ _ hf] at hx
          obtain ⟨e, he, hfe⟩ := I.tree f x hx
          refine ⟨e, ?_, hfe⟩
          rw [upd_other _ _ ?_]; · exact he
          rintro rfl; rw [hd] at he; cases he; exact hf hfe.symm
      · intro f r hr
        simp only at hr ⊢
        by_cases hf : f = d.fd
        · rw [hf, upd_same] at hr; cases hr
        · rw [upd_other _ _ hf] at hr ⊢; exact I.regs f r hr
      · intro x e hx hc
        obtain ⟨_, hx, hf⟩ := key x e hx
        obtain ⟨c1, c2, c3⟩ := I.clear x e hx hc
        exact ⟨c1, c2, by simp only; rw [upd_other _ _ hf]; exact c3⟩
      · intro x e hx hpp
        obtain ⟨_, hx, hf⟩ := key x e hx
        exact I.proc x e hx hpp
      · simp only; split
        · exact I.actNodup.erase _
        · exact I.actNodup
      · intro x
        simp only
        have h1 : x ∈ (if d.inActive = true then s.active.erase id else s.active) ↔ x ≠ id ∧ x ∈ s.active := by
          split
          · rw [I.actNodup.mem_erase_iff]
          · next ha =>
            constructor
            · intro hx
              refine ⟨?_, hx⟩
              rintro rfl
              obtain ⟨e, he, hea⟩ := (I.act x).mp hx
              rw [hd] at he; cases he; exact ha hea
            · exact fun h => h.2
        rw [h1, I.act]
        constructor
        · rintro ⟨hne, e, he, ha⟩; exact ⟨e, by rw [upd_other _ _ hne]; exact he, ha⟩
        · rintro ⟨e, he, ha⟩
          obtain ⟨hne, hx, _⟩ := key x e he
          exact ⟨hne, e, hx, ha⟩
      · intro x
        simp only
        rw [armList_mem (now := s.now) I.tmoNodup (by rw [I.tmo]; simp [hd]), arm_unlimited_timed]
        by_cases hx : x = id
        · rw [if_pos hx, hx, upd_same]; simp
        · rw [if_neg hx, upd_other _ _ hx]; exact I.tmo x

theorem inv_fdSet {s s' : St} {fd : Nat} {mask : Mask} {o ap : Bool} {t : Timeout} {h : Option Nat} (I : Inv s)
    (hs : fdSet s fd mask o ap t h = .ok s') : Inv s' := by
  unfold fdSet at hs
  cases htree : s.tree fd with
  | none =>
    rw [htree] at hs
    simp only [normalNew, bind_ok] at hs
    obtain ⟨a, ha, hb⟩ := hs
    have I₁ := inv_create I htree
    have I₂ := inv_timeoutSet I₁ (upd_same _ _ _) rfl ha
    obtain ⟨-, rfl⟩ := (timeoutSet_eq (upd_same _ _ _)).mp ha
    exact inv_appendSet I₂ (upd_same _ _ _) (by rw [arm_isClear]) (by rw [arm_fd]) hb
  | some id =>
    rw [htree] at hs
    simp only [bind_ok] at hs
    obtain ⟨d, hd, hs⟩ := hs
    rw [deref_ok] at hd
    obtain ⟨e, he, hfd⟩ := I.tree fd id htree
    rw [hd] at he; cases he
    subst hfd
    cases ap with
    | true =>
      rw [if_pos rfl] at hs
      cases hc : d.isClear with
      | true => rw [hc] at hs; simp at hs
      | false =>
        rw [hc] at hs
        simp only [Bool.false_eq_true, if_false] at hs
        exact inv_appendSet I hd hc rfl hs
    | false =>
      simp only [Bool.false_eq_true, if_false, normalOld, bind_ok] at hs
      obtain ⟨d₁, hd₁, a, ha, hb⟩ := hs
      rw [deref_ok, hd] at hd₁
      cases hd₁
      have I₁ : Inv (put s id (if d.isClear then { fd := d.fd, inProcess := d.inProcess }
          else { d with flag := {}, one := {}, fd := d.fd })) := by
        split
        · next hc =>
          obtain ⟨c1, c2, c3⟩ := I.clear id d hd hc
          exact inv_put I hd rfl (by simp [I.proc id d hd c1]) (by simp [c2]) (by simp) (by simp)
        · next hc => exact inv_put I hd rfl rfl rfl (by simp [hc]) (I.proc id d hd)
      have hcl : (if d.isClear then ({ fd := d.fd, inProcess := d.inProcess } : Desc)
          else { d with flag := {}, one := {}, fd := d.fd }).isClear = false := by
        split
        · rfl
        · next hc => simpa using hc
      have hfd : (if d.isClear then ({ fd := d.fd, inProcess := d.inProcess } : Desc)
          else { d with flag := {}, one := {}, fd := d.fd }).fd = d.fd := by
        split <;> rfl
      have I₂ := inv_timeoutSet I₁ (upd_same _ _ _) hcl ha
      obtain ⟨-, rfl⟩ := (timeoutSet_eq (upd_same _ _ _)).mp ha
      exact inv_appendSet I₂ (upd_same _ _ _) (by rw [arm_isClear]; exact hcl) (by rw [arm_fd, hfd]) hb

theorem inv_run {s s' : St} {o : Op} (I : Inv s) (h : run s o = .ok s') : Inv s' := by
  have I₀ : Inv { s with log := .did o :: s.log } := inv_frame I rfl rfl rfl rfl rfl rfl
  unfold run at h
  cases o with
  | set fd mask o ap t hh => exact inv_fdSet I₀ h
  | clr fd => exact inv_clrSet I₀ h
  | onTimeout fd hh =>
    change onTimeout _ fd hh = _ at h
    unfold onTimeout at h
    cases ht : s.tree fd with
    | none => simp [ht] at h
    | some id =>
      simp only [ht, bind_ok] at h
      obtain ⟨d, hd, h⟩ := h
      cases h
      rw [deref_ok] at hd
      exact inv_put I₀ hd rfl rfl rfl (I₀.clear id d hd) (I₀.proc id d hd)
  | timer ms hh => cases h; exact inv_frame I rfl rfl rfl rfl rfl rfl
  | cancel id =>
    change timerCancel _ id = _ at h
    unfold timerCancel at h
    split at h
    · cases h; exact inv_frame I rfl rfl rfl rfl rfl rfl
    · cases h
  | brk b => cases h; exact inv_frame I rfl rfl rfl rfl rfl rfl
  | tick us => cases h; exact inv_frame I rfl rfl rfl rfl rfl rfl

/-! ## Nothing freed is used -/

/-- A result that is good if there is one, and no use of a freed descriptor otherwise. -/
def Good (Q : St → Prop) : M St → Prop
  | .ok s => Q s
  | .error e => e ≠ .freed

theorem Good.bind {P Q : St → Prop} {m : M St} {f : St → M St} (h : Good P m) (hf : ∀ s, P s → Good Q (f s)) :
    Good Q (m >>= f) := by
  cases m with
  | error e => exact h
  | ok s => exact hf s h

theorem Good.mono {P Q : St → Prop} {m : M St} (h : Good P m) (hf : ∀ s, P s → Q s) : Good Q m := by
  cases m with
  | error e => exact h
  | ok s => exact hf s h

theorem Good.of {Q : St → Prop} {m : M St} (h : m ≠ .error .freed) (hq : ∀ s, m = .ok s → Q s) : Good Q m := by
  cases m with
  | error e => exact fun he => h (by rw [he])
  | ok s => exact hq s rfl

theorem timeoutSet_safe {s : St} {id : Nat} {t : Timeout} {d : Desc} (h : s.heap id = some d) :
    timeoutSet s id t ≠ .error .freed := by
  cases t with
  | unmodified => simp [timeoutSet]
  | unlimited => show untime s id ≠ _; rw [untime_eq h]; simp
  | ms v =>
    show (deref s id >>= _) ≠ _
    rw [show deref s id = .ok d from deref_ok.mpr h]
    show (if v * 1000 ≥ 2 ^ 31 then (Except.error Bad.overflow : M St) else .ok _) ≠ _
    split <;> simp

theorem appendSet_safe {s : St} {id fd : Nat} {mask : Mask} {o : Bool} {t : Timeout} {h : Option Nat}
    {other : Bool} {d : Desc} (hd : s.heap id = some d) :
    appendSet s id fd mask o t h other ≠ .error .freed := by
  unfold appendSet
  cases ht : timeoutSet s id t with
  | error e => have := timeoutSet_safe (t := t) hd; rw [ht] at this; simpa [bind, Except.bind] using this
  | ok s₁ =>
    obtain ⟨-, rfl⟩ := (timeoutSet_eq hd).mp ht
    simp [bind, Except.bind, deref, upd_same]

theorem fdSet_safe {s : St} {fd : Nat} {mask : Mask} {o ap : Bool} {t : Timeout} {h : Option Nat} (I : Inv s) :
    fdSet s fd mask o ap t h ≠ .error .freed := by
  unfold fdSet
  cases htree : s.tree fd with
  | none =>
    simp only [normalNew]
    intro hs
    cases ht : timeoutSet (put { s with next := s.next + 1, tree := upd s.tree fd (some s.next) } s.next { fd := fd }) s.next t with
    | error e =>
      have := timeoutSet_safe (t := t) (s := put { s with next := s.next + 1, tree := upd s.tree fd (some s.next) } s.next { fd := fd }) (id := s.next) (upd_same _ _ _)
      rw [ht] at hs this
      exact this hs
    | ok s₁ =>
      rw [ht] at hs
      obtain ⟨-, rfl⟩ := (timeoutSet_eq (upd_same _ _ _)).mp ht
      simp only [bind, Except.bind] at hs
      exact appendSet_safe (upd_same _ _ _) hs
  | some id =>
    obtain ⟨d, hd, rfl⟩ := I.tree fd id htree
    simp only [bind, Except.bind, deref, hd]
    split
    · split
      · simp
      · exact appendSet_safe hd
    · simp only [normalOld, bind, Except.bind, deref, hd]
      intro hs
      generalize hb : (if d.isClear = true then ({ fd := d.fd, inProcess := d.inProcess } : Desc)
        else { d with flag := {}, one := {}, fd := d.fd }) = b at hs
      cases ht : timeoutSet (put s id b) id t with
      | error e =>
        have := timeoutSet_safe (t := t) (s := put s id b) (id := id) (upd_same _ _ _)
        rw [ht] at hs this
        exact this hs
      | ok s₁ =>
        rw [ht] at hs
        obtain ⟨-, rfl⟩ := (timeoutSet_eq (upd_same _ _ _)).mp ht
        exact appendSet_safe (upd_same _ _ _) hs

theorem clrSet_safe {s : St} {fd : Nat} (I : Inv s) : clrSet s fd ≠ .error .freed := by
  cases ht : s.tree fd with
  | none => unfold clrSet; rw [ht]; simp
  | some id =>
    obtain ⟨d, hd, rfl⟩ := I.tree fd id ht
    intro h
    have := (clrSet_eq ht hd).mpr rfl
    rw [h] at this; cases this

theorem run_safe {s : St} {o : Op} (I : Inv s) : run s o ≠ .error .freed := by
  have I₀ : Inv { s with log := .did o :: s.log } := inv_frame I rfl rfl rfl rfl rfl rfl
  unfold run
  cases o with
  | set fd mask o ap t hh => exact fdSet_safe I₀
  | clr fd => exact clrSet_safe I₀
  | onTimeout fd hh =>
    show onTimeout _ fd hh ≠ _
    unfold onTimeout
    cases ht : s.tree fd with
    | none => simp
    | some id =>
      obtain ⟨d, hd, rfl⟩ := I.tree fd id ht
      simp [bind, Except.bind, deref, hd]
  | timer ms hh => simp [act]
  | cancel id =>
    show timerCancel _ id ≠ _
    unfold timerCancel
    split <;> simp
  | brk b => simp [act]
  | tick us => simp [act]

/-! ## What is processed stays -/

/-- The descriptor is there and marked as processed. -/
def Alive (id : Nat) (s : St) : Prop := ∃ d, s.heap id = some d ∧ d.inProcess = true

theorem grant_inProcess (mask : Mask) (o : Bool) (h : Option Nat) (d : Desc) :
    (grant mask o h d).inProcess = d.inProcess := rfl

theorem settled_heap (s : St) (fd : Nat) (mask : Mask) (o : Bool) (t : Timeout) (h : Option Nat)
    (id : Nat) (b : Desc) (other : Bool) :
    (settled s fd mask o t h id b other).heap = upd s.heap id (some (grant mask o h (arm s.now t b))) := by
  unfold settled
  dsimp only
  split
  · rw [(ctl_heap _ _ _ _).1]
  · rfl

theorem alive_fdSet {s s' : St} {id fd : Nat} {mask : Mask} {o ap : Bool} {t : Timeout} {h : Option Nat}
    (I : Inv s) (A : Alive id s) (hs : fdSet s fd mask o ap t h = .ok s') : Alive id s' := by
  obtain ⟨x, b, other, hb, -, rfl⟩ := fdSet_eq hs
  obtain ⟨d, hd, hp⟩ := A
  unfold Alive
  rw [settled_heap]
  by_cases hx : id = x
  · subst hx
    rw [upd_same]
    refine ⟨_, rfl, ?_⟩
    rw [grant_inProcess, arm_inProcess]
    unfold base at hb
    cases ht : s.tree fd with
    | none =>
      rw [ht] at hb; cases hb
      exact absurd (I.live _ _ hd).2 (by omega)
    | some y =>
      simp only [ht] at hb
      cases hy : s.heap y with
      | none => simp [hy] at hb
      | some e =>
        simp only [hy] at hb
        repeat' split at hb
        all_goals simp at hb
        all_goals (obtain ⟨rfl, rfl, rfl⟩ := hb; rw [hd] at hy; cases hy; exact hp)
  · rw [upd_other _ _ hx]; exact ⟨d, hd, hp⟩

theorem alive_clrSet {s s' : St} {id fd : Nat} (I : Inv s) (A : Alive id s) (hs : clrSet s fd = .ok s') :
    Alive id s' := by
  cases ht : s.tree fd with
  | none => unfold clrSet at hs; rw [ht] at hs; cases hs; exact A
  | some x =>
    obtain ⟨e, he, rfl⟩ := I.tree fd x ht
    rw [clrSet_eq ht he] at hs
    subst hs
    obtain ⟨d, hd, hp⟩ := A
    dsimp only
    split
    · next hpe =>
      unfold Alive; dsimp only
      by_cases hx : id = x
      · subst hx; rw [upd_same]; exact ⟨_, rfl, by simp [arm_inProcess, hpe]⟩
      · rw [upd_other _ _ hx]; exact ⟨d, hd, hp⟩
    · next hpe =>
      unfold Alive; dsimp only
      rw [upd_other _ _ ?_]; · exact ⟨d, hd, hp⟩
      rintro rfl; rw [hd] at he; cases he; exact hpe hp

theorem alive_run {s s' : St} {id : Nat} {o : Op} (I : Inv s) (A : Alive id s) (h : run s o = .ok s') :
    Alive id s' := by
  have I₀ : Inv { s with log := .did o :: s.log } := inv_frame I rfl rfl rfl rfl rfl rfl
  unfold run at h
  cases o with
  | set fd mask o ap t hh => exact alive_fdSet I₀ A h
  | clr fd => exact alive_clrSet I₀ A h
  | onTimeout fd hh =>
    change onTimeout _ fd hh = _ at h
    unfold onTimeout at h
    cases ht : s.tree fd with
    | none => simp [ht] at h
    | some x =>
      simp only [ht, bind_ok] at h
      obtain ⟨e, he, h⟩ := h
      cases h
      rw [deref_ok] at he
      obtain ⟨d, hd, hp⟩ := A
      unfold Alive put; dsimp only
      by_cases hx : id = x
      · subst hx; rw [upd_same]; rw [show s.heap id = _ from he] at hd; cases hd
        exact ⟨_, rfl, hp⟩
      · rw [upd_other _ _ hx]; exact ⟨d, hd, hp⟩
  | timer ms hh => cases h; exact A
  | cancel id =>
    change timerCancel _ id = _ at h
    unfold timerCancel at h
    split at h
    · cases h; exact A
    · cases h
  | brk b => cases h; exact A
  | tick us => cases h; exact A

/-! ## A principle of induction -/

/-- What a property of states has to satisfy to hold throughout.  It may be different, for a descriptor and
one of its events, while the handler of the event runs.  `R` is what is known of the reports. -/
structure Law (R : Report → Prop) (P : Option (Nat × Kind) → St → Prop) : Prop where
  run : ∀ {c s s' o}, Inv s → P c s → run s o = .ok s' → P c s'
  start : ∀ {s s' id d}, Inv s → P none s → s.heap id = some d → d.inActive = true → start s id = .ok s' →
    P none s'
  hush : ∀ {s id d}, Inv s → P none s → s.heap id = some d → d.inProcess = true →
    P none (put s id { d with act := {} })
  weaken : ∀ {s id d k}, Inv s → P none s → s.heap id = some d → d.act.get k = true → d.h k = none →
    P (some (id, k)) s
  event : ∀ {s id d k h}, Inv s → P none s → s.heap id = some d → d.inProcess = true → d.isClear = false →
    s.isBreak = false → d.act.get k = true → d.h k = some h → P (some (id, k)) (begin s (.event k d.fd h))
  done : ∀ {s id d k}, Inv s → P (some (id, k)) s → s.heap id = some d → d.inProcess = true →
    P none (put s id { d with act := d.act.drop k })
  finish : ∀ {s s' id d}, Inv s → P none s → s.heap id = some d → d.inProcess = true → finish s id = .ok s' →
    P none s'
  timer : ∀ {s t h}, Inv s → P none s → t ∈ s.timers → t.endTm ≤ s.now → t.h = some h →
    (∀ t' ∈ s.timers, t.endTm ≤ t'.endTm) →
    P none (begin { s with timers := s.timers.filter (·.id != t.id) } (.timer t.id h))
  timerNone : ∀ {s t}, Inv s → P none s → t ∈ s.timers → t.h = none →
    P none { s with timers := s.timers.filter (·.id != t.id) }
  unlist : ∀ {s s' id d}, Inv s → P none s → s.heap id = some d → d.timed = true → unlist s id = .ok s' → P none s'
  timeout : ∀ {s s' id d h}, Inv s → P none s → s.heap id = some d → d.timed = true → d.inActive = false →
    d.endUs ≤ s.now → d.tmo = some h → expire s id = .ok s' → P none (begin s' (.timeout d.fd h))
  timeoutNone : ∀ {s s' id d}, Inv s → P none s → s.heap id = some d → d.timed = true → d.inActive = false →
    d.tmo = none → expire s id = .ok s' → P none s'
  serve : ∀ {s s' e}, R e → Inv s → P none s → serve s e = .ok s' → P none s'

variable {R : Report → Prop} {P : Option (Nat × Kind) → St → Prop}

theorem Law.runAll (L : Law R P) {c : Option (Nat × Kind)} {J : St → Prop}
    (hJ : ∀ s s' o, Inv s → J s → Event.run s o = .ok s' → J s') :
    ∀ (os : List Op) (s : St), Inv s → P c s → J s → Good (fun s => Inv s ∧ P c s ∧ J s) (runAll s os)
  | [], s, I, h, j => ⟨I, h, j⟩
  | o :: os, s, I, h, j => by
    have : Good (fun s => Inv s ∧ P c s ∧ J s) (Event.run s o) :=
      Good.of (run_safe I) fun s' hs => ⟨inv_run I hs, L.run I h hs, hJ s s' o I j hs⟩
    exact this.bind fun s' ⟨I', h', j'⟩ => Law.runAll L hJ os s' I' h' j'

theorem inv_begin {s : St} {c : Call} (I : Inv s) : Inv (begin s c) := inv_frame I rfl rfl rfl rfl rfl rfl

theorem least_mem {α} {key : α → Nat} : ∀ {l : List α} {a : α}, least key l = some a → a ∈ l
  | b :: l, a, h => by
    unfold least at h
    split at h
    · cases h; simp
    · next c hc =>
      split at h
      · cases h; exact List.mem_cons_of_mem _ (least_mem hc)
      · cases h; simp

theorem least_none {α} {key : α → Nat} {l : List α} (h : least key l = none) : l = [] := by
  cases l with
  | nil => rfl
  | cons a l =>
    unfold least at h
    split at h
    · cases h
    · split at h <;> cases h

theorem least_le {α} {key : α → Nat} : ∀ {l : List α} {a : α}, least key l = some a → ∀ b ∈ l, key a ≤ key b
  | c :: l, a, h, b, hb => by
    unfold least at h
    split at h
    · next hn =>
      cases h
      rw [least_none hn] at hb
      simp only [List.mem_singleton] at hb
      subst hb; exact Nat.le_refl _
    · next x hx =>
      have ih := least_le hx
      rcases List.mem_cons.mp hb with rfl | hb
      · split at h <;> cases h <;> omega
      · have := ih b hb
        split at h <;> cases h <;> omega

theorem now_clrSet {s s' : St} {fd : Nat} (h : clrSet s fd = .ok s') : s'.now = s.now := by
  unfold clrSet at h
  split at h
  · cases h; rfl
  · simp only [bind_ok] at h
    obtain ⟨a, ha, d, hd, h⟩ := h
    have : a.now = s.now := by
      simp only [untime, bind_ok] at ha
      obtain ⟨e, he, ha⟩ := ha
      cases ha
      split <;> rfl
    split at h <;> cases h <;> exact this

theorem now_run {s s' : St} {o : Op} (h : run s o = .ok s') : s.now ≤ s'.now := by
  unfold run at h
  cases o with
  | set fd mask o ap t hh =>
    obtain ⟨x, b, other, hb, -, rfl⟩ := fdSet_eq h
    unfold settled
    dsimp only
    split
    · rw [(ctl_heap _ _ _ _).2.2.2.2.2.2.1]; exact Nat.le_refl _
    · exact Nat.le_refl _
  | clr fd =>
    exact Nat.le_of_eq (now_clrSet h).symm
  | onTimeout fd hh =>
    change onTimeout _ fd hh = _ at h
    unfold onTimeout at h
    split at h
    · cases h
    · simp only [bind_ok] at h
      obtain ⟨e, he, h⟩ := h
      cases h; exact Nat.le_refl _
  | timer ms hh => cases h; exact Nat.le_refl _
  | cancel id =>
    change timerCancel _ id = _ at h
    unfold timerCancel at h
    split at h
    · cases h; exact Nat.le_refl _
    · cases h
  | brk b => cases h; exact Nat.le_refl _
  | tick us => cases h; exact Nat.le_add_right _ _

theorem Law.timerLoop (L : Law R P) (now : Nat) : ∀ (n : Nat) (s : St), Inv s → P none s → now ≤ s.now →
    Good (fun s => Inv s ∧ P none s) (timerLoop now n s)
  | 0, s, I, h, hn => by simp [Event.timerLoop, Good]
  | n + 1, s, I, h, hn => by
    unfold Event.timerLoop
    split
    · exact ⟨I, h⟩
    · next t ht =>
      have hm := least_mem ht
      split
      · exact ⟨I, h⟩
      · next hle =>
        have I₁ : Inv { s with timers := s.timers.filter (·.id != t.id) } := inv_frame I rfl rfl rfl rfl rfl rfl
        have hc : Good (fun s => Inv s ∧ P none s ∧ now ≤ s.now)
            (callOpt { s with timers := s.timers.filter (·.id != t.id) } (.timer t.id) t.h) := by
          cases hh : t.h with
          | none => exact ⟨I₁, L.timerNone I h hm hh, hn⟩
          | some k =>
            exact Law.runAll L (J := fun s => now ≤ s.now)
              (fun s s' o _ hl hr => Nat.le_trans hl (now_run hr)) _ _ (inv_begin I₁)
              (L.timer I h hm (by omega) hh (least_le ht)) hn
        refine hc.bind ?_
        rintro s₁ ⟨I', h', hn'⟩
        split
        · exact ⟨I', h'⟩
        · exact Law.timerLoop L now n s₁ I' h' hn'

theorem inv_start {s s' : St} {id : Nat} {d : Desc} (I : Inv s) (hd : s.heap id = some d)
    (ha : d.inActive = true) (h : start s id = .ok s') : Inv s' ∧ Alive id s' := by
  have hd' : ({ s with active := s.active.erase id } : St).heap id = some d := hd
  simp only [start, untime_eq hd', bind, Except.bind, deref, upd_same] at h
  cases h
  have hp : d.inProcess = false := by
    cases hq : d.inProcess with
    | false => rfl
    | true => have := I.proc id d hd hq; rw [ha] at this; cases this
  have hc : d.isClear = false := by
    cases hq : d.isClear with
    | false => rfl
    | true => have := (I.clear id d hd hq).1; rw [hp] at this; cases this
  have I₁ := inv_arm (t := .unlimited) I hd (fun _ => rfl)
  refine ⟨?_, ⟨_, upd_same _ _ _, rfl⟩⟩
  refine inv_upd I₁ (upd_same _ _ _) rfl rfl rfl I₁.regs (fun _ _ h => h) rfl (I.actNodup.erase _) ?_
    I₁.tmoNodup ?_ (by simp [arm_isClear, hc]) (by simp)
  · intro x
    show x ∈ s.active.erase id ↔ _
    rw [I.actNodup.mem_erase_iff]
    by_cases hx : x = id <;> simp [hx]
  · intro x
    by_cases hx : x = id
    · subst hx
      rw [if_pos rfl]
      refine (I₁.tmo x).trans ?_
      simp [upd_same]
    · rw [if_neg hx]; exact Iff.rfl

theorem inv_finish {s s' : St} {id : Nat} {d : Desc} (I : Inv s) (hd : s.heap id = some d)
    (_hp : d.inProcess = true) (h : finish s id = .ok s') : Inv s' := by
  simp only [finish, bind, Except.bind, deref, hd] at h
  cases hc : d.isClear with
  | false =>
    rw [hc] at h
    simp only [Bool.false_eq_true, if_false] at h
    cases h
    exact inv_put I hd rfl rfl rfl (by simp) (by simp)
  | true =>
    rw [hc] at h
    simp only [if_true] at h
    have ht := (I.live _ _ hd).1
    replace h := (clrSet_eq (s := put s id { d with inProcess := false, isClear := true }) ht (upd_same _ _ _)).mp h
    have h' : clrSet (put s id { d with inProcess := false, isClear := false }) d.fd = .ok s' := by
      rw [clrSet_eq (s := put s id { d with inProcess := false, isClear := false }) ht (upd_same _ _ _), h]
      simp [put, armList, upd_upd]
    exact inv_clrSet (inv_put (d' := { d with inProcess := false, isClear := false }) I hd rfl rfl rfl (by simp)
      (by simp)) h'

theorem finish_safe {s : St} {id : Nat} {d : Desc} (I : Inv s) (hd : s.heap id = some d) :
    finish s id ≠ .error .freed := by
  simp only [finish, bind, Except.bind, deref, hd]
  split
  · intro h
    have ht := (I.live _ _ hd).1
    have := (clrSet_eq (s := put s id { d with inProcess := false }) ht (upd_same _ _ _)).mpr rfl
    rw [h] at this; cases this
  · simp

/-- A handler of a descriptor that is processed. -/
theorem Law.callOpt (L : Law R P) {c : Option (Nat × Kind)} {s : St} {f : Nat → Call} {h : Option Nat} {id : Nat}
    (I : Inv s) (A : Alive id s) (h0 : h = none → P c s) (h1 : ∀ x, h = some x → P c (begin s (f x))) :
    Good (fun s => Inv s ∧ P c s ∧ Alive id s) (callOpt s f h) := by
  cases h with
  | none => exact ⟨I, h0 rfl, A⟩
  | some x => exact Law.runAll L (fun s s' o I A hr => alive_run I A hr) _ _ (inv_begin I) (h1 x rfl) A

theorem Law.part (L : Law R P) {k : Kind} {s : St} {id : Nat} (I : Inv s) (h : P none s) (A : Alive id s) :
    Good (fun s => Inv s ∧ P none s ∧ Alive id s) (part k s id) := by
  obtain ⟨d, hd, hp⟩ := A
  have hh : ∃ d' s', Event.hush s id = .ok s' ∧ s'.heap id = some d' ∧ d'.inProcess = true ∧ Inv s' ∧ P none s' ∧
      (d'.act.any = true → d'.isClear = false ∧ s'.isBreak = false) := by
    simp only [Event.hush, bind, Except.bind, deref, hd]
    by_cases hb : (d.isClear || s.isBreak) = true
    · rw [if_pos hb]
      refine ⟨_, _, rfl, upd_same _ _ _, hp, ?_, L.hush I h hd hp, by simp [Mask.any]⟩
      exact inv_put I hd rfl rfl rfl (I.clear id d hd) (I.proc id d hd)
    · rw [if_neg hb]
      refine ⟨d, s, rfl, hd, hp, I, h, fun _ => ?_⟩
      simpa using hb
  obtain ⟨d', s', hs', hd', hp', I', h', hq⟩ := hh
  unfold Event.part
  rw [hs']
  simp only [bind, Except.bind, deref, hd']
  by_cases ha : d'.act.get k = true
  · rw [if_pos ha]
    have hany : d'.act.any = true := by
      cases k <;> simp [Mask.get] at ha <;> simp [Mask.any, ha]
    refine (Law.callOpt L (c := some (id, k)) I' ⟨d', hd', hp'⟩ (fun hn => L.weaken I' h' hd' ha hn)
      (fun x hx => L.event I' h' hd' hp' (hq hany).1 (hq hany).2 ha hx)).bind ?_
    rintro s₂ ⟨I₂, h₂, d₂, hd₂, hp₂⟩
    simp only [Event.done, bind, Except.bind, deref, hd₂]
    exact ⟨inv_put I₂ hd₂ rfl rfl rfl (I₂.clear id d₂ hd₂) (I₂.proc id d₂ hd₂), L.done I₂ h₂ hd₂ hp₂,
      _, upd_same _ _ _, hp₂⟩
  · rw [if_neg ha]
    exact ⟨I', h', d', hd', hp'⟩

theorem Law.finish' (L : Law R P) {s : St} {id : Nat} (I : Inv s) (h : P none s) (A : Alive id s) :
    Good (fun s => Inv s ∧ P none s) (Event.finish s id) := by
  obtain ⟨d, hd, hp⟩ := A
  exact Good.of (finish_safe I hd) fun s' hs => ⟨inv_finish I hd hp hs, L.finish I h hd hp hs⟩

theorem Law.activeStep (L : Law R P) {s : St} {id : Nat} (I : Inv s) (h : P none s) (hm : id ∈ s.active) :
    Good (fun s => Inv s ∧ P none s) (activeStep s id) := by
  obtain ⟨d, hd, ha⟩ := (I.act id).mp hm
  have h1 : Good (fun s => Inv s ∧ P none s ∧ Alive id s) (Event.start s id) := by
    refine Good.of ?_ fun s' hs => ⟨(inv_start I hd ha hs).1, L.start I h hd ha hs, (inv_start I hd ha hs).2⟩
    have hd' : ({ s with active := s.active.erase id } : St).heap id = some d := hd
    simp [Event.start, untime_eq hd', bind, Except.bind, deref, upd_same]
  unfold Event.activeStep
  refine h1.bind fun s₁ ⟨I₁, h₁, A₁⟩ => ?_
  refine (L.part I₁ h₁ A₁).bind fun s₂ ⟨I₂, h₂, A₂⟩ => ?_
  refine (L.part I₂ h₂ A₂).bind fun s₃ ⟨I₃, h₃, A₃⟩ => ?_
  refine (L.part I₃ h₃ A₃).bind fun s₄ ⟨I₄, h₄, A₄⟩ => ?_
  exact L.finish' I₄ h₄ A₄

theorem Law.activeLoop (L : Law R P) : ∀ (n : Nat) (s : St), Inv s → P none s →
    Good (fun s => Inv s ∧ P none s) (activeLoop n s)
  | 0, s, I, h => by simp [Event.activeLoop, Good]
  | n + 1, s, I, h => by
    unfold Event.activeLoop
    split
    · exact ⟨I, h⟩
    · next id l hl =>
      refine (L.activeStep I h (by rw [hl]; simp)).bind ?_
      rintro s₁ ⟨I', h'⟩
      split
      · exact ⟨I', h'⟩
      · exact Law.activeLoop L n s₁ I' h'

theorem inv_unlist {s : St} {id : Nat} {d : Desc} (I : Inv s) (hd : s.heap id = some d) :
    ∃ s', unlist s id = .ok s' ∧ Inv s' ∧ s'.heap id = some { d with inActive := false } ∧ s'.now = s.now := by
  simp only [unlist, bind, Except.bind, deref, hd]
  by_cases ha : d.inActive = true
  · rw [if_pos ha]
    refine ⟨_, rfl, ?_, upd_same _ _ _, rfl⟩
    refine inv_upd I hd rfl rfl rfl I.regs (fun _ _ h => h) rfl (I.actNodup.erase _) ?_ I.tmoNodup ?_
      (I.clear id d hd) (by simp)
    · intro x
      show x ∈ s.active.erase id ↔ _
      rw [I.actNodup.mem_erase_iff]
      by_cases hx : x = id <;> simp [hx]
    · intro x
      by_cases hx : x = id
      · subst hx; rw [if_pos rfl]; show x ∈ s.timeouts ↔ _; rw [I.tmo]; simp [hd]
      · rw [if_neg hx]; exact Iff.rfl
  · rw [if_neg ha]
    refine ⟨s, rfl, I, ?_, rfl⟩
    rw [hd]
    simp only [Bool.not_eq_true] at ha
    rw [← ha]

theorem inv_expire {s : St} {id : Nat} {d : Desc} (I : Inv s) (hd : s.heap id = some d) (ha : d.inActive = false) :
    ∃ s', expire s id = .ok s' ∧ Inv s' ∧ Alive id s' ∧ s'.now = s.now := by
  simp only [expire, bind, Except.bind, deref, hd]
  refine ⟨_, rfl, ?_, ⟨_, upd_same _ _ _, rfl⟩, rfl⟩
  refine inv_upd I hd rfl rfl rfl I.regs (fun _ _ h => h) rfl I.actNodup ?_ (I.tmoNodup.erase _) ?_ ?_ (by simp [ha])
  · intro x
    by_cases hx : x = id
    · subst hx; rw [if_pos rfl]; show x ∈ s.active ↔ _; rw [I.act]; simp [hd]
    · rw [if_neg hx]; exact Iff.rfl
  · intro x
    show x ∈ s.timeouts.erase id ↔ _
    rw [I.tmoNodup.mem_erase_iff]
    by_cases hx : x = id <;> simp [hx]
  · intro hc
    exact ⟨rfl, rfl, (I.clear id d hd hc).2.2⟩

theorem now_finish {s s' : St} {id : Nat} (h : finish s id = .ok s') : s'.now = s.now := by
  simp only [finish, bind_ok] at h
  obtain ⟨d, hd, h⟩ := h
  split at h
  · exact (now_clrSet h).trans rfl
  · cases h; rfl

theorem Law.timeoutLoop (L : Law R P) (now : Nat) : ∀ (n : Nat) (s : St), Inv s → P none s → now ≤ s.now →
    Good (fun s => Inv s ∧ P none s) (timeoutLoop now n s)
  | 0, s, I, h, hn => by simp [Event.timeoutLoop, Good]
  | n + 1, s, I, h, hn => by
    unfold Event.timeoutLoop
    split
    · exact ⟨I, h⟩
    · next id hid =>
      obtain ⟨d, hd, ht⟩ := (I.tmo id).mp (least_mem hid)
      obtain ⟨s₁, hs₁, I₁, hd₁, hn₁⟩ := inv_unlist I hd
      have h₁ := L.unlist I h hd ht hs₁
      rw [hs₁]
      simp only [bind, Except.bind, deref, hd₁]
      split
      · exact ⟨I₁, h₁⟩
      · next hle =>
        obtain ⟨s₂, hs₂, I₂, A₂, hn₂⟩ := inv_expire I₁ hd₁ rfl
        rw [hs₂]
        simp only
        have hc : Good (fun s => Inv s ∧ P none s ∧ (Alive id s ∧ now ≤ s.now))
            (Event.callOpt s₂ (.timeout d.fd) d.tmo) := by
          cases hh : d.tmo with
          | none => exact ⟨I₂, L.timeoutNone I₁ h₁ hd₁ ht rfl hh hs₂, A₂, by omega⟩
          | some k =>
            exact Law.runAll L (J := fun s => Alive id s ∧ now ≤ s.now)
              (fun s s' o I hl hr => ⟨alive_run I hl.1 hr, Nat.le_trans hl.2 (now_run hr)⟩) _ _ (inv_begin I₂)
              (L.timeout (d := { d with inActive := false }) I₁ h₁ hd₁ ht rfl (by dsimp only at hle ⊢; omega) hh hs₂) ⟨A₂, by simp only [begin]; omega⟩
        refine hc.bind ?_
        rintro s₃ ⟨I₃, h₃, ⟨d₃, hd₃, hp₃⟩, hn₃⟩
        have hf : Good (fun s => Inv s ∧ P none s ∧ now ≤ s.now) (Event.finish s₃ id) :=
          Good.of (finish_safe I₃ hd₃) fun s' hs =>
            ⟨inv_finish I₃ hd₃ hp₃ hs, L.finish I₃ h₃ hd₃ hp₃ hs, by rw [now_finish hs]; exact hn₃⟩
        refine hf.bind ?_
        rintro s₄ ⟨I₄, h₄, hn₄⟩
        split
        · exact ⟨I₄, h₄⟩
        · exact Law.timeoutLoop L now n s₄ I₄ h₄ hn₄

theorem inv_arrive {s : St} {id : Nat} {e : Report} {d : Desc} (I : Inv s) (hd : s.heap id = some d)
    (hc : d.isClear = false) (ha : d.inActive = false) (hp : d.inProcess = false) : Inv (arrive s id e d) := by
  have hm : ∀ (b : Bool) k (x : Desc), (if b then mark k x else x).fd = x.fd ∧
      (if b then mark k x else x).isClear = x.isClear ∧ (if b then mark k x else x).inProcess = x.inProcess ∧
      (if b then mark k x else x).timed = x.timed := by
    intro b k x
    cases b <;> simp [mark]
    split <;> simp
  have hall : (markAll e d).fd = d.fd ∧ (markAll e d).isClear = d.isClear ∧
      (markAll e d).inProcess = d.inProcess ∧ (markAll e d).timed = d.timed := by
    unfold markAll
    simp only
    refine ⟨?_, ?_, ?_, ?_⟩
    · rw [(hm _ _ _).1, (hm _ _ _).1, (hm _ _ _).1]
    · rw [(hm _ _ _).2.1, (hm _ _ _).2.1, (hm _ _ _).2.1]
    · rw [(hm _ _ _).2.2.1, (hm _ _ _).2.2.1, (hm _ _ _).2.2.1]
    · rw [(hm _ _ _).2.2.2, (hm _ _ _).2.2.2, (hm _ _ _).2.2.2]
  have hna : id ∉ s.active := by
    intro hx
    obtain ⟨d', hd', ha'⟩ := (I.act id).mp hx
    rw [hd] at hd'; cases hd'; rw [ha] at ha'; cases ha'
  have I₁ : Inv (put { s with active := s.active ++ [id] } id { markAll e d with inActive := true }) := by
    refine inv_upd I hd rfl rfl rfl I.regs (fun _ _ h => h) hall.1 ?_ ?_ I.tmoNodup ?_
      (by simp [hall.2.1, hc]) (by simp [hall.2.2.1, hp])
    · show (s.active ++ [id]).Nodup
      rw [List.nodup_append]
      refine ⟨I.actNodup, by simp, ?_⟩
      intro a ha b hb
      simp only [List.mem_singleton] at hb
      subst hb
      rintro rfl
      exact hna ha
    · intro x
      show x ∈ s.active ++ [id] ↔ _
      by_cases hx : x = id <;> simp [hx]
    · intro x
      by_cases hx : x = id
      · subst hx; rw [if_pos rfl]; show x ∈ s.timeouts ↔ _; rw [I.tmo]; simp [hd, hall.2.2.2]
      · rw [if_neg hx]; exact Iff.rfl
  unfold arrive
  simp only
  split
  · exact inv_ctl I₁ (upd_same _ _ _) rfl rfl (by simp [hall.2.1, hc])
  · exact I₁

/-- Asking for an event again. -/
theorem inv_again {s : St} {e : Report} {id : Nat} {k : Kind} {d : Desc} (I : Inv s) (hd : s.heap id = some d)
    (hc : d.isClear = false) :
    Good (fun s' => Inv s' ∧ ∃ d', s'.heap id = some d' ∧ d'.isClear = false) (again e s id k) := by
  simp only [again, bind, Except.bind, deref, hd]
  split
  · refine Good.of (appendSet_safe hd) fun s' hs => ⟨inv_appendSet I hd hc rfl hs, ?_⟩
    obtain ⟨-, rfl⟩ := (appendSet_eq hd).mp hs
    dsimp only
    refine ⟨grant (maskOf k) true (d.h k) (arm s.now .unmodified d), ?_, by simp [grant, arm, hc]⟩
    split
    · rw [(ctl_heap _ _ _ _).1]; exact upd_same _ _ _
    · exact upd_same _ _ _
  · exact ⟨I, d, hd, hc⟩

theorem inv_take {s : St} {id : Nat} {e : Report} {d : Desc} (I : Inv s) (hd : s.heap id = some d) :
    Good Inv (take s id e) := by
  simp only [take, bind, Except.bind, deref, hd]
  split
  · exact I
  · next hc =>
    have hc : d.isClear = false := by simpa using hc
    split
    · have h1 := inv_again (e := e) (k := .recv) I hd hc
      refine h1.bind ?_
      rintro s₁ ⟨I₁, d₁, hd₁, hc₁⟩
      refine (inv_again (e := e) (k := .send) I₁ hd₁ hc₁).bind ?_
      rintro s₂ ⟨I₂, d₂, hd₂, hc₂⟩
      exact (inv_again (e := e) (k := .error) I₂ hd₂ hc₂).mono fun s h => h.1
    · next hap =>
      simp only [Bool.or_eq_true, not_or, Bool.not_eq_true] at hap
      exact inv_arrive I hd hc hap.1 hap.2

theorem inv_switch {s : St} {fd : Nat} {r r' : Reg} (I : Inv s) (hr : s.regs fd = some r) (hid : r'.id = r.id) :
    Inv { s with regs := upd s.regs fd (some r') } := by
  refine ⟨I.live, I.tree, ?_, ?_, I.proc, I.actNodup, I.act, I.tmoNodup, I.tmo⟩
  · intro f q hq
    simp only at hq
    by_cases hf : f = fd
    · rw [hf, upd_same] at hq; cases hq; rw [hid, hf]; exact I.regs _ _ hr
    · rw [upd_other _ _ hf] at hq; exact I.regs _ _ hq
  · intro x d hd hc
    obtain ⟨c1, c2, c3⟩ := I.clear x d hd hc
    refine ⟨c1, c2, ?_⟩
    simp only
    rw [upd_other _ _ ?_]; · exact c3
    rintro rfl; rw [c3] at hr; cases hr

theorem inv_serve {s : St} {e : Report} (I : Inv s) : Good Inv (serve s e) := by
  unfold serve
  split
  · exact I
  · next r hr =>
    split
    · obtain ⟨d, hd, -⟩ := I.tree _ _ (I.regs _ _ hr)
      exact inv_take (inv_switch I hr (by split <;> rfl)) hd
    · exact I

theorem Law.serveAll (L : Law R P) : ∀ (es : List Report) (s : St), (∀ e ∈ es, R e) → Inv s → P none s →
    Good (fun s => Inv s ∧ P none s) (serveAll s es)
  | [], _, _, I, h => ⟨I, h⟩
  | e :: es, s, hR, I, h => by
    have h1 : Good (fun s => Inv s ∧ P none s) (Event.serve s e) := by
      have := inv_serve (e := e) I
      cases hs : Event.serve s e with
      | error x => rw [hs] at this; exact this
      | ok s' => rw [hs] at this; exact ⟨this, L.serve (hR e (by simp)) I h hs⟩
    exact h1.bind fun s' ⟨I', h'⟩ => Law.serveAll L es s' (fun x hx => hR x (List.mem_cons_of_mem _ hx)) I' h'

theorem Law.round (L : Law R P) {n : Nat} {E : Env} {s : St} (hR : ∀ e ∈ E.reports, R e) (I : Inv s) (h : P none s) :
    Good (fun s => Inv s ∧ P none s) (round n E s) := by
  unfold Event.round
  split
  · exact ⟨I, h⟩
  · refine (L.timerLoop s.now n s I h (Nat.le_refl _)).bind fun s₁ ⟨I₁, h₁⟩ => ?_
    split
    · exact ⟨I₁, h₁⟩
    · have h2 : Good (fun s => Inv s ∧ P none s) (activePhase n E.busy s₁) := by
        unfold activePhase
        split
        · exact ⟨I₁, h₁⟩
        · exact L.activeLoop n s₁ I₁ h₁
      refine h2.bind fun s₂ ⟨I₂, h₂⟩ => ?_
      split
      · exact ⟨I₂, h₂⟩
      · refine (L.timeoutLoop s₂.now n s₂ I₂ h₂ (Nat.le_refl _)).bind fun s₃ ⟨I₃, h₃⟩ => ?_
        split
        · exact ⟨I₃, h₃⟩
        · refine (L.timerLoop s₃.now n s₃ I₃ h₃ (Nat.le_refl _)).bind fun s₄ ⟨I₄, h₄⟩ => ?_
          split
          · exact ⟨I₄, h₄⟩
          · have h5 : Good (fun s => Inv s ∧ P none s) (Event.run s₄ (.tick E.elapsed)) :=
              Good.of (run_safe I₄) fun s' hs => ⟨inv_run I₄ hs, L.run I₄ h₄ hs⟩
            exact h5.bind fun s₅ ⟨I₅, h₅⟩ => L.serveAll _ _ hR I₅ h₅

theorem Law.dispatch (L : Law R P) {n : Nat} : ∀ (Es : List Env) (s : St), (∀ E ∈ Es, ∀ e ∈ E.reports, R e) →
    Inv s → P none s → Good (fun s => Inv s ∧ P none s) (dispatch n Es s)
  | [], _, _, I, h => ⟨I, h⟩
  | E :: Es, _, hR, I, h => (L.round (hR E (by simp)) I h).bind fun s' ⟨I', h'⟩ =>
      Law.dispatch L Es s' (fun x hx => hR x (List.mem_cons_of_mem _ hx)) I' h'

/-- The reports in a program. -/
def Item.All (R : Report → Prop) : Item → Prop
  | .op _ => True
  | .dispatch Es => ∀ E ∈ Es, ∀ e ∈ E.reports, R e

/-- What holds of a state and is kept by every step holds after every program. -/
theorem Law.program (L : Law R P) {n : Nat} : ∀ (is : List Item) (s : St), (∀ i ∈ is, i.All R) → Inv s → P none s →
    Good (fun s => Inv s ∧ P none s) (program n is s)
  | [], _, _, I, h => ⟨I, h⟩
  | .op o :: is, s, hR, I, h => by
    have h1 : Good (fun s => Inv s ∧ P none s) (Event.run s o) :=
      Good.of (run_safe I) fun s' hs => ⟨inv_run I hs, L.run I h hs⟩
    exact h1.bind fun s' ⟨I', h'⟩ => Law.program L is s' (fun x hx => hR x (List.mem_cons_of_mem _ hx)) I' h'
  | .dispatch Es :: is, s, hR, I, h =>
    (L.dispatch Es s (hR (.dispatch Es) (by simp)) I h).bind fun s' ⟨I', h'⟩ =>
      Law.program L is s' (fun x hx => hR x (List.mem_cons_of_mem _ hx)) I' h'

end Verif.Event
