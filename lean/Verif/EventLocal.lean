import Verif.EventProps

/-
Induction for properties of one file descriptor of the event loop.
-/
namespace Verif.Event

/-- The descriptor of a file descriptor. -/
def view (fd : Nat) (s : St) : Option (Nat × Desc) :=
  match s.tree fd with
  | none => none
  | some id => (s.heap id).map (fun d => (id, d))

theorem view_some {fd id : Nat} {d : Desc} {s : St} :
    view fd s = some (id, d) ↔ s.tree fd = some id ∧ s.heap id = some d := by
  unfold view
  cases s.tree fd with
  | none => simp
  | some x =>
    cases hx : s.heap x with
    | none =>
      simp only [hx, Option.map_none, reduceCtorEq, Option.some.injEq, false_iff, not_and]
      rintro rfl; rw [hx]; simp
    | some e =>
      simp only [hx, Option.map_some, Option.some.injEq, Prod.mk.injEq]
      constructor
      · rintro ⟨rfl, rfl⟩; exact ⟨rfl, hx⟩
      · rintro ⟨rfl, h⟩; rw [hx] at h; cases h; exact ⟨rfl, rfl⟩

theorem view_none {fd : Nat} {s : St} (I : Inv s) : view fd s = none ↔ s.tree fd = none := by
  unfold view
  cases ht : s.tree fd with
  | none => simp
  | some x =>
    obtain ⟨d, hd, -⟩ := I.tree _ _ ht
    simp [hd]

theorem view_of {id : Nat} {d : Desc} {s : St} (I : Inv s) (h : s.heap id = some d) : view d.fd s = some (id, d) :=
  view_some.mpr ⟨(I.live _ _ h).1, h⟩

/-- Another descriptor is changed. -/
theorem view_upd {fd id : Nat} {d : Desc} {v : Option Desc} {s s' : St} (I : Inv s) (hd : s.heap id = some d)
    (hfd : d.fd ≠ fd) (hh : s'.heap = upd s.heap id v) (ht : s'.tree fd = s.tree fd) : view fd s' = view fd s := by
  unfold view
  rw [ht, hh]
  cases hx : s.tree fd with
  | none => rfl
  | some x =>
    have : x ≠ id := by
      rintro rfl
      obtain ⟨e, he, hf⟩ := I.tree _ _ hx
      rw [hd] at he; cases he; exact hfd hf
    simp only [upd_other _ _ this]

/-- This one is. -/
theorem view_put {id : Nat} {d d' : Desc} {s s' : St} (I : Inv s) (hd : s.heap id = some d)
    (hh : s'.heap = upd s.heap id (some d')) (ht : s'.tree = s.tree) : view d.fd s' = some (id, d') := by
  rw [view_some, ht, hh, upd_same]
  exact ⟨(I.live _ _ hd).1, rfl⟩

/-- What happens that is about a file descriptor. -/
def About (fd : Nat) : Ev → Prop
  | .did (.set f _ _ _ _ _) => f = fd
  | .did (.clr f) => f = fd
  | .call (.event _ f _) => f = fd
  | _ => False

/-- Descriptors that differ in other things than events. -/
def Alike (d d' : Desc) : Prop := d'.flag = d.flag ∧ d'.act = d.act ∧ d'.one = d.one ∧ d'.isClear = d.isClear

/-- A oneshot event is asked for again. -/
def regrant (e : Report) (id : Nat) (p : Desc × Reg) (k : Kind) : Desc × Reg :=
  if e.has k && p.1.one.get k && !p.1.act.get k then
    let d := grant (maskOf k) true (p.1.h k) p.1
    (d, { mask := d.flag, oneshot := true, id := id })
  else p

def regrantAll (e : Report) (id : Nat) (d : Desc) (r : Reg) : Desc × Reg :=
  regrant e id (regrant e id (regrant e id (d, r) .recv) .send) .error

/-- A registration after an event of it. -/
def switched (r : Reg) : Reg := if r.oneshot then { r with on := false } else r

/-- epoll may report it. -/
def legal (r : Reg) (e : Report) : Bool :=
  r.on && (!e.inn || r.mask.r) && (!e.out || r.mask.s) && (e.inn || e.out || e.err || e.hup)

/-- What is left to prove for a property of one file descriptor: of its descriptor, of its registration and
of what happened. -/
structure Local (fd : Nat) (R : Report → Prop)
    (P : Option (Nat × Kind) → Option (Nat × Desc) → Option Reg → List Ev → Prop) : Prop where
  skip : ∀ {c v r l x}, ¬ About fd x → P c v r l → P c v r (x :: l)
  alike : ∀ {c id d d' r l}, Alike d d' → P c (some (id, d)) r l → P c (some (id, d')) r l
  fresh : ∀ {c v l m o a t h id d'}, (∀ i d, v = some (i, d) → d.isClear = true) → P c v none l →
    d'.flag = m → d'.act = {} → d'.one = (if o then m else {}) → d'.isClear = false →
    P c (some (id, d')) (if m.any then some { mask := m, oneshot := o, id := id } else none)
      (.did (.set fd m o a t h) :: l)
  old : ∀ {c id d r l m o a t h d'}, d.isClear = false → P c (some (id, d)) r l →
    d'.flag = (if a then d.flag else {}).or m → d'.act = d.act →
    d'.one = (if o then (if a then d.one else {}).or m else if a then d.one else {}) → d'.isClear = false →
    P c (some (id, d')) (if d'.flag.any then r.map fun _ => { mask := d'.flag, oneshot := o, id := id } else r)
      (.did (.set fd m o a t h) :: l)
  clrMark : ∀ {c id d r l}, P c (some (id, d)) r l → P c (some (id, { d with isClear := true })) none (.did (.clr fd) :: l)
  clrDrop : ∀ {c v r l}, P c v r l → P c none none (.did (.clr fd) :: l)
  hush : ∀ {id d r l}, P none (some (id, d)) r l → P none (some (id, { d with act := {} })) r l
  event : ∀ {id d r l k h}, P none (some (id, d)) r l → d.isClear = false → d.act.get k = true →
    P (some (id, k)) (some (id, d)) r (.call (.event k fd h) :: l)
  into : ∀ {v r l c}, P none v r l → P c v r l
  outOf : ∀ {v r l id k}, (∀ i d, v = some (i, d) → i ≠ id) → P (some (id, k)) v r l → P none v r l
  done : ∀ {id d r l k}, P (some (id, k)) (some (id, d)) r l → P none (some (id, { d with act := d.act.drop k })) r l
  gone : ∀ {id d r l}, P none (some (id, d)) r l → d.isClear = true → P none none none l
  arrive : ∀ {id d r l e}, R e → e.fd = fd → P none (some (id, d)) (some r) l → legal r e = true → r.id = id → d.isClear = false →
    P none (some (id, markAll e d))
      (some (if hit e d then { mask := (markAll e d).flag, oneshot := (markAll e d).one.any, id := id } else switched r)) l
  again : ∀ {id d r l e}, R e → e.fd = fd → P none (some (id, d)) (some r) l → legal r e = true → r.id = id → d.isClear = false →
    P none (some (id, (regrantAll e id d (switched r)).1)) (some (regrantAll e id d (switched r)).2) l

variable {fd : Nat} {R : Report → Prop}
variable {P : Option (Nat × Kind) → Option (Nat × Desc) → Option Reg → List Ev → Prop}

/-- The property of states. -/
def lift (fd : Nat) (P : Option (Nat × Kind) → Option (Nat × Desc) → Option Reg → List Ev → Prop)
    (c : Option (Nat × Kind)) (s : St) : Prop := P c (view fd s) (s.regs fd) s.log

theorem alike_arm (now : Nat) (t : Timeout) (d : Desc) : Alike d (arm now t d) := by
  unfold arm
  split
  · exact ⟨rfl, rfl, rfl, rfl⟩
  · split <;> exact ⟨rfl, rfl, rfl, rfl⟩
  · exact ⟨rfl, rfl, rfl, rfl⟩

/-- A step that changes nothing about the events. -/
theorem Local.quiet (L : Local fd R P) {c : Option (Nat × Kind)} {s s' : St} {id : Nat} {d d' : Desc} (I : Inv s)
    (h : lift fd P c s) (hd : s.heap id = some d) (ha : Alike d d') (hh : s'.heap = upd s.heap id (some d'))
    (ht : s'.tree = s.tree) (hr : s'.regs = s.regs) (hl : s'.log = s.log) : lift fd P c s' := by
  unfold lift at h ⊢
  rw [hr, hl]
  by_cases hfd : d.fd = fd
  · subst hfd
    rw [view_put I hd hh ht]
    rw [view_of I hd] at h
    exact L.alike ha h
  · rw [view_upd I hd hfd hh (by rw [ht])]
    exact h

theorem regs_other {s : St} {m : Bool} {f fd : Nat} {r : Reg} (h : f ≠ fd) : (ctl s m f r).regs fd = s.regs fd := by
  rw [ctl_regs]
  split
  · exact upd_other _ _ (fun e => h e.symm)
  · rfl

theorem settled_regs (s : St) (fd : Nat) (mask : Mask) (o : Bool) (t : Timeout) (h : Option Nat)
    (id : Nat) (b : Desc) (other : Bool) :
    (settled s fd mask o t h id b other).regs =
      if (grant mask o h (arm s.now t b)).flag.any ∧ (s.regs fd).isSome = other then
        upd s.regs fd (some { mask := (grant mask o h (arm s.now t b)).flag, oneshot := o, id := id })
      else s.regs := by
  unfold settled
  dsimp only
  by_cases h1 : (grant mask o h (arm s.now t b)).flag.any = true
  · rw [if_pos h1, ctl_regs]
    simp only [h1, true_and]
  · rw [if_neg h1, if_neg (c := (grant mask o h (arm s.now t b)).flag.any = true ∧ (s.regs fd).isSome = other)
      (fun q => h1 q.1)]

theorem or_empty (m : Mask) : ({} : Mask).or m = m := by cases m; rfl

theorem Local.run (L : Local fd R P) {c : Option (Nat × Kind)} {s s' : St} {o : Op} (I : Inv s) (h : lift fd P c s)
    (hs : Event.run s o = .ok s') : lift fd P c s' := by
  unfold Event.run at hs
  cases o with
  | set f mask o ap t hh =>
    obtain ⟨id, b, other, hb, -, rfl⟩ := fdSet_eq hs
    have I₀ : Inv { s with log := .did (.set f mask o ap t hh) :: s.log } := inv_frame I rfl rfl rfl rfl rfl rfl
    obtain ⟨f1, f2, -, -, -, -, -⟩ := settled_fields { s with log := .did (.set f mask o ap t hh) :: s.log } f mask o t hh id b other
    have fh := settled_heap { s with log := .did (.set f mask o ap t hh) :: s.log } f mask o t hh id b other
    have fr := settled_regs { s with log := .did (.set f mask o ap t hh) :: s.log } f mask o t hh id b other
    unfold lift at h ⊢
    rw [f2]
    generalize hx : settled { s with log := .did (.set f mask o ap t hh) :: s.log } f mask o t hh id b other = s' at *
    clear hx hs
    simp only at f1 fh fr
    by_cases hf : f = fd
    · subst hf
      have hv : view f s' = some (id, grant mask o hh (arm s.now t b)) := by
        rw [view_some, f1, fh, upd_same, upd_same]; exact ⟨rfl, rfl⟩
      rw [hv]
      obtain ⟨a1, a2, a3, a4⟩ := alike_arm s.now t b
      rcases base_cases I₀ hb with ⟨ht, rfl, rfl, rfl⟩ | ⟨d, ht, hd, hfd, ⟨hc, -, rfl, rfl⟩ | ⟨hc, rfl, hb'⟩⟩
      · have hr : s.regs f = none := by
          cases hr : s.regs f with
          | none => rfl
          | some r => have := I.regs _ _ hr; rw [show s.tree f = none from ht] at this; cases this
        have hvn : view f s = none := (view_none I).mpr ht
        rw [hvn, hr] at h
        have := L.fresh (m := mask) (o := o) (a := ap) (t := t) (h := hh) (id := s.next)
          (d' := grant mask o hh (arm s.now t { fd := f })) (by simp) h
          (by simp only [grant, a1]; exact or_empty _) a2 (by simp only [grant, a3, or_empty]) a4
        rw [fr]
        have hfl : (grant mask o hh (arm s.now t { fd := f })).flag = mask := by simp only [grant, a1]; exact or_empty _
        rw [hfl, hr]
        simp only [Option.isSome_none, and_true]
        split
        · next hm => rw [if_pos hm] at this; rw [upd_same]; exact this
        · next hm => rw [if_neg hm] at this; rw [hr]; exact this
      · have hr : s.regs f = none := by have := (I.clear _ _ hd hc).2.2; rw [hfd] at this; exact this
        have hvn : view f s = some (id, d) := view_some.mpr ⟨ht, hd⟩
        rw [hvn, hr] at h
        have := L.fresh (m := mask) (o := o) (a := ap) (t := t) (h := hh) (id := id)
          (d' := grant mask o hh (arm s.now t { fd := f, inProcess := d.inProcess }))
          (by intro i e he; cases he; exact hc) h
          (by simp only [grant, a1]; exact or_empty _) a2 (by simp only [grant, a3, or_empty]) a4
        rw [fr]
        have hfl : (grant mask o hh (arm s.now t { fd := f, inProcess := d.inProcess })).flag = mask := by
          simp only [grant, a1]; exact or_empty _
        rw [hfl, hr]
        simp only [Option.isSome_none, and_true]
        split
        · next hm => rw [if_pos hm] at this; rw [upd_same]; exact this
        · next hm => rw [if_neg hm] at this; rw [hr]; exact this
      · have hvn : view f s = some (id, d) := view_some.mpr ⟨ht, hd⟩
        rw [hvn] at h
        have hb1 : b.flag = (if ap then d.flag else {}) := by rcases hb' with ⟨rfl, rfl⟩ | ⟨rfl, rfl⟩ <;> rfl
        have hb2 : b.act = d.act := by rcases hb' with ⟨rfl, rfl⟩ | ⟨rfl, rfl⟩ <;> rfl
        have hb3 : b.one = (if ap then d.one else {}) := by rcases hb' with ⟨rfl, rfl⟩ | ⟨rfl, rfl⟩ <;> rfl
        have hb4 : b.isClear = false := by rcases hb' with ⟨rfl, rfl⟩ | ⟨rfl, rfl⟩ <;> exact hc
        have := L.old (m := mask) (o := o) (a := ap) (t := t) (h := hh)
          (d' := grant mask o hh (arm s.now t b)) hc h
          (by simp only [grant, a1, hb1]) (a2.trans hb2) (by simp only [grant, a3, hb3]) (a4.trans hb4)
        rw [fr]
        cases hr : s.regs f with
        | none =>
          rw [hr] at this
          simp only [Option.isSome_none, Bool.false_eq_true, and_false, if_false]
          simp only [Option.map_none, ite_self] at this
          rw [hr]; exact this
        | some r =>
          rw [hr] at this
          simp only [Option.isSome_some, and_true]
          split
          · next hm => rw [if_pos hm] at this; rw [upd_same]; exact this
          · next hm => rw [if_neg hm] at this; rw [hr]; exact this
    · have hv : view fd s' = view fd s := by
        unfold view
        rw [f1, fh, upd_other _ _ (fun e => hf e.symm)]
        cases hx : s.tree fd with
        | none => rfl
        | some x =>
          have : x ≠ id := by
            rintro rfl
            obtain ⟨e, he, hef⟩ := I.tree _ _ hx
            rcases base_cases I₀ hb with ⟨ht, rfl, -, -⟩ | ⟨d, ht, hd, hfd, -⟩
            · exact absurd (I.live _ _ he).2 (Nat.lt_irrefl _)
            · have hd : s.heap x = some d := hd
              rw [hd] at he; cases he; exact hf (hfd.symm.trans hef)
          simp only [upd_other _ _ this]
      have hr : s'.regs fd = s.regs fd := by
        rw [fr]; split
        · exact upd_other _ _ (fun e => hf e.symm)
        · rfl
      rw [hv, hr]
      exact L.skip (by simpa [About] using hf) h
  | clr f =>
    cases ht : s.tree f with
    | none =>
      change clrSet _ f = _ at hs
      unfold clrSet at hs
      simp only [ht] at hs
      cases hs
      by_cases hf : f = fd
      · subst hf
        have hr : s.regs f = none := by
          cases hr : s.regs f with
          | none => rfl
          | some r => have := I.regs _ _ hr; rw [ht] at this; cases this
        have hvn : view f s = none := (view_none I).mpr ht
        have := L.clrDrop h
        unfold lift
        show P c (view f s) (s.regs f) _
        rw [hvn, hr]; exact this
      · exact L.skip (by simpa [About] using hf) h
    | some id =>
      obtain ⟨d, hd, rfl⟩ := I.tree _ _ ht
      have hs := (clrSet_eq (s := { s with log := .did (.clr d.fd) :: s.log }) ht hd).mp hs
      dsimp only at hs
      unfold lift at h ⊢
      by_cases hf : d.fd = fd
      · subst hf
        split at hs
        · subst hs
          have hv := view_of I hd
          rw [hv] at h
          have := L.clrMark (L.alike (alike_arm s.now .unlimited d) h)
          have hv' : view d.fd ({ s with
              timeouts := armList .unlimited d id s.timeouts, regs := upd s.regs d.fd none,
              heap := upd s.heap id (some { arm s.now .unlimited d with isClear := true }),
              log := .did (.clr d.fd) :: s.log } : St) = _ := view_put I hd rfl rfl
          rw [hv']
          show P c _ (upd s.regs d.fd none d.fd) _
          rw [upd_same]; exact this
        · subst hs
          have hv' : view d.fd ({ s with
              timeouts := armList .unlimited d id s.timeouts, regs := upd s.regs d.fd none,
              tree := upd s.tree d.fd none, heap := upd s.heap id none,
              active := if d.inActive then s.active.erase id else s.active,
              log := .did (.clr d.fd) :: s.log } : St) = none := by
            unfold view; simp only [upd_same]
          rw [hv']
          show P c _ (upd s.regs d.fd none d.fd) _
          rw [upd_same]; exact L.clrDrop h
      · have hn : fd ≠ d.fd := fun e => hf e.symm
        split at hs
        · subst hs
          have hv := view_upd (s' := ({ s with
              timeouts := armList .unlimited d id s.timeouts, regs := upd s.regs d.fd none,
              heap := upd s.heap id (some { arm s.now .unlimited d with isClear := true }),
              log := .did (.clr d.fd) :: s.log } : St)) I hd hf rfl rfl
          rw [hv]
          show P c _ (upd s.regs d.fd none fd) _
          rw [upd_other _ _ hn]
          exact L.skip (by simpa [About] using hf) h
        · subst hs
          have hv := view_upd (s' := ({ s with
              timeouts := armList .unlimited d id s.timeouts, regs := upd s.regs d.fd none,
              tree := upd s.tree d.fd none, heap := upd s.heap id none,
              active := if d.inActive then s.active.erase id else s.active,
              log := .did (.clr d.fd) :: s.log } : St)) I hd hf rfl (upd_other _ _ hn)
          rw [hv]
          show P c _ (upd s.regs d.fd none fd) _
          rw [upd_other _ _ hn]
          exact L.skip (by simpa [About] using hf) h
  | onTimeout f hh =>
    change onTimeout _ f hh = _ at hs
    unfold onTimeout at hs
    cases ht : s.tree f with
    | none => simp [ht] at hs
    | some id =>
      obtain ⟨d, hd, rfl⟩ := I.tree _ _ ht
      simp only [ht, bind, Except.bind, deref, hd] at hs
      cases hs
      have h' : lift fd P c { s with log := .did (.onTimeout d.fd hh) :: s.log } := L.skip (fun h => h) h
      have I₀ : Inv { s with log := .did (.onTimeout d.fd hh) :: s.log } := inv_frame I rfl rfl rfl rfl rfl rfl
      exact L.quiet I₀ h' (id := id) (d := d) (d' := { d with tmo := hh }) hd ⟨rfl, rfl, rfl, rfl⟩ rfl rfl rfl rfl
  | timer ms hh => cases hs; exact L.skip (fun h => h) h
  | cancel id =>
    change timerCancel _ id = _ at hs
    unfold timerCancel at hs
    split at hs
    · cases hs; exact L.skip (fun h => h) h
    · cases hs
  | brk b => cases hs; exact L.skip (fun h => h) h
  | tick us => cases hs; exact L.skip (fun h => h) h

/-- A step that changes a descriptor. -/
theorem Local.change (L : Local fd R P) {c : Option (Nat × Kind)} {s : St} {id : Nat} {d d' : Desc} (I : Inv s)
    (h : lift fd P c s) (hd : s.heap id = some d) (ho : d.fd ≠ fd → lift fd P c s → lift fd P none s)
    (hc : P c (some (id, d)) (s.regs d.fd) s.log → P none (some (id, d')) (s.regs d.fd) s.log) :
    lift fd P none (put s id d') := by
  by_cases hfd : d.fd = fd
  · subst hfd
    unfold lift at h ⊢
    rw [view_put (s' := put s id d') I hd rfl rfl]
    rw [view_of I hd] at h
    exact hc h
  · have := ho hfd h
    unfold lift at this ⊢
    rw [view_upd (s' := put s id d') I hd hfd rfl rfl]
    exact this

theorem any_grant (k : Kind) (h : Option Nat) (d : Desc) : (grant (maskOf k) true h d).flag.any = true := by
  cases k <;> simp [grant, maskOf, Mask.or, Mask.any, Mask.add]

theorem again_eq {s s' : St} {e : Report} {id : Nat} {k : Kind} {d : Desc} {r : Reg} (hd : s.heap id = some d)
    (hr : s.regs d.fd = some r) (h : Event.again e s id k = .ok s') :
    s'.heap = upd s.heap id (some (regrant e id (d, r) k).1) ∧ (regrant e id (d, r) k).1.fd = d.fd ∧
      s'.regs = upd s.regs d.fd (some (regrant e id (d, r) k).2) ∧ s'.tree = s.tree ∧ s'.log = s.log := by
  simp only [Event.again, bind, Except.bind, deref, hd] at h
  unfold regrant
  split at h
  · next hc =>
    rw [if_pos hc]
    obtain ⟨-, rfl⟩ := (appendSet_eq hd).mp h
    simp only [arm_unmodified, armList_unmodified, any_grant, if_true]
    obtain ⟨c1, c2, c3, c4, c5, c6, c7, c8, c9, c10, c11⟩ := ctl_heap { s with heap := upd s.heap id (some (grant (maskOf k) true (d.h k) d)) } true d.fd { mask := (grant (maskOf k) true (d.h k) d).flag, oneshot := true, id := id }
    refine ⟨c1, rfl, ?_, c2, c6⟩
    rw [ctl_regs]
    simp only [hr, Option.isSome_some, if_true]
  · next hc =>
    rw [if_neg hc]
    cases h
    exact ⟨(upd_id hd).symm, rfl, (upd_id hr).symm, rfl, rfl⟩

theorem legal_eq {s : St} {e : Report} {r : Reg} (h : s.regs e.fd = some r) : e.legal s = legal r e := by
  simp [Report.legal, h, legal]

/-- What happens with an event. -/
theorem serve_cases {s s' : St} {e : Report} (I : Inv s) (h : serve s e = .ok s') :
    s' = s ∨ ∃ r id d d' r', s.regs e.fd = some r ∧ legal r e = true ∧ r.id = id ∧ s.heap id = some d ∧ d.fd = e.fd ∧
      d.isClear = false ∧
      s'.heap = upd s.heap id (some d') ∧ s'.regs = upd s.regs e.fd (some r') ∧ s'.tree = s.tree ∧ s'.log = s.log ∧
      ((d.inActive || d.inProcess) = false ∧ d' = { markAll e d with inActive := true } ∧
        s'.active = s.active ++ [id] ∧
        r' = (if hit e d then { mask := (markAll e d).flag, oneshot := (markAll e d).one.any, id := id } else switched r) ∨
       (d.inActive || d.inProcess) = true ∧ (d', r') = regrantAll e id d (switched r)) := by
  unfold serve at h
  split at h
  · cases h; exact .inl rfl
  next r hr =>
  split at h
  rotate_left
  · cases h; exact .inl rfl
  next hl =>
  right
  obtain ⟨d, hd, hfd⟩ := I.tree _ _ (I.regs _ _ hr)
  have hc : d.isClear = false := by
    cases hc : d.isClear with
    | false => rfl
    | true => have := (I.clear _ _ hd hc).2.2; rw [hfd, hr] at this; cases this
  rw [legal_eq hr] at hl
  simp only [take, bind, Except.bind, deref, hd, hc, Bool.false_eq_true, if_false] at h
  have hsw : (if r.oneshot = true then ({ mask := r.mask, oneshot := r.oneshot, on := false, id := r.id } : Reg) else r) = switched r := rfl
  rw [hsw] at h
  split at h
  · next hp =>
    split at h
    · cases h
    next s₁ h₁ =>
    split at h
    · cases h
    next s₂ h₂ =>
    obtain ⟨a1, a2, a3, a4, a5⟩ := again_eq (s := { s with regs := upd s.regs e.fd (some (switched r)) }) hd
      (by rw [hfd]; exact upd_same _ _ _) h₁
    obtain ⟨b1, b2, b3, b4, b5⟩ := again_eq (s := s₁) (id := r.id) (by rw [a1]; exact upd_same _ _ _)
      (by rw [a3, a2]; exact upd_same _ _ _) h₂
    obtain ⟨c1, c2, c3, c4, c5⟩ := again_eq (s := s₂) (id := r.id) (by rw [b1]; exact upd_same _ _ _)
      (by rw [b3, b2]; exact upd_same _ _ _) h
    refine ⟨r, r.id, d, _, _, hr, hl, rfl, hd, hfd, hc, ?_, ?_, ?_, ?_, .inr ⟨hp, rfl⟩⟩
    · rw [c1, b1, a1]; simp only [upd_upd]; rfl
    · rw [c3, b3, a3, b2, a2, hfd]; simp only [upd_upd]; rfl
    · rw [c4, b4, a4]
    · rw [c5, b5, a5]
  · next hp =>
    have hp : (d.inActive || d.inProcess) = false := by simpa using hp
    cases h
    have hm : (markAll e d).fd = e.fd := (same_markAll e d).fd.trans hfd
    refine ⟨r, r.id, d, { markAll e d with inActive := true }, _, hr, hl, rfl, hd, hfd, hc, ?_, ?_, ?_, ?_, .inl ⟨hp, rfl, ?_, rfl⟩⟩ <;>
    unfold Event.arrive <;> dsimp only <;> split
    · rw [(ctl_heap _ _ _ _).1]; rfl
    · rfl
    · rw [ctl_regs]
      simp only [put, hm, upd_same, Option.isSome_some, if_true, upd_upd]
    · rfl
    · rw [(ctl_heap _ _ _ _).2.1]; rfl
    · rfl
    · rw [(ctl_heap _ _ _ _).2.2.2.2.2.1]; rfl
    · rfl
    · rw [(ctl_heap _ _ _ _).2.2.2.1]; rfl
    · rfl

theorem Local.serve (L : Local fd R P) {s s' : St} {e : Report} (hR : R e) (I : Inv s) (h : lift fd P none s)
    (hs : Event.serve s e = .ok s') : lift fd P none s' := by
  rcases serve_cases I hs with rfl | ⟨r, id, d, d', r', hr, hl, hid, hd, hfd, hc, q1, q2, q3, q4, q5⟩
  · exact h
  unfold lift at h ⊢
  rw [q4]
  by_cases hf : e.fd = fd
  · subst hf
    rw [← hfd] at h hr q2 ⊢
    rw [view_put I hd q1 q3, q2, upd_same]
    rw [view_of I hd, hr] at h
    rcases q5 with ⟨-, rfl, -, rfl⟩ | ⟨-, q5⟩
    · exact L.alike (d := markAll e d) (d' := { markAll e d with inActive := true }) ⟨rfl, rfl, rfl, rfl⟩
        (L.arrive hR rfl h hl hid hc)
    · have := L.again hR rfl h hl hid hc
      rw [← q5] at this
      exact this
  · rw [view_upd I hd (by rw [hfd]; exact hf) q1 (by rw [q3]), q2, upd_other _ _ (fun e => hf e.symm)]
    exact h

/-- The principle. -/
theorem Local.law (L : Local fd R P) : Law R (lift fd P) where
  run I T h := L.run I T h
  start {s s' id d} I T hd ha h := by
    rw [start_eq hd] at h
    cases h
    exact L.quiet I T hd (d' := { arm s.now .unlimited d with inActive := false, inProcess := true })
      (alike_arm s.now .unlimited d) rfl rfl rfl rfl
  hush {s id d} I T hd hp := L.change I T hd (fun _ h => h) L.hush
  weaken I T hd ha hh := L.into T
  event {s id d k h} I T hd hp hc hb ha hh := by
    unfold lift at T ⊢
    show P _ (view fd s) (s.regs fd) (_ :: s.log)
    by_cases hf : d.fd = fd
    · subst hf
      rw [view_of I hd] at T ⊢
      exact L.event T hc ha
    · exact L.into (L.skip (by simpa [About] using hf) T)
  done {s id d k} I T hd hp := by
    refine L.change I T hd (fun hf h => L.outOf ?_ h) L.done
    intro i e he hi
    obtain ⟨h1, h2⟩ := view_some.mp he
    subst hi
    obtain ⟨e', h3, h4⟩ := I.tree _ _ h1
    rw [hd] at h3; cases h3
    exact hf h4
  finish {s s' id d} I T hd hp h := by
    have := finish_eq I hd hp h
    split at this
    · next hc =>
      subst this
      unfold lift at T ⊢
      by_cases hf : d.fd = fd
      · subst hf
        rw [view_of I hd] at T
        have hv : view d.fd ({ s with heap := upd s.heap id none, tree := upd s.tree d.fd none, regs := upd s.regs d.fd none } : St) = none := by
          unfold view; simp only [upd_same]
        rw [hv]
        show P none none (upd s.regs d.fd none d.fd) _
        rw [upd_same]
        exact L.gone T hc
      · have hn : fd ≠ d.fd := fun e => hf e.symm
        have hv := view_upd (s' := ({ s with heap := upd s.heap id none, tree := upd s.tree d.fd none, regs := upd s.regs d.fd none } : St)) I hd hf rfl (upd_other _ _ hn)
        rw [hv]
        show P none _ (upd s.regs d.fd none fd) _
        rw [upd_other _ _ hn]
        exact T
    · subst this
      exact L.quiet I T hd (d' := { d with inProcess := false }) ⟨rfl, rfl, rfl, rfl⟩ rfl rfl rfl rfl
  timer I T ht he hh hl := L.skip (fun h => h) T
  timerNone I T ht hh := T
  unlist {s s' id d} I T hd ht h := by
    rw [unlist_eq hd h]
    exact L.quiet I T hd (d' := { d with inActive := false }) ⟨rfl, rfl, rfl, rfl⟩ rfl rfl rfl rfl
  timeout {s s' id d h} I T hd ht ha he hh hx := by
    have T' : lift fd P none s' := by
      rw [expire_eq hd hx]
      exact L.quiet I T hd (d' := { d with inProcess := true, timed := false, endUs := 0 }) ⟨rfl, rfl, rfl, rfl⟩ rfl rfl rfl rfl
    exact L.skip (fun h => h) T'
  timeoutNone {s s' id d} I T hd ht ha hh hx := by
    rw [expire_eq hd hx]
    exact L.quiet I T hd (d' := { d with inProcess := true, timed := false, endUs := 0 }) ⟨rfl, rfl, rfl, rfl⟩ rfl rfl rfl rfl
  serve hR I T h := L.serve hR I T h

end Verif.Event
