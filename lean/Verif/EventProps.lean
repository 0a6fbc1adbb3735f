import Verif.EventSafe

/-
Properties of the event loop: handlers, timeouts and timers (C158-C161).
-/
namespace Verif.Event

/-! ## Spec: what a program may expect, from what has happened (the latest first) -/

/-- The handler last given for an event of a descriptor since it was last cleared. -/
def given (k : Kind) (fd : Nat) : List Ev → Option Nat
  | [] => none
  | .did (.set f m _ _ _ h) :: l => if f = fd ∧ m.get k = true then h else given k fd l
  | .did (.clr f) :: l => if f = fd then none else given k fd l
  | _ :: l => given k fd l

/-- The same for timeouts. -/
def givenTimeout (fd : Nat) : List Ev → Option Nat
  | [] => none
  | .did (.onTimeout f h) :: l => if f = fd then h else givenTimeout fd l
  | .did (.clr f) :: l => if f = fd then none else givenTimeout fd l
  | _ :: l => givenTimeout fd l

/-- The time. -/
def time : List Ev → Nat
  | [] => 0
  | .did (.tick us) :: l => time l + us
  | _ :: l => time l

/-- What a timeout given at some time makes of when it is due. -/
def dueBy (now : Nat) (old : Option Nat) : Timeout → Option Nat
  | .unmodified => old
  | .unlimited => none
  | .ms v => some (now + v * 1000)

/-- When the timeout of a descriptor is due: it was set in milliseconds, and the descriptor was not
cleared, nor its timeout taken away, nor called since. -/
def due (fd : Nat) : List Ev → Option Nat
  | [] => none
  | .did (.set f _ _ _ t _) :: l => if f = fd then dueBy (time l) (due fd l) t else due fd l
  | .did (.clr f) :: l => if f = fd then none else due fd l
  | .call (.timeout f _) :: l => if f = fd then none else due fd l
  | _ :: l => due fd l

/-- Every handler called is the one given, and every timeout called is due. -/
def Right : List Ev → Prop
  | [] => True
  | .call (.event k fd h) :: l => given k fd l = some h ∧ Right l
  | .call (.timeout fd h) :: l => givenTimeout fd l = some h ∧ (∃ t, due fd l = some t ∧ t ≤ time l) ∧ Right l
  | _ :: l => Right l

/-! ## The steps of dispatching -/

theorem start_eq {s : St} {id : Nat} {d : Desc} (hd : s.heap id = some d) :
    start s id = .ok { s with
      active := s.active.erase id
      timeouts := armList .unlimited d id s.timeouts
      heap := upd s.heap id (some { arm s.now .unlimited d with inActive := false, inProcess := true }) } := by
  have hd' : ({ s with active := s.active.erase id } : St).heap id = some d := hd
  simp [start, untime_eq hd', bind, Except.bind, deref, upd_same, put, upd_upd]

theorem finish_eq {s s' : St} {id : Nat} {d : Desc} (I : Inv s) (hd : s.heap id = some d)
    (hp : d.inProcess = true) (h : finish s id = .ok s') :
    if d.isClear then s' = { s with heap := upd s.heap id none, tree := upd s.tree d.fd none,
                                    regs := upd s.regs d.fd none }
    else s' = put s id { d with inProcess := false } := by
  simp only [finish, bind, Except.bind, deref, hd] at h
  cases hc : d.isClear with
  | false => rw [hc] at h; simp only [Bool.false_eq_true, if_false] at h ⊢; cases h; rfl
  | true =>
    rw [hc] at h
    simp only [if_true] at h ⊢
    have ht := (I.live _ _ hd).1
    replace h := (clrSet_eq (s := put s id { d with inProcess := false, isClear := true }) ht (upd_same _ _ _)).mp h
    simp only [put, upd_upd, armList, (I.clear id d hd hc).2.1, I.proc id d hd hp] at h
    simpa using h

theorem unlist_eq {s s' : St} {id : Nat} {d : Desc} (hd : s.heap id = some d) (h : unlist s id = .ok s') :
    s' = { s with active := if d.inActive then s.active.erase id else s.active,
                  heap := upd s.heap id (some { d with inActive := false }) } := by
  simp only [unlist, bind, Except.bind, deref, hd] at h
  cases ha : d.inActive with
  | true => rw [ha] at h; cases h; rfl
  | false =>
    rw [ha] at h; cases h
    have : upd s.heap id (some { d with inActive := false }) = s.heap := upd_id (by rw [hd, ← ha])
    rw [this]
    rfl

theorem expire_eq {s s' : St} {id : Nat} {d : Desc} (hd : s.heap id = some d) (h : expire s id = .ok s') :
    s' = { s with timeouts := s.timeouts.erase id,
                  heap := upd s.heap id (some { d with inProcess := true, timed := false, endUs := 0 }) } := by
  simp only [expire, bind, Except.bind, deref, hd] at h
  cases h; rfl

/-- A descriptor with the same handlers. -/
structure Same (d d' : Desc) : Prop where
  fd : d'.fd = d.fd
  clear : d'.isClear = d.isClear
  h : ∀ k, d'.h k = d.h k
  tmo : d'.tmo = d.tmo
  timed : d'.timed = true → d.timed = true ∧ d'.endUs = d.endUs

theorem Same.refl (d : Desc) : Same d d := ⟨rfl, rfl, fun _ => rfl, rfl, fun h => ⟨h, rfl⟩⟩

theorem Same.trans {a b c : Desc} (h1 : Same a b) (h2 : Same b c) : Same a c :=
  ⟨h2.fd.trans h1.fd, h2.clear.trans h1.clear, fun k => (h2.h k).trans (h1.h k), h2.tmo.trans h1.tmo, fun h =>
    ⟨(h1.timed (h2.timed h).1).1, (h2.timed h).2.trans (h1.timed (h2.timed h).1).2⟩⟩

theorem same_of {d d' : Desc} (h1 : d'.fd = d.fd) (h2 : d'.isClear = d.isClear) (h3 : d'.rcv = d.rcv)
    (h4 : d'.snd = d.snd) (h5 : d'.err = d.err) (h6 : d'.tmo = d.tmo)
    (h7 : d'.timed = true → d.timed = true ∧ d'.endUs = d.endUs) : Same d d' :=
  ⟨h1, h2, fun k => by cases k <;> simp [Desc.h, *], h6, h7⟩

theorem same_arm (now : Nat) (d : Desc) : Same d (arm now .unlimited d) := by
  unfold arm
  by_cases h : d.timed
  · simp only [h, if_true]
    exact same_of rfl rfl rfl rfl rfl rfl (by simp)
  · simp only [h]
    exact Same.refl d

theorem same_mark (b : Bool) (k : Kind) (d : Desc) : Same d (if b then mark k d else d) := by
  cases b with
  | false => exact Same.refl d
  | true =>
    simp only [if_true, mark]
    split <;> exact same_of rfl rfl rfl rfl rfl rfl (fun h => ⟨h, rfl⟩)

theorem same_markAll (e : Report) (d : Desc) : Same d (markAll e d) :=
  ((same_mark e.inn .recv d).trans (same_mark e.out .send _)).trans (same_mark e.err .error _)

theorem grant_h (mask : Mask) (o : Bool) (h : Option Nat) (d : Desc) (k : Kind) :
    (grant mask o h d).h k = if mask.get k then h else d.h k := by
  cases k <;> rfl

theorem arm_h (now : Nat) (t : Timeout) (d : Desc) (k : Kind) : (arm now t d).h k = d.h k := by
  unfold arm
  split
  · rfl
  · split <;> cases k <;> rfl
  · cases k <;> rfl

theorem arm_tmo (now : Nat) (t : Timeout) (d : Desc) : (arm now t d).tmo = d.tmo := by
  unfold arm; repeat (first | rfl | split)

theorem maskOf_get (k k' : Kind) : (maskOf k).get k' = true ↔ k = k' := by
  cases k <;> cases k' <;> simp [maskOf, Mask.add, Mask.get]

theorem grant_same (k : Kind) (d : Desc) : Same d (grant (maskOf k) true (d.h k) d) := by
  refine ⟨rfl, rfl, fun k' => ?_, rfl, fun h => ⟨h, rfl⟩⟩
  rw [grant_h]
  split
  · next h => rw [(maskOf_get k k').mp h]
  · rfl

/-- A step that changes one descriptor but not its handlers, and epoll. -/
def Quiet (s s' : St) : Prop :=
  s' = s ∨ ∃ id d d', s.heap id = some d ∧ Same d d' ∧ s'.heap = upd s.heap id (some d') ∧
    s'.tree = s.tree ∧ s'.log = s.log ∧ s'.now = s.now ∧ s'.timers = s.timers ∧ s'.nextTimer = s.nextTimer

/-- The same of a descriptor that is known. -/
def Quiet' (id : Nat) (s s' : St) : Prop :=
  ∃ d d', s.heap id = some d ∧ Same d d' ∧ s'.heap = upd s.heap id (some d') ∧
    s'.tree = s.tree ∧ s'.log = s.log ∧ s'.now = s.now ∧ s'.timers = s.timers ∧ s'.nextTimer = s.nextTimer

theorem Quiet'.trans {id : Nat} {a b c : St} (h1 : Quiet' id a b) (h2 : Quiet' id b c) : Quiet' id a c := by
  obtain ⟨d, d', hd, hs, hh, r1, r2, r3, r4, r5⟩ := h1
  obtain ⟨e, e', he, hs', hh', q1, q2, q3, q4, q5⟩ := h2
  rw [hh, upd_same] at he
  cases he
  exact ⟨d, e', hd, hs.trans hs', by rw [hh', hh, upd_upd], q1.trans r1, q2.trans r2, q3.trans r3, q4.trans r4,
    q5.trans r5⟩

theorem again_quiet {s s' : St} {e : Report} {id : Nat} {k : Kind} {d : Desc} (hd : s.heap id = some d)
    (h : again e s id k = .ok s') : Quiet' id s s' := by
  simp only [again, bind, Except.bind, deref, hd] at h
  split at h
  · obtain ⟨-, rfl⟩ := (appendSet_eq hd).mp h
    dsimp only
    refine ⟨d, _, hd, grant_same k d, ?_⟩
    split
    · obtain ⟨c1, c2, c3, c4, c5, c6, c7, c8, c9, c10, c11⟩ := ctl_heap { s with heap := upd s.heap id (some (grant (maskOf k) true (d.h k) (arm s.now .unmodified d))), timeouts := armList .unmodified d id s.timeouts } true d.fd { mask := (grant (maskOf k) true (d.h k) (arm s.now .unmodified d)).flag, oneshot := true, id := id }
      exact ⟨c1, c2, c6, c7, c8, c9⟩
    · exact ⟨rfl, rfl, rfl, rfl, rfl, rfl⟩
  · cases h
    exact ⟨d, d, hd, Same.refl d, (upd_id hd).symm, rfl, rfl, rfl, rfl, rfl⟩

theorem arrive_quiet {s : St} {e : Report} {id : Nat} {d : Desc} (hd : s.heap id = some d) :
    Quiet' id s (arrive s id e d) := by
  have hs : Same d { markAll e d with inActive := true } :=
    (same_markAll e d).trans (same_of rfl rfl rfl rfl rfl rfl (fun h => ⟨h, rfl⟩))
  refine ⟨d, _, hd, hs, ?_⟩
  unfold arrive
  dsimp only
  split
  · obtain ⟨c1, c2, c3, c4, c5, c6, c7, c8, c9, c10, c11⟩ := ctl_heap (put { s with active := s.active ++ [id] } id { markAll e d with inActive := true }) true (markAll e d).fd { mask := (markAll e d).flag, oneshot := (markAll e d).one.any, id := id }
    exact ⟨c1, c2, c6, c7, c8, c9⟩
  · exact ⟨rfl, rfl, rfl, rfl, rfl, rfl⟩

theorem take_quiet {s s' : St} {e : Report} {id : Nat} {d : Desc} (hd : s.heap id = some d)
    (h : take s id e = .ok s') : Quiet' id s s' := by
  simp only [take, bind, Except.bind, deref, hd] at h
  split at h
  · cases h; exact ⟨d, d, hd, Same.refl d, (upd_id hd).symm, rfl, rfl, rfl, rfl, rfl⟩
  · split at h
    · split at h
      · cases h
      · next s₁ h₁ =>
        have q₁ := again_quiet hd h₁
        have ⟨_, d₁, _, _, hh₁, _⟩ := q₁
        have hd₁ : s₁.heap id = some d₁ := by rw [hh₁, upd_same]
        split at h
        · cases h
        · next s₂ h₂ =>
          have q₂ := again_quiet hd₁ h₂
          have ⟨_, d₂, _, _, hh₂, _⟩ := q₂
          have hd₂ : s₂.heap id = some d₂ := by rw [hh₂, upd_same]
          exact (q₁.trans q₂).trans (again_quiet hd₂ h)
    · cases h
      exact arrive_quiet hd

theorem serve_quiet {s s' : St} {e : Report} (I : Inv s) (h : serve s e = .ok s') : Quiet s s' := by
  unfold serve at h
  split at h
  · cases h; exact .inl rfl
  · next r hr =>
    split at h
    · right
      obtain ⟨d, hd, hfd⟩ := I.tree _ _ (I.regs _ _ hr)
      obtain ⟨d₁, d', h1, h2, h3, h4, h5, h6, h7, h8⟩ := take_quiet (d := d) (by exact hd) h
      exact ⟨r.id, d₁, d', h1, h2, h3, h4, h5, h6, h7, h8⟩
    · cases h; exact .inl rfl

/-! ## Handlers and timeouts -/

/-- What the descriptors are, from what has happened. -/
structure Told (s : St) : Prop where
  desc : ∀ id d, s.heap id = some d → d.isClear = false →
    (∀ k, d.h k = given k d.fd s.log) ∧ (∀ h, d.tmo = some h → givenTimeout d.fd s.log = some h)
  timed : ∀ id d, s.heap id = some d → d.timed = true → due d.fd s.log = some d.endUs
  clear : ∀ id d, s.heap id = some d → d.isClear = true → ∀ k, given k d.fd s.log = none
  absent : ∀ fd, s.tree fd = none → ∀ k, given k fd s.log = none
  now : s.now = time s.log
  right : Right s.log

theorem told_new (plan : List (List Op)) : Told (new plan) := by
  constructor <;> simp [new, given, time, Right]

theorem Told.quiet {s s' : St} (T : Told s) (h : Quiet s s') : Told s' := by
  rcases h with rfl | ⟨id, d, d', hd, hs, hh, ht, hl, hn, -, -⟩
  · exact T
  have key : ∀ x e, s'.heap x = some e → (x = id ∧ e = d') ∨ s.heap x = some e := by
    intro x e hx
    rw [hh] at hx
    by_cases hxi : x = id
    · rw [hxi, upd_same] at hx; cases hx; exact .inl ⟨hxi, rfl⟩
    · rw [upd_other _ _ hxi] at hx; exact .inr hx
  refine ⟨?_, ?_, ?_, by rw [ht, hl]; exact T.absent, by rw [hn, hl]; exact T.now, by rw [hl]; exact T.right⟩
  · intro x e hx hc
    rw [hl]
    rcases key x e hx with ⟨rfl, rfl⟩ | hx
    · rw [hs.clear] at hc
      obtain ⟨t1, t2⟩ := T.desc _ _ hd hc
      rw [hs.fd]
      exact ⟨fun k => (hs.h k).trans (t1 k), fun h hh => t2 h (hs.tmo ▸ hh)⟩
    · exact T.desc _ _ hx hc
  · intro x e hx ht
    rw [hl]
    rcases key x e hx with ⟨rfl, rfl⟩ | hx
    · obtain ⟨t1, t2⟩ := hs.timed ht
      rw [hs.fd, t2]; exact T.timed _ _ hd t1
    · exact T.timed _ _ hx ht
  · intro x e hx hc
    rw [hl]
    rcases key x e hx with ⟨rfl, rfl⟩ | hx
    · rw [hs.clear] at hc; rw [hs.fd]; exact T.clear _ _ hd hc
    · exact T.clear _ _ hx hc

theorem Told.put {s : St} {id : Nat} {d d' : Desc} (T : Told s) (hd : s.heap id = some d) (hs : Same d d') :
    Told (put s id d') := T.quiet (.inr ⟨id, d, d', hd, hs, rfl, rfl, rfl, rfl, rfl, rfl⟩)

/-- Two descriptors are not for the same file descriptor. -/
theorem Inv.fd_inj {s : St} (I : Inv s) {x y : Nat} {d e : Desc} (hd : s.heap x = some d) (he : s.heap y = some e)
    (h : d.fd = e.fd) : x = y := by
  have h1 := (I.live _ _ hd).1
  have h2 := (I.live _ _ he).1
  rw [h, h2] at h1
  cases h1; rfl

/-- A descriptor is taken away. -/
theorem Told.drop {s s' : St} {id : Nat} {d : Desc} (T : Told s)
    (hh : s'.heap = upd s.heap id none) (ht : s'.tree = upd s.tree d.fd none) (hl : s'.log = s.log)
    (hn : s'.now = s.now) (hg : ∀ k, given k d.fd s.log = none) : Told s' := by
  have key : ∀ x e, s'.heap x = some e → s.heap x = some e := by
    intro x e hx
    rw [hh] at hx
    by_cases hxi : x = id
    · rw [hxi, upd_same] at hx; cases hx
    · rw [upd_other _ _ hxi] at hx; exact hx
  refine ⟨?_, ?_, ?_, ?_, by rw [hn, hl]; exact T.now, by rw [hl]; exact T.right⟩
  · intro x e hx; rw [hl]; exact T.desc _ _ (key x e hx)
  · intro x e hx; rw [hl]; exact T.timed _ _ (key x e hx)
  · intro x e hx; rw [hl]; exact T.clear _ _ (key x e hx)
  · intro fd hf
    rw [hl]
    rw [ht] at hf
    by_cases hx : fd = d.fd
    · rw [hx]; exact hg
    · rw [upd_other _ _ hx] at hf; exact T.absent _ hf

/-- What a descriptor is before its events are set. -/
theorem base_cases {s : St} {fd id : Nat} {ap other : Bool} {b : Desc} (I : Inv s)
    (h : base s fd ap = some (id, b, other)) :
    (s.tree fd = none ∧ id = s.next ∧ b = { fd := fd } ∧ other = false) ∨
    ∃ d, s.tree fd = some id ∧ s.heap id = some d ∧ d.fd = fd ∧
      ((d.isClear = true ∧ ap = false ∧ b = { fd := fd, inProcess := d.inProcess } ∧ other = false) ∨
       (d.isClear = false ∧ other = true ∧
         (ap = true ∧ b = d ∨ ap = false ∧ b = { d with flag := {}, one := {}, fd := fd }))) := by
  unfold base at h
  cases ht : s.tree fd with
  | none => rw [ht] at h; cases h; exact .inl ⟨rfl, rfl, rfl, rfl⟩
  | some x =>
    obtain ⟨d, hd, hfd⟩ := I.tree _ _ ht
    simp only [ht, hd] at h
    right
    cases ap <;> cases hc : d.isClear <;> simp [hc] at h
    all_goals obtain ⟨rfl, rfl, rfl⟩ := h
    · exact ⟨d, rfl, hd, hfd, .inr ⟨hc, rfl, .inr ⟨rfl, by simp [hc]⟩⟩⟩
    · exact ⟨d, rfl, hd, hfd, .inl ⟨hc, rfl, rfl, rfl⟩⟩
    · exact ⟨d, rfl, hd, hfd, .inr ⟨hc, rfl, .inl ⟨rfl, rfl⟩⟩⟩

theorem settled_fields (s : St) (fd : Nat) (mask : Mask) (o : Bool) (t : Timeout) (h : Option Nat)
    (id : Nat) (b : Desc) (other : Bool) :
    (settled s fd mask o t h id b other).tree = upd s.tree fd (some id) ∧
    (settled s fd mask o t h id b other).log = s.log ∧
    (settled s fd mask o t h id b other).now = s.now ∧
    (settled s fd mask o t h id b other).timers = s.timers ∧
    (settled s fd mask o t h id b other).nextTimer = s.nextTimer ∧
    (settled s fd mask o t h id b other).isBreak = s.isBreak ∧
    (settled s fd mask o t h id b other).plan = s.plan := by
  unfold settled
  dsimp only
  split
  · obtain ⟨c1, c2, c3, c4, c5, c6, c7, c8, c9, c10, c11⟩ := ctl_heap { s with
      heap := upd s.heap id (some (grant mask o h (arm s.now t b)))
      timeouts := armList t b id s.timeouts
      tree := upd s.tree fd (some id)
      next := if s.tree fd = none then s.next + 1 else s.next } other fd { mask := (grant mask o h (arm s.now t b)).flag, oneshot := o, id := id }
    exact ⟨c2, c6, c7, c8, c9, c10, c11⟩
  · exact ⟨rfl, rfl, rfl, rfl, rfl, rfl, rfl⟩

theorem told_run {s s' : St} {o : Op} (I : Inv s) (T : Told s) (h : run s o = .ok s') : Told s' := by
  unfold run at h
  cases o with
  | set fd mask o ap t hh =>
    obtain ⟨id, b, other, hb, -, rfl⟩ := fdSet_eq h
    have I₀ : Inv { s with log := .did (.set fd mask o ap t hh) :: s.log } := inv_frame I rfl rfl rfl rfl rfl rfl
    obtain ⟨f1, f2, f3, -, -, -, -⟩ := settled_fields { s with log := .did (.set fd mask o ap t hh) :: s.log } fd mask o t hh id b other
    have fh := settled_heap { s with log := .did (.set fd mask o ap t hh) :: s.log } fd mask o t hh id b other
    have hbase : b.fd = fd ∧ b.isClear = false ∧ (∀ k, b.h k = given k fd s.log) ∧
        (∀ h, b.tmo = some h → givenTimeout fd s.log = some h) ∧ (b.timed = true → due fd s.log = some b.endUs) ∧
        (∀ x e, s.heap x = some e → x ≠ id → e.fd ≠ fd) := by
      have hother : ∀ (_ : s.tree fd = some id) x e, s.heap x = some e → x ≠ id → e.fd ≠ fd := by
        rintro ht x e hx hne rfl
        have := (I.live _ _ hx).1
        rw [ht] at this; cases this; exact hne rfl
      rcases base_cases I₀ hb with ⟨ht, rfl, rfl, -⟩ | ⟨d, ht, hd, hfd, ⟨hc, -, rfl, -⟩ | ⟨hc, -, hb⟩⟩
      · refine ⟨rfl, rfl, fun k => ?_, by simp, by simp, ?_⟩
        · rw [T.absent fd ht k]; cases k <;> rfl
        · rintro x e hx - rfl
          have h1 := (I.live _ _ hx).1
          rw [show s.tree e.fd = none from ht] at h1
          cases h1
      · refine ⟨rfl, rfl, fun k => ?_, by simp, by simp, hother ht⟩
        have := T.clear id d hd hc k
        rw [hfd] at this
        rw [this]; cases k <;> rfl
      · obtain ⟨t1, t2⟩ := T.desc id d hd hc
        have t3 := T.timed id d hd
        rw [hfd] at t1 t2 t3
        rcases hb with ⟨-, rfl⟩ | ⟨-, rfl⟩
        · exact ⟨hfd, hc, t1, t2, t3, hother ht⟩
        · exact ⟨rfl, hc, fun k => (by cases k <;> rfl : _ = d.h k).trans (t1 k), t2, t3, hother ht⟩
    obtain ⟨b1, b2, b3, b4, b5, b6⟩ := hbase
    have key : ∀ x e, (settled { s with log := .did (.set fd mask o ap t hh) :: s.log } fd mask o t hh id b other).heap x = some e →
        (x = id ∧ e = grant mask o hh (arm s.now t b)) ∨ (x ≠ id ∧ s.heap x = some e ∧ e.fd ≠ fd) := by
      intro x e hx
      rw [fh] at hx
      by_cases hxi : x = id
      · rw [hxi, upd_same] at hx; cases hx; exact .inl ⟨hxi, rfl⟩
      · rw [upd_other _ _ hxi] at hx; exact .inr ⟨hxi, hx, b6 x e hx hxi⟩
    have g1 : ∀ k f, f ≠ fd → given k f (.did (.set fd mask o ap t hh) :: s.log) = given k f s.log := by
      intro k f hf; simp only [given]; rw [if_neg]; rintro ⟨h, -⟩; exact hf h.symm
    have g2 : ∀ k, given k fd (.did (.set fd mask o ap t hh) :: s.log) = if mask.get k then hh else given k fd s.log := by
      intro k; simp [given]
    have g3 : ∀ f, givenTimeout f (.did (.set fd mask o ap t hh) :: s.log) = givenTimeout f s.log := fun f => rfl
    have g4 : ∀ f, f ≠ fd → due f (.did (.set fd mask o ap t hh) :: s.log) = due f s.log := by
      intro f hf; simp only [due]; rw [if_neg (fun h => hf h.symm)]
    have g5 : due fd (.did (.set fd mask o ap t hh) :: s.log) = dueBy (time s.log) (due fd s.log) t := by
      simp [due]
    refine ⟨?_, ?_, ?_, ?_, by rw [f2, f3]; exact T.now, by rw [f2]; exact T.right⟩
    · intro x e hx hc
      rw [f2]
      rcases key x e hx with ⟨rfl, rfl⟩ | ⟨-, hx, hf⟩
      · rw [show (grant mask o hh (arm s.now t b)).fd = fd from (arm_fd _ _ _).trans b1]
        refine ⟨fun k => ?_, fun h h' => ?_⟩
        · rw [g2, grant_h, arm_h, b3]
        · rw [g3]; exact b4 h ((arm_tmo s.now t b).symm.trans h')
      · obtain ⟨t1, t2⟩ := T.desc _ _ hx hc
        exact ⟨fun k => by rw [g1 k _ hf]; exact t1 k, t2⟩
    · intro x e hx ht
      rw [f2]
      rcases key x e hx with ⟨rfl, rfl⟩ | ⟨-, hx, hf⟩
      · rw [show (grant mask o hh (arm s.now t b)).fd = fd from (arm_fd _ _ _).trans b1, g5]
        change (arm s.now t b).timed = true at ht
        show _ = some (arm s.now t b).endUs
        cases t with
        | unmodified => exact b5 ht
        | unlimited => rw [arm_unlimited_timed] at ht; cases ht
        | ms v => simp [dueBy, arm, T.now]
      · rw [g4 _ hf]; exact T.timed _ _ hx ht
    · intro x e hx hc k
      rw [f2]
      rcases key x e hx with ⟨rfl, rfl⟩ | ⟨-, hx, hf⟩
      · rw [show (grant mask o hh (arm s.now t b)).isClear = b.isClear from arm_isClear _ _ _, b2] at hc; cases hc
      · rw [g1 k _ hf]; exact T.clear _ _ hx hc k
    · intro f hf k
      rw [f1] at hf
      rw [f2]
      by_cases hx : f = fd
      · rw [hx, upd_same] at hf; cases hf
      · rw [upd_other _ _ hx] at hf
        rw [g1 k _ hx]; exact T.absent _ hf k
  | clr fd =>
    have g1 : ∀ k f, f ≠ fd → given k f (.did (.clr fd) :: s.log) = given k f s.log := by
      intro k f hf; simp only [given]; rw [if_neg (fun h => hf h.symm)]
    have g2 : ∀ k, given k fd (.did (.clr fd) :: s.log) = none := by intro k; simp [given]
    have g3 : ∀ f, f ≠ fd → givenTimeout f (.did (.clr fd) :: s.log) = givenTimeout f s.log := by
      intro f hf; simp only [givenTimeout]; rw [if_neg (fun h => hf h.symm)]
    have g4 : ∀ f, f ≠ fd → due f (.did (.clr fd) :: s.log) = due f s.log := by
      intro f hf; simp only [due]; rw [if_neg (fun h => hf h.symm)]
    cases ht : s.tree fd with
    | none =>
      change clrSet _ fd = _ at h
      unfold clrSet at h
      simp only [ht] at h
      cases h
      have hf : ∀ x e, s.heap x = some e → e.fd ≠ fd := by
        rintro x e hx rfl
        rw [(I.live _ _ hx).1] at ht; cases ht
      refine ⟨?_, ?_, ?_, ?_, T.now, T.right⟩
      · intro x e hx hc
        obtain ⟨t1, t2⟩ := T.desc _ _ hx hc
        exact ⟨fun k => (t1 k).trans (g1 k _ (hf x e hx)).symm, fun h hh => by
          show givenTimeout _ (_ :: _) = _
          rw [g3 _ (hf x e hx)]; exact t2 h hh⟩
      · intro x e hx h1
        show due _ (_ :: _) = _
        rw [g4 _ (hf x e hx)]; exact T.timed _ _ hx h1
      · intro x e hx h1 k
        show given _ _ (_ :: _) = _
        rw [g1 k _ (hf x e hx)]; exact T.clear _ _ hx h1 k
      · intro f h1 k
        show given _ _ (_ :: _) = _
        by_cases hx : f = fd
        · rw [hx]; exact g2 k
        · rw [g1 k _ hx]; exact T.absent _ h1 k
    | some id =>
      obtain ⟨d, hd, rfl⟩ := I.tree _ _ ht
      have hs := (clrSet_eq (s := { s with log := .did (.clr d.fd) :: s.log }) ht hd).mp h
      have hf : ∀ x e, s.heap x = some e → x ≠ id → e.fd ≠ d.fd := fun x e hx hne hf => hne (I.fd_inj hx hd hf)
      dsimp only at hs
      split at hs
      · next hp =>
        have key : ∀ x e, upd s.heap id (some { arm s.now .unlimited d with isClear := true }) x = some e →
            (x = id ∧ e = { arm s.now .unlimited d with isClear := true }) ∨ (s.heap x = some e ∧ e.fd ≠ d.fd) := by
          intro x e hx
          by_cases hxi : x = id
          · rw [hxi, upd_same] at hx; cases hx; exact .inl ⟨hxi, rfl⟩
          · rw [upd_other _ _ hxi] at hx; exact .inr ⟨hx, hf x e hx hxi⟩
        subst hs
        refine ⟨?_, ?_, ?_, ?_, T.now, T.right⟩
        · intro x e hx hc
          rcases key x e hx with ⟨rfl, rfl⟩ | ⟨hx, hne⟩
          · cases hc
          · obtain ⟨t1, t2⟩ := T.desc _ _ hx hc
            exact ⟨fun k => (t1 k).trans (g1 k _ hne).symm, fun h hh => by
              show givenTimeout _ (_ :: _) = _
              rw [g3 _ hne]; exact t2 h hh⟩
        · intro x e hx h1
          show due _ (_ :: _) = _
          rcases key x e hx with ⟨rfl, rfl⟩ | ⟨hx, hne⟩
          · have := arm_unlimited_timed s.now d
            simp only at h1
            rw [this] at h1; cases h1
          · rw [g4 _ hne]; exact T.timed _ _ hx h1
        · intro x e hx h1 k
          show given _ _ (_ :: _) = _
          rcases key x e hx with ⟨rfl, rfl⟩ | ⟨hx, hne⟩
          · simp only [arm_fd]; exact g2 k
          · rw [g1 k _ hne]; exact T.clear _ _ hx h1 k
        · intro f h1 k
          show given _ _ (_ :: _) = _
          by_cases hx : f = d.fd
          · rw [hx]; exact g2 k
          · rw [g1 k _ hx]; exact T.absent _ h1 k
      · next hp =>
        have key : ∀ x e, upd s.heap id none x = some e → (s.heap x = some e ∧ e.fd ≠ d.fd) := by
          intro x e hx
          by_cases hxi : x = id
          · rw [hxi, upd_same] at hx; cases hx
          · rw [upd_other _ _ hxi] at hx; exact ⟨hx, hf x e hx hxi⟩
        subst hs
        refine ⟨?_, ?_, ?_, ?_, T.now, T.right⟩
        · intro x e hx hc
          obtain ⟨hx, hne⟩ := key x e hx
          obtain ⟨t1, t2⟩ := T.desc _ _ hx hc
          exact ⟨fun k => (t1 k).trans (g1 k _ hne).symm, fun h hh => by
            show givenTimeout _ (_ :: _) = _
            rw [g3 _ hne]; exact t2 h hh⟩
        · intro x e hx h1
          show due _ (_ :: _) = _
          obtain ⟨hx, hne⟩ := key x e hx
          rw [g4 _ hne]; exact T.timed _ _ hx h1
        · intro x e hx h1 k
          show given _ _ (_ :: _) = _
          obtain ⟨hx, hne⟩ := key x e hx
          rw [g1 k _ hne]; exact T.clear _ _ hx h1 k
        · intro f h1 k
          show given _ _ (_ :: _) = _
          by_cases hx : f = d.fd
          · rw [hx]; exact g2 k
          · rw [g1 k _ hx]
            change upd s.tree d.fd none f = none at h1
            rw [upd_other _ _ hx] at h1
            exact T.absent _ h1 k
  | onTimeout fd hh =>
    change onTimeout _ fd hh = _ at h
    unfold onTimeout at h
    cases ht : s.tree fd with
    | none => simp [ht] at h
    | some id =>
      obtain ⟨d, hd, rfl⟩ := I.tree _ _ ht
      simp only [ht, bind, Except.bind, deref, hd] at h
      cases h
      have g3 : ∀ f, f ≠ d.fd → givenTimeout f (.did (.onTimeout d.fd hh) :: s.log) = givenTimeout f s.log := by
        intro f hf; simp only [givenTimeout]; rw [if_neg (fun h => hf h.symm)]
      have key : ∀ x e, upd s.heap id (some { d with tmo := hh }) x = some e →
          (x = id ∧ e = { d with tmo := hh }) ∨ (s.heap x = some e ∧ e.fd ≠ d.fd) := by
        intro x e hx
        by_cases hxi : x = id
        · rw [hxi, upd_same] at hx; cases hx; exact .inl ⟨hxi, rfl⟩
        · rw [upd_other _ _ hxi] at hx; exact .inr ⟨hx, fun hf => hxi (I.fd_inj hx hd hf)⟩
      refine ⟨?_, ?_, ?_, T.absent, T.now, T.right⟩
      · intro x e hx hc
        rcases key x e hx with ⟨rfl, rfl⟩ | ⟨hx, hne⟩
        · refine ⟨fun k => (by cases k <;> rfl : _ = d.h k).trans ((T.desc _ _ hd hc).1 k), fun h h' => ?_⟩
          simp only at h'
          show givenTimeout d.fd (_ :: _) = _
          simp [givenTimeout, h']
        · obtain ⟨t1, t2⟩ := T.desc _ _ hx hc
          exact ⟨t1, fun h hh => by
            show givenTimeout _ (_ :: _) = _
            rw [g3 _ hne]; exact t2 h hh⟩
      · intro x e hx h1
        rcases key x e hx with ⟨rfl, rfl⟩ | ⟨hx, hne⟩
        · exact T.timed x d hd h1
        · exact T.timed _ _ hx h1
      · intro x e hx h1 k
        rcases key x e hx with ⟨rfl, rfl⟩ | ⟨hx, hne⟩
        · exact T.clear x d hd h1 k
        · exact T.clear _ _ hx h1 k
  | timer ms hh => cases h; exact ⟨T.desc, T.timed, T.clear, T.absent, T.now, T.right⟩
  | cancel id =>
    change timerCancel _ id = _ at h
    unfold timerCancel at h
    split at h
    · cases h; exact ⟨T.desc, T.timed, T.clear, T.absent, T.now, T.right⟩
    · cases h
  | brk b => cases h; exact ⟨T.desc, T.timed, T.clear, T.absent, T.now, T.right⟩
  | tick us =>
    cases h
    exact ⟨T.desc, T.timed, T.clear, T.absent, by show s.now + us = time s.log + us; rw [T.now], T.right⟩

theorem told_law : Law (fun _ => True) (fun _ => Told) where
  run I T h := told_run I T h
  start {s s' id d} I T hd ha h := by
    rw [start_eq hd] at h
    cases h
    refine T.quiet (.inr ⟨id, d, _, hd, (same_arm s.now d).trans ?_, rfl, rfl, rfl, rfl, rfl, rfl⟩)
    exact same_of rfl rfl rfl rfl rfl rfl (fun h => ⟨h, rfl⟩)
  hush I T hd hp := T.put hd (same_of rfl rfl rfl rfl rfl rfl (fun h => ⟨h, rfl⟩))
  weaken I T hd ha hh := T
  event {s id d k h} I T hd hp hc hb ha hh := by
    refine ⟨T.desc, T.timed, T.clear, T.absent, T.now, ?_, T.right⟩
    rw [← (T.desc _ _ hd hc).1 k]; exact hh
  done I T hd hp := T.put hd (same_of rfl rfl rfl rfl rfl rfl (fun h => ⟨h, rfl⟩))
  finish {s s' id d} I T hd hp h := by
    have := finish_eq I hd hp h
    split at this
    · next hc =>
      subst this
      exact T.drop (d := d) rfl rfl rfl rfl (T.clear _ _ hd hc)
    · subst this
      exact T.put hd (same_of rfl rfl rfl rfl rfl rfl (fun h => ⟨h, rfl⟩))
  timer I T ht he hh hl := ⟨T.desc, T.timed, T.clear, T.absent, T.now, T.right⟩
  timerNone I T ht hh := ⟨T.desc, T.timed, T.clear, T.absent, T.now, T.right⟩
  unlist {s s' id d} I T hd ht h := by
    have := unlist_eq hd h
    subst this
    exact T.quiet (.inr ⟨id, d, { d with inActive := false }, hd, same_of rfl rfl rfl rfl rfl rfl (fun h => ⟨h, rfl⟩), rfl, rfl, rfl, rfl, rfl, rfl⟩)
  timeout {s s' id d h} I T hd ht ha he hh hx := by
    have := expire_eq hd hx
    subst this
    have hc : d.isClear = false := by
      cases hc : d.isClear with
      | false => rfl
      | true => have := (I.clear _ _ hd hc).2.1; rw [ht] at this; cases this
    have T₁ : Told { s with timeouts := s.timeouts.erase id, heap := upd s.heap id (some { d with inProcess := true, timed := false, endUs := 0 }) } :=
      T.quiet (.inr ⟨id, d, { d with inProcess := true, timed := false, endUs := 0 }, hd, same_of rfl rfl rfl rfl rfl rfl (by simp), rfl, rfl, rfl, rfl, rfl, rfl⟩)
    refine ⟨T₁.desc, ?_, T₁.clear, T₁.absent, T₁.now, ?_, ?_, T₁.right⟩
    · intro x e hx h1
      show due e.fd (_ :: _) = _
      have hne : d.fd ≠ e.fd := by
        intro hf
        by_cases hxi : x = id
        · subst hxi
          change upd s.heap x _ x = some e at hx
          rw [upd_same] at hx; cases hx; cases h1
        · change upd s.heap id _ x = some e at hx
          rw [upd_other _ _ hxi] at hx
          exact hxi (I.fd_inj hx hd hf.symm)
      simp only [due]
      rw [if_neg hne]
      exact T₁.timed x e hx h1
    · exact (T.desc _ _ hd hc).2 h hh
    · exact ⟨d.endUs, T.timed _ _ hd ht, by rw [← T.now]; exact he⟩
  timeoutNone {s s' id d} I T hd ht ha hh hx := by
    have := expire_eq hd hx
    subst this
    exact T.quiet (.inr ⟨id, d, { d with inProcess := true, timed := false, endUs := 0 }, hd, same_of rfl rfl rfl rfl rfl rfl (by simp), rfl, rfl, rfl, rfl, rfl, rfl⟩)
  serve _ I T h := T.quiet (serve_quiet I h)

/-! ## Spec of timers -/

/-- How many timers were set. -/
def timersSet : List Ev → Nat
  | [] => 0
  | .did (.timer _ _) :: l => timersSet l + 1
  | _ :: l => timersSet l

/-- When a timer is due and its handler, if it was not cancelled nor called. -/
def pending (id : Nat) : List Ev → Option (Nat × Option Nat)
  | [] => none
  | .did (.timer ms h) :: l => if timersSet l = id then some (time l + ms.toNat * 1000, h) else pending id l
  | .did (.cancel i) :: l => if i = id then none else pending id l
  | .call (.timer i _) :: l => if i = id then none else pending id l
  | _ :: l => pending id l

/-- Every timer called is due, and none is due earlier. -/
def Punctual : List Ev → Prop
  | [] => True
  | .call (.timer id h) :: l =>
    (∃ e, pending id l = some (e, some h) ∧ e ≤ time l ∧
      ∀ id' e' h', pending id' l = some (e', some h') → e ≤ e') ∧ Punctual l
  | _ :: l => Punctual l

/-- No timer was set for more than the milliseconds that are less than 2^32 microseconds. -/
def Short (l : List Ev) : Prop := ∀ ms h, Ev.did (.timer ms h) ∈ l → ms.toNat * 1000 < 2 ^ 32

theorem Short.tail {x : Ev} {l : List Ev} (h : Short (x :: l)) : Short l :=
  fun ms k hm => h ms k (List.mem_cons_of_mem _ hm)

theorem pending_lt {id : Nat} : ∀ {l : List Ev} {x}, pending id l = some x → id < timersSet l := by
  intro l
  induction l with
  | nil => intro x h; cases h
  | cons a l ih =>
    intro x h
    cases a with
    | did o =>
      cases o with
      | timer ms k =>
        simp only [pending] at h
        simp only [timersSet]
        split at h
        · omega
        · have := ih h; omega
      | cancel i =>
        simp only [pending] at h
        split at h
        · cases h
        · exact ih h
      | set => exact ih h
      | clr => exact ih h
      | onTimeout => exact ih h
      | brk => exact ih h
      | tick => exact ih h
    | call c =>
      cases c with
      | timer i k =>
        simp only [pending] at h
        split at h
        · cases h
        · exact ih h
      | event => exact ih h
      | timeout => exact ih h

/-! ## Timers -/

structure Timed (s : St) : Prop where
  now : s.now = time s.log
  next : s.nextTimer = timersSet s.log
  lt : ∀ t ∈ s.timers, t.id < s.nextTimer
  inj : ∀ t ∈ s.timers, ∀ t' ∈ s.timers, t.id = t'.id → t = t'
  mem : Short s.log → ∀ t ∈ s.timers, pending t.id s.log = some (t.endTm, t.h)
  all : Short s.log → ∀ id e h, pending id s.log = some (e, some h) → ({ id := id, endTm := e, h := some h } : Timer) ∈ s.timers
  right : Short s.log → Punctual s.log

theorem timed_new (plan : List (List Op)) : Timed (new plan) := by
  constructor <;> simp [new, time, timersSet, Punctual, pending]

theorem Timed.frame {s s' : St} (T : Timed s) (h1 : s'.timers = s.timers) (h2 : s'.nextTimer = s.nextTimer)
    (h3 : s'.log = s.log) (h4 : s'.now = s.now) : Timed s' := by
  constructor
  · rw [h3, h4]; exact T.now
  · rw [h2, h3]; exact T.next
  · rw [h1, h2]; exact T.lt
  · rw [h1]; exact T.inj
  · rw [h1, h3]; exact T.mem
  · rw [h1, h3]; exact T.all
  · rw [h3]; exact T.right

/-- Something else happens. -/
theorem Timed.skip {s s' : St} (T : Timed s) {x : Ev} (h1 : s'.timers = s.timers) (h2 : s'.nextTimer = s.nextTimer)
    (h3 : s'.log = x :: s.log) (h4 : s'.now = s.now) (hx : (∃ f m o a t h, x = .did (.set f m o a t h)) ∨
      (∃ f, x = .did (.clr f)) ∨ (∃ f h, x = .did (.onTimeout f h)) ∨ (∃ b, x = .did (.brk b)) ∨
      (∃ k f h, x = .call (.event k f h)) ∨ (∃ f h, x = .call (.timeout f h))) : Timed s' := by
  have e1 : time (x :: s.log) = time s.log := by
    rcases hx with ⟨_, _, _, _, _, _, rfl⟩ | ⟨_, rfl⟩ | ⟨_, _, rfl⟩ | ⟨_, rfl⟩ | ⟨_, _, _, rfl⟩ | ⟨_, _, rfl⟩ <;> rfl
  have e2 : timersSet (x :: s.log) = timersSet s.log := by
    rcases hx with ⟨_, _, _, _, _, _, rfl⟩ | ⟨_, rfl⟩ | ⟨_, _, rfl⟩ | ⟨_, rfl⟩ | ⟨_, _, _, rfl⟩ | ⟨_, _, rfl⟩ <;> rfl
  have e3 : ∀ id, pending id (x :: s.log) = pending id s.log := by
    intro id
    rcases hx with ⟨_, _, _, _, _, _, rfl⟩ | ⟨_, rfl⟩ | ⟨_, _, rfl⟩ | ⟨_, rfl⟩ | ⟨_, _, _, rfl⟩ | ⟨_, _, rfl⟩ <;> rfl
  have e4 : Punctual (x :: s.log) = Punctual s.log := by
    rcases hx with ⟨_, _, _, _, _, _, rfl⟩ | ⟨_, rfl⟩ | ⟨_, _, rfl⟩ | ⟨_, rfl⟩ | ⟨_, _, _, rfl⟩ | ⟨_, _, rfl⟩ <;> rfl
  constructor
  · rw [h3, h4, e1]; exact T.now
  · rw [h2, h3, e2]; exact T.next
  · rw [h1, h2]; exact T.lt
  · rw [h1]; exact T.inj
  · rw [h1, h3]; intro hs t ht; rw [e3]; exact T.mem hs.tail t ht
  · rw [h1, h3]; intro hs id e h hp; rw [e3] at hp; exact T.all hs.tail id e h hp
  · rw [h3, e4]; exact fun hs => T.right hs.tail

theorem clrSet_fields {s s' : St} {fd : Nat} (I : Inv s) (h : clrSet s fd = .ok s') :
    s'.timers = s.timers ∧ s'.nextTimer = s.nextTimer ∧ s'.log = s.log ∧ s'.now = s.now ∧ s'.isBreak = s.isBreak ∧
    s'.plan = s.plan := by
  cases ht : s.tree fd with
  | none => unfold clrSet at h; rw [ht] at h; cases h; exact ⟨rfl, rfl, rfl, rfl, rfl, rfl⟩
  | some id =>
    obtain ⟨d, hd, rfl⟩ := I.tree _ _ ht
    have := (clrSet_eq ht hd).mp h
    dsimp only at this
    split at this <;> subst this <;> exact ⟨rfl, rfl, rfl, rfl, rfl, rfl⟩

theorem timed_run {s s' : St} {o : Op} (I : Inv s) (T : Timed s) (h : run s o = .ok s') : Timed s' := by
  have I₀ : Inv { s with log := .did o :: s.log } := inv_frame I rfl rfl rfl rfl rfl rfl
  unfold run at h
  cases o with
  | set fd mask o ap t hh =>
    obtain ⟨id, b, other, hb, -, rfl⟩ := fdSet_eq h
    obtain ⟨f1, f2, f3, f4, f5, -, -⟩ := settled_fields { s with log := .did (.set fd mask o ap t hh) :: s.log } fd mask o t hh id b other
    exact T.skip f4 f5 f2 f3 (.inl ⟨_, _, _, _, _, _, rfl⟩)
  | clr fd =>
    obtain ⟨f1, f2, f3, f4, -, -⟩ := clrSet_fields I₀ h
    exact T.skip f1 f2 f3 f4 (.inr (.inl ⟨_, rfl⟩))
  | onTimeout fd hh =>
    change onTimeout _ fd hh = _ at h
    unfold onTimeout at h
    cases ht : s.tree fd with
    | none => simp [ht] at h
    | some id =>
      obtain ⟨d, hd, rfl⟩ := I.tree _ _ ht
      simp only [ht, bind, Except.bind, deref, hd] at h
      cases h
      exact T.skip rfl rfl rfl rfl (.inr (.inr (.inl ⟨_, _, rfl⟩)))
  | brk b => cases h; exact T.skip rfl rfl rfl rfl (.inr (.inr (.inr (.inl ⟨_, rfl⟩))))
  | tick us =>
    cases h
    exact ⟨by show s.now + us = time s.log + us; rw [T.now], T.next, T.lt, T.inj, fun hs => T.mem hs.tail,
      fun hs => T.all hs.tail, fun hs => T.right hs.tail⟩
  | timer ms hh =>
    cases h
    simp only [timerSet]
    have hp : ∀ id, id ≠ s.nextTimer → pending id (.did (.timer ms hh) :: s.log) = pending id s.log := by
      intro id hid
      simp only [pending]
      rw [if_neg (by rw [← T.next]; exact fun h => hid h.symm)]
    have hq : pending s.nextTimer (.did (.timer ms hh) :: s.log) = some (time s.log + ms.toNat * 1000, hh) := by
      simp [pending, T.next]
    have hms : Short (.did (.timer ms hh) :: s.log) → (ms * 1000#32).toNat = ms.toNat * 1000 := by
      intro hs
      have := hs ms hh (by simp)
      rw [BitVec.toNat_mul]
      exact Nat.mod_eq_of_lt (by simpa using this)
    refine ⟨T.now, by show s.nextTimer + 1 = timersSet s.log + 1; rw [T.next], ?_, ?_, ?_, ?_, fun hs => T.right hs.tail⟩
    · intro t ht
      simp only [List.mem_append, List.mem_singleton] at ht
      show t.id < s.nextTimer + 1
      rcases ht with ht | rfl
      · have := T.lt t ht; omega
      · exact Nat.lt_succ_self _
    · intro t ht t' ht' hid
      simp only [List.mem_append, List.mem_singleton] at ht ht'
      rcases ht with ht | rfl <;> rcases ht' with ht' | rfl
      · exact T.inj t ht t' ht' hid
      · have := T.lt t ht; simp only at hid; omega
      · have := T.lt t' ht'; simp only at hid; omega
      · rfl
    · intro hs t ht
      simp only [List.mem_append, List.mem_singleton] at ht
      show pending t.id (_ :: _) = _
      rcases ht with ht | rfl
      · rw [hp _ (by have := T.lt t ht; omega)]; exact T.mem hs.tail t ht
      · simp only
        rw [hq, hms hs, T.now]
    · intro hs id e k hk
      change pending id (_ :: _) = _ at hk
      simp only [List.mem_append, List.mem_singleton]
      by_cases hid : id = s.nextTimer
      · right
        rw [hid, hq] at hk
        simp only [Option.some.injEq, Prod.mk.injEq] at hk
        rw [hid, hms hs, T.now, hk.1, hk.2]
      · left
        rw [hp _ hid] at hk
        exact T.all hs.tail id e k hk
  | cancel id =>
    change timerCancel _ id = _ at h
    unfold timerCancel at h
    split at h
    · cases h
      refine ⟨T.now, T.next, ?_, ?_, ?_, ?_, fun hs => T.right hs.tail⟩
      · intro t ht; exact T.lt t (List.mem_filter.mp ht).1
      · intro t ht t' ht' hid; exact T.inj t (List.mem_filter.mp ht).1 t' (List.mem_filter.mp ht').1 hid
      · intro hs t ht
        obtain ⟨ht, hne⟩ := List.mem_filter.mp ht
        show pending t.id (_ :: _) = _
        simp only [pending]
        rw [if_neg (fun h => by simp [h] at hne)]
        exact T.mem hs.tail t ht
      · intro hs i e k hk
        change pending i (_ :: _) = _ at hk
        simp only [pending] at hk
        split at hk
        · cases hk
        · next hne =>
          exact List.mem_filter.mpr ⟨T.all hs.tail i e k hk, by simp only [bne_iff_ne, ne_eq]; exact fun h => hne h.symm⟩
    · cases h

theorem timed_law : Law (fun _ => True) (fun _ => Timed) where
  run I T h := timed_run I T h
  start {s s' id d} I T hd ha h := by
    rw [start_eq hd] at h
    cases h
    exact T.frame rfl rfl rfl rfl
  hush I T hd hp := T.frame rfl rfl rfl rfl
  weaken I T hd ha hh := T
  event {s id d k h} I T hd hp hc hb ha hh := T.skip rfl rfl rfl rfl (.inr (.inr (.inr (.inr (.inl ⟨_, _, _, rfl⟩)))))
  done I T hd hp := T.frame rfl rfl rfl rfl
  finish {s s' id d} I T hd hp h := by
    have := finish_eq I hd hp h
    split at this <;> subst this <;> exact T.frame rfl rfl rfl rfl
  timer {s t h} I T ht he hh hl := by
    refine ⟨T.now, T.next, ?_, ?_, ?_, ?_, ?_⟩
    · intro t' ht'; exact T.lt t' (List.mem_filter.mp ht').1
    · intro t' ht' t'' ht'' hid; exact T.inj t' (List.mem_filter.mp ht').1 t'' (List.mem_filter.mp ht'').1 hid
    · intro hs t' ht'
      obtain ⟨ht', hne⟩ := List.mem_filter.mp ht'
      show pending t'.id (_ :: _) = _
      simp only [pending]
      rw [if_neg (fun h => by simp [h] at hne)]
      exact T.mem (Short.tail hs) t' ht'
    · intro hs i e k hk
      change pending i (_ :: _) = _ at hk
      simp only [pending] at hk
      split at hk
      · cases hk
      · next hne =>
        exact List.mem_filter.mpr ⟨T.all (Short.tail hs) i e k hk, by simp only [bne_iff_ne, ne_eq]; exact fun h => hne h.symm⟩
    · intro hs
      have hs' : Short s.log := Short.tail hs
      refine ⟨⟨t.endTm, by rw [T.mem hs' t ht, hh], by rw [← T.now]; exact he, ?_⟩, T.right hs'⟩
      intro id' e' h' hp
      exact hl _ (T.all hs' id' e' h' hp)
  timerNone {s t} I T ht hh := by
    refine ⟨T.now, T.next, ?_, ?_, ?_, ?_, T.right⟩
    · intro t' ht'; exact T.lt t' (List.mem_filter.mp ht').1
    · intro t' ht' t'' ht'' hid; exact T.inj t' (List.mem_filter.mp ht').1 t'' (List.mem_filter.mp ht'').1 hid
    · intro hs t' ht'; exact T.mem hs t' (List.mem_filter.mp ht').1
    · intro hs i e k hk
      refine List.mem_filter.mpr ⟨T.all hs i e k hk, ?_⟩
      simp only [bne_iff_ne, ne_eq]
      rintro rfl
      have := T.mem hs t ht
      rw [hh, hk] at this
      cases this
  unlist {s s' id d} I T hd ht h := by
    have := unlist_eq hd h
    subst this
    exact T.frame rfl rfl rfl rfl
  timeout {s s' id d h} I T hd ht ha he hh hx := by
    have := expire_eq hd hx
    subst this
    exact T.skip rfl rfl rfl rfl (.inr (.inr (.inr (.inr (.inr ⟨_, _, rfl⟩)))))
  timeoutNone {s s' id d} I T hd ht ha hh hx := by
    have := expire_eq hd hx
    subst this
    exact T.frame rfl rfl rfl rfl
  serve _ I T h := by
    rcases serve_quiet I h with rfl | ⟨_, _, _, _, _, _, _, h1, h2, h3, h4⟩
    · exact T
    · exact T.frame h3 h4 h1 h2

/-! ## Theorems -/

theorem all_true {is : List Item} : ∀ i ∈ is, i.All (fun _ => True) := by
  intro i _
  cases i with
  | op o => trivial
  | dispatch Es => intro E _ e _; trivial

/-- Whatever a program and its handlers do and whatever epoll reports, no freed descriptor is used (C158). -/
theorem memory_safe (plan : List (List Op)) (n : Nat) (is : List Item) :
    program n is (new plan) ≠ .error .freed := by
  have := told_law.program (n := n) is (new plan) all_true (inv_new plan) (told_new plan)
  intro h
  rw [h] at this
  exact this rfl

theorem right_at {l₁ l₂ : List Ev} {x : Ev} (h : Right (l₁ ++ x :: l₂)) : Right (x :: l₂) := by
  induction l₁ with
  | nil => exact h
  | cons a l₁ ih =>
    apply ih
    cases a with
    | did o => exact h
    | call c =>
      cases c with
      | event => exact h.2
      | timeout => exact h.2.2
      | timer => exact h

theorem told_program {plan : List (List Op)} {n : Nat} {is : List Item} {s : St}
    (h : program n is (new plan) = .ok s) : Inv s ∧ Told s := by
  have := told_law.program (n := n) is (new plan) all_true (inv_new plan) (told_new plan)
  rw [h] at this
  exact this

/-- A handler is called only for an event it was given for, and only if it is the last one given since the
descriptor was cleared (C159). -/
theorem handlers_given {plan : List (List Op)} {n : Nat} {is : List Item} {s : St}
    (h : program n is (new plan) = .ok s) {l₁ l₂ : List Ev} {k : Kind} {fd x : Nat}
    (hl : s.log = l₁ ++ .call (.event k fd x) :: l₂) : given k fd l₂ = some x := by
  have := (told_program h).2.right
  rw [hl] at this
  exact (right_at this).1

theorem given_cleared {k : Kind} {fd x : Nat} : ∀ {l₂ l₃ : List Ev},
    given k fd (l₂ ++ .did (.clr fd) :: l₃) = some x →
    ∃ m o a t, Ev.did (.set fd m o a t (some x)) ∈ l₂ ∧ m.get k = true := by
  intro l₂
  induction l₂ with
  | nil => intro l₃ h; simp [given] at h
  | cons a l₂ ih =>
    intro l₃ h
    have rest : given k fd (l₂ ++ .did (.clr fd) :: l₃) = some x →
        ∃ m o b t, Ev.did (.set fd m o b t (some x)) ∈ a :: l₂ ∧ m.get k = true := by
      intro h
      obtain ⟨m, o, b, t, hm, hk⟩ := ih h
      exact ⟨m, o, b, t, List.mem_cons_of_mem _ hm, hk⟩
    cases a with
    | call c => exact rest h
    | did o =>
      cases o with
      | set f m o b t y =>
        simp only [List.cons_append, given] at h
        split at h
        · next hc =>
          obtain ⟨rfl, hk⟩ := hc
          subst h
          exact ⟨m, o, b, t, by simp, hk⟩
        · exact rest h
      | clr f =>
        simp only [List.cons_append, given] at h
        split at h
        · cases h
        · exact rest h
      | onTimeout => exact rest h
      | timer => exact rest h
      | cancel => exact rest h
      | brk => exact rest h
      | tick => exact rest h

/-- After a descriptor was cleared, even by one of its own handlers or while events of it were waiting, no
handler is called for it that was not set again (C159). -/
theorem cleared_silent {plan : List (List Op)} {n : Nat} {is : List Item} {s : St}
    (h : program n is (new plan) = .ok s) {l₁ l₂ l₃ : List Ev} {k : Kind} {fd x : Nat}
    (hl : s.log = l₁ ++ .call (.event k fd x) :: (l₂ ++ .did (.clr fd) :: l₃)) :
    ∃ m o a t, Ev.did (.set fd m o a t (some x)) ∈ l₂ ∧ m.get k = true :=
  given_cleared (handlers_given h hl)

/-- The handler of a timeout is the last one given, and its time has come: the timeout was set, not changed,
and the descriptor not cleared since (C160). -/
theorem timeouts_due {plan : List (List Op)} {n : Nat} {is : List Item} {s : St}
    (h : program n is (new plan) = .ok s) {l₁ l₂ : List Ev} {fd x : Nat}
    (hl : s.log = l₁ ++ .call (.timeout fd x) :: l₂) :
    givenTimeout fd l₂ = some x ∧ ∃ t, due fd l₂ = some t ∧ t ≤ time l₂ := by
  have := (told_program h).2.right
  rw [hl] at this
  have := right_at this
  exact ⟨this.1, this.2.1⟩

/-- A timeout of 2147484 milliseconds or more is an overflow (C160). -/
theorem timeout_overflow {s : St} {fd v : Nat} {m : Mask} {o a : Bool} {h : Option Nat} (hv : 2147484 ≤ v)
    (hs : s.tree fd = none) : run s (.set fd m o a (.ms v) h) = .error .overflow := by
  simp only [run, act, fdSet, hs, normalNew, timeoutSet, bind, Except.bind, deref, put, upd_same]
  rw [if_pos (by omega)]

theorem punctual_at {l₁ l₂ : List Ev} {x : Ev} (h : Punctual (l₁ ++ x :: l₂)) : Punctual (x :: l₂) := by
  induction l₁ with
  | nil => exact h
  | cons a l₁ ih =>
    apply ih
    cases a with
    | did o => exact h
    | call c =>
      cases c with
      | event => exact h
      | timeout => exact h
      | timer => exact h.2

theorem timed_program {plan : List (List Op)} {n : Nat} {is : List Item} {s : St}
    (h : program n is (new plan) = .ok s) : Inv s ∧ Timed s := by
  have := timed_law.program (n := n) is (new plan) all_true (inv_new plan) (timed_new plan)
  rw [h] at this
  exact this

/-- A timer is called once, when it is due, with its handler, not if it was cancelled, and none that is due
earlier is left: for timers of less than 4294968 milliseconds (C161). -/
theorem timers_punctual_partial {plan : List (List Op)} {n : Nat} {is : List Item} {s : St}
    (h : program n is (new plan) = .ok s) (hs : Short s.log) {l₁ l₂ : List Ev} {id x : Nat}
    (hl : s.log = l₁ ++ .call (.timer id x) :: l₂) :
    ∃ e, pending id l₂ = some (e, some x) ∧ e ≤ time l₂ ∧
      ∀ id' e' x', pending id' l₂ = some (e', some x') → e ≤ e' := by
  have := (timed_program h).2.right hs
  rw [hl] at this
  exact (punctual_at this).1

/-- What a loop leaves is not due. -/
theorem timerLoop_left {now : Nat} : ∀ {n : Nat} {s s' : St}, timerLoop now n s = .ok s' → s'.isBreak = false →
    ∀ t ∈ s'.timers, now < t.endTm
  | n + 1, s, s', h, hb => by
    unfold timerLoop at h
    split at h
    · next hn => cases h; rw [least_none hn]; simp
    · next t ht =>
      split at h
      · next hgt =>
        cases h
        intro t' ht'
        have := least_le ht t' ht'
        omega
      · rw [bind_ok] at h
        obtain ⟨s₁, h₁, h⟩ := h
        split at h
        · next hb' => cases h; rw [hb] at hb'; cases hb'
        · exact timerLoop_left h hb

theorem now_law (a : Nat) : Law (fun _ => True) (fun _ s => a ≤ s.now) where
  run I T h := Nat.le_trans T (now_run h)
  start {s s' id d} I T hd ha h := by rw [start_eq hd] at h; cases h; exact T
  hush I T hd hp := T
  weaken I T hd ha hh := T
  event I T hd hp hc hb ha hh := T
  done I T hd hp := T
  finish {s s' id d} I T hd hp h := by rw [now_finish h]; exact T
  timer I T ht he hh hl := T
  timerNone I T ht hh := T
  unlist {s s' id d} I T hd ht h := by rw [unlist_eq hd h]; exact T
  timeout {s s' id d h} I T hd ht ha he hh hx := by rw [expire_eq hd hx]; exact T
  timeoutNone {s s' id d} I T hd ht ha hh hx := by rw [expire_eq hd hx]; exact T
  serve {s s' e} _ I T h := by
    rcases serve_quiet I h with rfl | ⟨_, _, _, _, _, _, _, _, h2, _⟩
    · exact T
    · rw [h2]; exact T

theorem serveAll_timers : ∀ {es : List Report} {s s' : St}, Inv s → serveAll s es = .ok s' → s'.timers = s.timers
  | [], s, s', _, h => by cases h; rfl
  | e :: es, s, s', I, h => by
    unfold serveAll at h
    rw [bind_ok] at h
    obtain ⟨s₁, h₁, h⟩ := h
    have I₁ : Inv s₁ := by have := inv_serve (e := e) I; rw [h₁] at this; exact this
    rw [serveAll_timers I₁ h]
    rcases serve_quiet I h₁ with rfl | ⟨_, _, _, _, _, _, _, _, _, h3, _⟩
    · rfl
    · exact h3

/-- After a round in which the loop is not ended, no timer is left that was due when the round began (C161). -/
theorem timers_called_partial {plan : List (List Op)} {n : Nat} {is : List Item} {s s' : St} {E : Env}
    (h : program n is (new plan) = .ok s) (hb : s.isBreak = false) (hr : round n E s = .ok s')
    (hb' : s'.isBreak = false) (hs : Short s'.log) {id e x : Nat} (hp : pending id s'.log = some (e, some x)) :
    time s.log < e := by
  obtain ⟨I, T⟩ := timed_program h
  have T' : Inv s' ∧ Timed s' := by
    have := timed_law.round (n := n) (E := E) (fun _ _ => trivial) I T
    rw [hr] at this; exact this
  have hm := T'.2.all hs id e x hp
  rw [← T.now]
  unfold round at hr
  rw [hb] at hr
  simp only [Bool.false_eq_true, if_false] at hr
  rw [bind_ok] at hr
  obtain ⟨s₁, h₁, hr⟩ := hr
  have L := now_law s.now
  have G₁ : Inv s₁ ∧ s.now ≤ s₁.now := by
    have := L.timerLoop s.now n s I (Nat.le_refl _) (Nat.le_refl _)
    unfold timerProcess at h₁
    rw [h₁] at this; exact this
  split at hr
  · next hq => cases hr; rw [hb'] at hq; cases hq
  rw [bind_ok] at hr
  obtain ⟨s₂, h₂, hr⟩ := hr
  have G₂ : Inv s₂ ∧ s.now ≤ s₂.now := by
    unfold activePhase at h₂
    split at h₂
    · cases h₂; exact G₁
    · have := L.activeLoop n s₁ G₁.1 G₁.2
      unfold activeProcess at h₂
      rw [h₂] at this; exact this
  split at hr
  · next hq => cases hr; rw [hb'] at hq; cases hq
  rw [bind_ok] at hr
  obtain ⟨s₃, h₃, hr⟩ := hr
  have G₃ : Inv s₃ ∧ s.now ≤ s₃.now := by
    have := L.timeoutLoop s₂.now n s₂ G₂.1 G₂.2 (Nat.le_refl _)
    unfold timeoutProcess at h₃
    rw [h₃] at this; exact this
  split at hr
  · next hq => cases hr; rw [hb'] at hq; cases hq
  rw [bind_ok] at hr
  obtain ⟨s₄, h₄, hr⟩ := hr
  have G₄ : Inv s₄ ∧ s.now ≤ s₄.now := by
    have := L.timerLoop s₃.now n s₃ G₃.1 G₃.2 (Nat.le_refl _)
    unfold timerProcess at h₄
    rw [h₄] at this; exact this
  split at hr
  · next hq => cases hr; rw [hb'] at hq; cases hq
  next hq =>
  rw [bind_ok] at hr
  obtain ⟨s₅, h₅, hr⟩ := hr
  have hleft := timerLoop_left h₄ (by simpa using hq)
  have I₅ := inv_run G₄.1 h₅
  cases h₅
  rw [serveAll_timers I₅ hr] at hm
  have := hleft _ hm
  simp only at this
  omega

/-- A timer of 4294968 milliseconds or more is called early: its microseconds are counted in 32 bits (C161). -/
theorem timer_early (ms : BitVec 32) (x : Nat) (hms : 4294968 ≤ ms.toNat) :
    ∃ s us, program 2 [.op (.timer ms (some x)), .op (.tick us), .dispatch [{}]] (new []) = .ok s ∧
      us < ms.toNat * 1000 ∧
      s.log = [.did (.tick 0), .call (.timer 0 x), .did (.tick us), .did (.timer ms (some x))] := by
  have hlt : (ms * 1000#32).toNat < ms.toNat * 1000 := by
    have := (ms * 1000#32).isLt
    omega
  generalize hu : (ms * 1000#32).toNat = us at hlt
  have hp : program 2 [.op (.timer ms (some x)), .op (.tick us), .dispatch [{}]] (new []) =
      .ok { new [] with
            nextTimer := 1
            now := us
            log := [.did (.tick 0), .call (.timer 0 x), .did (.tick us), .did (.timer ms (some x))] } := by
    simp [program, dispatch, run, act, timerSet, new, hu, bind, Except.bind, round, timerProcess, timerLoop, least,
      callOpt, call, begin, runAll, activePhase, activeProcess, activeLoop, timeoutProcess, timeoutLoop, serveAll]
  exact ⟨_, us, hp, hlt, rfl⟩

/-! ## Cases -/

/-- What a program logged. -/
def logOf : M St → Option (List Ev)
  | .ok s => some s.log
  | .error _ => none

/-- The handler of RECV clears the descriptor: the handler of SEND, whose event came as well, is not called. -/
example : logOf (program 4 [.op (.set 5 { r := true } false false .unlimited (some 1)),
      .op (.set 5 { s := true } false true .unmodified (some 2)),
      .dispatch [{ reports := [{ fd := 5, inn := true, out := true }] }, {}]] (new [[.clr 5]])) =
    some [.did (.tick 0), .did (.clr 5), .call (.event .recv 5 1), .did (.tick 0),
      .did (.set 5 { s := true } false true .unmodified (some 2)),
      .did (.set 5 { r := true } false false .unlimited (some 1))] := by decide +kernel

/-- And here it sets it again with another handler. -/
example : logOf (program 4 [.op (.set 5 { r := true } false false .unlimited (some 1)),
      .dispatch [{ reports := [{ fd := 5, inn := true }] }, { reports := [{ fd := 5, inn := true }] }, {}]]
      (new [[.clr 5, .set 5 { r := true } false false .unlimited (some 7)], [.brk true]])) =
    some [.did (.brk true), .call (.event .recv 5 7), .did (.tick 0),
      .did (.set 5 { r := true } false false .unlimited (some 7)), .did (.clr 5), .call (.event .recv 5 1),
      .did (.tick 0), .did (.set 5 { r := true } false false .unlimited (some 1))] := by decide +kernel

/-- A timeout after three milliseconds, and not again. -/
example : logOf (program 4 [.op (.set 5 { r := true } false false (.ms 3) (some 1)), .op (.onTimeout 5 (some 9)),
      .dispatch [{ elapsed := 2999 }, { elapsed := 1 }, {}, {}]] (new [])) =
    some [.did (.tick 0), .did (.tick 0), .call (.timeout 5 9), .did (.tick 1), .did (.tick 2999),
      .did (.onTimeout 5 (some 9)), .did (.set 5 { r := true } false false (.ms 3) (some 1))] := by decide +kernel

/-- Timers in the order in which they are due; one of them is cancelled by another. -/
example : logOf (program 5 [.op (.timer 3 (some 1)), .op (.timer 1 (some 2)), .op (.timer 2 (some 3)),
      .op (.tick 3000), .dispatch [{}]] (new [[.cancel 2]])) =
    some [.did (.tick 0), .call (.timer 0 1), .did (.cancel 2), .call (.timer 1 2), .did (.tick 3000),
      .did (.timer 2 (some 3)), .did (.timer 1 (some 2)), .did (.timer 3 (some 1))] := by decide +kernel

/-- 4294968 milliseconds are over after 704 microseconds. -/
example : (4294968#32 * 1000#32).toNat = 704 := by decide +kernel

end Verif.Event
