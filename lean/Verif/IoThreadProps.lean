import Mathlib.Tactic.Common
import Mathlib.Data.List.Nodup
import Verif.IoThread
/-
Property C56: messages of the I/O thread module.
-/
set_option linter.unusedSimpArgs false
namespace Verif.IoThread

/-! ### Specification (events only) -/

/-- The messages handled for side `d`, oldest first (the history has the newest first). -/
def handledOf (d : Dir) : List Ev → List Nat
  | [] => []
  | .handled d' m _ :: l => if d' = d then handledOf d l ++ [m] else handledOf d l
  | _ :: l => handledOf d l

/-- The handler was called for `m`, and if it kept the message back it was released. -/
def Done (m : Nat) (tr : List Ev) : Prop :=
  ∃ d h, Ev.handled d m h ∈ tr ∧ (h = true → Ev.released m ∈ tr)

/-- `mln_iothread_send` for `m1` returned 0 before the one for `m2` was called. -/
def Before (m1 m2 : Nat) (tr : List Ev) : Prop :=
  ∃ new old d, tr = new ++ Ev.sendCall d m2 :: old ∧ Ev.sendRet m1 0 ∈ old

/-- The receive that handled `m` (or a later one for the same side) has returned. -/
def Returned (d : Dir) (m : Nat) (tr : List Ev) : Prop :=
  ∃ new old t n, tr = new ++ Ev.recvRet t d n :: old ∧ m ∈ handledOf d old

/-- What clients do: `feedback` is 0 or odd (the field has one bit), and a message is
released once, by a client that keeps back a message with feedback, and not before the
receive that handled it has returned. -/
def legal (s : St) (t : Nat) (c : Call) : Prop :=
  s.pc t = .idle → match c with
    | .send _ f => f = 0 ∨ f % 2 = 1
    | .recv _ => True
    | .release m => (∃ d, Ev.handled d m true ∈ s.trace ∧ Returned d m s.trace) ∧ s.bit m = true ∧ Ev.released m ∉ s.trace

def legalRun : St → List (Nat × Call × Bool) → Prop
  | _, [] => True
  | s, (t, c, ok) :: l => legal s t c ∧ ∀ s', step s t c ok = some s' → legalRun s' l

/-! ### Invariant -/

/-- The lock a thread has. -/
def holds : PC → Option Dir
  | .s2 d _ _ | .s3 d _ _ | .s4 d _ _ | .s5 d _ _ => some d
  | .r2 d _ _ | .r3 d _ _ _ | .r4 d _ _ _ | .r5 d _ _ | .r6 d _ => some d
  | _ => none

/-- The message a thread is sending. -/
def sm : PC → Option Nat
  | .s1 _ m _ | .s2 _ m _ | .s3 _ m _ | .s4 _ m _ | .s5 _ m _ => some m
  | .s4f m | .s6 m | .s7 m => some m
  | _ => none

/-- Taken off the chain, handler not yet called. -/
def popped : Option PC → List Nat
  | some (.r3 _ _ _ m) => [m]
  | _ => []

/-- Wake-up bytes, by what the owner of the lock is doing. -/
def pendSpec (p : Option PC) (q : List Nat) (n : Nat) : Prop :=
  match p with
  | some (.s3 _ m _) => ∃ q', q = q' ++ [m] ∧ n = if q' = [] then 0 else 1
  | some (.r2 _ pos _) => n = (if pos = none then 0 else 1) ∧ (pos = none → q = [])
  | some (.r3 _ pos _ _) | some (.r4 _ pos _ _) => n = 1 ∧ pos ≠ none
  | some (.r5 _ pos _) => n = (if pos = none then 0 else 1) ∧ q = []
  | some (.r6 _ _) => n = 0 ∧ q = []
  | _ => n = if q = [] then 0 else 1

def sendOK (s : St) (L : Dir → List Nat) (D : Nat → Dir) : PC → Prop
  | .s1 d m f | .s2 d m f => D m = d ∧ m < s.next ∧ m ∉ L d ∧ s.alive m = true ∧
      s.bit m = decide (f ≠ 0) ∧ s.mtx m = decide (f ≠ 0) ∧ (∀ r, Ev.sendRet m r ∉ s.trace)
  | .s3 d m f | .s5 d m f => D m = d ∧ m < s.next ∧ m ∈ L d ∧ s.bit m = decide (f ≠ 0) ∧
      (f ≠ 0 → s.alive m = true) ∧ (∀ r, Ev.sendRet m r ∉ s.trace)
  | .s4 d m _ => D m = d ∧ m < s.next ∧ m ∉ L d ∧ s.alive m = true ∧ (∀ r, Ev.sendRet m r ∉ s.trace)
  | .s4f m => m < s.next ∧ m ∉ L (D m) ∧ s.alive m = true ∧ (∀ r, Ev.sendRet m r ∉ s.trace)
  | .s6 m => m < s.next ∧ m ∈ L (D m) ∧ s.bit m = true ∧ s.alive m = true ∧ (∀ r, Ev.sendRet m r ∉ s.trace)
  | .s7 m => m < s.next ∧ m ∈ L (D m) ∧ s.bit m = true ∧ s.alive m = true ∧ (∀ r, Ev.sendRet m r ∉ s.trace) ∧
      Done m s.trace
  | .r4 d _ _ m => m ∈ handledOf d s.trace ∧ s.alive m = true ∧ s.mtx m = s.bit m ∧ Ev.released m ∉ s.trace ∧
      Ev.handled d m (s.hold m) ∈ s.trace ∧ ¬ Returned d m s.trace
  | _ => True

structure InvL (s : St) (L : Dir → List Nat) (D : Nat → Dir) : Prop where
  lk : ∀ t d, s.lock d = some t ↔ holds (s.pc t) = some d
  sq : ∀ d, L d = handledOf d s.trace ++ popped ((s.lock d).map s.pc) ++ s.queue d
  nd : ∀ d, (L d).Nodup
  dir : ∀ d m, m ∈ L d → D m = d
  pd : ∀ d, pendSpec ((s.lock d).map s.pc) (s.queue d) (s.pend (recvFd d))
  snd : ∀ t, sendOK s L D (s.pc t)
  uq : ∀ t u m, sm (s.pc t) = some m → sm (s.pc u) = some m → t = u
  /-- called -/
  lt : ∀ d m, m ∈ L d → m < s.next
  ct : ∀ d m, Ev.sendCall d m ∈ s.trace → m < s.next ∧ D m = d
  cl : ∀ m, m < s.next → Ev.sendCall (D m) m ∈ s.trace
  rt : ∀ m r, Ev.sendRet m r ∈ s.trace → m < s.next ∧ (r = 0 ↔ m ∈ L (D m))
  hd : ∀ d m h, Ev.handled d m h ∈ s.trace → m ∈ handledOf d s.trace
  /-- waiting -/
  un : ∀ d m, m ∈ L d → m ∉ handledOf d s.trace → s.alive m = true ∧ s.mtx m = s.bit m
  rl : ∀ m, Ev.released m ∈ s.trace → Ev.handled (D m) m true ∈ s.trace
  /-- kept back -/
  kp : ∀ d m, Ev.handled d m true ∈ s.trace → s.bit m = true → Ev.released m ∉ s.trace →
    s.alive m = true ∧ s.mtx m = true
  /-- given back -/
  gv : ∀ m, m ∈ L (D m) → s.bit m = true → s.mtx m = false → Done m s.trace
  /-- returned -/
  fb : ∀ m, Ev.sendRet m 0 ∈ s.trace → s.bit m = true → Done m s.trace
  x7 : ∀ t u m d pos n, s.pc t = .s7 m → s.pc u ≠ .r4 d pos n m
  hu : ∀ d d' m k k', Ev.handled d m k ∈ s.trace → Ev.handled d' m k' ∈ s.trace → k = k'
  od : ∀ d m1 m2, m2 ∈ L d → D m1 = d → Before m1 m2 s.trace → List.Sublist [m1, m2] (L d)
  rv : ∀ new old t d n m, s.trace = new ++ Ev.recvRet t d n :: old → Ev.sendRet m 0 ∈ old → D m = d →
    m ∈ handledOf d old

theorem handledOf_mem {d m tr} : m ∈ handledOf d tr ↔ ∃ h, Ev.handled d m h ∈ tr := by
  induction tr with
  | nil => simp [handledOf]
  | cons e tr ih =>
    cases e with
    | handled d' m' h' =>
      simp only [handledOf]
      split
      · next h => subst h; simp [ih]; grind
      · next h => simp [ih]; grind
    | _ => simp [handledOf, ih]

theorem inv_init : InvL init (fun _ => []) (fun _ => .io) := by
  constructor <;> simp [init, holds, popped, handledOf, pendSpec, sendOK, sm, Before]


theorem before_cons {e m1 m2 tr} : Before m1 m2 (e :: tr) ↔
    Before m1 m2 tr ∨ ((∃ d, e = .sendCall d m2) ∧ Ev.sendRet m1 0 ∈ tr) := by
  constructor
  · rintro ⟨new, old, d, h, h'⟩
    cases new with
    | nil => simp at h; exact .inr ⟨⟨d, h.1⟩, h.2 ▸ h'⟩
    | cons a new => simp at h; exact .inl ⟨new, old, d, h.2, h'⟩
  · rintro (⟨new, old, d, h, h'⟩ | ⟨⟨d, rfl⟩, h⟩)
    · exact ⟨e :: new, old, d, by simp [h], h'⟩
    · exact ⟨[], tr, d, rfl, h⟩

theorem before_mem {m1 m2 tr} (h : Before m1 m2 tr) : Ev.sendRet m1 0 ∈ tr ∧ ∃ d, Ev.sendCall d m2 ∈ tr := by
  obtain ⟨new, old, d, rfl, h'⟩ := h
  exact ⟨by simp [h'], d, by simp⟩

theorem upd_same {α β} [DecidableEq α] (f : α → β) (a b) : upd f a b a = b := by simp [upd]
theorem upd_ne {α β} [DecidableEq α] (f : α → β) {a x} (b) (h : x ≠ a) : upd f a b x = f x := by simp [upd, h]

theorem done_cons {e m tr} (h : Done m tr) : Done m (e :: tr) := by
  obtain ⟨d, k, h1, h2⟩ := h
  exact ⟨d, k, by simp [h1], fun hk => by simp [h2 hk]⟩

theorem returned_cons {e d m tr} : Returned d m (e :: tr) ↔
    Returned d m tr ∨ ((∃ t n, e = .recvRet t d n) ∧ m ∈ handledOf d tr) := by
  constructor
  · rintro ⟨new, old, t, n, h, h'⟩
    cases new with
    | nil => simp at h; exact .inr ⟨⟨t, n, h.1⟩, h.2 ▸ h'⟩
    | cons a new => simp at h; exact .inl ⟨new, old, t, n, h.2, h'⟩
  · rintro (⟨new, old, t, n, h, h'⟩ | ⟨⟨t, n, rfl⟩, h⟩)
    · exact ⟨e :: new, old, t, n, by simp [h], h'⟩
    · exact ⟨[], tr, t, n, rfl, h⟩

theorem returned_handled {d m tr} (h : Returned d m tr) : m ∈ handledOf d tr := by
  obtain ⟨new, old, t, n, rfl, h⟩ := h
  obtain ⟨k, hk⟩ := handledOf_mem.1 h
  exact handledOf_mem.2 ⟨k, by simp [hk]⟩

/-- What the owner of a lock is doing after thread `t` has moved to `p`. -/
theorem own_pc (o : Option Nat) (f : Nat → PC) (t p) :
    o.map (upd f t p) = if o = some t then some p else o.map f := by
  cases o with
  | none => simp
  | some u => by_cases h : u = t <;> simp [upd, h]

theorem own_lock (l : Dir → Option Nat) (f : Nat → PC) (d x d') :
    (upd l d x d').map f = if d' = d then x.map f else (l d').map f := by
  unfold upd; split <;> rfl

theorem mem_old {s L D} (h : InvL s L D) {m} (hm : m ∈ L (D m)) : m < s.next := h.lt _ _ hm

/-- A step that only moves thread `t` and hands locks around. -/
theorem inv_move {s L D t} {lock' : Dir → Option Nat} {p : PC} (h : InvL s L D)
    (lk : ∀ u d, lock' d = some u ↔ holds (upd s.pc t p u) = some d)
    (sq : ∀ d, popped ((lock' d).map (upd s.pc t p)) = popped ((s.lock d).map s.pc))
    (pd : ∀ d, pendSpec ((lock' d).map (upd s.pc t p)) (s.queue d) (s.pend (recvFd d)))
    (snd : sendOK s L D p) (uq : sm p = none ∨ sm p = sm (s.pc t))
    (x7 : (∀ m, p ≠ .s7 m) ∧ ∀ m d pos n, p ≠ .r4 d pos n m := by simp) :
    InvL { s with lock := lock', pc := upd s.pc t p } L D := by
  constructor
  case x7 => have := h.x7; grind [upd]
  case lk => exact lk
  case sq => intro d; simp only [sq]; exact h.sq d
  case pd => exact pd
  case snd =>
    intro u
    by_cases hu : u = t
    · subst hu; simp only [upd_same]; exact snd
    · simp only [upd_ne _ _ hu]; exact h.snd u
  case uq => have := h.uq; grind [upd]
  all_goals (first | exact h.nd | exact h.dir | exact h.lt | exact h.ct | exact h.cl | exact h.rt | exact h.hd | exact h.un | exact h.rl | exact h.kp | exact h.gv | exact h.fb | exact h.hu | exact h.x7 | exact h.od | exact h.rv)

theorem inv_s1 {s L D t d m f} (h : InvL s L D) (hp : s.pc t = .s1 d m f) (hl : s.lock d = none) :
    InvL { s with lock := upd s.lock d (some t), pc := upd s.pc t (.s2 d m f) } L D := by
  apply inv_move h
  · have := h.lk; grind [upd, holds]
  · intro d'
    have := h.lk t d'
    by_cases hd : d' = d
    · subst hd; simp [own_lock, hl, popped, upd_same]
    · simp [own_lock, own_pc, hp, hd, holds, this]
  · intro d'
    have h1 := h.pd d'; have := h.lk t d'
    by_cases hd : d' = d
    · subst hd; simpa [own_lock, hl, pendSpec, upd_same] using h1
    · simpa [own_lock, own_pc, hp, hd, holds, this] using h1
  · have := h.snd t; rw [hp] at this; exact this
  · simp [sm, hp]

theorem inv_r1 {s L D t d} (h : InvL s L D) (hp : s.pc t = .r1 d) (hl : s.lock d = none) :
    InvL { s with lock := upd s.lock d (some t), pc := upd s.pc t (.r2 d (s.queue d).head? 0) } L D := by
  apply inv_move h
  · have := h.lk; grind [upd, holds]
  · intro d'
    have := h.lk t d'
    by_cases hd : d' = d
    · subst hd; simp [own_lock, hl, popped, upd_same]
    · simp [own_lock, own_pc, hp, hd, holds, this]
  · intro d'
    have h1 := h.pd d'; have := h.lk t d'
    by_cases hd : d' = d
    · subst hd
      simp only [own_lock, own_pc, hl, pendSpec, if_true, Option.map_none] at h1 ⊢
      cases hq : s.queue d' <;> simp_all [pendSpec]
    · simpa [own_lock, own_pc, hp, hd, holds, this] using h1
  · trivial
  · simp [sm]

/-- A step of the owner of the lock that keeps the lock. -/
theorem inv_keep {s L D t d} {p : PC} (h : InvL s L D) (hp : holds (s.pc t) = some d)
    (hp' : holds p = some d) (sq : popped (some p) = popped (some (s.pc t)))
    (pd : pendSpec (some p) (s.queue d) (s.pend (recvFd d)))
    (snd : sendOK s L D p) (uq : sm p = none ∨ sm p = sm (s.pc t))
    (x7 : (∀ m, p ≠ .s7 m) ∧ ∀ m d pos n, p ≠ .r4 d pos n m := by simp) :
    InvL { s with pc := upd s.pc t p } L D := by
  have hl : s.lock d = some t := (h.lk t d).2 hp
  apply inv_move h (lock' := s.lock) (x7 := x7)
  · have := h.lk; grind [upd]
  · intro d'
    have := h.lk t d'
    by_cases hd : d' = d
    · subst hd; simp [upd_same, hl, sq]
    · have : s.lock d' ≠ some t := by rw [Ne, this, hp]; simpa using fun h => hd h.symm
      simp [own_pc, this]
  · intro d'
    have h1 := h.pd d'; have := h.lk t d'
    by_cases hd : d' = d
    · subst hd; simpa [hl, upd_same] using pd
    · have : s.lock d' ≠ some t := by rw [Ne, this, hp]; simpa using fun h => hd h.symm
      simpa [own_pc, this] using h1
  · exact snd
  · exact uq

/-- Giving the lock back. -/
theorem inv_unlock {s L D t d} {p : PC} (h : InvL s L D) (hp : holds (s.pc t) = some d)
    (hp' : holds p = none) (sq : popped (some (s.pc t)) = [])
    (pd : s.pend (recvFd d) = if s.queue d = [] then 0 else 1)
    (snd : sendOK s L D p) (uq : sm p = none ∨ sm p = sm (s.pc t))
    (x7 : (∀ m, p ≠ .s7 m) ∧ ∀ m d pos n, p ≠ .r4 d pos n m := by simp) :
    InvL { s with lock := upd s.lock d none, pc := upd s.pc t p } L D := by
  have hl : s.lock d = some t := (h.lk t d).2 hp
  apply inv_move h (x7 := x7)
  · have := h.lk; grind [upd]
  · intro d'
    have := h.lk t d'
    by_cases hd : d' = d
    · subst hd; simp only [own_lock, if_true, hl]; exact sq.symm
    · have : s.lock d' ≠ some t := by rw [Ne, this, hp]; simpa using fun h => hd h.symm
      simp [own_lock, own_pc, this, hd]
  · intro d'
    have h1 := h.pd d'; have := h.lk t d'
    by_cases hd : d' = d
    · subst hd; simpa [own_lock, pendSpec] using pd
    · have : s.lock d' ≠ some t := by rw [Ne, this, hp]; simpa using fun h => hd h.symm
      simpa [own_lock, own_pc, this, hd] using h1
  · exact snd
  · exact uq


theorem inv_s2 {s L D t d m f} (h : InvL s L D) (hp : s.pc t = .s2 d m f) :
    InvL { s with queue := upd s.queue d (s.queue d ++ [m]), pc := upd s.pc t (.s3 d m f) }
      (upd L d (L d ++ [m])) D := by
  have hl : s.lock d = some t := (h.lk t d).2 (by simp [hp, holds])
  have hs := h.snd t
  simp only [hp, sendOK] at hs
  obtain ⟨hD, hlt, hm, ha, hb, hx, hr⟩ := hs
  have hmem : ∀ d' x, x ∈ upd L d (L d ++ [m]) d' ↔ x ∈ L d' ∨ (d' = d ∧ x = m) := by
    intro d' x; by_cases hd : d' = d <;> simp [upd, hd]
  have hoth : ∀ d', d' ≠ d → s.lock d' ≠ some t := by
    intro d' hd hh; have := (h.lk t d').1 hh; simp [hp, holds] at this; exact hd this.symm
  have hnm : m ∉ handledOf d s.trace := fun hh => hm (by rw [h.sq d]; simp [hh])
  constructor
  case lk => have := h.lk; grind [upd, holds]
  case sq =>
    intro d'
    by_cases hd : d' = d
    · subst hd
      have := h.sq d'
      simp [hl, hp, popped] at this
      simp [hl, upd_same, popped, this]
    · simp only [own_pc, hoth d' hd, upd_ne _ _ hd, if_false]; exact h.sq d'
  case nd =>
    intro d'
    by_cases hd : d' = d
    · subst hd; rw [upd_same]; exact List.nodup_append.2 ⟨h.nd _, by simp, by rintro a ha b hb rfl; simp at hb; exact hm (hb ▸ ha)⟩
    · rw [upd_ne _ _ hd]; exact h.nd d'
  case dir => have := h.dir; grind
  case pd =>
    intro d'
    by_cases hd : d' = d
    · subst hd
      have := h.pd d'
      simp only [hl, hp, Option.map_some, pendSpec] at this
      simp only [hl, upd_same, Option.map_some, pendSpec]
      exact ⟨_, rfl, this⟩
    · simp only [own_pc, hoth d' hd, upd_ne _ _ hd, if_false]; exact h.pd d'
  case snd =>
    intro u
    by_cases hu : u = t
    · subst hu; simp only [upd_same, sendOK]
      exact ⟨hD, hlt, by simp, hb, fun _ => ha, hr⟩
    · simp only [upd_ne _ _ hu]
      have h1 := h.snd u
      have h2 := h.uq u t
      rw [hp] at h2
      cases hpu : s.pc u <;> simp only [hpu, sendOK, sm] at h1 h2 ⊢ <;> grind
  case uq => have := h.uq; grind [upd, sm]
  case lt => have := h.lt; grind
  case ct => exact h.ct
  case cl => exact h.cl
  case rt => have := h.rt; grind
  case hd => exact h.hd
  case un => have := h.un; grind
  case rl => exact h.rl
  case kp => exact h.kp
  case gv => have := h.gv; grind
  case fb => exact h.fb
  case hu => exact h.hu
  case x7 => have := h.x7; grind [upd]
  case od =>
    intro d' m1 m2 h2 h1 hB
    by_cases hd : d' = d
    · subst hd
      rw [upd_same]
      rw [upd_same] at h2
      rcases List.mem_append.1 h2 with h2 | h2
      · exact (h.od _ _ _ h2 h1 hB).trans (List.sublist_append_left _ _)
      · have : m1 ∈ L d' := by
          have := (h.rt m1 0 (before_mem hB).1).2.1 rfl; rwa [h1] at this
        simp at h2; subst h2
        exact List.Sublist.append (List.singleton_sublist.2 this) (List.Sublist.refl _)
    · rw [upd_ne _ _ hd] at h2 ⊢; exact h.od _ _ _ h2 h1 hB
  case rv => exact h.rv

theorem oth_lock {s L D t d} (h : InvL s L D) (hp : holds (s.pc t) = some d) :
    ∀ d', d' ≠ d → s.lock d' ≠ some t := by
  intro d' hd hh; have := (h.lk t d').1 hh; rw [hp] at this; exact hd (by simpa using this.symm)

/-- Line 113, the byte is written. -/
theorem inv_s3_ok {s L D t d m f} (h : InvL s L D) (hp : s.pc t = .s3 d m f) (hq : s.queue d = [m]) :
    InvL { s with pend := upd s.pend (peer (sendFd d)) (s.pend (peer (sendFd d)) + 1),
                  pc := upd s.pc t (.s5 d m f) } L D := by
  have hh : holds (s.pc t) = some d := by simp [hp, holds]
  have hl : s.lock d = some t := (h.lk t d).2 hh
  have hoth := oth_lock h hh
  have hfd : peer (sendFd d) = recvFd d := by cases d <;> rfl
  have hfd' : ∀ d', d' ≠ d → recvFd d' ≠ recvFd d := by intro d' hd; cases d <;> cases d' <;> simp_all [recvFd]
  have hpd := h.pd d
  simp only [hl, hp, Option.map_some, pendSpec, hq] at hpd
  obtain ⟨q', hq', hn⟩ := hpd
  have : q' = [] := by cases q' with
    | nil => rfl
    | cons a q' => simp at hq'
  subst this
  simp at hn
  constructor
  case lk => have := h.lk; grind [upd, holds]
  case sq =>
    intro d'
    have h1 := h.sq d'
    by_cases hd : d' = d
    · subst hd; simpa [hl, upd_same, popped, hp] using h1
    · simpa [own_pc, hoth d' hd] using h1
  case pd =>
    intro d'
    have h1 := h.pd d'
    by_cases hd : d' = d
    · subst hd; simp [hl, upd_same, pendSpec, hq, hfd, hn]
    · simpa [own_pc, hoth d' hd, hfd, upd_ne _ _ (hfd' d' hd)] using h1
  case snd =>
    intro u
    by_cases hu : u = t
    · subst hu; simp only [upd_same]; have := h.snd u; rw [hp] at this; exact this
    · simp only [upd_ne _ _ hu]; exact h.snd u
  case uq => have := h.uq; grind [upd, sm]
  case x7 => have := h.x7; grind [upd]
  all_goals (first | exact h.nd | exact h.dir | exact h.lt | exact h.ct | exact h.cl | exact h.rt | exact h.hd | exact h.un | exact h.rl | exact h.kp | exact h.gv | exact h.fb | exact h.hu | exact h.x7 | exact h.od | exact h.rv)

/-- Line 114: the byte could not be written and the message is taken back. -/
theorem inv_s3_fail {s L D t d m f} (h : InvL s L D) (hp : s.pc t = .s3 d m f) (hq : s.queue d = [m]) :
    ∃ L', InvL { s with queue := upd s.queue d ((s.queue d).erase m), pc := upd s.pc t (.s4 d m f) } L' D := by
  have hh : holds (s.pc t) = some d := by simp [hp, holds]
  have hl : s.lock d = some t := (h.lk t d).2 hh
  have hoth := oth_lock h hh
  have hpd := h.pd d
  simp only [hl, hp, Option.map_some, pendSpec, hq] at hpd
  obtain ⟨q', hq', hn⟩ := hpd
  have : q' = [] := by cases q' with
    | nil => rfl
    | cons a q' => simp at hq'
  subst this
  simp at hn
  have hsq := h.sq d
  simp [hl, hp, popped, hq] at hsq
  have hs := h.snd t
  simp only [hp, sendOK] at hs
  obtain ⟨hD, hlt, hm, hb, ha, hr⟩ := hs
  have hnd := h.nd d
  rw [hsq] at hnd
  have hnm : m ∉ handledOf d s.trace := by
    intro hx
    exact (List.nodup_append.1 hnd).2.2 m hx m (by simp) rfl
  have hmem : ∀ d' x, x ∈ upd L d (handledOf d s.trace) d' ↔ x ∈ L d' ∧ ¬ (d' = d ∧ x = m) := by
    intro d' x
    by_cases hd : d' = d
    · subst hd; rw [upd_same, hsq]; simp; grind
    · simp [upd_ne _ _ hd, hd]
  have hun := h.un d m hm hnm
  refine ⟨upd L d (handledOf d s.trace), ?_⟩
  constructor
  case lk => have := h.lk; grind [upd, holds]
  case sq =>
    intro d'
    have h1 := h.sq d'
    by_cases hd : d' = d
    · subst hd; simp [hl, upd_same, popped, hq]
    · simpa [own_pc, hoth d' hd, upd_ne _ _ hd] using h1
  case nd =>
    intro d'
    by_cases hd : d' = d
    · subst hd; rw [upd_same]; exact (List.nodup_append.1 hnd).1
    · rw [upd_ne _ _ hd]; exact h.nd d'
  case dir => have := h.dir; grind
  case pd =>
    intro d'
    have h1 := h.pd d'
    by_cases hd : d' = d
    · subst hd; simp [hl, upd_same, pendSpec, hq, hn]
    · simpa [own_pc, hoth d' hd, upd_ne _ _ hd] using h1
  case snd =>
    intro u
    by_cases hu : u = t
    · subst hu; simp only [upd_same, sendOK]
      exact ⟨hD, hlt, hnm, hun.1, hr⟩
    · simp only [upd_ne _ _ hu]
      have h1 := h.snd u
      have h2 := h.uq u t
      rw [hp] at h2
      cases hpu : s.pc u <;> simp only [hpu, sendOK, sm] at h1 h2 ⊢ <;> grind
  case uq => have := h.uq; grind [upd, sm]
  case lt => have := h.lt; grind
  case ct => exact h.ct
  case cl => exact h.cl
  case rt => have := h.rt; grind
  case hd => exact h.hd
  case un => have := h.un; grind
  case rl => exact h.rl
  case kp => exact h.kp
  case gv => have := h.gv; grind
  case fb => exact h.fb
  case hu => exact h.hu
  case x7 => have := h.x7; grind [upd]
  case od =>
    intro d' m1 m2 h2 h1 hB
    by_cases hd : d' = d
    · subst hd
      have h3 := ((hmem _ _).1 h2)
      have h4 := h.od _ _ _ h3.1 h1 hB
      rw [upd_same]
      rw [hsq] at h4
      have : m2 ≠ m := fun e => h3.2 ⟨rfl, e⟩
      rw [List.sublist_append_iff] at h4
      obtain ⟨a, b, hab, ha', hb'⟩ := h4
      have hm1 : m1 ≠ m := fun e => hr 0 (e ▸ (before_mem hB).1)
      have : b = [] := by
        cases b with
        | nil => rfl
        | cons x b =>
          have hx : x ∈ [m] := hb'.subset (by simp)
          simp at hx
          have hx2 : x ∈ [m1, m2] := by rw [hab]; simp
          simp at hx2; grind
      subst this
      rw [hab]; simpa using ha'
    · rw [upd_ne _ _ hd] at h2 ⊢; exact h.od _ _ _ h2 h1 hB
  case rv => exact h.rv

theorem inv_s3_more {s L D t d m f} (h : InvL s L D) (hp : s.pc t = .s3 d m f)
    (hq : ¬ ((s.queue d).head? = (s.queue d).getLast? ∧ (s.queue d).head? = some m)) :
    InvL { s with pc := upd s.pc t (.s5 d m f) } L D := by
  have hh : holds (s.pc t) = some d := by simp [hp, holds]
  have hl : s.lock d = some t := (h.lk t d).2 hh
  have hpd := h.pd d
  simp only [hl, hp, Option.map_some, pendSpec] at hpd
  obtain ⟨q', hq', hn⟩ := hpd
  have hne : q' ≠ [] := by rintro rfl; simp [hq'] at hq
  apply inv_keep h hh (by simp [holds]) (by simp [popped, hp])
  · simp [pendSpec, hn, hne, hq']
  · have := h.snd t; rw [hp] at this; exact this
  · simp [sm, hp]

/-- In the condition of line 113 head and tail are the new message only if it is alone. -/
theorem alone {s L D t d m f} (h : InvL s L D) (hp : s.pc t = .s3 d m f)
    (hq : (s.queue d).head? = (s.queue d).getLast? ∧ (s.queue d).head? = some m) : s.queue d = [m] := by
  have hnd := h.nd d
  rw [h.sq d] at hnd
  have hnd := (List.nodup_append.1 hnd).2.1
  cases hqq : s.queue d with
  | nil => simp [hqq] at hq
  | cons a q =>
    rw [hqq] at hq hnd
    simp only [List.head?_cons, Option.some.injEq] at hq
    obtain ⟨h1, rfl⟩ := hq
    cases q with
    | nil => rfl
    | cons b q =>
      rw [List.getLast?_cons_cons] at h1
      have : a ∈ b :: q := List.mem_of_getLast? h1.symm
      exact absurd this (List.nodup_cons.1 hnd).1

theorem rv_cons {tr : List Ev} {D : Nat → Dir} (e : Ev) (h : ∀ new old t d n m, tr = new ++ Ev.recvRet t d n :: old → Ev.sendRet m 0 ∈ old →
      D m = d → m ∈ handledOf d old)
    (he : ∀ t d n, e = .recvRet t d n → ∀ m, Ev.sendRet m 0 ∈ tr → D m = d → m ∈ handledOf d tr) :
    ∀ new old t d n m, e :: tr = new ++ Ev.recvRet t d n :: old → Ev.sendRet m 0 ∈ old → D m = d →
      m ∈ handledOf d old := by
  intro new old t d n m h1 h2 h3
  cases new with
  | nil => simp at h1; obtain ⟨rfl, rfl⟩ := h1; exact he t d n rfl m h2 h3
  | cons a new => simp at h1; exact h new old t d n m h1.2 h2 h3

theorem inv_s4 {s L D t d m f} (h : InvL s L D) (hp : s.pc t = .s4 d m f) :
    InvL { s with mtx := (if f ≠ 0 then upd s.mtx m false else s.mtx), lock := upd s.lock d none,
                  pc := upd s.pc t (.s4f m) } L D := by
  have hh : holds (s.pc t) = some d := by simp [hp, holds]
  have hl : s.lock d = some t := (h.lk t d).2 hh
  have hs := h.snd t
  simp only [hp, sendOK] at hs
  obtain ⟨hD, hlt, hm, ha, hr⟩ := hs
  have hpd := h.pd d
  simp only [hl, hp, Option.map_some, pendSpec] at hpd
  have h0 : InvL { s with lock := upd s.lock d none, pc := upd s.pc t (.s4f m) } L D :=
    inv_unlock h hh rfl (by simp [hp, popped]) hpd ⟨hlt, hD ▸ hm, ha, hr⟩ (by simp [sm, hp])
  have hx : ∀ x, x ≠ m → (if f ≠ 0 then upd s.mtx m false else s.mtx) x = s.mtx x := by
    intro x hx; split <;> simp [upd, hx]
  generalize (if f ≠ 0 then upd s.mtx m false else s.mtx) = mx at hx
  have hnh : ∀ d', m ∉ handledOf d' s.trace := by
    intro d' hh
    have h1 : m ∈ L d' := by rw [h.sq d']; simp [hh]
    have := h.dir _ _ h1
    rw [← this, hD] at h1; exact hm h1
  have hnL : ∀ d', m ∉ L d' := by
    intro d' h1
    have := h.dir _ _ h1
    rw [← this, hD] at h1; exact hm h1
  constructor
  case snd =>
    intro u
    by_cases hu : u = t
    · subst hu; simp only [upd_same, sendOK]; exact ⟨hlt, hD ▸ hm, ha, hr⟩
    · simp only [upd_ne _ _ hu]
      have h1 := h.snd u
      have h2 := h.uq u t
      rw [hp] at h2
      cases hpu : s.pc u <;> simp only [hpu, sendOK, sm] at h1 h2 ⊢ <;> grind
  case un => have := h.un; grind
  case kp => have := h.kp; have := h.hd; grind
  case gv => have := h.gv; grind
  all_goals (first | exact h0.lk | exact h0.sq | exact h0.nd | exact h0.dir | exact h0.pd | exact h0.uq | exact h0.lt | exact h0.ct | exact h0.cl | exact h0.rt | exact h0.hd | exact h0.rl | exact h0.fb | exact h0.hu | exact h0.x7 | exact h0.od | exact h0.rv)

theorem inv_s4f {s L D t m} (h : InvL s L D) (hp : s.pc t = .s4f m) :
    InvL { s with alive := upd s.alive m false, pc := upd s.pc t .idle, trace := .sendRet m 1 :: s.trace } L D := by
  have hs := h.snd t
  simp only [hp, sendOK] at hs
  obtain ⟨hlt, hm, ha, hr⟩ := hs
  have hnL : ∀ d', m ∉ L d' := by
    intro d' h1
    have := h.dir _ _ h1
    rw [← this] at h1; exact hm h1
  have hnh : ∀ d', m ∉ handledOf d' s.trace := fun d' hh => hnL d' (by rw [h.sq d']; simp [hh])
  have hoth : ∀ d', s.lock d' ≠ some t := by
    intro d' hx; have := (h.lk t d').1 hx; simp [hp, holds] at this
  have hho : ∀ d', handledOf d' (.sendRet m 1 :: s.trace) = handledOf d' s.trace := fun _ => rfl
  constructor
  case lk => have := h.lk; grind [upd, holds]
  case sq => intro d'; simp only [own_pc, hoth d', if_false, hho]; exact h.sq d'
  case nd => exact h.nd
  case dir => exact h.dir
  case pd => intro d'; simp only [own_pc, hoth d', if_false]; exact h.pd d'
  case snd =>
    intro u
    by_cases hu : u = t
    · subst hu; simp only [upd_same, sendOK]
    · simp only [upd_ne _ _ hu]
      have h1 := h.snd u
      have h2 := h.uq u t
      rw [hp] at h2
      cases hpu : s.pc u <;> simp only [hpu, sendOK, sm, hho] at h1 h2 ⊢ <;> grind [upd, done_cons, returned_cons]
  case uq => have := h.uq; grind [upd, sm]
  case lt => exact h.lt
  case ct => have := h.ct; grind
  case cl => have := h.cl; grind
  case rt => have := h.rt; grind
  case hd => have := h.hd; grind
  case un => have := h.un; grind [upd]
  case rl => have := h.rl; grind
  case kp => have := h.kp; have := h.hd; grind [upd]
  case gv => have := h.gv; grind [done_cons]
  case fb => have := h.fb; grind [done_cons]
  case hu => have := h.hu; grind
  case x7 => have := h.x7; grind [upd]
  case od => have := h.od; grind [before_cons]
  case rv => exact rv_cons _ h.rv (by simp)

theorem inv_s5_fb {s L D t d m f} (h : InvL s L D) (hp : s.pc t = .s5 d m f) (hf : f ≠ 0) :
    InvL { s with lock := upd s.lock d none, pc := upd s.pc t (.s6 m) } L D := by
  have hh : holds (s.pc t) = some d := by simp [hp, holds]
  have hl : s.lock d = some t := (h.lk t d).2 hh
  have hs := h.snd t
  simp only [hp, sendOK] at hs
  obtain ⟨hD, hlt, hm, hb, ha, hr⟩ := hs
  have hpd := h.pd d
  simp only [hl, hp, Option.map_some, pendSpec] at hpd
  exact inv_unlock h hh rfl (by simp [hp, popped]) hpd ⟨hlt, hD ▸ hm, by simp [hb, hf], ha hf, hr⟩ (by simp [sm, hp])

/-- The call of the sender ends with 0. -/
theorem inv_ret0 {s L D m} (h : InvL s L D) (hlt : m < s.next) (hm : m ∈ L (D m))
    (hr : ∀ u, sm (s.pc u) ≠ some m) (hdone : s.bit m = true → Done m s.trace) :
    InvL { s with trace := .sendRet m 0 :: s.trace } L D := by
  have hho : ∀ d', handledOf d' (.sendRet m 0 :: s.trace) = handledOf d' s.trace := fun _ => rfl
  constructor
  case lk => exact h.lk
  case sq => exact h.sq
  case nd => exact h.nd
  case dir => exact h.dir
  case pd => exact h.pd
  case snd =>
    intro u
    have h1 := h.snd u
    have h2 := hr u
    cases hpu : s.pc u <;> simp only [hpu, sendOK, sm, hho] at h1 h2 ⊢ <;> grind [upd, done_cons, returned_cons]
  case uq => exact h.uq
  case lt => exact h.lt
  case ct => have := h.ct; grind
  case cl => have := h.cl; grind
  case rt => have := h.rt; grind
  case hd => have := h.hd; grind
  case un => have := h.un; grind [upd]
  case rl => have := h.rl; grind
  case kp => have := h.kp; have := h.hd; grind [upd]
  case gv => have := h.gv; grind [done_cons]
  case fb => have := h.fb; grind [done_cons]
  case hu => have := h.hu; grind
  case x7 => have := h.x7; grind [upd]
  case od => have := h.od; grind [before_cons]
  case rv => exact rv_cons _ h.rv (by simp)

theorem inv_s5 {s L D t d m} (h : InvL s L D) (hp : s.pc t = .s5 d m 0) :
    InvL { s with lock := upd s.lock d none, pc := upd s.pc t .idle, trace := .sendRet m 0 :: s.trace } L D := by
  have hh : holds (s.pc t) = some d := by simp [hp, holds]
  have hl : s.lock d = some t := (h.lk t d).2 hh
  have hs := h.snd t
  simp only [hp, sendOK] at hs
  obtain ⟨hD, hlt, hm, hb, ha, hr⟩ := hs
  have hpd := h.pd d
  simp only [hl, hp, Option.map_some, pendSpec] at hpd
  have h0 : InvL { s with lock := upd s.lock d none, pc := upd s.pc t .idle } L D :=
    inv_unlock h hh rfl (by simp [hp, popped]) hpd trivial (by simp [sm])
  refine inv_ret0 h0 hlt (hD ▸ hm) ?_ (by simp [hb])
  intro u
  have := h.uq u t m
  by_cases hu : u = t
  · simp [hu, upd_same, sm]
  · simp only [upd_ne _ _ hu]; intro h2; exact hu (this h2 (by simp [hp, sm]))

theorem inv_s6 {s L D t m} (h : InvL s L D) (hp : s.pc t = .s6 m) (hx : s.mtx m = false) :
    InvL { s with mtx := upd s.mtx m true, pc := upd s.pc t (.s7 m) } L D := by
  have hs := h.snd t
  simp only [hp, sendOK] at hs
  obtain ⟨hlt, hm, hb, ha, hr⟩ := hs
  have hdone := h.gv m hm hb hx
  have hoth : ∀ d', s.lock d' ≠ some t := by
    intro d' hx; have := (h.lk t d').1 hx; simp [hp, holds] at this
  constructor
  case lk => have := h.lk; grind [upd, holds]
  case sq => intro d'; simp only [own_pc, hoth d', if_false]; exact h.sq d'
  case pd => intro d'; simp only [own_pc, hoth d', if_false]; exact h.pd d'
  case snd =>
    intro u
    by_cases hu : u = t
    · subst hu; simp only [upd_same, sendOK]; exact ⟨hlt, hm, hb, ha, hr, hdone⟩
    · simp only [upd_ne _ _ hu]
      have h1 := h.snd u
      have h2 := h.uq u t
      rw [hp] at h2
      cases hpu : s.pc u <;> simp only [hpu, sendOK, sm] at h1 h2 ⊢ <;> grind [upd, done_cons, returned_cons]
  case uq => have := h.uq; grind [upd, sm]
  case un => have := h.un; grind [upd]
  case kp => have := h.kp; grind [upd]
  case x7 => have := h.x7; have := h.snd; grind [upd, sendOK]
  case gv => have := h.gv; grind [upd]
  all_goals (first | exact h.nd | exact h.dir | exact h.lt | exact h.ct | exact h.cl | exact h.rt | exact h.hd | exact h.rl | exact h.fb | exact h.hu | exact h.x7 | exact h.od | exact h.rv)

/-- What `Done` says when each message is handled once. -/
theorem inv_s7 {s L D t m} (h : InvL s L D) (hp : s.pc t = .s7 m) :
    InvL { s with mtx := upd s.mtx m false, alive := upd s.alive m false, pc := upd s.pc t .idle,
                  trace := .sendRet m 0 :: s.trace } L D := by
  have hs := h.snd t
  simp only [hp, sendOK] at hs
  obtain ⟨hlt, hm, hb, ha, hr, hdone⟩ := hs
  have hoth : ∀ d', s.lock d' ≠ some t := by
    intro d' hx; have := (h.lk t d').1 hx; simp [hp, holds] at this
  have hdm : m ∈ handledOf (D m) s.trace := by
    obtain ⟨d, k, h1, _⟩ := hdone
    have h2 := h.hd _ _ _ h1
    have h3 : D m = d := h.dir _ _ (by rw [h.sq d]; simp [h2])
    rwa [h3]
  have h0 : InvL { s with mtx := upd s.mtx m false, alive := upd s.alive m false, pc := upd s.pc t .idle } L D := by
    constructor
    case lk => have := h.lk; grind [upd, holds]
    case sq => intro d'; simp only [own_pc, hoth d', if_false]; exact h.sq d'
    case pd => intro d'; simp only [own_pc, hoth d', if_false]; exact h.pd d'
    case snd =>
      intro u
      by_cases hu : u = t
      · subst hu; simp only [upd_same, sendOK]
      · simp only [upd_ne _ _ hu]
        have h1 := h.snd u
        have h2 := h.uq u t
        rw [hp] at h2
        have h3 := h.x7 t u
        rw [hp] at h3
        cases hpu : s.pc u <;> simp only [hpu, sendOK, sm] at h1 h2 ⊢ <;> grind [upd, done_cons, returned_cons]
    case uq => have := h.uq; grind [upd, sm]
    case un => have := h.un; have := h.dir; grind [upd]
    case kp =>
      have := h.kp; have := h.hu
      obtain ⟨d, k, h1, h2⟩ := hdone
      grind [upd]
    case x7 => have := h.x7; grind [upd]
    case gv => have := h.gv; grind [upd]
    all_goals (first | exact h.nd | exact h.dir | exact h.lt | exact h.ct | exact h.cl | exact h.rt | exact h.hd | exact h.rl | exact h.fb | exact h.hu | exact h.x7 | exact h.od | exact h.rv)
  refine inv_ret0 h0 hlt hm ?_ (fun _ => hdone)
  intro u
  have := h.uq u t m
  by_cases hu : u = t
  · simp [hu, upd_same, sm]
  · simp only [upd_ne _ _ hu]; intro h2; exact hu (this h2 (by simp [hp, sm]))

/-- Taking the first message off the chain. -/
theorem inv_r2_pop {s L D t d pos n m q} (h : InvL s L D) (hp : s.pc t = .r2 d pos n) (hq : s.queue d = m :: q) :
    InvL { s with queue := upd s.queue d q, pc := upd s.pc t (.r3 d pos n m) } L D := by
  have hh : holds (s.pc t) = some d := by simp [hp, holds]
  have hl : s.lock d = some t := (h.lk t d).2 hh
  have hoth := oth_lock h hh
  have hpd := h.pd d
  simp only [hl, hp, Option.map_some, pendSpec, hq] at hpd
  have hpos : pos ≠ none := fun e => by simp [e] at hpd
  constructor
  case lk => have := h.lk; grind [upd, holds]
  case sq =>
    intro d'
    have h1 := h.sq d'
    by_cases hd : d' = d
    · subst hd; simpa [hl, upd_same, popped, hp, hq] using h1
    · simpa [own_pc, hoth d' hd, upd_ne _ _ hd] using h1
  case pd =>
    intro d'
    have h1 := h.pd d'
    by_cases hd : d' = d
    · subst hd; simp [hl, upd_same, pendSpec, hpd, hpos]
    · simpa [own_pc, hoth d' hd, upd_ne _ _ hd] using h1
  case snd =>
    intro u
    by_cases hu : u = t
    · subst hu; simp only [upd_same, sendOK]
    · simp only [upd_ne _ _ hu]; exact h.snd u
  case uq => have := h.uq; grind [upd, sm]
  case x7 => have := h.x7; grind [upd]
  all_goals (first | exact h.nd | exact h.dir | exact h.lt | exact h.ct | exact h.cl | exact h.rt | exact h.hd | exact h.un | exact h.rl | exact h.kp | exact h.gv | exact h.fb | exact h.hu | exact h.od | exact h.rv)

theorem inv_r2_end {s L D t d pos n} (h : InvL s L D) (hp : s.pc t = .r2 d pos n) (hq : s.queue d = []) :
    InvL { s with pc := upd s.pc t (.r5 d pos n) } L D := by
  have hh : holds (s.pc t) = some d := by simp [hp, holds]
  have hl : s.lock d = some t := (h.lk t d).2 hh
  have hpd := h.pd d
  simp only [hl, hp, Option.map_some, pendSpec] at hpd
  exact inv_keep h hh (by simp [holds]) (by simp [popped, hp]) ⟨hpd.1, hq⟩ trivial (by simp [sm])

/-- What is known of the message whose handler is about to be called. -/
theorem r3_facts {s L D t d pos n m} (h : InvL s L D) (hp : s.pc t = .r3 d pos n m) :
    m ∈ L d ∧ m ∉ handledOf d s.trace ∧ D m = d ∧ s.alive m = true ∧ s.mtx m = s.bit m := by
  have hl : s.lock d = some t := (h.lk t d).2 (by simp [hp, holds])
  have hsq := h.sq d
  simp [hl, hp, popped] at hsq
  have hm : m ∈ L d := by rw [hsq]; simp
  have hnd := h.nd d
  rw [hsq] at hnd
  have hn : m ∉ handledOf d s.trace := fun hx => (List.nodup_append.1 hnd).2.2 m hx m (by simp) rfl
  have := h.un d m hm hn
  exact ⟨hm, hn, h.dir _ _ hm, this.1, this.2⟩

theorem inv_r3 {s L D t d pos n m} (ok : Bool) (h : InvL s L D) (hp : s.pc t = .r3 d pos n m) :
    InvL { s with hold := upd s.hold m ok, pc := upd s.pc t (.r4 d pos n m),
                  trace := .handled d m ok :: s.trace } L D := by
  have hh : holds (s.pc t) = some d := by simp [hp, holds]
  have hl : s.lock d = some t := (h.lk t d).2 hh
  have hoth := oth_lock h hh
  obtain ⟨hm, hn, hD, ha, hx⟩ := r3_facts h hp
  have hho : ∀ d', d' ≠ d → handledOf d' (.handled d m ok :: s.trace) = handledOf d' s.trace := by
    intro d' hd; simp [handledOf, Ne.symm hd]
  have hho' : handledOf d (.handled d m ok :: s.trace) = handledOf d s.trace ++ [m] := by simp [handledOf]
  have hmo : ∀ d', m ∈ handledOf d' s.trace → False := by
    intro d' h1
    have := h.dir d' m (by rw [h.sq d']; simp [h1])
    rw [hD] at this; subst this; exact hn h1
  have hnh : ∀ d' k, Ev.handled d' m k ∉ s.trace := fun d' k h1 => hmo d' (h.hd _ _ _ h1)
  have hnr : Ev.released m ∉ s.trace := fun h1 => hnh _ _ (h.rl _ h1)
  have hmm : ∀ d' x, x ∈ handledOf d' (.handled d m ok :: s.trace) ↔ x ∈ handledOf d' s.trace ∨ (d' = d ∧ x = m) := by
    intro d' x
    by_cases hd : d' = d
    · subst hd; rw [hho']; simp
    · rw [hho d' hd]; simp [hd]
  constructor
  case lk => have := h.lk; grind [upd, holds]
  case sq =>
    intro d'
    have h1 := h.sq d'
    by_cases hd : d' = d
    · subst hd; simpa [hl, upd_same, popped, hp, hho'] using h1
    · simpa [own_pc, hoth d' hd, hho d' hd] using h1
  case nd => exact h.nd
  case dir => exact h.dir
  case pd =>
    intro d'
    have h1 := h.pd d'
    by_cases hd : d' = d
    · subst hd
      simp only [hl, hp, Option.map_some, pendSpec] at h1
      simpa [hl, upd_same, pendSpec] using h1
    · simpa [own_pc, hoth d' hd, hho d' hd] using h1
  case snd =>
    intro u
    by_cases hu : u = t
    · subst hu; simp only [upd_same, sendOK]
      exact ⟨by rw [hho']; simp, ha, hx, by simp [hnr], by simp, by
        rw [returned_cons]; rintro (h1 | ⟨⟨_, _, h1⟩, _⟩)
        · exact hn (returned_handled h1)
        · cases h1⟩
    · simp only [upd_ne _ _ hu]
      have h1 := h.snd u
      cases hpu : s.pc u <;> simp only [hpu, sendOK] at h1 ⊢ <;> grind [upd, done_cons, returned_cons]
  case uq => have := h.uq; grind [upd, sm]
  case lt => exact h.lt
  case ct => have := h.ct; grind
  case cl => have := h.cl; grind
  case rt => have := h.rt; grind
  case hd => have := h.hd; grind
  case un => have := h.un; grind
  case rl => have := h.rl; grind
  case kp => have := h.kp; grind
  case gv => have := h.gv; grind [done_cons]
  case fb => have := h.fb; grind [done_cons]
  case hu => have := h.hu; grind
  case x7 =>
    have := h.x7
    have h7 : ∀ u, s.pc u ≠ .s7 m := by
      intro u hu
      have := h.snd u
      simp only [hu, sendOK] at this
      obtain ⟨d', k, hk, _⟩ := this.2.2.2.2.2
      exact hnh _ _ hk
    grind [upd]
  case od => have := h.od; grind [before_cons]
  case rv => exact rv_cons _ h.rv (by simp)

theorem inv_r4 {s L D t d pos n m} (h : InvL s L D) (hp : s.pc t = .r4 d pos n m) (k : Nat) :
    InvL { s with mtx := (if s.bit m = true ∧ s.hold m = false then upd s.mtx m false else s.mtx),
                  alive := (if s.bit m = true then s.alive else upd s.alive m false),
                  pc := upd s.pc t (.r2 d pos k) } L D := by
  have hh : holds (s.pc t) = some d := by simp [hp, holds]
  have hl : s.lock d = some t := (h.lk t d).2 hh
  have hs := h.snd t
  simp only [hp, sendOK] at hs
  obtain ⟨hm, ha, hx, hr, hk, hra⟩ := hs
  have hmL : m ∈ L d := by rw [h.sq d]; simp [hm]
  have hD := h.dir _ _ hmL
  have hpd := h.pd d
  simp only [hl, hp, Option.map_some, pendSpec] at hpd
  have h0 : InvL { s with pc := upd s.pc t (.r2 d pos k) } L D :=
    inv_keep h hh (by simp [holds]) (by simp [popped, hp]) (by simp [pendSpec, hpd]) trivial (by simp [sm])
  have hxo : ∀ x, x ≠ m → (if s.bit m = true ∧ s.hold m = false then upd s.mtx m false else s.mtx) x = s.mtx x := by
    intro x hx; split <;> simp [upd, hx]
  have hxm : (if s.bit m = true ∧ s.hold m = false then upd s.mtx m false else s.mtx) m =
      (s.bit m && s.hold m) := by
    split
    · next h => simp [upd, h]
    · next h => rw [hx]; cases hb : s.bit m <;> simp_all
  have hao : ∀ x, x ≠ m → (if s.bit m = true then s.alive else upd s.alive m false) x = s.alive x := by
    intro x hx; split <;> simp [upd, hx]
  have ham : (if s.bit m = true then s.alive else upd s.alive m false) m = s.bit m := by
    split
    · next h => rw [h, ha]
    · next h => simp [upd, h]
  generalize (if s.bit m = true ∧ s.hold m = false then upd s.mtx m false else s.mtx) = mx at hxo hxm
  generalize (if s.bit m = true then s.alive else upd s.alive m false) = al at hao ham
  constructor
  case snd =>
    intro u
    by_cases hu : u = t
    · subst hu; simp only [upd_same, sendOK]
    · simp only [upd_ne _ _ hu]
      have h1 := h.snd u
      have h3 := h.x7 u t
      have h4 := h.lk u
      have h5 : ∀ d x, x ∈ handledOf d s.trace → D x = d := fun d x hx => h.dir d x (by rw [h.sq d]; simp [hx])
      have h6 := h.dir
      cases hpu : s.pc u <;> simp only [hpu, hp, sendOK, holds] at h1 h3 h4 ⊢ <;> grind
  case un => have := h.un; have := h.dir; grind
  case kp => have := h.kp; have := h.hu; grind
  case gv =>
    have h1 := h.gv
    have h2 : s.hold m = false → Done m s.trace := fun e => ⟨d, _, hk, by simp [e]⟩
    grind
  all_goals (first | exact h0.lk | exact h0.sq | exact h0.nd | exact h0.dir | exact h0.pd | exact h0.uq | exact h0.lt | exact h0.ct | exact h0.cl | exact h0.rt | exact h0.hd | exact h0.rl | exact h0.fb | exact h0.hu | exact h0.x7 | exact h0.od | exact h0.rv)

theorem inv_r5 {s L D t d pos n} (h : InvL s L D) (hp : s.pc t = .r5 d pos n) :
    InvL { s with pend := (if pos ≠ (s.queue d).head? then upd s.pend (recvFd d) (s.pend (recvFd d) - 1) else s.pend),
                  pc := upd s.pc t (.r6 d n) } L D := by
  have hh : holds (s.pc t) = some d := by simp [hp, holds]
  have hl : s.lock d = some t := (h.lk t d).2 hh
  have hoth := oth_lock h hh
  have hfd' : ∀ d', d' ≠ d → recvFd d' ≠ recvFd d := by intro d' hd; cases d <;> cases d' <;> simp_all [recvFd]
  have hpd := h.pd d
  simp only [hl, hp, Option.map_some, pendSpec] at hpd
  obtain ⟨hn, hq⟩ := hpd
  have hpo : ∀ d', d' ≠ d → (if pos ≠ (s.queue d).head? then upd s.pend (recvFd d) (s.pend (recvFd d) - 1) else s.pend)
      (recvFd d') = s.pend (recvFd d') := by
    intro d' hd; split <;> simp [upd, hfd' d' hd]
  have hpm : (if pos ≠ (s.queue d).head? then upd s.pend (recvFd d) (s.pend (recvFd d) - 1) else s.pend)
      (recvFd d) = 0 := by
    rw [hq]
    cases pos <;> simp_all [upd]
  generalize (if pos ≠ (s.queue d).head? then upd s.pend (recvFd d) (s.pend (recvFd d) - 1) else s.pend) = pe at hpo hpm
  constructor
  case lk => have := h.lk; grind [upd, holds]
  case sq =>
    intro d'
    have h1 := h.sq d'
    by_cases hd : d' = d
    · subst hd; simpa [hl, upd_same, popped, hp] using h1
    · simpa [own_pc, hoth d' hd] using h1
  case pd =>
    intro d'
    have h1 := h.pd d'
    by_cases hd : d' = d
    · subst hd; simp [hl, upd_same, pendSpec, hq, hpm]
    · simpa [own_pc, hoth d' hd, hpo d' hd] using h1
  case snd =>
    intro u
    by_cases hu : u = t
    · subst hu; simp only [upd_same, sendOK]
    · simp only [upd_ne _ _ hu]; exact h.snd u
  case uq => have := h.uq; grind [upd, sm]
  case x7 => have := h.x7; grind [upd]
  all_goals (first | exact h.nd | exact h.dir | exact h.lt | exact h.ct | exact h.cl | exact h.rt | exact h.hd | exact h.un | exact h.rl | exact h.kp | exact h.gv | exact h.fb | exact h.hu | exact h.od | exact h.rv)

/-- An event of a receiver. -/
theorem inv_event {s L D e} (h : InvL s L D)
    (he : (∃ t d, e = .recvCall t d) ∨ ∃ t d n, e = .recvRet t d n ∧ ∀ m, Ev.sendRet m 0 ∈ s.trace → D m = d →
      m ∈ handledOf d s.trace) (hk : ∀ t d n, e = .recvRet t d n → s.lock d = none) :
    InvL { s with trace := e :: s.trace } L D := by
  have hho : ∀ d', handledOf d' (e :: s.trace) = handledOf d' s.trace := by
    rcases he with ⟨t, d, rfl⟩ | ⟨t, d, n, rfl, _⟩ <;> intro _ <;> rfl
  have hne : ∀ e', e' ∈ e :: s.trace → e' ∈ s.trace ∨ (∃ t d, e' = .recvCall t d) ∨ ∃ t d n, e' = .recvRet t d n := by
    grind
  have hne' : ∀ e', e' ∈ s.trace → e' ∈ e :: s.trace := by simp_all
  constructor
  case lk => exact h.lk
  case sq => intro d; simp only [hho]; exact h.sq d
  case nd => exact h.nd
  case dir => exact h.dir
  case pd => exact h.pd
  case snd =>
    intro u
    have h1 := h.snd u
    have h2 := h.lk u
    cases hpu : s.pc u <;> simp only [hpu, sendOK, hho, holds] at h1 h2 ⊢ <;> grind [done_cons, returned_cons]
  case uq => exact h.uq
  case lt => exact h.lt
  case ct => have := h.ct; grind
  case cl => have := h.cl; grind
  case rt => have := h.rt; grind
  case hd => have := h.hd; grind
  case un => have := h.un; grind
  case rl => have := h.rl; grind
  case kp => have := h.kp; grind
  case gv => have := h.gv; grind [done_cons]
  case fb => have := h.fb; grind [done_cons]
  case hu => have := h.hu; grind
  case x7 => exact h.x7
  case od => have := h.od; grind [before_cons]
  case rv => exact rv_cons _ h.rv (by grind)

theorem inv_r6 {s L D t d n} (h : InvL s L D) (hp : s.pc t = .r6 d n) :
    InvL { s with lock := upd s.lock d none, pc := upd s.pc t .idle, trace := .recvRet t d n :: s.trace } L D := by
  have hh : holds (s.pc t) = some d := by simp [hp, holds]
  have hl : s.lock d = some t := (h.lk t d).2 hh
  have hpd := h.pd d
  simp only [hl, hp, Option.map_some, pendSpec] at hpd
  have h0 : InvL { s with lock := upd s.lock d none, pc := upd s.pc t .idle } L D :=
    inv_unlock h hh rfl (by simp [hp, popped]) (by simp [hpd]) trivial (by simp [sm])
  refine inv_event h0 (.inr ⟨t, d, n, rfl, fun m hm hD => ?_⟩) (fun _ _ _ e => by cases e; exact upd_same _ _ _)
  have h1 := (h.rt m 0 hm).2.1 rfl
  rw [hD, h.sq d] at h1
  simpa [hl, hp, popped, hpd] using h1

theorem inv_recv {s L D t} (d : Dir) (h : InvL s L D) (hp : s.pc t = .idle) :
    InvL { s with pc := upd s.pc t (.r1 d), trace := .recvCall t d :: s.trace } L D := by
  have h0 : InvL { s with pc := upd s.pc t (.r1 d) } L D := by
    have hoth : ∀ d', s.lock d' ≠ some t := by
      intro d' hx; have := (h.lk t d').1 hx; simp [hp, holds] at this
    apply inv_move h (lock' := s.lock)
    · have := h.lk; grind [upd, holds]
    · intro d'; simp [own_pc, hoth d']
    · intro d'; simpa [own_pc, hoth d'] using h.pd d'
    · trivial
    · simp [sm]
  exact inv_event h0 (.inl ⟨t, d, rfl⟩) (by simp)

theorem inv_release {s L D m} (h : InvL s L D) (h1 : ∃ d, Ev.handled d m true ∈ s.trace ∧ Returned d m s.trace) (h2 : s.bit m = true)
    (h3 : Ev.released m ∉ s.trace) :
    s.alive m = true ∧ InvL { s with mtx := upd s.mtx m false, trace := .released m :: s.trace } L D := by
  obtain ⟨d, h1, hret⟩ := h1
  obtain ⟨ha, hx⟩ := h.kp d m h1 h2 h3
  have hm := h.hd _ _ _ h1
  have hmL : m ∈ L d := by rw [h.sq d]; simp [hm]
  have hD := h.dir _ _ hmL
  have hho : ∀ d', handledOf d' (.released m :: s.trace) = handledOf d' s.trace := fun _ => rfl
  refine ⟨ha, ?_⟩
  constructor
  case lk => exact h.lk
  case sq => intro d; simp only [hho]; exact h.sq d
  case nd => exact h.nd
  case dir => exact h.dir
  case pd => exact h.pd
  case snd =>
    intro u
    have h1 := h.snd u
    have h5 : ∀ d x, x ∈ handledOf d s.trace → D x = d := fun d x hx => h.dir d x (by rw [h.sq d]; simp [hx])
    cases hpu : s.pc u <;> simp only [hpu, sendOK, hho] at h1 ⊢ <;> grind [done_cons, upd, returned_cons]
  case uq => exact h.uq
  case lt => exact h.lt
  case ct => have := h.ct; grind
  case cl => have := h.cl; grind
  case rt => have := h.rt; grind
  case hd => have := h.hd; grind
  case un => have := h.un; have := h.dir; grind [upd]
  case rl => have := h.rl; grind
  case kp => have := h.kp; grind [upd]
  case gv =>
    have := h.gv
    have h7 : Done m (.released m :: s.trace) := ⟨d, true, by simp [h1], by simp⟩
    grind [done_cons, upd]
  case fb => have := h.fb; grind [done_cons]
  case hu => have := h.hu; grind
  case x7 => exact h.x7
  case od => have := h.od; grind [before_cons]
  case rv => exact rv_cons _ h.rv (by grind)

theorem inv_send {s L D t} (d : Dir) (f : Nat) (h : InvL s L D) (hp : s.pc t = .idle) (hf : f = 0 ∨ f % 2 = 1) :
    InvL { s with next := s.next + 1, alive := upd s.alive s.next true, bit := upd s.bit s.next (f % 2 = 1),
                  hold := upd s.hold s.next false, mtx := upd s.mtx s.next (f ≠ 0),
                  pc := upd s.pc t (.s1 d s.next f), trace := .sendCall d s.next :: s.trace }
      L (upd D s.next d) := by
  have hb : decide (f % 2 = 1) = decide (f ≠ 0) := by rcases hf with rfl | h <;> grind
  rw [hb]
  have hoth : ∀ d', s.lock d' ≠ some t := by
    intro d' hx; have := (h.lk t d').1 hx; simp [hp, holds] at this
  have hho : ∀ d', handledOf d' (.sendCall d s.next :: s.trace) = handledOf d' s.trace := fun _ => rfl
  have hlt := h.lt
  have hhl : ∀ d' m, m ∈ handledOf d' s.trace → m < s.next := fun d' m hm => h.lt d' m (by rw [h.sq d']; simp [hm])
  have hhd := h.hd
  have hrl := h.rl
  have hrt := h.rt
  have hdo : ∀ m, Done m s.trace → m < s.next := by
    rintro m ⟨d, k, h1, _⟩; exact hhl _ _ (hhd _ _ _ h1)
  have hnL : ∀ d', s.next ∉ L d' := fun d' hx => absurd (hlt _ _ hx) (by omega)
  have hlt' : ∀ u m, sm (s.pc u) = some m → m < s.next := by
    intro u m hu
    have h1 := h.snd u
    cases hpu : s.pc u <;> simp only [hpu, sendOK, sm] at h1 hu <;> grind
  constructor
  case lk => have := h.lk; grind [upd, holds]
  case sq => intro d'; simp only [own_pc, hoth d', if_false, hho]; exact h.sq d'
  case nd => exact h.nd
  case dir => have := h.dir; grind [upd]
  case pd => intro d'; simp only [own_pc, hoth d', if_false]; exact h.pd d'
  case snd =>
    intro u
    by_cases hu : u = t
    · subst hu; simp only [upd_same, sendOK]
      refine ⟨trivial, by omega, hnL d, trivial, trivial, trivial, ?_⟩
      intro r hr; simp at hr; exact absurd (hrt _ _ hr).1 (by omega)
    · simp only [upd_ne _ _ hu]
      have h1 := h.snd u
      have h2 := hlt' u
      cases hpu : s.pc u <;> simp only [hpu, sendOK, sm, hho] at h1 h2 ⊢ <;> grind [upd, done_cons, returned_cons]
  case uq => have := h.uq; grind [upd, sm]
  case lt => grind
  case ct => have := h.ct; grind [upd]
  case cl => have := h.cl; grind [upd]
  case rt => grind [upd]
  case hd => grind
  case un => have := h.un; grind [upd]
  case rl => grind [upd]
  case kp => have := h.kp; grind [upd]
  case gv => have := h.gv; grind [upd, done_cons, returned_cons]
  case fb => have := h.fb; grind [upd, done_cons, returned_cons]
  case hu => have := h.hu; grind
  case x7 => have := h.x7; grind [upd]
  case od =>
    have := h.od
    intro d' m1 m2 h2 h1 hB
    have hm2 : m2 ≠ s.next := fun e => hnL d' (e ▸ h2)
    rw [before_cons] at hB
    rcases hB with hB | ⟨⟨_, hB⟩, _⟩
    · have := (hrt _ _ (before_mem hB).1).1
      refine h.od d' m1 m2 h2 ?_ hB
      rwa [upd_ne _ _ (by omega)] at h1
    · simp at hB; exact absurd hB.2.symm hm2
  case rv =>
    intro new old t' d' n m h1 h2 h3
    have hm : m < s.next := by
      cases new with
      | nil => simp at h1
      | cons a new => simp at h1; exact (hrt m 0 (by rw [h1.2]; simp [h2])).1
    rw [upd_ne _ _ (by omega)] at h3
    exact rv_cons _ h.rv (by simp) new old t' d' n m h1 h2 h3

theorem inv_step {s L D t c ok} (h : InvL s L D) (hl : legal s t c) :
    ∃ s' L' D', step s t c ok = some s' ∧ InvL s' L' D' := by
  have hs := h.snd t
  cases hp : s.pc t with
  | idle =>
    have hl := hl hp
    cases c with
    | send d f =>
      cases ok with
      | false => exact ⟨s, L, D, by simp [step, hp], h⟩
      | true => exact ⟨_, _, _, by simp only [step, hp, if_true], inv_send d f h hp hl⟩
    | recv d => exact ⟨_, _, _, by simp only [step, hp], inv_recv d h hp⟩
    | release m =>
      obtain ⟨h1, h2, h3⟩ := hl
      obtain ⟨ha, hi⟩ := inv_release h h1 h2 h3
      exact ⟨_, _, _, by simp only [step, hp, ha, if_true], hi⟩
  | s1 d m f =>
    by_cases hk : s.lock d = none
    · exact ⟨_, _, _, by simp only [step, hp, hk, if_true], inv_s1 h hp hk⟩
    · exact ⟨s, L, D, by simp [step, hp, hk], h⟩
  | s2 d m f =>
    simp only [hp, sendOK] at hs
    exact ⟨_, _, _, by simp only [step, hp, hs.2.2.2.1, if_true], inv_s2 h hp⟩
  | s3 d m f =>
    by_cases hq : (s.queue d).head? = (s.queue d).getLast? ∧ (s.queue d).head? = some m
    · cases ok with
      | true => exact ⟨_, _, _, by simp only [step, hp]; rw [if_pos hq]; rfl, inv_s3_ok h hp (alone h hp hq)⟩
      | false =>
        obtain ⟨L', hi⟩ := inv_s3_fail h hp (alone h hp hq)
        exact ⟨_, _, _, by simp only [step, hp]; rw [if_pos hq, if_neg (by simp)], hi⟩
    · exact ⟨_, _, _, by simp only [step, hp]; rw [if_neg hq], inv_s3_more h hp hq⟩
  | s4 d m f =>
    simp only [hp, sendOK] at hs
    exact ⟨_, _, _, by simp only [step, hp, hs.2.2.2.1, if_true], inv_s4 h hp⟩
  | s4f m =>
    simp only [hp, sendOK] at hs
    exact ⟨_, _, _, by simp only [step, hp, hs.2.2.1, if_true], inv_s4f h hp⟩
  | s5 d m f =>
    by_cases hf : f = 0
    · subst hf; exact ⟨_, _, _, by simp only [step, hp]; rw [if_neg (by simp)], inv_s5 h hp⟩
    · exact ⟨_, _, _, by simp only [step, hp]; rw [if_pos hf], inv_s5_fb h hp hf⟩
  | s6 m =>
    simp only [hp, sendOK] at hs
    cases hx : s.mtx m with
    | true => exact ⟨s, L, D, by simp [step, hp, hs.2.2.2.1, hx], h⟩
    | false => exact ⟨_, _, _, by simp only [step, hp, hs.2.2.2.1, hx, if_true]; rfl, inv_s6 h hp hx⟩
  | s7 m =>
    simp only [hp, sendOK] at hs
    exact ⟨_, _, _, by simp only [step, hp, hs.2.2.2.1, if_true], inv_s7 h hp⟩
  | r1 d =>
    by_cases hk : s.lock d = none
    · exact ⟨_, _, _, by simp only [step, hp, hk, if_true], inv_r1 h hp hk⟩
    · exact ⟨s, L, D, by simp [step, hp, hk], h⟩
  | r2 d pos n =>
    cases hq : s.queue d with
    | nil => exact ⟨_, _, _, by simp only [step, hp, hq], inv_r2_end h hp hq⟩
    | cons m q =>
      have hi := inv_r2_pop h hp hq
      have ha := (r3_facts (t := t) hi (upd_same _ _ _)).2.2.2.1
      exact ⟨_, _, _, by simp only [step, hp, hq]; rw [if_pos ha], hi⟩
  | r3 d pos n m =>
    exact ⟨_, _, _, by simp only [step, hp]; rw [if_pos (r3_facts h hp).2.2.2.1], inv_r3 ok h hp⟩
  | r4 d pos n m =>
    simp only [hp, sendOK] at hs
    have hi := inv_r4 h hp (n + 1)
    refine ⟨_, _, _, ?_, hi⟩
    simp only [step, hp]
    rw [if_pos hs.2.1]
    cases hb : s.bit m <;> cases hh : s.hold m <;> simp
  | r5 d pos n => exact ⟨_, _, _, by simp only [step, hp], inv_r5 h hp⟩
  | r6 d n => exact ⟨_, _, _, by simp only [step, hp], inv_r6 h hp⟩

theorem inv_run {s L D l} (h : InvL s L D) (hl : legalRun s l) :
    ∃ s' L' D', run s l = some s' ∧ InvL s' L' D' := by
  induction l generalizing s L D with
  | nil => exact ⟨s, L, D, rfl, h⟩
  | cons x l ih =>
    obtain ⟨t, c, ok⟩ := x
    obtain ⟨s1, L1, D1, h1, hi⟩ := inv_step (ok := ok) h hl.1
    obtain ⟨s2, L2, D2, h2, hi2⟩ := ih hi (hl.2 s1 h1)
    exact ⟨s2, L2, D2, by simp [run, h1, h2], hi2⟩

/-! ### C56 -/

/-- **C56: memory safety.**  No schedule of legal calls uses a freed message. -/
theorem iothread_no_use_after_free (l : List (Nat × Call × Bool)) (hl : legalRun init l) :
    ∃ s, run init l = some s := by
  obtain ⟨s, _, _, h, _⟩ := inv_run inv_init hl
  exact ⟨s, h⟩

/-- **C56: delivered once, in order.**  In every state reached by any schedule there is one
sequence per side, free of duplicates, made of the messages handled so far, in the order of
their handling, followed by a rest that is not yet handled, such that
a send that returned 0 has put its message into it, a send that returned otherwise has not
(so its message is never handled), and messages stand in it in the order of their sends. -/
theorem iothread_delivery (l : List (Nat × Call × Bool)) (hl : legalRun init l) (s : St) (hs : run init l = some s) :
    ∃ L : Dir → List Nat, ∀ d, (∃ rest, L d = handledOf d s.trace ++ rest ∧ (s.lock d = none → rest = s.queue d)) ∧
      (L d).Nodup ∧
      (∀ m, m ∈ L d → Ev.sendCall d m ∈ s.trace) ∧
      (∀ m r, Ev.sendCall d m ∈ s.trace → Ev.sendRet m r ∈ s.trace → (r = 0 ↔ m ∈ L d)) ∧
      (∀ m1 m2, Ev.sendCall d m1 ∈ s.trace → m2 ∈ L d → Before m1 m2 s.trace → List.Sublist [m1, m2] (L d)) := by
  obtain ⟨s', L, D, h, hi⟩ := inv_run inv_init hl
  rw [hs] at h; cases h
  refine ⟨L, fun d => ⟨⟨_, by rw [hi.sq d, List.append_assoc], ?_⟩, hi.nd d, ?_, ?_, ?_⟩⟩
  · intro h; simp [h, popped]
  · intro m hm; have := hi.cl m (hi.lt _ _ hm); rwa [hi.dir _ _ hm] at this
  · intro m r h1 h2; have := (hi.rt m r h2).2; rwa [(hi.ct _ _ h1).2] at this
  · intro m1 m2 h1 h2 h3; exact hi.od d m1 m2 h2 (hi.ct _ _ h1).2 h3

/-- No message is handled twice, for either side. -/
theorem iothread_once (l : List (Nat × Call × Bool)) (hl : legalRun init l) (s : St) (hs : run init l = some s) (d : Dir) :
    (handledOf d s.trace).Nodup := by
  obtain ⟨L, h⟩ := iothread_delivery l hl s hs
  obtain ⟨⟨r, h1, _⟩, h2, _⟩ := h d
  rw [h1] at h2; exact (List.nodup_append.1 h2).1

/-- **C56: a wake-up byte is pending.**  Whenever the lock of a side is free, exactly one byte
can be read at its descriptor if messages wait and none if not; so the byte neither gets lost
nor piles up. -/
theorem iothread_wakeup (l : List (Nat × Call × Bool)) (hl : legalRun init l) (s : St) (hs : run init l = some s) (d : Dir)
    (hd : s.lock d = none) : s.pend (recvFd d) = if s.queue d = [] then 0 else 1 := by
  obtain ⟨s', L, D, h, hi⟩ := inv_run inv_init hl
  rw [hs] at h; cases h
  have := hi.pd d
  rwa [hd] at this

/-- While the lock is held, messages may wait without a byte only if the holder is the sender
that is about to write it (and that takes its message back if it cannot), or the receiver
that is emptying the chain. -/
theorem iothread_wakeup_locked (l : List (Nat × Call × Bool)) (hl : legalRun init l) (s : St) (hs : run init l = some s)
    (d : Dir) (hq : s.queue d ≠ []) (hp : s.pend (recvFd d) = 0) :
    ∃ t m f, s.lock d = some t ∧ s.pc t = .s3 d m f ∧ s.queue d = [m] := by
  obtain ⟨s', L, D, h, hi⟩ := inv_run inv_init hl
  rw [hs] at h; cases h
  have := hi.pd d
  cases hk : s.lock d with
  | none => rw [hk] at this; simp [pendSpec, hp, hq] at this
  | some t =>
    rw [hk] at this
    have hh := (hi.lk t d).1 hk
    cases hpc : s.pc t <;> simp only [hpc, Option.map_some, pendSpec, hp, holds] at this hh
    case s3 d' m f =>
      obtain ⟨q', h1, h2⟩ := this
      by_cases hq' : q' = []
      · subst hq'; simp at hh; subst hh; exact ⟨t, m, f, rfl, hpc, h1⟩
      · simp [hq'] at h2
    case r2 d' pos n => cases pos <;> simp_all
    all_goals simp_all

/-- **C56: a receive serves all that was accepted.**  When `mln_iothread_recv` returns, every
message for that side whose send had returned 0 has been handled. -/
theorem iothread_recv_drains (l : List (Nat × Call × Bool)) (hl : legalRun init l) (s : St) (hs : run init l = some s)
    (new old : List Ev) (t : Nat) (d : Dir) (n m : Nat) (htr : s.trace = new ++ Ev.recvRet t d n :: old)
    (hc : Ev.sendCall d m ∈ old) (hr : Ev.sendRet m 0 ∈ old) : m ∈ handledOf d old := by
  obtain ⟨s', L, D, h, hi⟩ := inv_run inv_init hl
  rw [hs] at h; cases h
  exact hi.rv new old t d n m htr hr (hi.ct d m (by rw [htr]; simp [hc])).2

/-- **C56: feedback.**  A send with feedback that returned 0 returned after the handler had been
called for its message, and after the release if the handler kept the message back. -/
theorem iothread_feedback (l : List (Nat × Call × Bool)) (hl : legalRun init l) (s : St) (hs : run init l = some s) (m : Nat)
    (hb : s.bit m = true) (hr : Ev.sendRet m 0 ∈ s.trace) : Done m s.trace := by
  obtain ⟨s', L, D, h, hi⟩ := inv_run inv_init hl
  rw [hs] at h; cases h
  exact hi.fb m hr hb

/-- **The feedback argument is cut to one bit**: with any even value other than 0 the receiver
frees the message while the sender still waits on its mutex, so a schedule of one send and
one receive ends in a use after free. -/
theorem iothread_even_feedback_use_after_free (d : Dir) (f : Nat) (hf : f ≠ 0) (he : f % 2 = 0) :
    run init ([(0, .send d f, true), (0, .recv d, true), (0, .recv d, true), (0, .recv d, true), (0, .recv d, true)] ++
      List.replicate 6 (1, .recv d, true) ++ [(0, .recv d, true)]) = none := by
  have h1 : decide (f % 2 = 1) = false := by simp [he]
  cases d <;> simp [run, step, init, upd, List.replicate, hf, he, peer, sendFd]

/-- **Releasing too early.**  Nothing in the interface tells a client when a message kept back
may be released.  If another thread releases it before the receiver has looked at
`msg->feedback` and `msg->hold` again (lines 158-159), the sender frees the message and the
receiver reads freed memory. -/
theorem iothread_early_release_use_after_free (d : Dir) :
    run init ([(0, .send d 1, true), (0, .recv d, true), (0, .recv d, true), (0, .recv d, true), (0, .recv d, true)] ++
      List.replicate 4 (1, .recv d, true) ++ [(2, .release 0, true), (0, .recv d, true), (0, .recv d, true),
      (1, .recv d, true)]) = none := by
  cases d <;> decide

-- two messages for the io side, the first with feedback; both are handled in order
example : (run init ([(0, .send .io 1, true), (0, .recv .io, true), (0, .recv .io, true), (0, .recv .io, true),
      (0, .recv .io, true), (2, .send .io 0, true), (2, .recv .io, true), (2, .recv .io, true), (2, .recv .io, true),
      (2, .recv .io, true)] ++ List.replicate 11 (1, .recv .io, false) ++
      [(0, .recv .io, true), (0, .recv .io, true)])).map (fun s => (handledOf .io s.trace, s.pend .ioFd, s.trace)) =
    some ([0, 1], 0, [.sendRet 0 0, .recvRet 1 .io 2, .handled .io 1 false, .handled .io 0 false, .recvCall 1 .io,
      .sendRet 1 0, .sendCall .io 1, .sendCall .io 0]) := by decide

end Verif.IoThread
