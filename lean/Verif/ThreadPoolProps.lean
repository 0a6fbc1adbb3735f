import Verif.ThreadPool
import Mathlib.Tactic.Common
import Mathlib.Data.List.Nodup
/-
C55, C82-C84: the thread pool.
-/
namespace Verif.ThreadPool

/-! ## Counting in a list without repetitions -/

theorem countP_upd (l : List Nat) (h : l.Nodup) (p q : Nat → Bool) (c : Nat) (hc : c ∈ l) (he : ∀ x, x ≠ c → q x = p x) :
    l.countP q + (if p c then 1 else 0) = l.countP p + (if q c then 1 else 0) := by
  induction l with
  | nil => simp at hc
  | cons a l ih =>
    rw [List.nodup_cons] at h
    rw [List.countP_cons, List.countP_cons]
    by_cases hac : a = c
    · subst hac
      have : l.countP q = l.countP p := by
        apply List.countP_congr
        intro x hx
        rw [he x]
        rintro rfl
        exact h.1 hx
      rw [this]
      omega
    · have := ih h.2 (by rcases List.mem_cons.1 hc with h | h; exact absurd h.symm hac; exact h)
      rw [he a hac]
      omega

theorem countP_same (l : List Nat) (p q : Nat → Bool) (c : Nat) (hc : c ∉ l) (he : ∀ x, x ≠ c → q x = p x) : l.countP q = l.countP p := by
  apply List.countP_congr
  intro x hx
  rw [he x]
  rintro rfl
  exact hc hx

theorem countP_erase (l : List Nat) (p : Nat → Bool) (c : Nat) (hc : c ∈ l) : (l.erase c).countP p + (if p c then 1 else 0) = l.countP p := by
  rw [(List.perm_cons_erase hc).countP_eq p, List.countP_cons]

/-! ## The invariant -/

/-- The child is there: created, started and not gone. -/
def Alive : CPC → Bool
  | .unborn => false
  | .done => false
  | .die3 _ => false
  | _ => true

/-- Ends its thread inside the handler. -/
def Dying : CPC → Bool
  | .die1 _ => true
  | .die2 _ => true
  | .die3 _ => true
  | _ => false

/-- The main thread is still a member. -/
def MainIn : MPC → Bool
  | .free => false
  | .fin => false
  | _ => true

structure Inv (max : Nat) (s : St) : Prop where
  nodup : s.members.Nodup
  counter : s.counter = s.members.length
  idle : s.idle = s.members.countP s.idl
  idl0 : s.idl 0 = true
  nRes : s.nRes = s.queue.length
  pc0 : s.pc 0 = .unborn
  nextT : 1 ≤ s.nextT
  fresh : ∀ c, s.nextT ≤ c → s.pc c = .unborn ∧ c ∉ s.members
  main : 0 ∈ s.members ↔ MainIn s.mpc = true
  alive : ∀ c, Alive (s.pc c) = true → c ∈ s.members
  member : ∀ c, c ∈ s.members → c ≠ 0 → Alive (s.pc c) = true ∨ c ∈ s.lost
  lost : ∀ c, c ∈ s.lost → c ∈ s.members ∧ c ≠ 0 ∧ s.pc c = .unborn
  nodie : ∀ c, Dying (s.pc c) = false
  alone : s.mpc = .exit ∨ s.mpc = .exiting → s.members = [0]
  empty : s.mpc = .free ∨ s.mpc = .fin → s.members = []
  freed : s.freed = true ↔ s.mpc = .fin
  fin : s.mpc = .fin → s.queue = []
  fifo : s.removed ++ s.queue.map (·.1) = List.range s.nextR
  once : ∀ d, s.handled.count d + s.dropped.count d + s.released.count d + s.members.countP (fun c => s.pc c = .got d) = s.removed.count d
  nul : ∀ d b, (d, b) ∈ s.queue → s.nul d = b
  gotNul : ∀ c d, s.pc c = .got d → s.nul d = false
  handledNul : ∀ d ∈ s.handled, s.nul d = false
  droppedNul : ∀ d ∈ s.dropped, s.nul d = true
  bound : s.counter ≤ 1 ∨ s.counter ≤ (max + 1) % 2 ^ 32
  relFin : s.mpc ≠ .fin → s.released = []

theorem inv_init (max : Nat) : Inv max init := by
  constructor <;> simp [init, MainIn, Alive, Dying]
  intro c h
  omega

theorem upd_self {β : Type} (f : Nat → β) (a : Nat) (b : β) : upd f a b a = b := by simp [upd]

theorem upd_ne {β : Type} (f : Nat → β) (a : Nat) (b : β) {x : Nat} (h : x ≠ a) : upd f a b x = f x := by simp [upd, h]

/-- A child that is there changes its place, nothing else. -/
theorem inv_move {max : Nat} {s : St} (h : Inv max s) (c : Nat) (p : CPC) (m : Option Nat) (q : Bool) (ha : Alive (s.pc c) = true) (hp : Alive p = true) (hd : Dying p = false)
    (hg : ∀ d, p ≠ .got d) (hg' : ∀ d, s.pc c ≠ .got d) : Inv max { s with mutex := m, quit := q, pc := upd s.pc c p } := by
  have hc := h.alive c ha
  have hc0 : c ≠ 0 := by rintro rfl; rw [h.pc0] at ha; cases ha
  have hcT : c < s.nextT := by
    by_contra hn
    exact (h.fresh c (by omega)).2 hc
  constructor
  · exact h.nodup
  · exact h.counter
  · exact h.idle
  · exact h.idl0
  · exact h.nRes
  · simpa only [upd_ne _ _ _ (Ne.symm hc0)] using h.pc0
  · exact h.nextT
  · intro x hx
    simp only at hx
    simpa only [upd_ne _ _ _ (show x ≠ c by omega)] using h.fresh x hx
  · exact h.main
  · intro x hx
    by_cases e : x = c
    · subst e; exact hc
    · simp only [upd_ne _ _ _ e] at hx; exact h.alive x hx
  · intro x hx h0
    by_cases e : x = c
    · subst e; left; simpa only [upd_self] using hp
    · simpa only [upd_ne _ _ _ e] using h.member x hx h0
  · intro x hx
    have := h.lost x hx
    have e : x ≠ c := by rintro rfl; rw [this.2.2] at ha; cases ha
    simpa only [upd_ne _ _ _ e] using this
  · intro x
    by_cases e : x = c
    · subst e; simpa only [upd_self] using hd
    · simpa only [upd_ne _ _ _ e] using h.nodie x
  · exact h.alone
  · exact h.empty
  · exact h.freed
  · exact h.fin
  · exact h.fifo
  · intro d
    have := h.once d
    have e : s.members.countP (fun x => upd s.pc c p x = .got d) = s.members.countP (fun x => s.pc x = .got d) := by
      apply List.countP_congr
      intro x _
      by_cases e : x = c
      · subst e; simp [upd_self, hg d, hg' d]
      · simp [upd_ne _ _ _ e]
    simp only [e]
    exact this
  · exact h.nul
  · intro x d hx
    by_cases e : x = c
    · subst e; simp only [upd_self] at hx; exact absurd hx (hg d)
    · simp only [upd_ne _ _ _ e] at hx; exact h.gotNul x d hx
  · exact h.handledNul
  · exact h.droppedNul
  · exact h.bound
  · exact h.relFin

/-- A child leaves. -/
theorem inv_exit {max : Nat} {s : St} (h : Inv max s) (c : Nat) (ha : Alive (s.pc c) = true) (hg' : ∀ d, s.pc c ≠ .got d) : Inv max (exitC s c) := by
  have hc := h.alive c ha
  have hc0 : c ≠ 0 := by rintro rfl; rw [h.pc0] at ha; cases ha
  have hcT : c < s.nextT := by
    by_contra hn
    exact (h.fresh c (by omega)).2 hc
  have hmem : ∀ x, x ∈ s.members.erase c ↔ x ≠ c ∧ x ∈ s.members := fun x => h.nodup.mem_erase_iff
  have hlen : (s.members.erase c).length = s.members.length - 1 := List.length_erase_of_mem hc
  have hpos : 0 < s.members.length := List.length_pos_of_mem hc
  unfold exitC
  constructor
  · exact h.nodup.erase c
  · simp only [hlen, h.counter]
  · have := countP_erase s.members s.idl c hc
    simp only [h.idle]
    split
    · rename_i hi; simp only [hi, if_true] at this; omega
    · rename_i hi; simp only [hi, Bool.false_eq_true, if_false] at this; omega
  · exact h.idl0
  · exact h.nRes
  · simpa only [upd_ne _ _ _ (Ne.symm hc0)] using h.pc0
  · exact h.nextT
  · intro x hx
    simp only at hx
    have := h.fresh x hx
    simp only [upd_ne _ _ _ (show x ≠ c by omega), hmem]
    exact ⟨this.1, fun q => this.2 q.2⟩
  · simp only [hmem]
    rw [← h.main]
    exact ⟨fun q => q.2, fun q => ⟨Ne.symm hc0, q⟩⟩
  · intro x hx
    by_cases e : x = c
    · subst e; simp only [upd_self] at hx; cases hx
    · simp only [upd_ne _ _ _ e] at hx; exact (hmem x).2 ⟨e, h.alive x hx⟩
  · intro x hx h0
    obtain ⟨e, hx⟩ := (hmem x).1 hx
    simpa only [upd_ne _ _ _ e] using h.member x hx h0
  · intro x hx
    have := h.lost x hx
    have e : x ≠ c := by rintro rfl; rw [this.2.2] at ha; cases ha
    simp only [upd_ne _ _ _ e, hmem]
    exact ⟨⟨e, this.1⟩, this.2⟩
  · intro x
    by_cases e : x = c
    · subst e; simp only [upd_self]; rfl
    · simpa only [upd_ne _ _ _ e] using h.nodie x
  · intro q
    have := h.alone q
    rw [this] at hc
    simp at hc
    exact absurd hc hc0
  · intro q
    have := h.empty q
    rw [this] at hc
    simp at hc
  · exact h.freed
  · exact h.fin
  · exact h.fifo
  · intro d
    have := h.once d
    have e1 := countP_erase s.members (fun x => s.pc x = .got d) c hc
    have e2 : (s.members.erase c).countP (fun x => upd s.pc c .done x = .got d) = (s.members.erase c).countP (fun x => s.pc x = .got d) := by
      apply List.countP_congr
      intro x hx
      have e := ((hmem x).1 hx).1
      simp [upd_ne _ _ _ e]
    simp only [hg' d, decide_false, Bool.false_eq_true, if_false] at e1
    simp only [e2]
    omega
  · exact h.nul
  · intro x d hx
    by_cases e : x = c
    · subst e; simp only [upd_self] at hx; cases hx
    · simp only [upd_ne _ _ _ e] at hx; exact h.gotNul x d hx
  · exact h.handledNul
  · exact h.droppedNul
  · have := h.bound
    simp only
    omega
  · exact h.relFin

/-- The idle flag is set again. -/
theorem inv_idle {max : Nat} {s : St} (h : Inv max s) (c : Nat) (ha : Alive (s.pc c) = true) (hi : ¬ s.idl c = true) :
    Inv max { s with idl := upd s.idl c true, idle := s.idle + 1 } := by
  have hc := h.alive c ha
  have hc0 : c ≠ 0 := by rintro rfl; rw [h.pc0] at ha; cases ha
  refine { h with idle := ?_, idl0 := ?_ }
  · have := countP_upd s.members h.nodup s.idl (upd s.idl c true) c hc (fun x hx => upd_ne _ _ _ hx)
    simp only [hi, upd_self, if_true] at this
    simp only [h.idle]
    simp at this
    omega
  · simpa only [upd_ne _ _ _ (Ne.symm hc0)] using h.idl0

theorem take_spec (q : List (Nat × Bool)) : (∀ d ∈ (take q).1, (d, true) ∈ q) ∧ (∀ a ∈ (take q).2.2, a ∈ q) ∧
    ((take q).2.1 = none → (take q).2.2 = [] ∧ (take q).1 = q.map (·.1)) ∧
    (∀ d, (take q).2.1 = some d → (d, false) ∈ q ∧ q.map (·.1) = (take q).1 ++ d :: (take q).2.2.map (·.1)) := by
  induction q with
  | nil => simp [take]
  | cons a q ih =>
    obtain ⟨d, b⟩ := a
    obtain ⟨h1, h2, h3, h4⟩ := ih
    cases b with
    | false => simp [take]; intro x hx; exact Or.inr hx
    | true =>
      simp only [take, if_true]
      refine ⟨?_, ?_, ?_, ?_⟩
      · intro x hx
        rcases List.mem_cons.1 hx with rfl | hx
        · simp
        · exact List.mem_cons_of_mem _ (h1 x hx)
      · intro x hx; exact List.mem_cons_of_mem _ (h2 x hx)
      · intro hn
        obtain ⟨e1, e2⟩ := h3 hn
        exact ⟨e1, by rw [e2]; rfl⟩
      · intro x hx
        obtain ⟨e1, e2⟩ := h4 x hx
        exact ⟨List.mem_cons_of_mem _ e1, by rw [List.map_cons, e2]; rfl⟩

/-- NULL resources are skipped and the queue is empty then. -/
theorem inv_drop {max : Nat} {s : St} (h : Inv max s) (hn : (take s.queue).2.1 = none) (hf : s.mpc ≠ .fin) :
    Inv max { s with queue := (take s.queue).2.2, dropped := s.dropped ++ (take s.queue).1, removed := s.removed ++ (take s.queue).1,
                     nRes := s.nRes - (take s.queue).1.length } := by
  obtain ⟨h1, h2, h3, _⟩ := take_spec s.queue
  obtain ⟨e1, e2⟩ := h3 hn
  refine { h with nRes := ?_, fin := ?_, fifo := ?_, once := ?_, nul := ?_, droppedNul := ?_ }
  · have := h.nRes
    simp only [e1, e2, List.length_map, List.length_nil]
    omega
  · intro q; exact absurd q hf
  · have := h.fifo
    simp only [e1, e2, List.map_nil, List.append_nil]
    exact this
  · intro d
    have := h.once d
    simp only [List.count_append]
    omega
  · intro d b hd
    exact h.nul d b (h2 _ hd)
  · intro d hd
    rcases List.mem_append.1 hd with hd | hd
    · exact h.droppedNul d hd
    · exact h.nul _ _ (h1 d hd)

/-- A resource is taken. -/
theorem inv_take {max : Nat} {s : St} (h : Inv max s) (c d : Nat) (hn : (take s.queue).2.1 = some d) (ha : Alive (s.pc c) = true) (hg' : ∀ d, s.pc c ≠ .got d)
    (hi : s.idl c = true) (hf : s.mpc ≠ .fin) :
    Inv max { s with queue := (take s.queue).2.2, dropped := s.dropped ++ (take s.queue).1, removed := s.removed ++ ((take s.queue).1 ++ [d]),
                     nRes := s.nRes - ((take s.queue).1.length + 1), idl := upd s.idl c false, idle := s.idle - 1, mutex := none, pc := upd s.pc c (.got d) } := by
  obtain ⟨h1, h2, _, h4⟩ := take_spec s.queue
  obtain ⟨e1, e2⟩ := h4 d hn
  have hc := h.alive c ha
  have hc0 : c ≠ 0 := by rintro rfl; rw [h.pc0] at ha; cases ha
  have hcT : c < s.nextT := by
    by_contra hn
    exact (h.fresh c (by omega)).2 hc
  have hm := inv_move (m := none) (q := s.quit) h c (.top true) ha rfl rfl (by simp) hg'
  refine { hm with idle := ?_, idl0 := ?_, nRes := ?_, pc0 := ?_, fresh := ?_, alive := ?_, member := ?_, lost := ?_, nodie := ?_, fin := ?_, fifo := ?_, once := ?_, nul := ?_, gotNul := ?_, droppedNul := ?_ }
  · have := countP_upd s.members h.nodup s.idl (upd s.idl c false) c hc (fun x hx => upd_ne _ _ _ hx)
    simp only [hi, upd_self, if_true] at this
    simp only [h.idle]
    simp at this
    omega
  · simpa only [upd_ne _ _ _ (Ne.symm hc0)] using h.idl0
  · have := h.nRes
    have := congrArg List.length e2
    simp only [List.length_map, List.length_append, List.length_cons] at this ⊢
    omega
  · simpa only [upd_ne _ _ _ (Ne.symm hc0)] using h.pc0
  · intro x hx
    simp only at hx
    simpa only [upd_ne _ _ _ (show x ≠ c by omega)] using h.fresh x hx
  · intro x hx
    by_cases e : x = c
    · subst e; exact hc
    · simp only [upd_ne _ _ _ e] at hx; exact h.alive x hx
  · intro x hx h0
    by_cases e : x = c
    · subst e; left; simp only [upd_self]; rfl
    · simpa only [upd_ne _ _ _ e] using h.member x hx h0
  · intro x hx
    have := h.lost x hx
    have e : x ≠ c := by rintro rfl; rw [this.2.2] at ha; cases ha
    simpa only [upd_ne _ _ _ e] using this
  · intro x
    by_cases e : x = c
    · subst e; simp only [upd_self]; rfl
    · simpa only [upd_ne _ _ _ e] using h.nodie x
  · intro q; exact absurd q hf
  · have := h.fifo
    rw [e2] at this
    simp only [List.append_assoc, List.cons_append, List.nil_append]
    exact this
  · intro x
    have := h.once x
    have e := countP_upd s.members h.nodup (fun y => s.pc y = .got x) (fun y => upd s.pc c (.got d) y = .got x) c hc (fun y hy => by simp only [upd_ne _ _ _ hy])
    simp only [hg' x, upd_self, decide_false, Bool.false_eq_true, if_false, CPC.got.injEq] at e
    simp only [List.count_append, List.count_cons, List.count_nil]
    simp only [beq_iff_eq]
    simp only [decide_eq_true_eq] at e
    omega
  · intro x b hx
    exact h.nul x b (h2 _ hx)
  · intro x y hx
    by_cases e : x = c
    · subst e; simp only [upd_self, CPC.got.injEq] at hx; rw [← hx]; exact h.nul d false e1
    · simp only [upd_ne _ _ _ e] at hx; exact h.gotNul x y hx
  · intro x hx
    rcases List.mem_append.1 hx with hx | hx
    · exact h.droppedNul x hx
    · exact h.nul _ _ (h1 x hx)

theorem inv_crit {max : Nat} {s : St} (h : Inv max s) (c : Nat) (tmo : Bool) (hp : s.pc c = .crit tmo) (hf : s.mpc ≠ .fin) : Inv max (critBody s c tmo) := by
  have ha : Alive (s.pc c) = true := by rw [hp]; rfl
  have hg : ∀ d, s.pc c ≠ .got d := by intro d; rw [hp]; simp
  have h1 : ∃ s', Inv max s' ∧ s'.pc = s.pc ∧ s'.idl c = true ∧ s'.mpc = s.mpc ∧
      (if s.idl c then s else { s with idl := upd s.idl c true, idle := s.idle + 1 }) = s' := by
    by_cases hi : s.idl c = true
    · exact ⟨s, h, rfl, hi, rfl, by rw [if_pos hi]⟩
    · exact ⟨_, inv_idle h c ha hi, rfl, upd_self _ _ _, rfl, by rw [if_neg hi]⟩
  obtain ⟨s', hs, e1, e2, e3, e4⟩ := h1
  unfold critBody
  rw [e4]
  simp only
  rw [← e1] at ha hg
  rw [← e3] at hf
  by_cases hq : s'.quit = true
  · rw [if_pos hq]
    exact inv_exit hs c ha hg
  · rw [if_neg hq]
    cases ht : (take s'.queue).2.1 with
    | none =>
      simp only
      have hd := inv_drop hs ht hf
      cases tmo with
      | true =>
        rw [if_pos rfl]
        exact inv_exit hd c ha hg
      | false =>
        rw [if_neg (by simp)]
        exact inv_move hd c .wait none _ ha rfl rfl (by simp) hg
    | some d =>
      simp only
      exact inv_take hs c d ht ha hg e2 hf

theorem inv_child {max : Nat} {s : St} (h : Inv max s) (c : Nat) (a : CAct) (hx : a ≠ .die) : ∃ s', stepChild s c a = some s' ∧ Inv max s' := by
  have hfr : Alive (s.pc c) = true → ¬ s.freed = true := by
    intro ha hf
    have := h.empty (Or.inr (h.freed.1 hf))
    have hc := h.alive c ha
    rw [this] at hc
    simp at hc
  have hfin : Alive (s.pc c) = true → s.mpc ≠ .fin := fun ha hf => hfr ha (h.freed.2 hf)
  have hd := h.nodie c
  have mv : ∀ p m q, Alive (s.pc c) = true → Alive p = true → Dying p = false → (∀ d, p ≠ .got d) → (∀ d, s.pc c ≠ .got d) →
      Inv max { s with mutex := m, quit := q, pc := upd s.pc c p } := fun p m q => inv_move h c p m q
  unfold stepChild
  cases hp : s.pc c with
  | unborn => exact ⟨s, rfl, h⟩
  | done => exact ⟨s, rfl, h⟩
  | die1 d => rw [hp] at hd; cases hd
  | die2 d => rw [hp] at hd; cases hd
  | die3 d => rw [hp] at hd; cases hd
  | top tmo =>
    have ha : Alive (s.pc c) = true := by rw [hp]; rfl
    simp only [if_neg (hfr ha)]
    split
    · exact ⟨_, rfl, mv _ _ _ ha rfl rfl (by simp) (by rw [hp]; simp)⟩
    · exact ⟨s, rfl, h⟩
  | crit tmo =>
    have ha : Alive (s.pc c) = true := by rw [hp]; rfl
    simp only [if_neg (hfr ha)]
    exact ⟨_, rfl, inv_crit h c tmo hp (hfin ha)⟩
  | wait =>
    have ha : Alive (s.pc c) = true := by rw [hp]; rfl
    simp only [if_neg (hfr ha)]
    split
    · cases a with
      | ok => exact ⟨_, rfl, mv _ _ _ ha rfl rfl (by simp) (by rw [hp]; simp)⟩
      | timeout => exact ⟨_, rfl, mv _ _ _ ha rfl rfl (by simp) (by rw [hp]; simp)⟩
      | error => exact ⟨_, rfl, mv _ _ _ ha rfl rfl (by simp) (by rw [hp]; simp)⟩
      | ret => exact ⟨s, rfl, h⟩
      | quit => exact ⟨s, rfl, h⟩
      | die => exact ⟨s, rfl, h⟩
    · exact ⟨s, rfl, h⟩
  | brk =>
    have ha : Alive (s.pc c) = true := by rw [hp]; rfl
    simp only [if_neg (hfr ha)]
    exact ⟨_, rfl, inv_exit h c ha (by rw [hp]; simp)⟩
  | got d =>
    have ha : Alive (s.pc c) = true := by rw [hp]; rfl
    have hc := h.alive c ha
    have hc0 : c ≠ 0 := by rintro rfl; rw [h.pc0] at hp; cases hp
    have hcT : c < s.nextT := by
      by_contra hn
      exact (h.fresh c (by omega)).2 hc
    simp only [if_neg (hfr ha)]
    refine ⟨_, rfl, { h with pc0 := ?_, fresh := ?_, alive := ?_, member := ?_, lost := ?_, nodie := ?_, once := ?_, gotNul := ?_, handledNul := ?_ }⟩
    · simpa only [upd_ne _ _ _ (Ne.symm hc0)] using h.pc0
    · intro x hx
      simp only at hx
      simpa only [upd_ne _ _ _ (show x ≠ c by omega)] using h.fresh x hx
    · intro x hx
      by_cases e : x = c
      · subst e; exact hc
      · simp only [upd_ne _ _ _ e] at hx; exact h.alive x hx
    · intro x hx h0
      by_cases e : x = c
      · subst e; left; simp only [upd_self]; rfl
      · simpa only [upd_ne _ _ _ e] using h.member x hx h0
    · intro x hx
      have := h.lost x hx
      have e : x ≠ c := by rintro rfl; rw [this.2.2] at hp; cases hp
      simpa only [upd_ne _ _ _ e] using this
    · intro x
      by_cases e : x = c
      · subst e; simp only [upd_self]; rfl
      · simpa only [upd_ne _ _ _ e] using h.nodie x
    · intro x
      have := h.once x
      have e := countP_upd s.members h.nodup (fun y => s.pc y = .got x) (fun y => upd s.pc c (.run d) y = .got x) c hc (fun y hy => by simp only [upd_ne _ _ _ hy])
      simp only [hp, upd_self, CPC.got.injEq, decide_eq_true_eq] at e
      simp only [List.count_append, List.count_cons, List.count_nil, beq_iff_eq]
      simp only [reduceCtorEq, if_false] at e
      omega
    · intro x y hx
      by_cases e : x = c
      · subst e; simp only [upd_self] at hx; cases hx
      · simp only [upd_ne _ _ _ e] at hx; exact h.gotNul x y hx
    · intro x hx
      rcases List.mem_append.1 hx with hx | hx
      · exact h.handledNul x hx
      · simp at hx; rw [hx]; exact h.gotNul c d hp
  | run d =>
    have ha : Alive (s.pc c) = true := by rw [hp]; rfl
    simp only [if_neg (hfr ha)]
    cases a with
    | ret => exact ⟨_, rfl, mv _ _ _ ha rfl rfl (by simp) (by rw [hp]; simp)⟩
    | quit => exact ⟨_, rfl, mv _ _ _ ha rfl rfl (by simp) (by rw [hp]; simp)⟩
    | die => exact absurd rfl hx
    | ok => exact ⟨s, rfl, h⟩
    | timeout => exact ⟨s, rfl, h⟩
    | error => exact ⟨s, rfl, h⟩
  | quit1 d =>
    have ha : Alive (s.pc c) = true := by rw [hp]; rfl
    simp only [if_neg (hfr ha)]
    split
    · exact ⟨_, rfl, mv _ _ _ ha rfl rfl (by simp) (by rw [hp]; simp)⟩
    · exact ⟨s, rfl, h⟩
  | quit2 d =>
    have ha : Alive (s.pc c) = true := by rw [hp]; rfl
    simp only [if_neg (hfr ha)]
    exact ⟨_, rfl, mv _ _ _ ha rfl rfl (by simp) (by rw [hp]; simp)⟩

/-- A resource is added. -/
theorem inv_enqueue {max : Nat} {s : St} (h : Inv max s) (nul : Bool) (r : List (Nat × Bool)) (hm : s.mpc = .add nul) :
    Inv max { s with queue := s.queue ++ [(s.nextR, nul)], nRes := s.nRes + 1, nextR := s.nextR + 1,
                     nul := upd s.nul s.nextR nul, mutex := none, mpc := .user, rets := r } := by
  have hr : ∀ d ∈ s.removed ++ s.queue.map (·.1), d < s.nextR := by
    intro d hd
    rw [h.fifo] at hd
    simpa using hd
  have hrm : ∀ d, 0 < s.removed.count d → d < s.nextR := by
    intro d hd
    exact hr d (List.mem_append_left _ (List.count_pos_iff.1 hd))
  have hm' : MainIn s.mpc = true := by rw [hm]; rfl
  refine { h with nRes := ?_, main := ?_, alone := ?_, empty := ?_, freed := ?_, fin := ?_, fifo := ?_, nul := ?_, gotNul := ?_, handledNul := ?_, droppedNul := ?_, relFin := ?_ }
  · simp [h.nRes]
  · rw [h.main, hm']; rfl
  · intro q; simp at q
  · intro q; simp at q
  · have := h.freed; rw [hm] at this; simpa using this
  · intro q; cases q
  · rw [List.map_append, ← List.append_assoc, h.fifo, List.range_succ]; rfl
  · intro d b hd
    rcases List.mem_append.1 hd with hd | hd
    · have hlt := hr d (List.mem_append_right _ (List.mem_map.2 ⟨(d, b), hd, rfl⟩))
      simpa only [upd_ne _ _ _ (show d ≠ s.nextR by omega)] using h.nul d b hd
    · simp at hd
      rw [hd.1, hd.2]
      exact upd_self _ _ _
  · intro c d hc
    have hlt : d < s.nextR := by
      apply hrm
      have := h.once d
      have hp : 0 < s.members.countP (fun c => s.pc c = .got d) :=
        List.countP_pos_iff.2 ⟨c, h.alive c (by rw [show s.pc c = .got d from hc]; rfl), by simpa using hc⟩
      omega
    simpa only [upd_ne _ _ _ (show d ≠ s.nextR by omega)] using h.gotNul c d hc
  · intro d hd
    have hlt : d < s.nextR := by
      apply hrm
      have := h.once d
      have : 0 < s.handled.count d := List.count_pos_iff.2 hd
      omega
    simpa only [upd_ne _ _ _ (show d ≠ s.nextR by omega)] using h.handledNul d hd
  · intro d hd
    have hlt : d < s.nextR := by
      apply hrm
      have := h.once d
      have : 0 < s.dropped.count d := List.count_pos_iff.2 hd
      omega
    simpa only [upd_ne _ _ _ (show d ≠ s.nextR by omega)] using h.droppedNul d hd
  · intro _
    exact h.relFin (by rw [hm]; simp)

/-- A member joins; `p` is where its thread starts, or it is lost. -/
theorem inv_join {max : Nat} {s : St} (h : Inv max s) (hu : s.mpc = .user) (hb : s.counter < (max + 1) % 2 ^ 32) (create : Bool) :
    Inv max { s with counter := s.counter + 1, idle := s.idle + 1, members := s.members ++ [s.nextT], idl := upd s.idl s.nextT true, nextT := s.nextT + 1,
                     pc := if create then upd s.pc s.nextT (.top false) else s.pc, lost := if create then s.lost else s.nextT :: s.lost } := by
  obtain ⟨f1, f2⟩ := h.fresh s.nextT (Nat.le_refl _)
  have hn := h.nextT
  have hpc : ∀ x, x ≠ s.nextT → (if create then upd s.pc s.nextT (.top false) else s.pc) x = s.pc x := by
    intro x hx
    split
    · exact upd_ne _ _ _ hx
    · rfl
  have hpT : (if create then upd s.pc s.nextT (.top false) else s.pc) s.nextT = if create then .top false else .unborn := by
    split
    · exact upd_self _ _ _
    · exact f1
  have hgot : ∀ d x, (if create then upd s.pc s.nextT (.top false) else s.pc) x = .got d → s.pc x = .got d := by
    intro d x hx
    by_cases e : x = s.nextT
    · rw [e, hpT] at hx; split at hx <;> cases hx
    · rw [hpc x e] at hx; exact hx
  constructor
  · simp only
    rw [List.nodup_append]
    refine ⟨h.nodup, by simp, ?_⟩
    intro a ha b hb
    simp at hb
    rintro rfl
    rw [hb] at ha
    exact f2 ha
  · simp [h.counter]
  · simp only [List.countP_append, List.countP_cons, List.countP_nil, upd_self, if_true, h.idle]
    rw [countP_same s.members s.idl (upd s.idl s.nextT true) s.nextT f2 (fun x hx => upd_ne _ _ _ hx)]
  · simpa only [upd_ne _ _ _ (show 0 ≠ s.nextT by omega)] using h.idl0
  · exact h.nRes
  · simpa only [hpc 0 (by omega)] using h.pc0
  · simp only; omega
  · intro x hx
    simp only at hx
    have := h.fresh x (by omega)
    simp only [hpc x (by omega), List.mem_append, List.mem_cons, List.not_mem_nil, or_false]
    exact ⟨this.1, by rintro (q | q); exact this.2 q; omega⟩
  · simp only [List.mem_append, List.mem_cons, List.not_mem_nil, or_false]
    rw [← h.main]
    exact ⟨fun q => by rcases q with q | q; exact q; omega, Or.inl⟩
  · intro x hx
    by_cases e : x = s.nextT
    · subst e; simp
    · simp only [hpc x e] at hx; exact List.mem_append_left _ (h.alive x hx)
  · intro x hx h0
    by_cases e : x = s.nextT
    · subst e
      simp only [hpT]
      cases create with
      | true => left; rfl
      | false => right; simp
    · have hx : x ∈ s.members := by
        rcases List.mem_append.1 hx with q | q
        · exact q
        · simp at q; exact absurd q e
      simp only [hpc x e]
      rcases h.member x hx h0 with q | q
      · exact Or.inl q
      · right; split
        · exact q
        · exact List.mem_cons_of_mem _ q
  · intro x hx
    have : x ∈ s.lost ∨ (create = false ∧ x = s.nextT) := by
      simp only at hx
      split at hx
      · exact Or.inl hx
      · rename_i hc
        rcases List.mem_cons.1 hx with q | q
        · exact Or.inr ⟨by simpa using hc, q⟩
        · exact Or.inl q
    rcases this with q | ⟨q, rfl⟩
    · have := h.lost x q
      have e : x ≠ s.nextT := by rintro rfl; exact f2 this.1
      simp only [hpc x e]
      exact ⟨List.mem_append_left _ this.1, this.2⟩
    · refine ⟨by simp, by omega, ?_⟩
      rw [if_neg (by rw [q]; simp)]
      exact f1
  · intro x
    by_cases e : x = s.nextT
    · subst e
      simp only [hpT]
      cases create <;> rfl
    · simpa only [hpc x e] using h.nodie x
  · intro q; rw [hu] at q; simp at q
  · intro q; rw [hu] at q; simp at q
  · exact h.freed
  · exact h.fin
  · exact h.fifo
  · intro d
    have := h.once d
    have e : (s.members ++ [s.nextT]).countP (fun c => (if create then upd s.pc s.nextT (.top false) else s.pc) c = .got d) =
        s.members.countP (fun c => s.pc c = .got d) := by
      rw [List.countP_append, List.countP_cons, List.countP_nil]
      rw [countP_same s.members (fun c => s.pc c = .got d) _ s.nextT f2 (fun x hx => by simp only [hpc x hx])]
      simp only [hpT]
      cases create <;> simp
    simp only [e]
    exact this
  · exact h.nul
  · intro c d hc
    exact h.gotNul c d (hgot d c hc)
  · exact h.handledNul
  · exact h.droppedNul
  · right; simp only; omega
  · exact h.relFin

theorem inv_add {max : Nat} {s : St} (h : Inv max s) (nul join create : Bool) (hm : s.mpc = .add nul) : Inv max (addBody max s nul join create) := by
  have he := fun r => inv_enqueue h nul r hm
  unfold addBody
  simp only
  split
  · rename_i hc
    cases join with
    | false => exact he _
    | true =>
      simp only [if_true, Nat.add_sub_cancel]
      cases create with
      | true =>
        simp only [if_true]
        have := inv_join (he ((s.nextR, true) :: s.rets)) rfl hc.2 true
        simpa only [if_true] using this
      | false =>
        have := inv_join (he ((s.nextR, false) :: s.rets)) rfl hc.2 false
        simpa using this
  · exact he _

theorem inv_mpc {max : Nat} {s : St} (h : Inv max s) (m : MPC) (x : Option Nat) (q : Bool) (hm : MainIn s.mpc = true) (hm' : MainIn m = true)
    (ha : m = .exit ∨ m = .exiting → s.members = [0]) : Inv max { s with mutex := x, quit := q, mpc := m } := by
  have hf : s.mpc ≠ .fin := by intro e; rw [e] at hm; cases hm
  have hf' : m ≠ .fin := by intro e; rw [e] at hm'; cases hm'
  have hf'' : m ≠ .free := by intro e; rw [e] at hm'; cases hm'
  refine { h with main := ?_, alone := ha, empty := ?_, freed := ?_, fin := fun e => absurd e hf', relFin := fun _ => h.relFin hf }
  · rw [h.main, hm, hm']
  · intro q; rcases q with q | q
    · exact absurd q hf''
    · exact absurd q hf'
  · have := h.freed
    constructor
    · intro e; exact absurd (this.1 e) hf
    · intro e; exact absurd e hf'

theorem inv_main {max : Nat} {s : St} (h : Inv max s) (a : MAct) : ∃ s', stepMain max s a = some s' ∧ Inv max s' := by
  have mv : ∀ m x q, MainIn s.mpc = true → MainIn m = true → (m = .exit ∨ m = .exiting → s.members = [0]) → Inv max { s with mutex := x, quit := q, mpc := m } :=
    fun m x q => inv_mpc h m x q
  unfold stepMain
  cases hm : s.mpc with
  | user =>
    have hi : MainIn s.mpc = true := by rw [hm]; rfl
    cases a with
    | add nul ok =>
      cases ok with
      | true => exact ⟨_, rfl, mv _ _ _ hi rfl (by simp)⟩
      | false => exact ⟨s, rfl, h⟩
    | quit => exact ⟨_, rfl, mv _ _ _ hi rfl (by simp)⟩
    | ret => exact ⟨_, rfl, mv _ _ _ hi rfl (by simp)⟩
    | go j c => exact ⟨s, rfl, h⟩
  | lockAdd nul =>
    have hi : MainIn s.mpc = true := by rw [hm]; rfl
    simp only
    split
    · exact ⟨_, rfl, mv _ _ _ hi rfl (by simp)⟩
    · exact ⟨s, rfl, h⟩
  | add nul =>
    cases a with
    | go j c => exact ⟨_, rfl, inv_add h nul j c hm⟩
    | add _ _ => exact ⟨s, rfl, h⟩
    | quit => exact ⟨s, rfl, h⟩
    | ret => exact ⟨s, rfl, h⟩
  | lockQuit =>
    have hi : MainIn s.mpc = true := by rw [hm]; rfl
    simp only
    split
    · exact ⟨_, rfl, mv _ _ _ hi rfl (by simp)⟩
    · exact ⟨s, rfl, h⟩
  | quit =>
    have hi : MainIn s.mpc = true := by rw [hm]; rfl
    exact ⟨_, rfl, mv _ _ _ hi rfl (by simp)⟩
  | loop =>
    have hi : MainIn s.mpc = true := by rw [hm]; rfl
    simp only
    split
    · exact ⟨_, rfl, mv _ _ _ hi rfl (by simp)⟩
    · exact ⟨s, rfl, h⟩
  | check =>
    have hi : MainIn s.mpc = true := by rw [hm]; rfl
    simp only
    split
    · rename_i hc
      refine ⟨_, rfl, mv _ _ _ hi rfl fun _ => ?_⟩
      have h0 := h.main.2 hi
      rw [h.counter] at hc
      match hl : s.members, h0, hc with
      | [x], h0, _ => simp at h0; rw [← h0]
      | x :: y :: l, _, hc => simp at hc
    · exact ⟨_, rfl, mv _ _ _ hi rfl (by simp)⟩
  | exit =>
    have hi : MainIn s.mpc = true := by rw [hm]; rfl
    simp only
    split
    · exact ⟨_, rfl, mv _ _ _ hi rfl (fun _ => h.alone (Or.inl hm))⟩
    · exact ⟨s, rfl, h⟩
  | exiting =>
    have hmem := h.alone (Or.inr hm)
    have hf : s.mpc ≠ .fin := by rw [hm]; simp
    refine ⟨_, rfl, ?_⟩
    have he : s.members.erase 0 = [] := by rw [hmem]; rfl
    have hal : ∀ c, Alive (s.pc c) = false := by
      intro c
      cases hc : Alive (s.pc c) with
      | false => rfl
      | true =>
        have := h.alive c hc
        rw [hmem] at this
        simp at this
        subst this
        rw [h.pc0] at hc
        cases hc
    refine { h with nodup := ?_, counter := ?_, idle := ?_, fresh := ?_, main := ?_, alive := ?_, member := ?_, lost := ?_, alone := ?_, empty := ?_, freed := ?_, fin := ?_, once := ?_, bound := ?_, relFin := fun _ => h.relFin hf }
    · simp [he]
    · simp [h.counter, hmem]
    · simp [h.idle, hmem, h.idl0]
    · intro c hc; simp only [he]; exact ⟨(h.fresh c hc).1, by simp⟩
    · simp [he, MainIn]
    · intro c hc; simp only [hal c] at hc; cases hc
    · intro c hc; simp [he] at hc
    · intro c hc
      have := h.lost c hc
      rw [hmem] at this
      simp at this
      exact absurd this.1 this.2.1
    · intro q; simp at q
    · intro _; exact he
    · have := h.freed; rw [hm] at this; simpa using this
    · intro q; cases q
    · intro d
      have := h.once d
      rw [hmem] at this
      simp only [he, List.countP_nil]
      simp [h.pc0] at this
      omega
    · have := h.bound; simp only; omega
  | free =>
    have hmem := h.empty (Or.inl hm)
    have hcnt := h.counter
    have hidl := h.idle
    rw [hmem] at hcnt hidl
    simp at hcnt hidl
    have hal : ∀ c, Alive (s.pc c) = false := by
      intro c
      cases hc : Alive (s.pc c) with
      | false => rfl
      | true => have := h.alive c hc; rw [hmem] at this; simp at this
    simp only [if_pos (show s.members = [] ∧ s.counter = 0 ∧ s.idle = 0 from ⟨hmem, hcnt, hidl⟩)]
    refine ⟨_, rfl, ?_⟩
    refine { h with nRes := ?_, main := ?_, alone := ?_, empty := ?_, freed := ?_, fin := ?_, fifo := ?_, once := ?_, nul := ?_, relFin := ?_ }
    · rfl
    · simp [hmem, MainIn]
    · intro q; simp at q
    · intro _; exact hmem
    · simp
    · intro _; rfl
    · simp only [List.map_nil, List.append_nil]; exact h.fifo
    · intro d
      have := h.once d
      simp only [List.count_append]
      omega
    · intro d b hd; simp at hd
    · intro q; exact absurd rfl q
  | fin => exact ⟨s, rfl, h⟩

/-- No handler ends its thread. -/
def NoDie (l : List Act) : Prop := ∀ c, Act.child c .die ∉ l

theorem inv_run {max : Nat} (l : List Act) : ∀ s, Inv max s → NoDie l → ∃ s', run max s l = some s' ∧ Inv max s' := by
  induction l with
  | nil => intro s h _; exact ⟨s, rfl, h⟩
  | cons a l ih =>
    intro s h hd
    have hl : NoDie l := fun c hc => hd c (by simp [hc])
    have : ∃ s', step max s a = some s' ∧ Inv max s' := by
      cases a with
      | main a => exact inv_main h a
      | child c a => exact inv_child h c a (by rintro rfl; exact hd c (by simp))
    obtain ⟨s', e, h'⟩ := this
    obtain ⟨s'', e', h''⟩ := ih s' h' hl
    exact ⟨s'', by rw [run, e]; exact e', h''⟩

/-! ## Theorems -/

/-- C55: under every schedule, without undefined behaviour or failing assertion: resources leave the
queue in the order of addition; each is handed out at most once, by a handler call (never with
NULL) or the free handler, or skipped because it is NULL; each one that left the queue is handed
out, skipped, or held by one child about to call the handler; when mln_thread_pool_run is over, each
was handed out or skipped exactly once. -/
theorem pool_once (max : Nat) (l : List Act) (hl : NoDie l) : ∃ s, run max init l = some s ∧
    s.removed ++ s.queue.map (·.1) = List.range s.nextR ∧
    (∀ d, s.handled.count d + s.dropped.count d + s.released.count d ≤ 1) ∧
    (∀ d ∈ s.removed, d ∈ s.handled ∨ d ∈ s.dropped ∨ d ∈ s.released ∨ ∃ c, s.pc c = .got d) ∧
    (∀ d ∈ s.handled, s.nul d = false) ∧ (∀ d ∈ s.dropped, s.nul d = true) ∧
    (s.mpc ≠ .fin → s.released = []) ∧
    (s.mpc = .fin → ∀ d < s.nextR, s.handled.count d + s.dropped.count d + s.released.count d = 1) := by
  obtain ⟨s, e, h⟩ := inv_run l init (inv_init max) hl
  have hnd : (s.removed ++ s.queue.map (·.1)).Nodup := by rw [h.fifo]; exact List.nodup_range
  have hle : ∀ d, s.removed.count d ≤ 1 := fun d => List.nodup_iff_count_le_one.1 (List.nodup_append.1 hnd).1 d
  refine ⟨s, e, h.fifo, ?_, ?_, h.handledNul, h.droppedNul, h.relFin, ?_⟩
  · intro d
    have := h.once d
    have := hle d
    omega
  · intro d hd
    have h1 := h.once d
    have h2 := List.count_pos_iff.2 hd
    by_contra hc
    simp only [not_or, not_exists] at hc
    obtain ⟨c1, c2, c3, c4⟩ := hc
    rw [List.count_eq_zero.2 c1, List.count_eq_zero.2 c2, List.count_eq_zero.2 c3] at h1
    have : s.members.countP (fun c => s.pc c = .got d) = 0 := by
      rw [List.countP_eq_zero]
      intro c _
      simpa using c4 c
    omega
  · intro hf d hd
    have h1 := h.once d
    rw [h.empty (Or.inr hf)] at h1
    have h2 := h.fifo
    rw [h.fin hf] at h2
    simp only [List.map_nil, List.append_nil] at h2
    rw [h2, List.countP_nil] at h1
    have : (List.range s.nextR).count d = 1 := by
      rw [List.count_eq_one_of_mem List.nodup_range]
      simpa using hd
    omega

/-- pthread_create never failed. -/
def Created (l : List Act) : Prop := ∀ j, Act.main (.go j false) ∉ l

theorem lost_nil {max : Nat} (l : List Act) : ∀ s s', run max s l = some s' → Created l → s.lost = [] → s'.lost = [] := by
  induction l with
  | nil => intro s s' h _ h0; cases h; exact h0
  | cons a l ih =>
    intro s s' h hc h0
    rw [run] at h
    cases hs : step max s a with
    | none => rw [hs] at h; cases h
    | some s1 =>
      rw [hs] at h
      refine ih s1 s' h (fun j hj => hc j (by simp [hj])) ?_
      cases a with
      | main a =>
        simp only [step, stepMain] at hs
        cases hm : s.mpc <;> rw [hm] at hs <;> simp only at hs
        case add nul =>
          cases a with
          | go j c =>
            cases c with
            | false => exact absurd (by simp) (hc j)
            | true =>
              simp only [Option.some.injEq] at hs
              rw [← hs]
              unfold addBody
              simp only
              split
              · cases j <;> simpa using h0
              · exact h0
          | _ => cases hs; exact h0
        case user => cases a <;> simp only at hs <;> first | (cases hs; exact h0) | (split at hs <;> cases hs <;> exact h0)
        all_goals first | (cases hs; exact h0) | (split at hs <;> cases hs <;> exact h0)
      | child c a =>
        simp only [step, stepChild] at hs
        have hex : ∀ s : St, s.lost = [] → (exitC s c).lost = [] := fun s q => q
        have hcr : ∀ t, (critBody s c t).lost = [] := by
          intro t
          unfold critBody
          simp only
          have : ((if s.idl c then s else { s with idl := upd s.idl c true, idle := s.idle + 1 }) : St).lost = [] := by split <;> exact h0
          generalize (if s.idl c then s else { s with idl := upd s.idl c true, idle := s.idle + 1 } : St) = s1 at this
          split
          · exact this
          · split
            · split <;> exact this
            · exact this
        cases hp : s.pc c <;> rw [hp] at hs <;> simp only at hs
        case crit t =>
          split at hs
          · cases hs
          · cases hs; exact hcr t
        all_goals first
          | (cases hs; exact h0)
          | (split at hs
             · cases hs
             · first
               | (cases hs; exact h0)
               | (split at hs <;> first | (cases hs; exact h0) | (split at hs <;> cases hs <;> exact h0)))

/-- C82: if no pthread_create fails, the three counters are the numbers of threads (main included),
of idle threads and of queued resources, under every schedule; and they fit in 32 bits. -/
theorem pool_counters (max : Nat) (l : List Act) (hl : NoDie l) (hc : Created l) : ∃ s, run max init l = some s ∧
    s.members.Nodup ∧ (∀ c, c ∈ s.members ↔ (c = 0 ∧ MainIn s.mpc = true) ∨ Alive (s.pc c) = true) ∧
    s.counter = s.members.length ∧ s.idle = s.members.countP s.idl ∧ s.nRes = s.queue.length ∧
    (s.counter ≤ 1 ∨ s.counter ≤ (max + 1) % 2 ^ 32) := by
  obtain ⟨s, e, h⟩ := inv_run l init (inv_init max) hl
  have hlost := lost_nil l init s e hc rfl
  refine ⟨s, e, h.nodup, ?_, h.counter, h.idle, h.nRes, h.bound⟩
  intro c
  constructor
  · intro hm
    by_cases h0 : c = 0
    · subst h0; exact Or.inl ⟨rfl, h.main.1 hm⟩
    · rcases h.member c hm h0 with q | q
      · exact Or.inr q
      · rw [hlost] at q; simp at q
  · rintro (⟨rfl, q⟩ | q)
    · exact h.main.2 q
    · exact h.alive c q

/-- No waiting child gets an error other than ETIMEDOUT. -/
def NoErr (l : List Act) : Prop := ∀ c, Act.child c .error ∉ l

/-- malloc in member_join never failed. -/
def Joined (l : List Act) : Prop := ∀ c, Act.main (.go false c) ∉ l

/-- Nobody is lost, no child has an error, and a queue that is not empty has a child. -/
structure Live (s : St) : Prop where
  lost : s.lost = []
  noBrk : ∀ c, s.pc c ≠ .brk
  worker : s.queue ≠ [] → s.quit = true ∨ ∃ c, Alive (s.pc c) = true

theorem live_same {s : St} (h : Live s) (q : Bool) (hq : s.quit = true → q = true) (m : Option Nat) (mp : MPC) : Live { s with mutex := m, quit := q, mpc := mp } :=
  ⟨h.lost, h.noBrk, fun h0 => by
    rcases h.worker h0 with g | g
    · exact Or.inl (hq g)
    · exact Or.inr g⟩

theorem live_move {s : St} (h : Live s) (c : Nat) (p : CPC) (m : Option Nat) (q : Bool) (hq : s.quit = true → q = true) (hd : List Nat) (hp : Alive p = true) (hb : p ≠ .brk) :
    Live { s with mutex := m, quit := q, handled := hd, pc := upd s.pc c p } := by
  refine ⟨h.lost, ?_, fun _ => Or.inr ⟨c, by simpa only [upd_self] using hp⟩⟩
  intro x
  by_cases e : x = c
  · subst e; simpa only [upd_self] using hb
  · simpa only [upd_ne _ _ _ e] using h.noBrk x

theorem live_main {max : Nat} {s s' : St} (hi : Inv max s) (h : Live s) (hmax : 2 ≤ (max + 1) % 2 ^ 32) (a : MAct) (ha : ∀ c, a ≠ .go false c) (ha' : ∀ j, a ≠ .go j false)
    (hs : stepMain max s a = some s') : Live s' := by
  have mv : ∀ q m mp, (s.quit = true → q = true) → Live { s with mutex := m, quit := q, mpc := mp } := fun q m mp hq => live_same h q hq m mp
  simp only [stepMain] at hs
  cases hm : s.mpc <;> rw [hm] at hs <;> simp only at hs
  case add nul =>
    cases a with
    | go j c =>
      cases c with
      | false => exact absurd rfl (ha' j)
      | true =>
        cases j with
        | false => exact absurd rfl (ha true)
        | true =>
          simp only [Option.some.injEq] at hs
          rw [← hs]
          unfold addBody
          simp only [if_true]
          split
          · refine ⟨h.lost, ?_, fun _ => Or.inr ⟨s.nextT, ?_⟩⟩
            · intro x
              simp only [Nat.add_sub_cancel]
              by_cases e : x = s.nextT
              · subst e; rw [upd_self]; simp
              · rw [upd_ne _ _ _ e]; exact h.noBrk x
            · simp only [Nat.add_sub_cancel, upd_self]; rfl
          · rename_i hc
            refine ⟨h.lost, h.noBrk, fun _ => ?_⟩
            simp only
            -- another member
            have h0 := hi.main.2 (by rw [hm]; rfl)
            have hex : ∃ c ∈ s.members, c ≠ 0 := by
              by_contra hn
              simp only [not_exists, not_and, not_not] at hn
              have hlen : s.members.length ≤ 1 := by
                match hl : s.members with
                | [] => simp
                | [x] => simp
                | x :: y :: l =>
                  have h1 := hn x (by rw [hl]; simp)
                  have h2 := hn y (by rw [hl]; simp)
                  have := hi.nodup
                  rw [hl, h1, h2] at this
                  simp at this
              have := hi.counter
              have := hi.idle
              have := List.countP_le_length (p := s.idl) (l := s.members)
              omega
            obtain ⟨c, hc1, hc2⟩ := hex
            rcases hi.member c hc1 hc2 with g | g
            · exact Or.inr ⟨c, g⟩
            · rw [h.lost] at g; simp at g
    | _ => cases hs; exact h
  case user =>
    cases a with
    | add nul ok =>
      simp only at hs
      split at hs
      · cases hs; exact mv _ _ _ id
      · cases hs; exact h
    | quit => cases hs; exact mv _ _ _ id
    | ret => cases hs; exact mv _ _ _ (fun _ => rfl)
    | go j c => cases hs; exact h
  case exiting =>
    cases hs
    exact ⟨h.lost, h.noBrk, h.worker⟩
  case free =>
    split at hs
    · cases hs
      exact ⟨h.lost, h.noBrk, fun q => absurd rfl q⟩
    · cases hs
  case quit => cases hs; exact mv _ _ _ (fun _ => rfl)
  all_goals first
    | (cases hs; exact h)
    | (split at hs <;> cases hs <;> exact mv _ _ _ id)

theorem live_crit {s : St} (h : Live s) (c : Nat) (tmo : Bool) : Live (critBody s c tmo) := by
  have h1 : ∃ s', Live s' ∧ (if s.idl c then s else { s with idl := upd s.idl c true, idle := s.idle + 1 }) = s' := by
    split
    · exact ⟨s, h, rfl⟩
    · exact ⟨{ s with idl := upd s.idl c true, idle := s.idle + 1 }, ⟨h.lost, h.noBrk, h.worker⟩, rfl⟩
  obtain ⟨s', hs, e⟩ := h1
  have hnb : ∀ p : CPC, p ≠ .brk → ∀ x, upd s'.pc c p x ≠ .brk := by
    intro p hpb x
    by_cases e : x = c
    · subst e; rw [upd_self]; exact hpb
    · rw [upd_ne _ _ _ e]; exact hs.noBrk x
  unfold critBody
  rw [e]
  simp only
  by_cases hq : s'.quit = true
  · rw [if_pos hq]
    exact ⟨hs.lost, hnb _ (by simp), fun _ => Or.inl hq⟩
  · rw [if_neg hq]
    cases ht : (take s'.queue).2.1 with
    | none =>
      have he := ((take_spec s'.queue).2.2.1 ht).1
      simp only
      cases tmo with
      | true => exact ⟨hs.lost, hnb _ (by simp), fun q => absurd he q⟩
      | false => exact ⟨hs.lost, hnb _ (by simp), fun q => absurd he q⟩
    | some d =>
      simp only
      refine ⟨hs.lost, hnb _ (by simp), fun _ => Or.inr ⟨c, ?_⟩⟩
      simp only [upd_self]
      rfl

theorem live_child {max : Nat} {s s' : St} (hi : Inv max s) (h : Live s) (c : Nat) (a : CAct) (ha : a ≠ .die) (ha' : a ≠ .error)
    (hs : stepChild s c a = some s') : Live s' := by
  have mv : ∀ p m q hd, (s.quit = true → q = true) → Alive p = true → p ≠ .brk → Live { s with mutex := m, quit := q, handled := hd, pc := upd s.pc c p } :=
    fun p m q hd hq => live_move h c p m q hq hd
  have hd := hi.nodie c
  have hb := h.noBrk c
  simp only [stepChild] at hs
  cases hp : s.pc c <;> rw [hp] at hs hd hb <;> simp only at hs
  case die1 => cases hd
  case die2 => cases hd
  case die3 => cases hd
  case brk => exact absurd rfl hb
  case unborn => cases hs; exact h
  case done => cases hs; exact h
  all_goals (split at hs; · cases hs)
  case crit => cases hs; exact live_crit h c _
  case got d => cases hs; exact mv _ _ _ _ id rfl (by simp)
  case quit2 d => cases hs; exact mv _ _ _ _ (fun _ => rfl) rfl (by simp)
  case run d =>
    cases a with
    | die => exact absurd rfl ha
    | ret => cases hs; exact mv _ _ _ _ id rfl (by simp)
    | quit => cases hs; exact mv _ _ _ _ id rfl (by simp)
    | _ => cases hs; exact h
  case wait =>
    split at hs
    · cases a with
      | error => exact absurd rfl ha'
      | ok => cases hs; exact mv _ _ _ _ id rfl (by simp)
      | timeout => cases hs; exact mv _ _ _ _ id rfl (by simp)
      | _ => cases hs; exact h
    · cases hs; exact h
  all_goals
    (split at hs
     · cases hs; exact mv _ _ _ _ id rfl (by simp)
     · cases hs; exact h)

/-- C83: as long as nobody asked to quit, a queued resource has a child to serve it: if the limit
`max` is at least 1 (and not 2^32 - 1), no allocation or thread creation fails and no wait has an
error, then in every reachable state a queue that is not empty has a living child. -/
theorem pool_worker (max : Nat) (hmax : 2 ≤ (max + 1) % 2 ^ 32) (l : List Act) (hd : NoDie l) (hc : Created l) (hj : Joined l) (he : NoErr l) :
    ∃ s, run max init l = some s ∧ (s.queue ≠ [] → s.quit = true ∨ ∃ c, Alive (s.pc c) = true) := by
  have main : ∀ l s, Inv max s → Live s → NoDie l → Created l → Joined l → NoErr l → ∃ s', run max s l = some s' ∧ Live s' := by
    intro l
    induction l with
    | nil => intro s _ h _ _ _ _; exact ⟨s, rfl, h⟩
    | cons a l ih =>
      intro s hi h hd hc hj he
      have : ∃ s', step max s a = some s' ∧ Inv max s' ∧ Live s' := by
        cases a with
        | main a =>
          obtain ⟨s', e, hi'⟩ := inv_main hi a
          refine ⟨s', e, hi', live_main hi h hmax a ?_ ?_ e⟩
          · rintro c rfl; exact hj c (by simp)
          · rintro j rfl; exact hc j (by simp)
        | child c a =>
          have hx : a ≠ .die := by rintro rfl; exact hd c (by simp)
          have hy : a ≠ .error := by rintro rfl; exact he c (by simp)
          obtain ⟨s', e, hi'⟩ := inv_child hi c a hx
          exact ⟨s', e, hi', live_child hi h c a hx hy e⟩
      obtain ⟨s', e, hi', h'⟩ := this
      obtain ⟨s'', e', h''⟩ := ih s' hi' h' (fun c q => hd c (by simp [q])) (fun c q => hc c (by simp [q])) (fun c q => hj c (by simp [q])) (fun c q => he c (by simp [q]))
      exact ⟨s'', by rw [run, e]; exact e', h''⟩
  obtain ⟨s, e, h⟩ := main l init (inv_init max) ⟨rfl, by simp [init], by simp [init]⟩ hd hc hj he
  exact ⟨s, e, h.worker⟩

/-! ## Refutations -/

/-- One resource, one child that takes it. -/
def start : List Act := [.main (.add false true), .main (.go true true), .main (.go true true), .child 1 .ok, .child 1 .ok, .child 1 .ok]

/-- A handler that ends its thread (pthread_exit, cancellation) lets the child use the pool after
the main thread has freed it. -/
theorem pool_die_uaf : (run 1 init (start ++ [.child 1 .die, .child 1 .ok, .child 1 .ok, .main .ret, .main .ret, .main .ret, .main .ret, .main .ret, .main .ret,
    .child 1 .ok])).isNone = true := by decide +kernel

/-- Refutation of C84: when the allocation of the member or pthread_create fails, the answer is an error
and the resource is in the queue all the same. -/
theorem add_fails_queued (max : Nat) (s : St) (nul join create : Bool) (h : ¬ (join = true ∧ create = true)) (hc : s.idle ≤ 1 ∧ s.counter < (max + 1) % 2 ^ 32) :
    (s.nextR, false) ∈ (addBody max s nul join create).rets ∧ (s.nextR, nul) ∈ (addBody max s nul join create).queue := by
  unfold addBody
  simp only [if_pos hc, Nat.add_sub_cancel]
  cases join with
  | false => simp
  | true =>
    cases create with
    | true => exact absurd ⟨rfl, rfl⟩ h
    | false => simp

/-- And it is handled: the first child gets the resource whose addition failed. -/
theorem add_fails_handled : ∃ s, run 2 init ([.main (.add false true), .main (.go true true), .main (.go false true)] ++ start) = some s ∧
    (0, false) ∈ s.rets ∧ 0 ∈ s.handled := ⟨_, rfl, by decide, by decide⟩

/-- C84, partial: an addition that fails for want of memory for the resource itself changes
nothing. -/
theorem add_fails_partial (max : Nat) (s : St) (nul : Bool) (h : s.mpc = .user) : stepMain max s (.add nul false) = some s := by
  unfold stepMain
  rw [h]
  rfl

/-- A failed pthread_create leaves a member behind: mln_thread_pool_run never returns. -/
theorem create_fails_stuck (max : Nat) (l : List Act) (hl : NoDie l) : ∀ s, run max init l = some s → s.lost ≠ [] → s.mpc ≠ .fin ∧ 2 ≤ s.counter := by
  intro s hs h0
  obtain ⟨s', e, h⟩ := inv_run l init (inv_init max) hl
  rw [hs] at e
  cases e
  obtain ⟨c, hc⟩ := List.exists_mem_of_ne_nil _ h0
  obtain ⟨h1, h2, _⟩ := h.lost c hc
  have h3 : 0 ∈ s.members := by
    rw [h.main]
    cases hm : s.mpc with
    | free => rw [h.empty (Or.inl hm)] at h1; simp at h1
    | fin => rw [h.empty (Or.inr hm)] at h1; simp at h1
    | _ => rfl
  refine ⟨?_, ?_⟩
  · intro hm
    rw [h.empty (Or.inr hm)] at h1
    simp at h1
  · rw [h.counter]
    match hl : s.members with
    | [] => rw [hl] at h1; simp at h1
    | [x] => rw [hl] at h1 h3; simp at h1 h3; omega
    | x :: y :: l => simp

/-- With `max` = 2^32 - 1 the sum `max + 1` is 0 and there is never a child: nothing is ever
handled. -/
theorem max_wraps (l : List Act) (hl : NoDie l) : ∃ s, run (2 ^ 32 - 1) init l = some s ∧ ∀ c, Alive (s.pc c) = false := by
  obtain ⟨s, e, h⟩ := inv_run l init (inv_init (2 ^ 32 - 1)) hl
  refine ⟨s, e, fun c => ?_⟩
  cases hc : Alive (s.pc c) with
  | false => rfl
  | true =>
    have h1 := h.alive c hc
    have hb := h.bound
    have hcn := h.counter
    have hc0 : c ≠ 0 := by rintro rfl; rw [h.pc0] at hc; cases hc
    have hlen : s.members.length ≤ 1 := by omega
    -- the main thread is there as long as there is a child
    have h3 : 0 ∈ s.members := by
      rw [h.main]
      cases hm : s.mpc with
      | free => rw [h.empty (Or.inl hm)] at h1; simp at h1
      | fin => rw [h.empty (Or.inr hm)] at h1; simp at h1
      | _ => rfl
    match hl : s.members, h1, h3, hlen with
    | [x], h1, h3, _ => simp at h1 h3; omega
    | x :: y :: l, _, _, hlen => simp at hlen

/-! ## Examples -/

-- one resource is handled and the pool ends
example : ∃ s, run 1 init (start ++ [.child 1 .ret, .child 1 .ok, .main .ret, .child 1 .ok] ++ List.replicate 6 (.main .ret)) = some s ∧
    s.mpc = .fin ∧ s.handled = [0] ∧ s.released = [] ∧ s.counter = 0 := ⟨_, rfl, by decide⟩

-- two resources, the second is left for the free handler
example : ∃ s, run 1 init (start ++ [.main (.add false true), .main (.go true true), .main (.go true true), .main .ret, .child 1 .ret, .child 1 .ok, .child 1 .ok] ++
    List.replicate 6 (.main .ret)) = some s ∧ s.mpc = .fin ∧ s.handled = [0] ∧ s.released = [1] := ⟨_, rfl, by decide⟩

end Verif.ThreadPool
