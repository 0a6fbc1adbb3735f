import Verif.ThreadPoolProps

/-
The mutex of the thread pool (src/mln_thread_pool.c): in every schedule, also with handlers that end
their thread, errors of pthread_cond_timedwait and failing pthread_create, the thread that owns the mutex
is the one inside a critical section, and there is at most one.

Spec: `CritC`/`CritM` are the places between locking and unlocking.
-/
namespace Verif.ThreadPool

/-- Between pthread_mutex_lock (or the return of pthread_cond_timedwait) and pthread_mutex_unlock. -/
def CritC : CPC → Bool
  | .crit _ => true
  | .brk => true
  | .quit2 _ => true
  | .die2 _ => true
  | _ => false

def CritM : MPC → Bool
  | .add _ => true
  | .quit => true
  | .check => true
  | .exiting => true
  | _ => false

structure Mx (s : St) : Prop where
  pos : 1 ≤ s.nextT
  born : ∀ c, s.pc c ≠ .unborn → 1 ≤ c ∧ c < s.nextT
  child : ∀ c, 1 ≤ c → (CritC (s.pc c) = true ↔ s.mutex = some c)
  main : CritM s.mpc = true ↔ s.mutex = some 0
  lt : ∀ c, s.mutex = some c → c < s.nextT

theorem mx_init : Mx init where
  pos := by decide
  born := by intro c h; exact absurd rfl h
  child := by intro c _; simp [init, CritC]
  main := by simp [init, CritM]
  lt := by intro c h; cases h

/-- A child moves, and takes, keeps or gives back the mutex. -/
theorem mx_move {s s' : St} (h : Mx s) (c : Nat) (p : CPC) (hc : s.pc c ≠ .unborn) (_hp : p ≠ .unborn) (e1 : s'.nextT = s.nextT) (e2 : s'.mpc = s.mpc)
    (e3 : s'.pc = upd s.pc c p)
    (hm : (CritC p = true ∧ s.mutex = none ∧ s'.mutex = some c) ∨ (CritC p = false ∧ CritC (s.pc c) = true ∧ s'.mutex = none) ∨
      (CritC p = false ∧ CritC (s.pc c) = false ∧ s'.mutex = s.mutex)) : Mx s' := by
  have hb := h.born c hc
  refine ⟨by rw [e1]; exact h.pos, ?_, ?_, ?_, ?_⟩
  · intro x hx
    rw [e1]
    by_cases e : x = c
    · subst e; exact hb
    · rw [e3, upd_ne _ _ _ e] at hx; exact h.born x hx
  · intro x hx
    by_cases e : x = c
    · subst e
      rw [e3, upd_self]
      rcases hm with ⟨a, b, d⟩ | ⟨a, b, d⟩ | ⟨a, b, d⟩
      · simp [a, d]
      · simp [a, d]
      · rw [a, d]; have := h.child x hx; rw [b] at this; exact this
    · rw [e3, upd_ne _ _ _ e, h.child x hx]
      rcases hm with ⟨a, b, d⟩ | ⟨a, b, d⟩ | ⟨a, b, d⟩
      · rw [b, d]; simp; omega
      · rw [d, (h.child c hb.1).1 b]; simp; omega
      · rw [d]
  · rw [e2, h.main]
    rcases hm with ⟨a, b, d⟩ | ⟨a, b, d⟩ | ⟨a, b, d⟩
    · rw [b, d]; simp; omega
    · rw [d, (h.child c hb.1).1 b]; simp; omega
    · rw [d]
  · intro x hx
    rw [e1]
    rcases hm with ⟨a, b, d⟩ | ⟨a, b, d⟩ | ⟨a, b, d⟩
    · rw [d] at hx; cases hx; exact hb.2
    · rw [d] at hx; cases hx
    · rw [d] at hx; exact h.lt x hx

/-- The main thread moves. -/
theorem mx_main_move {s s' : St} (h : Mx s) (e1 : s'.nextT = s.nextT) (e3 : s'.pc = s.pc)
    (hm : (CritM s'.mpc = true ∧ s.mutex = none ∧ s'.mutex = some 0) ∨ (CritM s'.mpc = false ∧ CritM s.mpc = true ∧ s'.mutex = none) ∨
      (CritM s'.mpc = CritM s.mpc ∧ s'.mutex = s.mutex)) : Mx s' := by
  refine ⟨by rw [e1]; exact h.pos, by rw [e1, e3]; exact h.born, ?_, ?_, ?_⟩
  · intro x hx
    rw [e3, h.child x hx]
    rcases hm with ⟨a, b, d⟩ | ⟨a, b, d⟩ | ⟨a, d⟩
    · rw [b, d]; simp; omega
    · rw [d, h.main.1 b]; simp; omega
    · rw [d]
  · rcases hm with ⟨a, b, d⟩ | ⟨a, b, d⟩ | ⟨a, d⟩
    · simp [a, d]
    · simp [a, d]
    · rw [a, d]; exact h.main
  · intro x hx
    rw [e1]
    rcases hm with ⟨a, b, d⟩ | ⟨a, b, d⟩ | ⟨a, d⟩
    · rw [d] at hx; cases hx; exact h.pos
    · rw [d] at hx; cases hx
    · rw [d] at hx; exact h.lt x hx

/-- What mln_thread_pool_resource_add does with the mutex: it gives it back; a new child is outside. -/
theorem mx_add (max : Nat) {s : St} (h : Mx s) (nul join create : Bool) (hm : s.mpc = .add nul) : Mx (addBody max s nul join create) := by
  have h0 : s.mutex = some 0 := h.main.1 (by rw [hm]; rfl)
  have hu : s.pc s.nextT = .unborn := by
    by_cases e : s.pc s.nextT = .unborn
    · exact e
    · exact absurd (h.born _ e).2 (Nat.lt_irrefl _)
  have key : ∀ s' : St, s'.mutex = none → s'.mpc = .user →
      ((s'.nextT = s.nextT ∧ s'.pc = s.pc) ∨ (s'.nextT = s.nextT + 1 ∧ (s'.pc = s.pc ∨ s'.pc = upd s.pc s.nextT (.top false)))) → Mx s' := by
    intro s' m1 m2 hx
    have hno : ∀ c, 1 ≤ c → CritC (s.pc c) = false := by
      intro c hc
      have := h.child c hc
      rw [h0] at this
      cases e : CritC (s.pc c) with
      | false => rfl
      | true => have := this.1 e; simp at this; omega
    have hp := h.pos
    refine ⟨by omega, ?_, ?_, by rw [m1, m2]; simp [CritM], by rw [m1]; intro c hc; cases hc⟩
    · intro c hc
      rcases hx with ⟨a, b⟩ | ⟨a, b | b⟩
      · rw [b] at hc; rw [a]; exact h.born c hc
      · rw [b] at hc; have := h.born c hc; omega
      · by_cases e : c = s.nextT
        · omega
        · rw [b, upd_ne _ _ _ e] at hc; have := h.born c hc; omega
    · intro c hc
      rw [m1]
      simp only [reduceCtorEq, iff_false, Bool.not_eq_true]
      rcases hx with ⟨a, b⟩ | ⟨a, b | b⟩
      · rw [b]; exact hno c hc
      · rw [b]; exact hno c hc
      · by_cases e : c = s.nextT
        · subst e; rw [b, upd_self]; rfl
        · rw [b, upd_ne _ _ _ e]; exact hno c hc
  unfold addBody
  simp only
  split
  · split
    · split
      · exact key _ rfl rfl (Or.inr ⟨rfl, Or.inr rfl⟩)
      · exact key _ rfl rfl (Or.inr ⟨rfl, Or.inl rfl⟩)
    · exact key _ rfl rfl (Or.inl ⟨rfl, rfl⟩)
  · exact key _ rfl rfl (Or.inl ⟨rfl, rfl⟩)

theorem mx_main (max : Nat) {s s' : St} (h : Mx s) (a : MAct) (e : stepMain max s a = some s') : Mx s' := by
  unfold stepMain at e
  split at e
  · rename_i hp
    cases a with
    | add nul ok =>
      cases ok with
      | true => cases e; exact mx_main_move h rfl rfl (Or.inr (Or.inr ⟨by simp [hp, CritM], rfl⟩))
      | false => cases e; exact h
    | quit => cases e; exact mx_main_move h rfl rfl (Or.inr (Or.inr ⟨by simp [hp, CritM], rfl⟩))
    | ret => cases e; exact mx_main_move h rfl rfl (Or.inr (Or.inr ⟨by simp [hp, CritM], rfl⟩))
    | go j c => cases e; exact h
  · split at e
    · rename_i hm; cases e; exact mx_main_move h rfl rfl (Or.inl ⟨rfl, hm, rfl⟩)
    · cases e; exact h
  · rename_i nul hp
    cases a with
    | go j c => cases e; exact mx_add max h nul j c hp
    | add _ _ => cases e; exact h
    | quit => cases e; exact h
    | ret => cases e; exact h
  · split at e
    · rename_i hm; cases e; exact mx_main_move h rfl rfl (Or.inl ⟨rfl, hm, rfl⟩)
    · cases e; exact h
  · rename_i hp; cases e; exact mx_main_move h rfl rfl (Or.inr (Or.inl ⟨rfl, by rw [hp]; rfl, rfl⟩))
  · split at e
    · rename_i hm; cases e; exact mx_main_move h rfl rfl (Or.inl ⟨rfl, hm, rfl⟩)
    · cases e; exact h
  · rename_i hp
    split at e
    · cases e; exact mx_main_move h rfl rfl (Or.inr (Or.inl ⟨rfl, by rw [hp]; rfl, rfl⟩))
    · cases e; exact mx_main_move h rfl rfl (Or.inr (Or.inl ⟨rfl, by rw [hp]; rfl, rfl⟩))
  · split at e
    · rename_i hm; cases e; exact mx_main_move h rfl rfl (Or.inl ⟨rfl, hm, rfl⟩)
    · cases e; exact h
  · rename_i hp; cases e; exact mx_main_move h rfl rfl (Or.inr (Or.inl ⟨rfl, by rw [hp]; rfl, rfl⟩))
  · rename_i hp
    split at e
    · cases e; exact mx_main_move h rfl rfl (Or.inr (Or.inr ⟨by simp [hp, CritM], rfl⟩))
    · cases e
  · cases e; exact h

theorem mx_crit {s : St} (h : Mx s) (c : Nat) (tmo : Bool) (hp : s.pc c = .crit tmo) : Mx (critBody s c tmo) := by
  have hc : s.pc c ≠ .unborn := by rw [hp]; simp
  have hk : CritC (s.pc c) = true := by rw [hp]; rfl
  have key : ∀ (s' : St) (p : CPC), p ≠ .unborn → CritC p = false → s'.nextT = s.nextT → s'.mpc = s.mpc → s'.pc = upd s.pc c p → s'.mutex = none → Mx s' :=
    fun s' p hp hq e1 e2 e3 e4 => mx_move h c p hc hp e1 e2 e3 (Or.inr (Or.inl ⟨hq, hk, e4⟩))
  unfold critBody
  by_cases hi : s.idl c = true
  all_goals
    simp only [hi, if_true, if_false, Bool.false_eq_true]
    split
    · exact key _ .done (by simp) rfl rfl rfl rfl rfl
    · split
      · split
        · exact key _ .done (by simp) rfl rfl rfl rfl rfl
        · exact key _ .wait (by simp) rfl rfl rfl rfl rfl
      · rename_i d _
        exact key _ (.got d) (by simp) rfl rfl rfl rfl rfl

theorem mx_child {s s' : St} (h : Mx s) (c : Nat) (a : CAct) (e : stepChild s c a = some s') : Mx s' := by
  have mv := fun (s' : St) (p : CPC) => mx_move (s := s) (s' := s') h c p
  unfold stepChild at e
  split at e
  · cases e; exact h
  · cases e; exact h
  · rename_i d hp
    split at e
    · cases e
    · cases e; exact mv _ _ (by rw [hp]; simp) (by simp) rfl rfl rfl (Or.inr (Or.inr ⟨rfl, by rw [hp]; rfl, rfl⟩))
  · split at e
    · cases e
    · split at e
      · rename_i tmo _ _ _ hp
        split at e
        · rename_i hm; cases e; exact mv _ _ (by rw [hp]; simp) (by simp) rfl rfl rfl (Or.inl ⟨rfl, hm, rfl⟩)
        · cases e; exact h
      · rename_i tmo _ _ _ hp; cases e; exact mx_crit h c _ hp
      · rename_i hp
        split at e
        · rename_i hm
          cases a with
          | ok => cases e; exact mv _ _ (by rw [hp]; simp) (by simp) rfl rfl rfl (Or.inl ⟨rfl, hm, rfl⟩)
          | timeout => cases e; exact mv _ _ (by rw [hp]; simp) (by simp) rfl rfl rfl (Or.inl ⟨rfl, hm, rfl⟩)
          | error => cases e; exact mv _ _ (by rw [hp]; simp) (by simp) rfl rfl rfl (Or.inl ⟨rfl, hm, rfl⟩)
          | ret => cases e; exact h
          | quit => cases e; exact h
          | die => cases e; exact h
        · cases e; exact h
      · rename_i hp; cases e; exact mv _ .done (by rw [hp]; simp) (by simp) rfl rfl rfl (Or.inr (Or.inl ⟨rfl, by rw [hp]; rfl, rfl⟩))
      · rename_i hp; cases e; exact mv _ _ (by rw [hp]; simp) (by simp) rfl rfl rfl (Or.inr (Or.inr ⟨rfl, by rw [hp]; rfl, rfl⟩))
      · rename_i hp
        cases a with
        | ret => cases e; exact mv _ _ (by rw [hp]; simp) (by simp) rfl rfl rfl (Or.inr (Or.inr ⟨rfl, by rw [hp]; rfl, rfl⟩))
        | quit => cases e; exact mv _ _ (by rw [hp]; simp) (by simp) rfl rfl rfl (Or.inr (Or.inr ⟨rfl, by rw [hp]; rfl, rfl⟩))
        | die => cases e; exact mv _ _ (by rw [hp]; simp) (by simp) rfl rfl rfl (Or.inr (Or.inr ⟨rfl, by rw [hp]; rfl, rfl⟩))
        | ok => cases e; exact h
        | timeout => cases e; exact h
        | error => cases e; exact h
      · rename_i hp
        split at e
        · rename_i hm; cases e; exact mv _ _ (by rw [hp]; simp) (by simp) rfl rfl rfl (Or.inl ⟨rfl, hm, rfl⟩)
        · cases e; exact h
      · rename_i hp; cases e; exact mv _ _ (by rw [hp]; simp) (by simp) rfl rfl rfl (Or.inr (Or.inl ⟨rfl, by rw [hp]; rfl, rfl⟩))
      · rename_i hp
        split at e
        · rename_i hm; cases e; exact mv _ _ (by rw [hp]; simp) (by simp) rfl rfl rfl (Or.inl ⟨rfl, hm, rfl⟩)
        · cases e; exact h
      · rename_i hp; cases e; exact mv _ _ (by rw [hp]; simp) (by simp) rfl rfl rfl (Or.inr (Or.inl ⟨rfl, by rw [hp]; rfl, rfl⟩))
      · cases e; exact h

theorem mx_run (max : Nat) (l : List Act) : ∀ s s', Mx s → run max s l = some s' → Mx s' := by
  induction l with
  | nil => intro s s' h e; cases e; exact h
  | cons a l ih =>
    intro s s' h e
    simp only [run] at e
    cases hs : step max s a with
    | none => rw [hs] at e; cases e
    | some t =>
      rw [hs] at e
      refine ih t s' ?_ e
      cases a with
      | main a => exact mx_main max h a hs
      | child c a => exact mx_child h c a hs

/-- Mutual exclusion, for every schedule: a thread is inside a critical section exactly if it owns the
mutex. -/
theorem pool_mutex (max : Nat) (l : List Act) (s : St) (e : run max init l = some s) :
    (∀ c, 1 ≤ c → (CritC (s.pc c) = true ↔ s.mutex = some c)) ∧ (CritM s.mpc = true ↔ s.mutex = some 0) :=
  let h := mx_run max l init s mx_init e
  ⟨h.child, h.main⟩

/-- No two threads are inside at once, and the mutex is never left locked by a thread outside. -/
theorem pool_exclusive (max : Nat) (l : List Act) (s : St) (e : run max init l = some s) :
    (∀ c d, CritC (s.pc c) = true → CritC (s.pc d) = true → c = d) ∧
    (∀ c, CritC (s.pc c) = true → CritM s.mpc = false) ∧
    (CritM s.mpc = false → (∀ c, CritC (s.pc c) = false) → s.mutex = none) := by
  have h := mx_run max l init s mx_init e
  have pos : ∀ c, CritC (s.pc c) = true → 1 ≤ c := by
    intro c hc
    refine (h.born c ?_).1
    intro e; rw [e] at hc; cases hc
  refine ⟨?_, ?_, ?_⟩
  · intro c d hc hd
    have a := (h.child c (pos c hc)).1 hc
    rw [(h.child d (pos d hd)).1 hd] at a
    cases a; rfl
  · intro c hc
    have a := (h.child c (pos c hc)).1 hc
    cases e : CritM s.mpc with
    | false => rfl
    | true => have := h.main.1 e; rw [a] at this; have := pos c hc; simp at *; omega
  · intro hm hc
    cases e : s.mutex with
    | none => rfl
    | some c =>
      by_cases h0 : c = 0
      · subst h0; rw [h.main.2 e] at hm; cases hm
      · have := (h.child c (by omega)).2 e; rw [hc c] at this; cases this

/-- An error of pthread_cond_timedwait: the child has the mutex again and leaves through its exit. -/
example : (run 2 init (start ++ [.child 1 .ret, .child 1 .ok, .child 1 .ok, .child 1 .error])).map (fun s => (s.mutex, s.pc 1)) =
    some (some 1, .brk) := by decide +kernel

end Verif.ThreadPool
