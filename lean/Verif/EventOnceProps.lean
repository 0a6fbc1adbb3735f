import Verif.EventLocal

/-
Properties of the event loop: oneshot events (C162), events that are no longer seen (C163), and loops that
never wait (C164).
-/
namespace Verif.Event

/-! ## Spec -/

/-- How often a handler of an event was called. -/
def calls (k : Kind) (fd : Nat) : List Ev → Nat
  | [] => 0
  | .call (.event k' f _) :: l => (if k' = k ∧ f = fd then 1 else 0) + calls k fd l
  | _ :: l => calls k fd l

/-- How often an event was set. -/
def sets (k : Kind) (fd : Nat) : List Ev → Nat
  | [] => 0
  | .did (.set f m _ _ _ _) :: l => (if f = fd ∧ m.get k = true then 1 else 0) + sets k fd l
  | _ :: l => sets k fd l

/-- An event is only ever set as a oneshot event, and the descriptor never without events. -/
def Oneshot (k : Kind) (fd : Nat) (l : List Ev) : Prop :=
  ∀ m o a t h, Ev.did (.set fd m o a t h) ∈ l → m.any = true ∧ (m.get k = true → o = true)

theorem Oneshot.tail {k : Kind} {fd : Nat} {x : Ev} {l : List Ev} (h : Oneshot k fd (x :: l)) : Oneshot k fd l :=
  fun m o a t y hm => h m o a t y (List.mem_cons_of_mem _ hm)

/-! ## Oneshot events -/

def one (b : Bool) : Nat := if b then 1 else 0

/-- Calls that are still to be made. -/
def weight (k : Kind) (c : Option (Nat × Kind)) : Option (Nat × Desc) → Nat
  | none => 0
  | some (id, d) => (if c = some (id, k) then 0 else one (d.act.get k)) + one (d.flag.get k)

structure Once (k : Kind) (fd : Nat) (c : Option (Nat × Kind)) (v : Option (Nat × Desc)) (r : Option Reg)
    (l : List Ev) : Prop where
  bound : calls k fd l + weight k c v ≤ sets k fd l
  flag : ∀ id d, v = some (id, d) → d.flag.get k = true → d.one.get k = true
  reg : ∀ id d g, v = some (id, d) → r = some g → g.mask.get k = true → d.flag.get k = true

theorem get_or (a b : Mask) (k : Kind) : (a.or b).get k = (a.get k || b.get k) := by cases k <;> rfl
theorem get_empty (k : Kind) : ({} : Mask).get k = false := by cases k <;> rfl
theorem get_drop (a : Mask) (k k' : Kind) : (a.drop k').get k = (a.get k && !decide (k = k')) := by
  cases k <;> cases k' <;> simp [Mask.drop, Mask.get]
theorem get_add (a : Mask) (k k' : Kind) : (a.add k').get k = (a.get k || decide (k = k')) := by
  cases k <;> cases k' <;> simp [Mask.add, Mask.get]
theorem one_le (b : Bool) : one b ≤ 1 := by cases b <;> simp [one]
theorem one_or (a b : Bool) : one (a || b) ≤ one a + one b := by cases a <;> cases b <;> simp [one]
theorem one_mono {a b : Bool} (h : a = true → b = true) : one a ≤ one b := by
  cases a <;> cases b <;> simp_all [one]
theorem or_any_right (a b : Mask) (h : b.any = true) : (a.or b).any = true := by
  simp only [Mask.any, Mask.or, Bool.or_eq_true] at *
  rcases h with (h | h) | h <;> simp [h]

theorem calls_skip {k : Kind} {fd : Nat} {x : Ev} {l : List Ev} (h : ¬ About fd x) : calls k fd (x :: l) = calls k fd l := by
  cases x with
  | did o => rfl
  | call c =>
    cases c with
    | event k' f y =>
      simp only [calls]
      rw [if_neg (fun q => h q.2), Nat.zero_add]
    | _ => rfl
theorem sets_skip {k : Kind} {fd : Nat} {x : Ev} {l : List Ev} (h : ¬ About fd x) : sets k fd (x :: l) = sets k fd l := by
  cases x with
  | call c => rfl
  | did o =>
    cases o with
    | set f m o a t y =>
      simp only [sets]
      rw [if_neg (fun q => h q.1), Nat.zero_add]
    | _ => rfl

/-- What events do to one bit. -/
theorem mark_bits (k k' : Kind) (b : Bool) (d : Desc) :
    (if b then mark k' d else d).flag.get k = (d.flag.get k && !(b && d.one.get k' && decide (k = k'))) ∧
    (if b then mark k' d else d).act.get k = (d.act.get k || b && decide (k = k')) ∧
    (if b then mark k' d else d).one.get k = (d.one.get k && !(b && decide (k = k'))) := by
  cases b
  · simp
  · simp only [if_true, mark]
    by_cases h : d.one.get k' = true
    · rw [if_pos h]
      refine ⟨?_, ?_, ?_⟩
      · simp only [get_drop, h, Bool.true_and]
      · simp only [get_add, Bool.true_and]
      · simp only [get_drop, Bool.true_and]
    · rw [if_neg h]
      refine ⟨?_, ?_, ?_⟩
      · simp [h]
      · simp only [get_add, Bool.true_and]
      · by_cases hk : k = k'
        · subst hk; simp [h]
        · simp [hk]

theorem markAll_bits (k : Kind) (e : Report) (d : Desc) :
    (markAll e d).flag.get k = (d.flag.get k && !(e.has k && d.one.get k)) ∧
    (markAll e d).act.get k = (d.act.get k || e.has k) ∧
    (markAll e d).one.get k = (d.one.get k && !e.has k) := by
  unfold markAll
  simp only
  obtain ⟨a1, a2, a3⟩ := mark_bits k .recv e.inn d
  obtain ⟨b1, b2, b3⟩ := mark_bits k .send e.out (if e.inn then mark .recv d else d)
  obtain ⟨c1, c2, c3⟩ := mark_bits k .error e.err (if e.out then mark .send (if e.inn then mark .recv d else d) else (if e.inn then mark .recv d else d))
  have o1 := (mark_bits .send .recv e.inn d).2.2
  have o2 := (mark_bits .error .send e.out (if e.inn then mark .recv d else d)).2.2
  have o3 := (mark_bits .error .recv e.inn d).2.2
  refine ⟨?_, ?_, ?_⟩
  · rw [c1, b1, a1, o2, o3, o1]
    cases k <;> simp [Report.has]
  · rw [c2, b2, a2]
    cases k <;> simp [Report.has]
  · rw [c3, b3, a3]
    cases k <;> simp [Report.has]

theorem regrant_bits (k k' : Kind) (e : Report) (id : Nat) (p : Desc × Reg) :
    (regrant e id p k').1.act = p.1.act ∧
    (p.1.flag.get k = true → (regrant e id p k').1.flag.get k = true) ∧
    (p.1.one.get k = true → (regrant e id p k').1.one.get k = true) ∧
    ((regrant e id p k').1.flag.get k = true → p.1.flag.get k = true ∨ k = k' ∧ e.has k' = true ∧ p.1.one.get k' = true) ∧
    ((regrant e id p k').1.isClear = p.1.isClear) ∧
    ((regrant e id p k').1.one.get k = true → p.1.one.get k = true) ∧
    ((regrant e id p k').2.mask.get k = true → p.2.mask.get k = true ∨ (regrant e id p k').1.flag.get k = true) := by
  unfold regrant
  split
  · next h =>
    simp only [Bool.and_eq_true] at h
    have hm : (maskOf k').get k = decide (k = k') := by simp [maskOf, get_add, get_empty]
    simp only [grant, get_or, if_true, hm]
    refine ⟨trivial, by simp +contextual, by simp +contextual, ?_, trivial, ?_, fun q => .inr q⟩
    · simp only [Bool.or_eq_true, decide_eq_true_eq]
      rintro (q | q)
      · exact .inl q
      · exact .inr ⟨q, h.1.1, h.1.2⟩
    · simp only [Bool.or_eq_true, decide_eq_true_eq]
      rintro (q | rfl)
      · exact q
      · exact h.1.2
  · exact ⟨rfl, fun q => q, fun q => q, .inl, rfl, fun q => q, .inl⟩

theorem regrantAll_bits (k : Kind) (e : Report) (id : Nat) (d : Desc) (r : Reg) :
    (regrantAll e id d r).1.act = d.act ∧ (regrantAll e id d r).1.isClear = d.isClear ∧
    (d.flag.get k = true → (regrantAll e id d r).1.flag.get k = true) ∧
    ((regrantAll e id d r).1.flag.get k = true → d.flag.get k = true ∨ e.has k = true) ∧
    ((regrantAll e id d r).1.one.get k = true ↔ d.one.get k = true) ∧
    ((regrantAll e id d r).2.mask.get k = true → r.mask.get k = true ∨ (regrantAll e id d r).1.flag.get k = true) := by
  unfold regrantAll
  obtain ⟨a1, a2, a3, a4, a5, a6, a7⟩ := regrant_bits k .recv e id (d, r)
  obtain ⟨b1, b2, b3, b4, b5, b6, b7⟩ := regrant_bits k .send e id (regrant e id (d, r) .recv)
  obtain ⟨c1, c2, c3, c4, c5, c6, c7⟩ := regrant_bits k .error e id (regrant e id (regrant e id (d, r) .recv) .send)
  refine ⟨c1.trans (b1.trans a1), c5.trans (b5.trans a5), fun h => c2 (b2 (a2 h)), fun h => ?_,
    ⟨fun h => a6 (b6 (c6 h)), fun h => c3 (b3 (a3 h))⟩, fun h => ?_⟩
  · rcases c4 h with h | ⟨rfl, h, -⟩
    · rcases b4 h with h | ⟨rfl, h, -⟩
      · rcases a4 h with h | ⟨rfl, h, -⟩
        · exact .inl h
        · exact .inr h
      · exact .inr h
    · exact .inr h
  · rcases c7 h with h | h
    · rcases b7 h with h | h
      · rcases a7 h with h | h
        · exact .inl h
        · exact .inr (c2 (b2 h))
      · exact .inr (c2 h)
    · exact .inr h

theorem switched_mask (r : Reg) : (switched r).mask = r.mask := by unfold switched; split <;> rfl

theorem legal_has {r : Reg} {e : Report} {k : Kind} (h : legal r e = true) (hk : k ≠ .error) (he : e.has k = true) :
    r.mask.get k = true := by
  simp only [legal, Bool.and_eq_true] at h
  cases k with
  | recv => have := h.1.1.2; simp only [Report.has] at he; simpa [he, Mask.get] using this
  | send => have := h.1.2; simp only [Report.has] at he; simpa [he, Mask.get] using this
  | error => exact absurd rfl hk

theorem hit_has {e : Report} {d : Desc} {k : Kind} (h : hit e d = false) : (e.has k && d.one.get k) = false := by
  simp only [hit, Bool.or_eq_false_iff] at h
  cases k with
  | recv => exact h.1.1
  | send => exact h.1.2
  | error => exact h.2

theorem once_local {k : Kind} (hk : k ≠ .error) (fd : Nat) :
    Local fd (fun _ => True) (fun c v r l => Oneshot k fd l → Once k fd c v r l) where
  skip hx h ho := by
    obtain ⟨h1, h2, h3⟩ := h ho.tail
    exact ⟨by rw [calls_skip hx, sets_skip hx]; exact h1, h2, h3⟩
  alike {c id d d' r l} ha h ho := by
    obtain ⟨h1, h2, h3⟩ := h ho
    obtain ⟨a1, a2, a3, a4⟩ := ha
    refine ⟨?_, ?_, ?_⟩
    · simp only [weight, a1, a2]; exact h1
    · rintro i e he; cases he; rw [a1, a3]; exact h2 id d rfl
    · rintro i e g he; cases he; rw [a1]; exact h3 id d g rfl
  fresh {c v l m o a t h id d'} hv hP f1 f2 f3 f4 ho := by
    obtain ⟨h1, h2, h3⟩ := hP ho.tail
    obtain ⟨m1, m2⟩ := ho m o a t h (by simp)
    refine ⟨?_, ?_, ?_⟩
    · simp only [calls, sets, weight, f1, f2, get_empty, true_and]
      have : one false = 0 := rfl
      rw [this, ite_self]
      unfold one
      omega
    · rintro i e he hf; cases he
      rw [f1] at hf
      rw [f3, m2 hf]; exact hf
    · rintro i e g he hg hm; cases he
      rw [if_pos m1] at hg; cases hg
      rw [f1]; exact hm
  old {c id d r l m o a t h d'} hc hP f1 f2 f3 f4 ho := by
    obtain ⟨h1, h2, h3⟩ := hP ho.tail
    obtain ⟨m1, m2⟩ := ho m o a t h (by simp)
    refine ⟨?_, ?_, ?_⟩
    · simp only [calls, sets, weight, f1, f2, get_or, true_and]
      simp only [weight] at h1
      have q1 := one_or ((if a then d.flag else {}).get k) (m.get k)
      have q2 : one ((if a then d.flag else {}).get k) ≤ one (d.flag.get k) := by
        apply one_mono; cases a
        · simp [get_empty]
        · exact fun q => q
      have q3 : one (m.get k) = if m.get k = true then 1 else 0 := rfl
      omega
    · rintro i e he hf; cases he
      rw [f1, get_or, Bool.or_eq_true] at hf
      rw [f3]
      cases a with
      | false =>
        simp only [Bool.false_eq_true, if_false, get_empty, false_or] at hf ⊢
        rw [m2 hf, if_pos rfl, get_or, hf]; simp
      | true =>
        simp only [if_true] at hf ⊢
        rcases hf with hf | hf
        · have := h2 id d rfl hf
          split
          · rw [get_or, this]; rfl
          · exact this
        · rw [m2 hf, if_pos rfl, get_or, hf]; simp
    · rintro i e g he hg hm; cases he
      rw [if_pos (by rw [f1]; exact or_any_right _ _ m1)] at hg
      cases r with
      | none => cases hg
      | some r => cases hg; exact hm
  clrMark {c id d r l} hP ho := by
    obtain ⟨h1, h2, h3⟩ := hP ho.tail
    refine ⟨h1, ?_, by simp⟩
    rintro i e he; cases he; exact h2 id d rfl
  clrDrop {c v r l} hP ho := by
    obtain ⟨h1, h2, h3⟩ := hP ho.tail
    refine ⟨?_, by simp, by simp⟩
    simp only [calls, sets, weight]
    omega
  hush {id d r l} hP ho := by
    obtain ⟨h1, h2, h3⟩ := hP ho
    refine ⟨?_, ?_, ?_⟩
    · simp only [weight, get_empty, reduceCtorEq, if_false] at h1 ⊢
      have : one false = 0 := rfl
      omega
    · rintro i e he; cases he; exact h2 id d rfl
    · rintro i e g he; cases he; exact h3 id d g rfl
  event {id d r l k' h} hP hc ha ho := by
    obtain ⟨h1, h2, h3⟩ := hP ho.tail
    refine ⟨?_, h2, h3⟩
    simp only [weight, reduceCtorEq, if_false] at h1
    simp only [calls, sets, weight, and_true]
    by_cases hkk : k' = k
    · subst hkk
      simp only [if_true]
      rw [ha] at h1
      have : one true = 1 := rfl
      omega
    · rw [if_neg hkk, if_neg (by simpa using hkk)]
      omega
  into {v r l c} hP ho := by
    obtain ⟨h1, h2, h3⟩ := hP ho
    refine ⟨Nat.le_trans ?_ h1, h2, h3⟩
    cases v with
    | none => exact Nat.le_refl _
    | some p =>
      obtain ⟨id, d⟩ := p
      simp only [weight, reduceCtorEq, if_false]
      split <;> omega
  outOf {v r l id k'} hn hP ho := by
    obtain ⟨h1, h2, h3⟩ := hP ho
    refine ⟨Nat.le_trans ?_ h1, h2, h3⟩
    cases v with
    | none => exact Nat.le_refl _
    | some p =>
      obtain ⟨i, d⟩ := p
      have := hn i d rfl
      simp only [weight, reduceCtorEq, if_false]
      rw [if_neg]
      · exact Nat.le_refl _
      · intro q; cases q; exact this rfl
  done {id d r l k'} hP ho := by
    obtain ⟨h1, h2, h3⟩ := hP ho
    refine ⟨Nat.le_trans (Nat.add_le_add_left ?_ _) h1, ?_, ?_⟩
    · simp only [weight, reduceCtorEq, if_false, get_drop]
      by_cases hkk : k = k'
      · subst hkk; simp [one]
      · rw [if_neg (by simpa using fun q : k' = k => hkk q.symm)]
        simp [hkk]
    · rintro i e he; cases he; exact h2 id d rfl
    · rintro i e g he; cases he; exact h3 id d g rfl
  gone {id d r l} hP hc ho := by
    obtain ⟨h1, h2, h3⟩ := hP ho
    exact ⟨Nat.le_trans (by simp [weight]) h1, by simp, by simp⟩
  arrive {id d r l e} _ he hP hl hid hc ho := by
    obtain ⟨h1, h2, h3⟩ := hP ho
    obtain ⟨b1, b2, b3⟩ := markAll_bits k e d
    have hf : e.has k = true → d.flag.get k = true ∧ d.one.get k = true := fun q => by
      have := h3 id d r rfl rfl (legal_has hl hk q)
      exact ⟨this, h2 id d rfl this⟩
    refine ⟨Nat.le_trans (Nat.add_le_add_left ?_ _) h1, ?_, ?_⟩
    · simp only [weight, reduceCtorEq, if_false, b1, b2]
      cases hh : e.has k with
      | false => simp
      | true =>
        obtain ⟨q1, q2⟩ := hf hh
        rw [q1, q2]
        simp [one]
    · rintro i x hx; cases hx
      rw [b1, b3]
      cases hh : e.has k with
      | false => simpa using h2 id d rfl
      | true => obtain ⟨q1, q2⟩ := hf hh; rw [q1, q2]; simp
    · rintro i x g hx hg hm; cases hx
      cases hg
      split at hm
      · exact hm
      · next hh =>
        rw [switched_mask] at hm
        have hh : hit e d = false := by simpa using hh
        rw [b1, hit_has hh, h3 id d r rfl rfl hm]; rfl
  again {id d r l e} _ he hP hl hid hc ho := by
    obtain ⟨h1, h2, h3⟩ := hP ho
    obtain ⟨b1, b2, b3, b4, b5, b6⟩ := regrantAll_bits k e id d (switched r)
    have hf : (regrantAll e id d (switched r)).1.flag.get k = true → d.flag.get k = true := fun q => by
      rcases b4 q with q | q
      · exact q
      · exact h3 id d r rfl rfl (legal_has hl hk q)
    refine ⟨Nat.le_trans (Nat.add_le_add_left ?_ _) h1, ?_, ?_⟩
    · simp only [weight, reduceCtorEq, if_false, b1]
      exact Nat.add_le_add_left (one_mono hf) _
    · rintro i x hx q; cases hx
      exact b5.mpr (h2 id d rfl (hf q))
    · rintro i x g hx hg hm; cases hx; cases hg
      rcases b6 hm with q | q
      · rw [switched_mask] at q; exact b3 (h3 id d r rfl rfl q)
      · exact q

/-- The handler of a oneshot event is called at most as often as it was set (C162). -/
theorem oneshot_once {plan : List (List Op)} {n : Nat} {is : List Item} {s : St}
    (h : program n is (new plan) = .ok s) {k : Kind} (hk : k ≠ .error) {fd : Nat} (ho : Oneshot k fd s.log) :
    calls k fd s.log ≤ sets k fd s.log := by
  have := (once_local hk fd).law.program (n := n) is (new plan) all_true (inv_new plan)
    (fun _ => ⟨Nat.le_refl _, by simp [view, new], by simp [view, new]⟩)
  rw [h] at this
  exact Nat.le_trans (Nat.le_add_right _ _) (this.2 ho).bound

/-! ## Registrations that are off or not there -/

/-- Calls of a kind that are still to be made. -/
def waiting (k : Kind) (c : Option (Nat × Kind)) : Option (Nat × Desc) → Nat
  | none => 0
  | some (id, d) => if c = some (id, k) then 0 else one (d.act.get k)

/-- No event of the descriptor is seen, as long as it is not touched. -/
def Deaf (k : Kind) (fd a : Nat) (T : Ev → Prop) (r₀ : Option Reg) (l₀ : List Ev) (c : Option (Nat × Kind))
    (v : Option (Nat × Desc)) (r : Option Reg) (l : List Ev) : Prop :=
  ∃ l', l = l' ++ l₀ ∧ ((∀ x ∈ l', ¬ T x) → r = r₀ ∧ (∃ id d, v = some (id, d) ∧ d.isClear = false) ∧
    calls k fd l' + waiting k c v ≤ a)

theorem deaf_local {k : Kind} {fd a : Nat} {T : Ev → Prop} {r₀ : Option Reg} {l₀ : List Ev}
    (hT : T (.did (.clr fd)))
    (hr : r₀ = none ∨ (∃ g, r₀ = some g ∧ g.on = false) ∧ ∀ m o a t h, T (.did (.set fd m o a t h))) :
    Local fd (fun _ => True) (Deaf k fd a T r₀ l₀) where
  skip := by
    rintro c v r l x hx ⟨l', rfl, h⟩
    refine ⟨x :: l', rfl, fun hn => ?_⟩
    obtain ⟨h1, h2, h3⟩ := h (fun y hy => hn y (List.mem_cons_of_mem _ hy))
    exact ⟨h1, h2, by rw [calls_skip hx]; exact h3⟩
  alike := by
    rintro c id d d' r l ⟨a1, a2, a3, a4⟩ ⟨l', rfl, h⟩
    refine ⟨l', rfl, fun hn => ?_⟩
    obtain ⟨h1, ⟨i, e, he, h2⟩, h3⟩ := h hn
    cases he
    exact ⟨h1, ⟨_, _, rfl, by rw [a4]; exact h2⟩, by simpa only [waiting, a2] using h3⟩
  fresh := by
    rintro c v l m o a t h id d' hv ⟨l', rfl, h'⟩ f1 f2 f3 f4
    refine ⟨_ :: l', rfl, fun hn => ?_⟩
    obtain ⟨h1, ⟨i, e, he, h2⟩, h3⟩ := h' (fun y hy => hn y (List.mem_cons_of_mem _ hy))
    have := hv i e he
    rw [h2] at this; cases this
  old := by
    rintro c id d r l m o a t h d' hc ⟨l', rfl, h'⟩ f1 f2 f3 f4
    refine ⟨_ :: l', rfl, fun hn => ?_⟩
    obtain ⟨h1, ⟨i, e, he, h2⟩, h3⟩ := h' (fun y hy => hn y (List.mem_cons_of_mem _ hy))
    rcases hr with rfl | ⟨-, hr⟩
    · refine ⟨by rw [h1]; simp, ⟨_, _, rfl, f4⟩, ?_⟩
      simpa only [waiting, f2, calls] using h3
    · exact absurd (hr m o a t h) (hn _ (by simp))
  clrMark := by
    rintro c id d r l ⟨l', rfl, h⟩
    exact ⟨_ :: l', rfl, fun hn => absurd hT (hn _ (by simp))⟩
  clrDrop := by
    rintro c v r l ⟨l', rfl, h⟩
    exact ⟨_ :: l', rfl, fun hn => absurd hT (hn _ (by simp))⟩
  hush := by
    rintro id d r l ⟨l', rfl, h⟩
    refine ⟨l', rfl, fun hn => ?_⟩
    obtain ⟨h1, ⟨i, e, he, h2⟩, h3⟩ := h hn
    cases he
    refine ⟨h1, ⟨_, _, rfl, h2⟩, Nat.le_trans ?_ h3⟩
    simp [waiting, get_empty, one]
  event := by
    rintro id d r l k' h ⟨l', rfl, h'⟩ hc ha
    refine ⟨_ :: l', rfl, fun hn => ?_⟩
    obtain ⟨h1, h2, h3⟩ := h' (fun y hy => hn y (List.mem_cons_of_mem _ hy))
    refine ⟨h1, h2, Nat.le_trans ?_ h3⟩
    simp only [calls, waiting, and_true, reduceCtorEq, if_false]
    by_cases hkk : k' = k
    · subst hkk; rw [ha]
      have : one true = 1 := rfl
      simp only [if_true]; omega
    · rw [if_neg hkk, if_neg (by simpa using hkk)]; omega
  into := by
    rintro v r l c ⟨l', rfl, h⟩
    refine ⟨l', rfl, fun hn => ?_⟩
    obtain ⟨h1, ⟨i, e, rfl, h2⟩, h3⟩ := h hn
    refine ⟨h1, ⟨_, _, rfl, h2⟩, Nat.le_trans (Nat.add_le_add_left ?_ _) h3⟩
    simp only [waiting, reduceCtorEq, if_false]
    split <;> omega
  outOf := by
    rintro v r l id k' hv ⟨l', rfl, h⟩
    refine ⟨l', rfl, fun hn => ?_⟩
    obtain ⟨h1, ⟨i, e, rfl, h2⟩, h3⟩ := h hn
    refine ⟨h1, ⟨_, _, rfl, h2⟩, Nat.le_trans (Nat.add_le_add_left ?_ _) h3⟩
    have := hv i e rfl
    simp only [waiting, reduceCtorEq, if_false]
    rw [if_neg]
    · exact Nat.le_refl _
    · intro q; cases q; exact this rfl
  done := by
    rintro id d r l k' ⟨l', rfl, h⟩
    refine ⟨l', rfl, fun hn => ?_⟩
    obtain ⟨h1, ⟨i, e, he, h2⟩, h3⟩ := h hn
    cases he
    refine ⟨h1, ⟨_, _, rfl, h2⟩, Nat.le_trans (Nat.add_le_add_left ?_ _) h3⟩
    simp only [waiting, reduceCtorEq, if_false, get_drop]
    by_cases hkk : k = k'
    · subst hkk; simp [one]
    · rw [if_neg (by simpa using fun q : k' = k => hkk q.symm)]
      simp [hkk]
  gone := by
    rintro id d r l ⟨l', rfl, h⟩ hc
    refine ⟨l', rfl, fun hn => ?_⟩
    obtain ⟨h1, ⟨i, e, he, h2⟩, h3⟩ := h hn
    cases he
    rw [hc] at h2; cases h2
  arrive := by
    rintro id d r l e - - ⟨l', rfl, h⟩ hl - -
    refine ⟨l', rfl, fun hn => ?_⟩
    obtain ⟨h1, -, -⟩ := h hn
    rcases hr with rfl | ⟨⟨g, rfl, hg⟩, -⟩
    · cases h1
    · cases h1; simp [legal, hg] at hl
  again := by
    rintro id d r l e - - ⟨l', rfl, h⟩ hl - -
    refine ⟨l', rfl, fun hn => ?_⟩
    obtain ⟨h1, -, -⟩ := h hn
    rcases hr with rfl | ⟨⟨g, rfl, hg⟩, -⟩
    · cases h1
    · cases h1; simp [legal, hg] at hl

/-- If a descriptor is first set without events, for instance to give it a timeout, no event of it is seen
after that, whatever is set, until it is cleared (C163). -/
theorem set_nothing {plan : List (List Op)} {n fd : Nat} {o a : Bool} {t : Timeout} {h : Option Nat} {is : List Item}
    {s : St} (hs : program n (.op (.set fd {} o a t h) :: is) (new plan) = .ok s)
    (hc : Ev.did (.clr fd) ∉ s.log) (k : Kind) : calls k fd s.log = 0 := by
  unfold program at hs
  rw [bind_ok] at hs
  obtain ⟨s₁, h₁, hs⟩ := hs
  have I := inv_run (inv_new plan) h₁
  have L := deaf_local (k := k) (fd := fd) (a := 0) (T := fun x => x = .did (.clr fd)) (r₀ := none) (l₀ := s₁.log)
    rfl (.inl rfl)
  obtain ⟨id, b, other, hb, -, hx⟩ := fdSet_eq (s := { new plan with log := .did (.set fd {} o a t h) :: [] })
    (fd := fd) (mask := {}) (o := o) (ap := a) (t := t) (h := h) h₁
  simp only [base, new] at hb
  cases hb
  obtain ⟨f1, f2, -, -, -, -, -⟩ := settled_fields { new plan with log := .did (.set fd {} o a t h) :: [] } fd {} o t h 0 { fd := fd } false
  have fh := settled_heap { new plan with log := .did (.set fd {} o a t h) :: [] } fd {} o t h 0 { fd := fd } false
  have fr := settled_regs { new plan with log := .did (.set fd {} o a t h) :: [] } fd {} o t h 0 { fd := fd } false
  rw [← hx] at f1 f2 fh fr
  have hv : view fd s₁ = some (0, grant {} o h (arm 0 t { fd := fd })) := by
    rw [view_some, f1, fh, upd_same, upd_same]; exact ⟨rfl, rfl⟩
  obtain ⟨a1, a2, a3, a4⟩ := alike_arm 0 t { fd := fd }
  have hreg : s₁.regs fd = none := by
    rw [fr, if_neg]
    · rfl
    · simp [grant, a1, Mask.or, Mask.any, new]
  have := L.law.program (n := n) is s₁ all_true I ⟨[], rfl, fun _ => ⟨hreg, ⟨_, _, hv, a4⟩, by
    rw [hv]; simp [calls, waiting, grant, a2, get_empty, one]⟩⟩
  rw [hs] at this
  obtain ⟨-, l', hl, this⟩ := this
  have h0 : calls k fd l' = 0 := by
    have := (this (fun x hx he => hc (by rw [hl, ← he]; exact List.mem_append_left _ hx))).2.2
    omega
  have happ : ∀ l₁ l₂ : List Ev, calls k fd (l₁ ++ l₂) = calls k fd l₁ + calls k fd l₂ := by
    intro l₁ l₂
    induction l₁ with
    | nil => simp [calls]
    | cons x l₁ ih =>
      cases x with
      | did o => exact ih
      | call c =>
        cases c with
        | event k' f y => simp only [List.cons_append, calls, ih]; omega
        | _ => exact ih
  rw [hl, happ, h0, f2]
  rfl

theorem program_append {n : Nat} : ∀ {is js : List Item} {s : St},
    program n (is ++ js) s = (program n is s >>= fun s => program n js s)
  | [], js, s => rfl
  | .op o :: is, js, s => by
    show (run s o >>= fun s => program n (is ++ js) s) = _
    simp only [program]
    cases run s o with
    | error e => rfl
    | ok s' => exact program_append
  | .dispatch Es :: is, js, s => by
    show (dispatch n Es s >>= fun s => program n (is ++ js) s) = _
    simp only [program]
    cases dispatch n Es s with
    | error e => rfl
    | ok s' => exact program_append

/-- The state after that. -/
def muted (plan : List (List Op)) (fd : Nat) (x y : Option Nat) : St :=
  { new plan with
    heap := upd (fun _ => none) 0 (some { fd := fd, flag := { r := true, s := true }, act := { r := true }, inActive := true, one := { s := true }, rcv := x, snd := y })
    next := 1
    tree := upd (fun _ => none) fd (some 0)
    active := [0]
    regs := upd (fun _ => none) fd (some { mask := { r := true, s := true }, oneshot := true, on := false, id := 0 })
    log := [.did (.tick 0), .did (.set fd { s := true } true true .unmodified y),
        .did (.set fd { r := true } false false .unlimited x)] }

theorem muted_eq (plan : List (List Op)) (n fd : Nat) (x y : Option Nat) :
    program (n + 1) [.op (.set fd { r := true } false false .unlimited x),
      .op (.set fd { s := true } true true .unmodified y),
      .dispatch [{ reports := [{ fd := fd, inn := true }] }]] (new plan) = .ok (muted plan fd x y) := by
  simp [program, dispatch, run, act, new, bind, Except.bind, fdSet, normalNew, timeoutSet, untime, deref, put, upd_same,
    upd_upd, appendSet, ctl, Mask.or, Mask.any, round, timerProcess, timerLoop, least, activePhase, activeProcess,
    activeLoop, timeoutProcess, timeoutLoop, serveAll, serve, Report.legal, take, arrive, markAll, mark, Mask.get,
    Mask.add, hit, muted]

/-- An event that is to stay, and a oneshot event that is added to it: after one event of either kind
neither is seen any more, until the descriptor is set or cleared (C163). -/
theorem append_oneshot {plan : List (List Op)} {n fd : Nat} {x y : Option Nat} {is : List Item} {s : St}
    (hs : program (n + 1) ([.op (.set fd { r := true } false false .unlimited x),
      .op (.set fd { s := true } true true .unmodified y),
      .dispatch [{ reports := [{ fd := fd, inn := true }] }]] ++ is) (new plan) = .ok s) :
    ∃ l, s.log = l ++ [.did (.tick 0), .did (.set fd { s := true } true true .unmodified y),
        .did (.set fd { r := true } false false .unlimited x)] ∧
      ((∀ m o a t h, Ev.did (.set fd m o a t h) ∉ l) → Ev.did (.clr fd) ∉ l →
        calls .recv fd l ≤ 1 ∧ calls .send fd l = 0) := by
  rw [program_append, muted_eq] at hs
  change program (n + 1) is (muted plan fd x y) = .ok s at hs
  have I : Inv (muted plan fd x y) := (told_program (muted_eq plan n fd x y)).1
  have hv : view fd (muted plan fd x y) = some (0, { fd := fd, flag := { r := true, s := true }, act := { r := true }, inActive := true, one := { s := true }, rcv := x, snd := y }) := by
    simp [view, muted, upd_same]
  have hr : (muted plan fd x y).regs fd = some { mask := { r := true, s := true }, oneshot := true, on := false, id := 0 } := by
    simp [muted, upd_same]
  have key : ∀ k, ∃ l', s.log = l' ++ (muted plan fd x y).log ∧
      ((∀ z ∈ l', ¬ (z = .did (.clr fd) ∨ ∃ m o a t h, z = .did (.set fd m o a t h))) → calls k fd l' ≤ one (decide (k = .recv))) := by
    intro k
    have L := deaf_local (k := k) (fd := fd) (a := one (decide (k = .recv)))
      (T := fun z => z = .did (.clr fd) ∨ ∃ m o a t h, z = .did (.set fd m o a t h))
      (r₀ := some { mask := { r := true, s := true }, oneshot := true, on := false, id := 0 }) (l₀ := (muted plan fd x y).log)
      (.inl rfl) (.inr ⟨⟨_, rfl, rfl⟩, fun m o a t h => .inr ⟨m, o, a, t, h, rfl⟩⟩)
    have := L.law.program (n := n + 1) is (muted plan fd x y) all_true I ⟨[], rfl, fun _ => ⟨hr, ⟨_, _, hv, rfl⟩, by
      rw [hv]; cases k <;> simp [calls, waiting, Mask.get, one]⟩⟩
    rw [hs] at this
    obtain ⟨-, l', hl, this⟩ := this
    exact ⟨l', hl, fun h => Nat.le_trans (Nat.le_add_right _ _) (this h).2.2⟩
  obtain ⟨l, hl, h1⟩ := key .recv
  obtain ⟨l₂, hl₂, h2⟩ := key .send
  rw [hl] at hl₂
  have := List.append_cancel_right hl₂
  subst this
  refine ⟨l, hl, fun q1 q2 => ?_⟩
  have q : ∀ z ∈ l, ¬ (z = .did (.clr fd) ∨ ∃ m o a t h, z = .did (.set fd m o a t h)) := by
    rintro z hz (rfl | ⟨m, o, a, t, h, rfl⟩)
    · exact q2 hz
    · exact q1 m o a t h hz
  exact ⟨h1 q, Nat.le_zero.mp (h2 q)⟩

/-! ## Loops that never wait -/

/-- A descriptor whose peer has hung up. -/
def hung (fd : Nat) (m : Mask) (h : Option Nat) (l : List Ev) : St :=
  { heap := upd (fun _ => none) 0 (some { fd := fd, flag := m, inActive := true, rcv := if m.r then h else none, snd := if m.s then h else none, err := if m.e then h else none })
    next := 1
    tree := upd (fun _ => none) fd (some 0)
    active := [0]
    regs := upd (fun _ => none) fd (some { mask := m, oneshot := false, id := 0 })
    log := l }

theorem hung_round (n fd : Nat) (m : Mask) (h : Option Nat) (l : List Ev) :
    round (n + 2) { reports := [{ fd := fd, hup := true }] } (hung fd m h l) = .ok (hung fd m h (.did (.tick 0) :: l)) := by
  simp [run, act, bind, Except.bind, untime, deref, put, upd_same,
    upd_upd, round, timerProcess, timerLoop, least, activePhase, activeProcess,
    activeLoop, activeStep, start, part, hush, finish, timeoutProcess, timeoutLoop, serveAll, serve, Report.legal, take, arrive, markAll, Mask.get,
    hit, hung]

theorem hung_start (n fd : Nat) (m : Mask) (h : Option Nat) (hm : m.any = true) :
    program (n + 2) [.op (.set fd m false false .unlimited h), .dispatch [{ reports := [{ fd := fd, hup := true }] }]] (new []) =
      .ok (hung fd m h [.did (.tick 0), .did (.set fd m false false .unlimited h)]) := by
  have : Mask.any m = true := hm
  have h2 : ({ r := m.r, s := m.s, e := m.e } : Mask) = m := rfl
  simp [program, dispatch, run, act, new, bind, Except.bind, fdSet, normalNew, timeoutSet, untime, deref, put, upd_same,
    upd_upd, appendSet, ctl, or_empty, this, round, timerProcess, timerLoop, least, activePhase, activeProcess,
    activeLoop, timeoutProcess, timeoutLoop, serveAll, serve, Report.legal, take, arrive, markAll,
    hit, hung]

theorem hung_dispatch (n fd : Nat) (m : Mask) (h : Option Nat) : ∀ (j : Nat) (l : List Ev),
    dispatch (n + 2) (List.replicate j { reports := [{ fd := fd, hup := true }] }) (hung fd m h l) =
      .ok (hung fd m h (List.replicate j (.did (.tick 0)) ++ l))
  | 0, l => rfl
  | j + 1, l => by
    rw [List.replicate_succ]
    unfold dispatch
    rw [hung_round]
    show dispatch _ _ _ = _
    rw [hung_dispatch n fd m h j, List.replicate_succ']
    simp

/-- A hangup that epoll reports: in no number of rounds is any handler called, the registration stays as it is
and epoll reports it at once every time (C164). -/
theorem hangup_spins (j fd : Nat) (m : Mask) (h : Option Nat) (hm : m.any = true) :
    ∃ s, program 2 ([.op (.set fd m false false .unlimited h), .dispatch [{ reports := [{ fd := fd, hup := true }] }]] ++
        [.dispatch (List.replicate j { reports := [{ fd := fd, hup := true }] })]) (new []) = .ok s ∧
      s.log = List.replicate j (.did (.tick 0)) ++ [.did (.tick 0), .did (.set fd m false false .unlimited h)] ∧
      Report.legal s { fd := fd, hup := true } = true := by
  refine ⟨hung fd m h (List.replicate j (.did (.tick 0)) ++
    [.did (.tick 0), .did (.set fd m false false .unlimited h)]), ?_, rfl, ?_⟩
  · rw [program_append, hung_start 0 fd m h hm]
    show (dispatch 2 _ _ >>= _) = _
    rw [hung_dispatch 0]
    rfl
  · simp [Report.legal, hung, upd_same]

/-- A descriptor in error. -/
def broken (fd h : Nat) (l : List Ev) : St :=
  { heap := upd (fun _ => none) 0 (some { fd := fd, act := { e := true }, inActive := true, err := some h })
    next := 1
    tree := upd (fun _ => none) fd (some 0)
    active := [0]
    regs := upd (fun _ => none) fd (some { mask := {}, oneshot := false, id := 0 })
    log := l }

theorem broken_round (n fd h : Nat) (l : List Ev) :
    round (n + 2) { reports := [{ fd := fd, err := true }] } (broken fd h l) =
      .ok (broken fd h (.did (.tick 0) :: .call (.event .error fd h) :: l)) := by
  simp [run, act, bind, Except.bind, untime, deref, put, upd_same,
    upd_upd, round, timerProcess, timerLoop, least, activePhase, activeProcess, callOpt, call, begin, runAll, Desc.h,
    activeLoop, activeStep, start, part, hush, done, finish, timeoutProcess, timeoutLoop, serveAll, serve, Report.legal, take, arrive, markAll, mark, Mask.get,
    Mask.add, Mask.drop, hit, broken]

theorem broken_start (n fd h : Nat) :
    program (n + 2) [.op (.set fd { e := true } true false .unlimited (some h)), .dispatch [{ reports := [{ fd := fd, err := true }] }]] (new []) =
      .ok (broken fd h [.did (.tick 0), .did (.set fd { e := true } true false .unlimited (some h))]) := by
  simp [program, dispatch, run, act, new, bind, Except.bind, fdSet, normalNew, timeoutSet, untime, deref, put, upd_same,
    upd_upd, appendSet, ctl, Mask.or, Mask.any, round, timerProcess, timerLoop, least, activePhase, activeProcess,
    activeLoop, timeoutProcess, timeoutLoop, serveAll, serve, Report.legal, take, arrive, markAll, mark, Mask.get,
    Mask.add, Mask.drop, hit, broken]

theorem broken_dispatch (n fd h : Nat) : ∀ (j : Nat) (l : List Ev),
    ∃ l', dispatch (n + 2) (List.replicate j { reports := [{ fd := fd, err := true }] }) (broken fd h l) =
      .ok (broken fd h l') ∧ calls .error fd l' = j + calls .error fd l ∧ sets .error fd l' = sets .error fd l
  | 0, l => ⟨l, rfl, by omega, rfl⟩
  | j + 1, l => by
    obtain ⟨l', h1, h2, h3⟩ := broken_dispatch n fd h j (.did (.tick 0) :: .call (.event .error fd h) :: l)
    refine ⟨l', ?_, ?_, h3⟩
    · rw [List.replicate_succ]
      unfold dispatch
      rw [broken_round]
      exact h1
    · rw [h2]; simp [calls]; omega

/-- The handler of a oneshot error that was set once is called in every round: epoll reports errors whether
they are asked for or not (C162). -/
theorem error_again (j fd h : Nat) :
    ∃ s, program 2 ([.op (.set fd { e := true } true false .unlimited (some h)), .dispatch [{ reports := [{ fd := fd, err := true }] }]] ++
        [.dispatch (List.replicate j { reports := [{ fd := fd, err := true }] })]) (new []) = .ok s ∧
      calls .error fd s.log = j ∧ sets .error fd s.log = 1 ∧ Report.legal s { fd := fd, err := true } = true := by
  obtain ⟨l', h1, h2, h3⟩ := broken_dispatch 0 fd h j [.did (.tick 0), .did (.set fd { e := true } true false .unlimited (some h))]
  refine ⟨broken fd h l', ?_, ?_, ?_, ?_⟩
  · rw [program_append, broken_start 0 fd h]
    show (dispatch 2 _ _ >>= _) = _
    rw [h1]
    rfl
  · show calls .error fd l' = j
    rw [h2]; simp [calls]
  · show sets .error fd l' = 1
    rw [h3]; simp [sets, Mask.get]
  · simp [Report.legal, broken, upd_same]

/-- A descriptor whose event was forgotten. -/
def lost (fd v h : Nat) (l : List Ev) : St :=
  { heap := upd (fun _ => none) 0 (some { fd := fd, act := { r := true }, rcv := some h, timed := true, endUs := v * 1000 })
    next := 1
    tree := upd (fun _ => none) fd (some 0)
    timeouts := [0]
    regs := upd (fun _ => none) fd (some { mask := {}, oneshot := false, id := 0 })
    log := l }

theorem lost_start (n fd v h : Nat) (hv : 0 < v) (hv' : v * 1000 < 2 ^ 31) :
    program (n + 2) [.op (.set fd { r := true } true false (.ms v) (some h)),
      .dispatch [{ reports := [{ fd := fd, inn := true }] }, { busy := true }]] (new []) =
      .ok (lost fd v h [.did (.tick 0), .did (.tick 0), .did (.set fd { r := true } true false (.ms v) (some h))]) := by
  have h1 : ¬ (v * 1000 ≥ 2147483648) := by omega
  have h3 : 0 < v * 1000 := by omega
  simp [program, dispatch, run, act, new, bind, Except.bind, fdSet, normalNew, timeoutSet, deref, put, upd_same,
    upd_upd, appendSet, ctl, Mask.or, Mask.any, round, timerProcess, timerLoop, least, activePhase, activeProcess,
    activeLoop, timeoutProcess, timeoutLoop, serveAll, serve, Report.legal, take, arrive, markAll, mark, Mask.get,
    Mask.add, Mask.drop, hit, lost, unlist, h1, h3]

theorem lost_dispatch (n fd v h : Nat) (hv : 0 < v) : ∀ (j : Nat) (l : List Ev),
    dispatch (n + 2) (List.replicate j {}) (lost fd v h l) = .ok (lost fd v h (List.replicate j (.did (.tick 0)) ++ l))
  | 0, l => rfl
  | j + 1, l => by
    have h3 : 0 < v * 1000 := by omega
    have : round (n + 2) {} (lost fd v h l) = .ok (lost fd v h (.did (.tick 0) :: l)) := by
      simp [run, act, bind, Except.bind, deref, upd_same, round, timerProcess, timerLoop, least, activePhase,
        activeProcess, activeLoop, timeoutProcess, timeoutLoop, serveAll, lost, unlist, h3]
    rw [List.replicate_succ]
    unfold dispatch
    rw [this]
    show dispatch _ _ _ = _
    rw [lost_dispatch n fd v h hv j, List.replicate_succ']
    simp

/-- A oneshot event that came for a descriptor with a timeout is forgotten if another thread holds the lock
when it is to be handled: its handler is not called in any number of rounds before the timeout (C163). -/
theorem busy_lost (j fd v h : Nat) (hv : 0 < v) (hv' : v * 1000 < 2 ^ 31) :
    ∃ s, program 2 ([.op (.set fd { r := true } true false (.ms v) (some h)),
        .dispatch [{ reports := [{ fd := fd, inn := true }] }, { busy := true }]] ++
        [.dispatch (List.replicate j {})]) (new []) = .ok s ∧
      s.active = [] ∧ ∀ c, Ev.call c ∉ s.log := by
  refine ⟨lost fd v h (List.replicate j (.did (.tick 0)) ++
    [.did (.tick 0), .did (.tick 0), .did (.set fd { r := true } true false (.ms v) (some h))]), ?_, rfl, ?_⟩
  · rw [program_append, lost_start 0 fd v h hv hv']
    show (dispatch 2 _ _ >>= _) = _
    rw [lost_dispatch 0 fd v h hv]
    rfl
  · intro c hc
    simp [lost, List.mem_append, List.mem_replicate] at hc

/-! ## Cases -/

/-- A oneshot event that is set again by its handler. -/
example : logOf (program 4 [.op (.set 5 { r := true } true false .unlimited (some 1)),
      .dispatch [{ reports := [{ fd := 5, inn := true }] }, { reports := [{ fd := 5, inn := true }] },
        { reports := [{ fd := 5, inn := true }] }, {}]]
      (new [[.set 5 { r := true } true false .unlimited (some 2)]])) =
    some [.did (.tick 0), .did (.tick 0), .call (.event .recv 5 2), .did (.tick 0),
      .did (.set 5 { r := true } true false .unlimited (some 2)), .call (.event .recv 5 1), .did (.tick 0),
      .did (.set 5 { r := true } true false .unlimited (some 1))] := by decide +kernel

/-- A oneshot event that stays registered, because the descriptor is set without events: it is called in every
round. -/
example : (logOf (program 4 [.op (.set 5 { r := true } true false .unlimited (some 1)),
      .op (.set 5 { s := true } false true .unlimited (some 2)), .op (.set 5 {} false false .unlimited none),
      .dispatch [{ reports := [{ fd := 5, inn := true }] }, { reports := [{ fd := 5, inn := true }] },
        { reports := [{ fd := 5, inn := true }] }, {}]] (new []))).map (calls .recv 5) = some 3 := by decide +kernel

/-- The handler of RECV replaces the events; the handler of SEND is called nevertheless. -/
example : (logOf (program 4 [.op (.set 5 { r := true } false false .unlimited (some 1)),
      .op (.set 5 { s := true } false true .unlimited (some 2)),
      .dispatch [{ reports := [{ fd := 5, inn := true, out := true }] }, {}]]
      (new [[.set 5 { r := true } false false .unlimited (some 1)]]))).map (calls .send 5) = some 1 := by decide +kernel

end Verif.Event
