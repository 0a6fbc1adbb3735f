import Verif.EventDeliver

/-
The delivery of events (C163): what epoll is asked for, and that an event it reports comes to its handler.
-/
namespace Verif.Event

/-! ## Spec: from what has happened (the latest first) -/

/-- The events of a descriptor that are set: those of the last call of mln_event_fd_set, with those before
if it has M_EV_APPEND; none if it was cleared. -/
def wanted (fd : Nat) : List Ev → Option Mask
  | [] => none
  | .did (.set f m _ a _ _) :: l =>
    if f = fd then some (if a then ((wanted fd l).getD {}).or m else m) else wanted fd l
  | .did (.clr f) :: l => if f = fd then none else wanted fd l
  | _ :: l => wanted fd l

/-- Every call of mln_event_fd_set for the descriptor names an event, and none is for one time only. -/
def Lasting (fd : Nat) (l : List Ev) : Prop := ∀ m o a t h, .did (.set fd m o a t h) ∈ l → m.any = true ∧ o = false

/-- What the program does to keep an event from its handler: it clears the descriptor, takes the handler
away or ends the loop. -/
def Stops (k : Kind) (fd : Nat) : Ev → Prop
  | .did (.clr f) => f = fd
  | .did (.brk b) => b = true
  | .did (.set f m _ _ _ h) => f = fd ∧ m.get k = true ∧ h = none
  | _ => False

/-- The handler of an event is called. -/
def Called (k : Kind) (fd : Nat) (x : Ev) : Prop := ∃ h, x = .call (.event k fd h)

/-! ## Registrations -/

/-- The descriptor and its registration have what is wanted. -/
def Asked (fd : Nat) (v : Option (Nat × Desc)) (r : Option Reg) (l : List Ev) : Prop :=
  match wanted fd l with
  | none => r = none ∧ ∀ i d, v = some (i, d) → d.isClear = true
  | some m => m.any = true ∧ ∃ id d, v = some (id, d) ∧ d.isClear = false ∧ d.flag = m ∧ d.one = {} ∧
      r = some { mask := m, oneshot := false, id := id }

theorem wanted_skip {fd : Nat} {x : Ev} {l : List Ev} (h : ¬ About fd x) : wanted fd (x :: l) = wanted fd l := by
  cases x with
  | call c => rfl
  | did o =>
    cases o with
    | set f m o a t hh => simp only [wanted]; rw [if_neg]; exact h
    | clr f => simp only [wanted]; rw [if_neg]; exact h
    | _ => rfl

theorem Lasting.tail {fd : Nat} {x : Ev} {l : List Ev} (h : Lasting fd (x :: l)) : Lasting fd l :=
  fun m o a t hh hm => h m o a t hh (List.mem_cons_of_mem _ hm)

theorem any_or (a b : Mask) (h : b.any = true) : (a.or b).any = true := or_any_right a b h

theorem markAll_lasting {e : Report} {d : Desc} (h : d.one = {}) : (markAll e d).flag = d.flag ∧ (markAll e d).one = {} ∧
    hit e d = false := by
  have key : ∀ (k : Kind) (b : Bool) (d : Desc), d.one = {} →
      (if b then mark k d else d).flag = d.flag ∧ (if b then mark k d else d).one = {} := by
    intro k b d h
    cases b
    · exact ⟨rfl, h⟩
    · simp only [if_true, mark, h]; cases k <;> exact ⟨rfl, rfl⟩
  refine ⟨?_, ?_, by simp [hit, h]⟩
  · unfold markAll
    simp only
    have h1 := key .recv e.inn d h
    have h2 := key .send e.out _ h1.2
    have h3 := key .error e.err _ h2.2
    rw [h3.1, h2.1, h1.1]
  · unfold markAll
    simp only
    have h1 := key .recv e.inn d h
    have h2 := key .send e.out _ h1.2
    exact (key .error e.err _ h2.2).2

theorem regrantAll_lasting {e : Report} {id : Nat} {d : Desc} {r : Reg} (h : d.one = {}) :
    regrantAll e id d r = (d, r) := by
  have key : ∀ k, regrant e id (d, r) k = (d, r) := by
    intro k
    unfold regrant
    have : d.one.get k = false := by rw [h]; cases k <;> rfl
    simp [this]
  unfold regrantAll
  rw [key, key, key]

theorem asked_local (fd : Nat) : Local fd (fun _ => True) (fun _ v r l => Lasting fd l → Asked fd v r l) where
  skip hx h ho := by unfold Asked; rw [wanted_skip hx]; exact h ho.tail
  alike {c id d d' r l} ha h ho := by
    have := h ho
    obtain ⟨a1, a2, a3, a4⟩ := ha
    unfold Asked at this ⊢
    split at this
    · refine ⟨this.1, ?_⟩
      rintro i e he; cases he; rw [a4]; exact this.2 id d rfl
    · obtain ⟨h1, i, e, he, h2, h3, h4, h5⟩ := this
      cases he
      exact ⟨h1, id, d', rfl, by rw [a4]; exact h2, by rw [a1]; exact h3, by rw [a3]; exact h4, h5⟩
  fresh {c v l m o a t h id d'} hv hP f1 f2 f3 f4 ho := by
    have P := hP ho.tail
    obtain ⟨m1, rfl⟩ := ho m o a t h (by simp)
    have hw : wanted fd l = none := by
      unfold Asked at P
      split at P
      · assumption
      · obtain ⟨-, i, e, he, h2, h3, h4, h5⟩ := P; cases h5
    unfold Asked
    simp only [wanted, if_true, hw, Option.getD_none]
    have : (if a = true then ({} : Mask).or m else m) = m := by split <;> simp [or_empty]
    rw [this]
    refine ⟨m1, id, d', rfl, f4, f1, by simpa using f3, ?_⟩
    rw [if_pos m1]
  old {c id d r l m o a t h d'} hc hP f1 f2 f3 f4 ho := by
    have P := hP ho.tail
    obtain ⟨m1, rfl⟩ := ho m o a t h (by simp)
    unfold Asked at P
    split at P
    · have := P.2 id d rfl; rw [hc] at this; cases this
    · next w hw =>
      obtain ⟨h1, i, e, he, h2, h3, h4, h5⟩ := P
      cases he
      unfold Asked
      simp only [wanted, if_true, hw, Option.getD_some]
      have hf : d'.flag = if a = true then w.or m else m := by
        rw [f1, h3]; cases a <;> simp [or_empty]
      rw [← hf]
      have hany : d'.flag.any = true := by rw [f1]; exact any_or _ _ m1
      refine ⟨hany, id, d', rfl, f4, rfl, ?_, ?_⟩
      · rw [f3]; simp only [Bool.false_eq_true, if_false]; split
        · exact h4
        · rfl
      · rw [if_pos hany, h5]; rfl
  clrMark {c id d r l} hP ho := by
    unfold Asked
    simp only [wanted, if_true]
    refine ⟨trivial, ?_⟩
    rintro i e he; cases he; rfl
  clrDrop {c v r l} hP ho := by
    unfold Asked
    simp only [wanted, if_true]
    exact ⟨trivial, by simp⟩
  hush {id d r l} hP ho := by
    have := hP ho
    unfold Asked at this ⊢
    split at this
    · refine ⟨this.1, ?_⟩
      rintro i e he; cases he; exact this.2 id d rfl
    · obtain ⟨h1, i, e, he, h2, h3, h4, h5⟩ := this
      cases he
      exact ⟨h1, id, _, rfl, h2, h3, h4, h5⟩
  event {id d r l k h} hP hc ha ho := by unfold Asked; exact hP ho.tail
  into hP ho := hP ho
  outOf _ hP ho := hP ho
  done {id d r l k} hP ho := by
    have := hP ho
    unfold Asked at this ⊢
    split at this
    · refine ⟨this.1, ?_⟩
      rintro i e he; cases he; exact this.2 id d rfl
    · obtain ⟨h1, i, e, he, h2, h3, h4, h5⟩ := this
      cases he
      exact ⟨h1, id, _, rfl, h2, h3, h4, h5⟩
  gone {id d r l} hP hc ho := by
    have := hP ho
    unfold Asked at this ⊢
    split at this
    · exact ⟨rfl, by simp⟩
    · obtain ⟨h1, i, e, he, h2, h3, h4, h5⟩ := this
      cases he
      rw [hc] at h2; cases h2
  arrive {id d r l e} _ hf hP hl hi hc ho := by
    have := hP ho
    unfold Asked at this ⊢
    split at this
    · have := this.1; cases this
    · obtain ⟨h1, i, e', he, h2, h3, h4, h5⟩ := this
      cases he
      cases h5
      obtain ⟨q1, q2, q3⟩ := markAll_lasting (e := e) h4
      refine ⟨h1, id, _, rfl, (markAll_keeps e d).2.trans h2, q1.trans h3, q2, ?_⟩
      rw [q3]; rfl
  again {id d r l e} _ hf hP hl hi hc ho := by
    have := hP ho
    unfold Asked at this ⊢
    split at this
    · have := this.1; cases this
    · obtain ⟨h1, i, e', he, h2, h3, h4, h5⟩ := this
      cases he
      cases h5
      rw [regrantAll_lasting h4]
      exact ⟨h1, id, _, rfl, h2, h3, h4, rfl⟩

theorem asked_program {plan : List (List Op)} {n : Nat} {is : List Item} {s : St}
    (h : program n is (new plan) = .ok s) {fd : Nat} (hl : Lasting fd s.log) : Asked fd (view fd s) (s.regs fd) s.log := by
  have := (asked_local fd).law.program (n := n) is (new plan) all_true (inv_new plan)
    (fun _ => ⟨rfl, by simp [view, new]⟩)
  rw [h] at this
  exact this.2 hl

/-- If the events of a descriptor are lasting, epoll is asked, at every time and after every history, for
exactly the events that are set (C163). -/
theorem asked_partial {plan : List (List Op)} {n : Nat} {is : List Item} {s : St}
    (h : program n is (new plan) = .ok s) {fd : Nat} (hl : Lasting fd s.log) :
    (s.regs fd).map (fun r => (r.mask, r.on, r.oneshot)) = (wanted fd s.log).map fun m => (m, true, false) := by
  have := asked_program h hl
  unfold Asked at this
  split at this
  · next hw => rw [hw, this.1]; rfl
  · next m hw =>
    obtain ⟨-, id, d, -, -, -, -, h5⟩ := this
    rw [hw, h5]; rfl

/-! ## Delivery -/

/-- Since `l₀` the handler was called, or the program did something against it. -/
def Seen (k : Kind) (fd : Nat) (l₀ l : List Ev) : Prop :=
  ∃ l', l = l' ++ l₀ ∧ ∃ x ∈ l', Stops k fd x ∨ Called k fd x

def Ext (l₀ l : List Ev) : Prop := ∃ l', l = l' ++ l₀

theorem Ext.cons {l₀ : List Ev} (x : Ev) (l : List Ev) : Ext l₀ l → Ext l₀ (x :: l)
  | ⟨l', h⟩ => ⟨x :: l', by rw [h]; rfl⟩

theorem Seen.cons {k : Kind} {fd : Nat} {l₀ : List Ev} (x : Ev) (l : List Ev) : Seen k fd l₀ l → Seen k fd l₀ (x :: l)
  | ⟨l', h, y, hy, hq⟩ => ⟨x :: l', by rw [h]; rfl, y, List.mem_cons_of_mem _ hy, hq⟩

theorem Ext.seen {k : Kind} {fd : Nat} {l₀ l : List Ev} {x : Ev} (h : Ext l₀ l) (hx : Stops k fd x ∨ Called k fd x) :
    Seen k fd l₀ (x :: l) := by
  obtain ⟨l', rfl⟩ := h
  exact ⟨x :: l', rfl, x, by simp, hx⟩

theorem seen_law (k : Kind) (fd : Nat) (l₀ : List Ev) : Law (fun _ => True) (fun _ s => Seen k fd l₀ s.log) :=
  log_law Seen.cons

theorem story_law (l₀ : List Ev) : Law (fun _ => True) (fun _ s => Told s ∧ Ext l₀ s.log) :=
  told_law.and (log_law Ext.cons)

/-- A handler that was given is there unless something was done against it. -/
theorem given_keeps {k : Kind} {fd x : Nat} {l₀ : List Ev} (hg : given k fd l₀ = some x) :
    ∀ (l : List Ev), (∃ y ∈ l, Stops k fd y) ∨ ∃ x', given k fd (l ++ l₀) = some x'
  | [] => .inr ⟨x, hg⟩
  | y :: l => by
    rcases given_keeps hg l with ⟨z, hz, hs⟩ | ⟨x', ih⟩
    · exact .inl ⟨z, List.mem_cons_of_mem _ hz, hs⟩
    cases y with
    | call c => exact .inr ⟨x', ih⟩
    | did o =>
      cases o with
      | set f m o a t h =>
        simp only [List.cons_append, given]
        by_cases hq : f = fd ∧ m.get k = true
        · rw [if_pos hq]
          cases h with
          | none => exact .inl ⟨_, List.mem_cons_self, hq.1, hq.2, rfl⟩
          | some h => exact .inr ⟨h, rfl⟩
        · rw [if_neg hq]; exact .inr ⟨x', ih⟩
      | clr f =>
        simp only [List.cons_append, given]
        by_cases hq : f = fd
        · exact .inl ⟨_, List.mem_cons_self, hq⟩
        · rw [if_neg hq]; exact .inr ⟨x', ih⟩
      | _ => exact .inr ⟨x', ih⟩

variable {k : Kind} {fd id : Nat} {l₀ : List Ev} {a : Bool}

theorem seen_runAll {os : List Op} {s s' : St} (I : Inv s) (S : Seen k fd l₀ s.log) (h : runAll s os = .ok s') :
    Seen k fd l₀ s'.log :=
  (Good.ok ((seen_law k fd l₀).runAll (c := none) (J := fun _ => True) (fun _ _ _ _ _ _ => trivial) os s I S trivial) h).2.1

theorem held_runAll : ∀ {os : List Op} {s s' : St}, Inv s → Ext l₀ s.log → Held k fd id a s → runAll s os = .ok s' →
    Seen k fd l₀ s'.log ∨ Held k fd id a s'
  | [], s, s', I, X, H, h => by cases h; exact .inr H
  | o :: os, s, s', I, X, H, h => by
    unfold runAll at h
    rw [bind_ok] at h
    obtain ⟨s₁, h₁, h⟩ := h
    have I₁ := inv_run I h₁
    have hl := log_run I h₁
    rcases held_run I H h₁ with rfl | rfl | H₁
    · exact .inl (seen_runAll I₁ (by rw [hl]; exact X.seen (.inl rfl)) h)
    · exact .inl (seen_runAll I₁ (by rw [hl]; exact X.seen (.inl rfl)) h)
    · exact held_runAll I₁ (by rw [hl]; exact Ext.cons _ _ X) H₁ h

theorem held_callOpt {s s' : St} {f : Nat → Call} {h : Option Nat} (I : Inv s) (X : Ext l₀ s.log)
    (H : Held k fd id a s) (hc : callOpt s f h = .ok s') : Seen k fd l₀ s'.log ∨ Held k fd id a s' := by
  cases h with
  | none => cases hc; exact .inr H
  | some x => exact held_runAll (inv_begin I) (s := begin s (f x)) (Ext.cons _ _ X) H hc

theorem done_log {k' : Kind} {s s' : St} {x : Nat} (h : done k' s x = .ok s') : s'.log = s.log := by
  unfold done at h
  rw [bind_ok] at h
  obtain ⟨d, hd, h⟩ := h
  cases h; rfl

theorem held_done {k' : Kind} {s s' : St} {x : Nat} (H : Held k fd id a s) (hk : x = id → k' ≠ k)
    (h : done k' s x = .ok s') : Held k fd id a s' := by
  unfold done at h
  rw [bind_ok] at h
  obtain ⟨d, hd, h⟩ := h
  rw [deref_ok] at hd
  cases h
  by_cases hx : x = id
  · subst hx
    obtain ⟨hb, ht, e, he, hc, hact, hia, hip⟩ := H
    rw [hd] at he; cases he
    refine ⟨hb, ht, _, upd_same _ _ _, hc, ?_, hia, hip⟩
    show (d.act.drop k').get k = true
    rw [get_drop, hact]
    have hn : k ≠ k' := fun e => hk rfl e.symm
    simp [hn]
  · exact H.frame (upd_other _ _ (fun e => hx e.symm)) rfl rfl

theorem held_part {k' : Kind} {s s' : St} {x g : Nat} (I : Inv s) (A : Alive x s) (T : Told s) (X : Ext l₀ s.log)
    (hg : given k fd l₀ = some g) (H : Held k fd id a s) (h : part k' s x = .ok s') :
    Seen k fd l₀ s'.log ∨ (Held k fd id a s' ∧ ¬ (x = id ∧ k' = k)) := by
  obtain ⟨d, hd, hp⟩ := A
  obtain ⟨s₁, d₁, e₁, hd₁, e₂, hr⟩ := part_ok hd h
  have hb := H.1
  by_cases hx : x = id
  · subst hx
    obtain ⟨-, ht, e, he, hc, hact, hia, hip⟩ := id H
    rw [hd] at he; cases he
    rw [hb, hc] at e₁ e₂
    simp only [Bool.or_self, Bool.false_eq_true, if_false] at e₁ e₂
    subst e₁ e₂
    have hfd : d₁.fd = fd := by
      obtain ⟨d', hd', hf⟩ := I.tree _ _ ht
      rw [hd] at hd'; cases hd'; exact hf
    rcases hr with ⟨-, s₂, h₂, h₃⟩ | ⟨hn, rfl⟩
    · by_cases hk : k' = k
      · left
        subst hk
        have hh := (T.desc x d₁ hd hc).1 k'
        rw [hfd] at hh
        obtain ⟨l', hl⟩ := id X
        rw [done_log h₃]
        rcases given_keeps hg l' with ⟨y, hy, hs⟩ | ⟨x', hx'⟩
        · have S : Seen k' fd l₀ s₁.log := ⟨l', hl, y, hy, .inl hs⟩
          cases hq : d₁.h k' with
          | none => rw [hq] at h₂; cases h₂; exact S
          | some z => rw [hq] at h₂; exact seen_runAll (s := begin s₁ _) (inv_begin I) (Seen.cons _ _ S) h₂
        · rw [hl, hx'] at hh
          rw [hh, hfd] at h₂
          exact seen_runAll (s := begin s₁ _) (inv_begin I) (X.seen (.inr ⟨x', rfl⟩)) h₂
      · rcases held_callOpt I X H h₂ with S | H₂
        · left; rw [done_log h₃]; exact S
        · exact .inr ⟨held_done H₂ (fun _ => hk) h₃, fun q => hk q.2⟩
    · exact .inr ⟨H, fun q => by rw [q.2, hact] at hn; cases hn⟩
  · have H₁ : Held k fd id a s₁ := by
      rw [e₁]; split
      · exact H.frame (upd_other _ _ (fun e => hx e.symm)) rfl rfl
      · exact H
    have I₁ : Inv s₁ := by
      rw [e₁]; split
      · exact inv_put I hd rfl rfl rfl (I.clear x d hd) (I.proc x d hd)
      · exact I
    have X₁ : Ext l₀ s₁.log := by rw [e₁]; split <;> exact X
    rcases hr with ⟨-, s₂, h₂, h₃⟩ | ⟨-, rfl⟩
    · rcases held_callOpt I₁ X₁ H₁ h₂ with S | H₂
      · left; rw [done_log h₃]; exact S
      · exact .inr ⟨held_done H₂ (fun e => absurd e hx) h₃, fun q => hx q.1⟩
    · exact .inr ⟨H₁, fun q => hx q.1⟩

theorem held_finish {s s' : St} {x : Nat} (I : Inv s) (A : Alive x s) (H : Held k fd id a s) (hx : x ≠ id)
    (h : finish s x = .ok s') : Held k fd id a s' := by
  obtain ⟨d, hd, hp⟩ := A
  have := finish_eq I hd hp h
  split at this
  · subst this
    have hf : fd ≠ d.fd := by
      rintro rfl
      have h1 := (I.live _ _ hd).1
      rw [H.2.1] at h1; cases h1; exact hx rfl
    exact H.frame (upd_other _ _ (fun e => hx e.symm)) (upd_other _ _ hf) rfl
  · subst this
    exact H.frame (upd_other _ _ (fun e => hx e.symm)) rfl rfl

/-- A descriptor is processed: the event waits further, or it is its turn. -/
theorem held_activeStep {s s' : St} {x g : Nat} (I : Inv s) (hm : x ∈ s.active) (T : Told s) (X : Ext l₀ s.log)
    (hg : given k fd l₀ = some g) (H : Held k fd id true s) (h : activeStep s x = .ok s') :
    Seen k fd l₀ s'.log ∨ Held k fd id true s' := by
  obtain ⟨d, hd, ha⟩ := (I.act x).mp hm
  unfold activeStep at h
  simp only [bind_ok] at h
  obtain ⟨s₁, h₁, s₂, h₂, s₃, h₃, s₄, h₄, h₅⟩ := h
  obtain ⟨I₁, A₁⟩ := inv_start I hd ha h₁
  have L := story_law l₀
  have S := seen_law k fd l₀
  obtain ⟨T₁, X₁⟩ := L.start I ⟨T, X⟩ hd ha h₁
  obtain ⟨I₂, ⟨T₂, X₂⟩, A₂⟩ := Good.ok (L.part I₁ ⟨T₁, X₁⟩ A₁) h₂
  obtain ⟨I₃, ⟨T₃, X₃⟩, A₃⟩ := Good.ok (L.part I₂ ⟨T₂, X₂⟩ A₂) h₃
  obtain ⟨I₄, ⟨T₄, X₄⟩, A₄⟩ := Good.ok (L.part I₃ ⟨T₃, X₃⟩ A₃) h₄
  have c₄ : Seen k fd l₀ s₄.log → Seen k fd l₀ s'.log := fun q => (Good.ok (S.finish' I₄ q A₄) h₅).2
  have c₃ : Seen k fd l₀ s₃.log → Seen k fd l₀ s'.log := fun q => c₄ (Good.ok (S.part I₃ q A₃) h₄).2.1
  have c₂ : Seen k fd l₀ s₂.log → Seen k fd l₀ s'.log := fun q => c₃ (Good.ok (S.part I₂ q A₂) h₃).2.1
  have key : ∃ a, Held k fd id a s₁ ∧ (x ≠ id → a = true) := by
    by_cases hx : x = id
    · refine ⟨false, ?_, fun q => absurd hx q⟩
      subst hx
      rw [start_eq hd] at h₁
      cases h₁
      obtain ⟨hb, ht, e, he, hc, hact, hia, hip⟩ := H
      rw [hd] at he; cases he
      refine ⟨hb, ht, _, upd_same _ _ _, ?_, ?_, rfl, rfl⟩
      · exact (arm_isClear _ _ _).trans hc
      · show (arm s.now .unlimited d).act.get k = true
        rw [(alike_arm s.now .unlimited d).2.1]; exact hact
    · refine ⟨true, ?_, fun _ => rfl⟩
      rw [start_eq hd] at h₁
      cases h₁
      exact H.frame (upd_other _ _ (fun e => hx e.symm)) rfl rfl
  obtain ⟨a, H₁, ha'⟩ := key
  rcases held_part I₁ A₁ T₁ X₁ hg H₁ h₂ with q | ⟨H₂, n₂⟩
  · exact .inl (c₂ q)
  rcases held_part I₂ A₂ T₂ X₂ hg H₂ h₃ with q | ⟨H₃, n₃⟩
  · exact .inl (c₃ q)
  rcases held_part I₃ A₃ T₃ X₃ hg H₃ h₄ with q | ⟨H₄, n₄⟩
  · exact .inl (c₄ q)
  by_cases hx : x = id
  · exfalso
    cases k with
    | recv => exact n₂ ⟨hx, rfl⟩
    | send => exact n₃ ⟨hx, rfl⟩
    | error => exact n₄ ⟨hx, rfl⟩
  · rw [ha' hx] at H₄
    exact .inr (held_finish I₄ A₄ H₄ hx h₅)

theorem held_activeLoop {g : Nat} (hg : given k fd l₀ = some g) : ∀ {n : Nat} {s s' : St}, Inv s → Told s →
    Ext l₀ s.log → Held k fd id true s → activeLoop n s = .ok s' → Seen k fd l₀ s'.log := by
  intro n
  induction n with
  | zero => intro s s' I T X H h; unfold activeLoop at h; cases h
  | succ n ih =>
    intro s s' I T X H h
    unfold activeLoop at h
    split at h
    · next hl =>
      obtain ⟨-, -, d, hd, -, -, hia, -⟩ := H
      have := (I.act id).mpr ⟨d, hd, hia⟩
      rw [hl] at this; cases this
    · next x l hl =>
      have hm : x ∈ s.active := by rw [hl]; simp
      rw [bind_ok] at h
      obtain ⟨s₁, h₁, h⟩ := h
      obtain ⟨I₁, T₁, X₁⟩ := Good.ok ((story_law l₀).activeStep I ⟨T, X⟩ hm) h₁
      rcases held_activeStep I hm T X hg H h₁ with S | H₁
      · split at h
        · cases h; exact S
        · exact (Good.ok ((seen_law k fd l₀).activeLoop n s₁ I₁ S) h).2
      · simp only [H₁.1, Bool.false_eq_true, if_false] at h
        exact ih I₁ T₁ X₁ H₁ h

theorem held_timerLoop {now : Nat} : ∀ {n : Nat} {s s' : St}, Inv s → now ≤ s.now → Ext l₀ s.log → Held k fd id true s →
    timerLoop now n s = .ok s' → Seen k fd l₀ s'.log ∨ Held k fd id true s' := by
  intro n
  induction n with
  | zero => intro s s' I hn X H h; unfold timerLoop at h; cases h
  | succ n ih =>
    intro s s' I hn X H h
    unfold timerLoop at h
    split at h
    · cases h; exact .inr H
    · next t ht =>
      split at h
      · cases h; exact .inr H
      · rw [bind_ok] at h
        obtain ⟨s₁, h₁, h⟩ := h
        have I₀ : Inv { s with timers := s.timers.filter (·.id != t.id) } := inv_frame I rfl rfl rfl rfl rfl rfl
        have G₁ : Inv s₁ ∧ Ext l₀ s₁.log ∧ now ≤ s₁.now := by
          cases hq : t.h with
          | none => rw [hq] at h₁; cases h₁; exact ⟨I₀, X, hn⟩
          | some y =>
            rw [hq] at h₁
            have := (log_law (Q := Ext l₀) Ext.cons).runAll (c := none) (J := fun s => now ≤ s.now)
              (fun _ _ _ _ j hr => Nat.le_trans j (now_run hr)) (s.plan.headD []) (begin { s with timers := s.timers.filter (·.id != t.id) } (.timer t.id y))
              (inv_begin I₀) (Ext.cons _ _ X) hn
            exact Good.ok this h₁
        rcases held_callOpt (s := { s with timers := s.timers.filter (·.id != t.id) }) I₀ X H h₁ with S | H₁
        · split at h
          · cases h; exact .inl S
          · exact .inl (Good.ok ((seen_law k fd l₀).timerLoop now n s₁ G₁.1 S G₁.2.2) h).2
        · simp only [H₁.1, Bool.false_eq_true, if_false] at h
          exact ih G₁.1 G₁.2.2 G₁.2.1 H₁ h

/-- In the next round it is called. -/
theorem held_round {n g : Nat} {E : Env} {s s' : St} (I : Inv s) (T : Told s) (hg : given k fd s.log = some g)
    (H : Held k fd id true s) (hb : E.busy = false) (h : round n E s = .ok s') : Seen k fd s.log s'.log := by
  obtain ⟨s₁, h₁, hr⟩ := round_phases h H.1
  have X : Ext s.log s.log := ⟨[], rfl⟩
  obtain ⟨I₁, T₁, X₁⟩ := Good.ok ((story_law s.log).timerLoop s.now n s I ⟨T, X⟩ (Nat.le_refl _)) h₁
  have L := seen_law k fd s.log
  have key : s₁.isBreak = true ∧ Seen k fd s.log s₁.log ∨ s₁.isBreak = false ∧
      ∀ s₂, activePhase n E.busy s₁ = .ok s₂ → Inv s₂ ∧ Seen k fd s.log s₂.log := by
    rcases held_timerLoop I (Nat.le_refl _) X H h₁ with S | H₁
    · cases hq : s₁.isBreak with
      | true => exact .inl ⟨rfl, S⟩
      | false =>
        refine .inr ⟨rfl, fun s₂ h₂ => ?_⟩
        rw [hb] at h₂
        exact Good.ok (L.activeLoop n s₁ I₁ S) h₂
    · refine .inr ⟨H₁.1, fun s₂ h₂ => ?_⟩
      rw [hb] at h₂
      exact ⟨(Good.ok (true_law.activeLoop n s₁ I₁ trivial) h₂).1, held_activeLoop hg I₁ T₁ X₁ H₁ h₂⟩
  rcases key with ⟨q, S⟩ | ⟨q, key⟩
  · rcases hr with ⟨-, rfl⟩ | ⟨q', -⟩
    · exact S
    · rw [q] at q'; cases q'
  · rcases hr with ⟨q', -⟩ | ⟨-, s₂, h₂, hr⟩
    · rw [q] at q'; cases q'
    obtain ⟨I₂, S₂⟩ := key s₂ h₂
    rcases hr with ⟨-, rfl⟩ | ⟨-, s₃, h₃, hr⟩
    · exact S₂
    obtain ⟨I₃, S₃⟩ := Good.ok (L.timeoutLoop s₂.now n s₂ I₂ S₂ (Nat.le_refl _)) h₃
    rcases hr with ⟨-, rfl⟩ | ⟨-, s₄, h₄, hr⟩
    · exact S₃
    obtain ⟨I₄, S₄⟩ := Good.ok (L.timerLoop s₃.now n s₃ I₃ S₃ (Nat.le_refl _)) h₄
    rcases hr with ⟨-, rfl⟩ | ⟨-, s₅, h₅, h₆⟩
    · exact S₄
    exact (Good.ok (L.serveAll _ _ (fun _ _ => trivial) (inv_run I₄ h₅) (L.run (c := none) I₄ S₄ h₅)) h₆).2

/-! ## The report -/

theorem serveAll_append : ∀ {es es' : List Report} {s s' : St}, serveAll s (es ++ es') = .ok s' →
    ∃ s₁, serveAll s es = .ok s₁ ∧ serveAll s₁ es' = .ok s'
  | [], es', s, s', h => ⟨s, rfl, h⟩
  | e :: es, es', s, s', h => by
    simp only [List.cons_append, serveAll, bind_ok] at h
    obtain ⟨s₁, h₁, h⟩ := h
    obtain ⟨s₂, h₂, h⟩ := serveAll_append h
    exact ⟨s₂, by simp only [serveAll, bind_ok]; exact ⟨s₁, h₁, h₂⟩, h⟩

/-- Reports of other descriptors. -/
theorem serve_other {s s' : St} {e : Report} (I : Inv s) (hf : e.fd ≠ fd) (h : serve s e = .ok s') :
    view fd s' = view fd s ∧ s'.regs fd = s.regs fd ∧ s'.log = s.log ∧ s'.isBreak = s.isBreak := by
  have hb := serve_isBreak I h
  rcases serve_cases I h with rfl | ⟨r, x, d, d', r', hr, hl, hid, hd, hfd, hc, q1, q2, q3, q4, q5⟩
  · exact ⟨rfl, rfl, rfl, rfl⟩
  · exact ⟨view_upd I hd (by rw [hfd]; exact hf) q1 (by rw [q3]), by rw [q2]; exact upd_other _ _ (fun e => hf e.symm), q4, hb⟩

theorem serveAll_other : ∀ {es : List Report} {s s' : St}, Inv s → (∀ e ∈ es, e.fd ≠ fd) → serveAll s es = .ok s' →
    Inv s' ∧ view fd s' = view fd s ∧ s'.regs fd = s.regs fd ∧ s'.log = s.log ∧ s'.isBreak = s.isBreak
  | [], s, s', I, _, h => by cases h; exact ⟨I, rfl, rfl, rfl, rfl⟩
  | e :: es, s, s', I, hf, h => by
    unfold serveAll at h
    rw [bind_ok] at h
    obtain ⟨s₁, h₁, h⟩ := h
    have I₁ : Inv s₁ := Good.ok (inv_serve I) h₁
    obtain ⟨a1, a2, a3, a4⟩ := serve_other I (hf e (by simp)) h₁
    obtain ⟨I₂, b1, b2, b3, b4⟩ := serveAll_other I₁ (fun x hx => hf x (List.mem_cons_of_mem _ hx)) h
    exact ⟨I₂, b1.trans a1, b2.trans a2, b3.trans a3, b4.trans a4⟩

/-- What waits is not lost by a report. -/
theorem held_serve {s s' : St} {e : Report} (I : Inv s) (H : Held k fd id true s) (h : serve s e = .ok s') :
    Held k fd id true s' := by
  have hb' := serve_isBreak I h
  rcases serve_cases I h with rfl | ⟨r, x, d, d', r', hr, hl, hid, hd, hfd, hc, q1, q2, q3, q4, q5⟩
  · exact H
  by_cases hx : x = id
  · subst hx
    obtain ⟨hb, ht, d₀, he, hc', hact, hia, hip⟩ := H
    rw [hd] at he; cases he
    rcases q5 with ⟨q, -⟩ | ⟨-, q5⟩
    · rw [hia] at q; cases q
    · obtain ⟨g1, g2, g3, g4⟩ := regrantAll_keeps e x d (switched r)
      rw [← q5] at g1 g2 g3 g4
      refine ⟨hb'.trans hb, by rw [q3]; exact ht, d', by rw [q1]; exact upd_same _ _ _, g4.trans hc', ?_, g2.trans hia, g1.trans hip⟩
      rw [show d'.act = d.act from g3]; exact hact
  · exact H.frame (by rw [q1]; exact upd_other _ _ (fun e => hx e.symm)) (by rw [q3]) hb'

theorem held_serveAll : ∀ {es : List Report} {s s' : St}, Inv s → Held k fd id true s → serveAll s es = .ok s' →
    Held k fd id true s'
  | [], s, s', _, H, h => by cases h; exact H
  | e :: es, s, s', I, H, h => by
    unfold serveAll at h
    rw [bind_ok] at h
    obtain ⟨s₁, h₁, h⟩ := h
    exact held_serveAll (Good.ok (inv_serve I) h₁) (held_serve I H h₁) h

theorem serveAll_log : ∀ {es : List Report} {s s' : St}, Inv s → serveAll s es = .ok s' →
    s'.log = s.log ∧ s'.isBreak = s.isBreak
  | [], s, s', _, h => by cases h; exact ⟨rfl, rfl⟩
  | e :: es, s, s', I, h => by
    unfold serveAll at h
    rw [bind_ok] at h
    obtain ⟨s₁, h₁, h⟩ := h
    obtain ⟨a, b⟩ := serveAll_log (Good.ok (inv_serve I) h₁) h
    have hb := serve_isBreak I h₁
    refine ⟨a.trans ?_, b.trans hb⟩
    rcases serve_quiet I h₁ with rfl | ⟨_, _, _, _, _, _, _, h1, _, _⟩
    · rfl
    · exact h1

/-- An event that epoll reports is marked and its descriptor is active. -/
theorem held_report {s s' : St} {e : Report} {r : Reg} (I : Inv s) (O : Only none s) (hb : s.isBreak = false)
    (hi : ∀ i d, view e.fd s = some (i, d) → d.inActive = false) (hr : s.regs e.fd = some r) (hl : legal r e = true)
    (hk : e.has k = true) (h : serve s e = .ok s') : Held k e.fd r.id true s' := by
  have hb' := serve_isBreak I h
  obtain ⟨d₀, hd₀, hf₀⟩ := I.tree _ _ (I.regs _ _ hr)
  have ht := I.regs _ _ hr
  have hi₀ := hi r.id d₀ (view_some.mpr ⟨ht, hd₀⟩)
  have hp₀ : d₀.inProcess = false := by
    cases hp : d₀.inProcess with
    | false => rfl
    | true => cases O _ _ hd₀ hp
  rcases serve_cases I h with rfl | ⟨r', x, d, d', r'', hr', hl', hid, hd, hfd, hc, q1, q2, q3, q4, q5⟩
  · exfalso
    unfold serve at h
    rw [hr] at h
    simp only [legal_eq hr, hl, if_true] at h
    have hc₀ : d₀.isClear = false := by
      cases hc : d₀.isClear with
      | false => rfl
      | true => have := (I.clear _ _ hd₀ hc).1; rw [hp₀] at this; cases this
    simp only [take, bind, Except.bind, deref, hd₀, hc₀, hi₀, hp₀, Bool.or_self, Bool.false_eq_true, if_false] at h
    have := congrArg (fun m : M St => match m with | .ok s => s.active.length | .error _ => 0) h
    simp only at this
    unfold Event.arrive at this
    dsimp only at this
    split at this
    · rw [(ctl_heap _ _ _ _).2.2.2.1] at this; simp [put] at this
    · simp [put] at this
  · rw [hr] at hr'; cases hr'
    subst hid
    rw [hd₀] at hd; cases hd
    rcases q5 with ⟨-, rfl, -, -⟩ | ⟨q, -⟩
    · refine ⟨hb'.trans hb, by rw [q3]; exact ht, _, by rw [q1]; exact upd_same _ _ _, ?_, ?_, rfl, ?_⟩
      · exact (markAll_keeps e d₀).2.trans hc
      · show (markAll e d₀).act.get k = true
        rw [(markAll_bits k e d₀).2.1, hk]; simp
      · exact (markAll_keeps e d₀).1.trans hp₀
    · rw [hi₀, hp₀] at q; cases q

/-- If in a round that does not end the loop epoll reports an event of a descriptor whose events are lasting
and that has a handler for it, the handler is called in the next round, or the program clears the
descriptor, takes the handler away or ends the loop before; the lock is not taken in both rounds (C163). -/
theorem delivered_partial {plan : List (List Op)} {n : Nat} {is : List Item} {s s₁ s₂ : St} {E E' : Env}
    {pre post : List Report} {e : Report} {m : Mask} {h : Nat}
    (hp : program n is (new plan) = .ok s) (hs : s.isBreak = false)
    (h₁ : round n E s = .ok s₁) (hs₁ : s₁.isBreak = false) (h₂ : round n E' s₁ = .ok s₂)
    (hb : E.busy = false) (hb' : E'.busy = false)
    (hr : E.reports = pre ++ e :: post) (hpre : ∀ x ∈ pre, x.fd ≠ e.fd)
    (hl : Lasting e.fd s₁.log) (hw : wanted e.fd s₁.log = some m)
    (hin : e.inn = true → m.r = true) (hout : e.out = true → m.s = true)
    (hk : e.has k = true) (hg : given k e.fd s₁.log = some h) :
    ∃ l, s₂.log = l ++ s₁.log ∧ ∃ x ∈ l, Stops k e.fd x ∨ Called k e.fd x := by
  obtain ⟨I, O⟩ := only_program (inv_new plan) (by intro i d hi; simp [new] at hi) hp
  have T := (told_program hp).2
  have hall : ∀ x ∈ E.reports, (fun _ : Report => True) x := fun _ _ => trivial
  obtain ⟨-, T₁⟩ := Good.ok (told_law.round (n := n) hall I T) h₁
  have hA₀ := Good.ok ((asked_local e.fd).law.program (n := n) is (new plan) all_true (inv_new plan)
    (fun _ => ⟨rfl, by simp [view, new]⟩)) hp
  have A := (asked_local e.fd).law
  obtain ⟨I₁, -⟩ := only_round I O h₁
  obtain ⟨a₁, q₁, hrest⟩ := round_phases h₁ hs
  obtain ⟨J₁, B₁⟩ := Good.ok (A.timerLoop s.now n s I hA₀.2 (Nat.le_refl _)) q₁
  obtain ⟨-, O₁⟩ := only_timers I O q₁
  rcases hrest with ⟨z, rfl⟩ | ⟨-, a₂, q₂, hrest⟩
  · rw [hs₁] at z; cases z
  rw [hb] at q₂
  obtain ⟨J₂, B₂⟩ := Good.ok (A.activeLoop n a₁ J₁ B₁) q₂
  obtain ⟨-, O₂⟩ := only_phase (b := false) J₁ O₁ q₂
  rcases hrest with ⟨z, rfl⟩ | ⟨z₂, a₃, q₃, hrest⟩
  · rw [hs₁] at z; cases z
  have E₂ := activeLoop_empty q₂ z₂
  obtain ⟨J₃, B₃⟩ := Good.ok (A.timeoutLoop a₂.now n a₂ J₂ B₂ (Nat.le_refl _)) q₃
  obtain ⟨-, E₃⟩ := Good.ok (idle_law.timeoutLoop a₂.now n a₂ J₂ E₂ (Nat.le_refl _)) q₃
  obtain ⟨-, O₃⟩ := only_timeouts J₂ O₂ q₃
  rcases hrest with ⟨z, rfl⟩ | ⟨-, a₄, q₄, hrest⟩
  · rw [hs₁] at z; cases z
  obtain ⟨J₄, B₄⟩ := Good.ok (A.timerLoop a₃.now n a₃ J₃ B₃ (Nat.le_refl _)) q₄
  obtain ⟨-, E₄⟩ := Good.ok (idle_law.timerLoop a₃.now n a₃ J₃ E₃ (Nat.le_refl _)) q₄
  obtain ⟨-, O₄⟩ := only_timers J₃ O₃ q₄
  rcases hrest with ⟨z, rfl⟩ | ⟨z₄, a₅, q₅, q₆⟩
  · rw [hs₁] at z; cases z
  have J₅ := inv_run J₄ q₅
  have B₅ := A.run J₄ B₄ q₅
  have E₅ := idle_law.run (c := none) J₄ E₄ q₅
  have O₅ := only_run J₄ O₄ q₅
  have z₅ : a₅.isBreak = false := by cases q₅; exact z₄
  have L₅ := (serveAll_log J₅ q₆).1
  rw [L₅] at hl hw
  have B := B₅ hl
  unfold Asked at B
  rw [hw] at B
  obtain ⟨-, id, d, -, -, -, -, hreg⟩ := B
  rw [hr] at q₆
  obtain ⟨b₁, p₁, p₂⟩ := serveAll_append q₆
  obtain ⟨K₁, v₁, r₁, l₁, w₁⟩ := serveAll_other J₅ hpre p₁
  unfold serveAll at p₂
  rw [bind_ok] at p₂
  obtain ⟨b₂, p₂, p₃⟩ := p₂
  have hlegal : legal { mask := m, oneshot := false, id := id } e = true := by
    unfold legal
    have hany : (e.inn || e.out || e.err || e.hup) = true := by
      cases k <;> simp [Report.has] at hk <;> simp [hk]
    rw [hany]
    cases hx : e.inn <;> cases hy : e.out <;> simp_all
  have hi : ∀ i d, view e.fd b₁ = some (i, d) → d.inActive = false := by
    intro i d hv
    rw [v₁] at hv
    obtain ⟨-, hh⟩ := view_some.mp hv
    cases hq : d.inActive with
    | false => rfl
    | true =>
      have := (J₅.act i).mpr ⟨d, hh, hq⟩
      rw [E₅] at this; cases this
  have H₂ := held_report K₁ (only_serveAll J₅ O₅ p₁).2 (w₁.trans z₅) hi (r₁.trans hreg) hlegal hk p₂
  have H₃ := held_serveAll (Good.ok (inv_serve K₁) p₂) H₂ p₃
  exact held_round I₁ T₁ hg H₃ hb' h₂

/-- Descriptor 4 is set for reading, and then for writing too; the second handler clears another descriptor. -/
def chat : List Item := [.op (.set 4 { r := true } false false .unlimited (some 1)), .op (.set 5 { s := true } false false (.ms 3) (some 2)),
  .op (.set 4 { s := true } false true .unmodified (some 3))]

def history : M St → List Ev
  | .ok s => s.log
  | .error _ => []

def calledIn (l : List Ev) : List Call := l.filterMap fun | .call c => some c | _ => none

example : wanted 4 (history (program 9 chat (new []))) = some { r := true, s := true } := by decide +kernel
example : wanted 5 (history (program 9 (chat ++ [.op (.clr 5)]) (new []))) = none := by decide +kernel

/-- Both events of descriptor 4 come to their handlers in the next round, that of 5 does not: the first
handler clears it. -/
example : calledIn (history (program 9 (chat ++ [.dispatch [{ reports := [{ fd := 4, inn := true, out := true }, { fd := 5, out := true }] }, {}]])
    (new [[.clr 5]]))) = [.event .send 4 3, .event .recv 4 1] := by decide +kernel

example : ¬ Stops .recv 4 (.did (.set 4 { r := true } false false .unlimited (some 2))) ∧
    Stops .recv 4 (.did (.set 4 { r := true } false false .unlimited none)) := by simp [Stops, Mask.get]

end Verif.Event
