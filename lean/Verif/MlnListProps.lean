import Verif.MlnList
import Verif.ChainProps
/-
Lists with a sentinel (C239): any number of lists in one heap; adding, removing and walking.
-/
namespace Verif.MlnList
open Verif.Chain

variable {δ : Type}

/-! ### Spec -/

/-- Spec: what the lists hold: the nodes of every sentinel, in order. -/
abbrev Lists := Nat → List Nat

/-- Spec: a call may be made: the sentinel is one; a node to be added is allocated, no sentinel and
in no list; a node to be removed is in that list. -/
def Legal (alloc : Nat → Prop) (S : List Nat) (L : Lists) (c : Nat × Op) : Prop :=
  c.1 ∈ S ∧
  match c.2 with
  | .add n => alloc n ∧ n ∉ S ∧ ∀ s ∈ S, n ∉ L s
  | .del n => n ∈ L c.1

/-- Spec: what a call does. -/
def next (L : Lists) (c : Nat × Op) : Lists := fun s => if s = c.1 then specStep (L s) c.2 else L s

/-- All calls of a history may be made. -/
def LegalRun (alloc : Nat → Prop) (S : List Nat) : Lists → List (Nat × Op) → Prop
  | _, [] => True
  | L, c :: cs => Legal alloc S L c ∧ LegalRun alloc S (next L c) cs

/-! ### One list -/

/-- The heap without the sentinel, and the two variables in it. -/
def view (h : Heap δ) (s : Nat) : C δ :=
  { heap := h.upd s none, head := (h s).bind Node.prev, tail := (h s).bind Node.next }

/-- The memory of a chain with the two variables put into the sentinel. -/
def glue (c : C δ) (s : Nat) (d : δ) : Heap δ := c.heap.upd s (some ⟨d, c.head, c.tail⟩)

theorem setNext_lift {h h' : Heap δ} {s : Nat} (x : Option (Node δ)) (hs : h s = none) {p v : Ptr} (e : Chain.setNext h p v = some h') :
    Chain.setNext (h.upd s x) p v = some (h'.upd s x) ∧ h' s = none := by
  unfold Chain.setNext at e ⊢
  cases p with
  | none => cases e
  | some a =>
  obtain ⟨n, hn, e⟩ := Option.bind_eq_some_iff.1 (show (h a).bind _ = _ from e)
  cases e
  have hne : a ≠ s := by rintro rfl; rw [hs] at hn; cases hn
  refine ⟨?_, by simp [hne.symm, hs]⟩
  simp only [Option.bind_eq_bind, Option.bind_some, Heap.upd_apply, if_neg hne, hn, Option.some.injEq]
  funext q
  simp only [Heap.upd_apply]
  by_cases q1 : q = a <;> by_cases q2 : q = s <;> simp_all

theorem setPrev_lift {h h' : Heap δ} {s : Nat} (x : Option (Node δ)) (hs : h s = none) {p v : Ptr} (e : Chain.setPrev h p v = some h') :
    Chain.setPrev (h.upd s x) p v = some (h'.upd s x) ∧ h' s = none := by
  unfold Chain.setPrev at e ⊢
  cases p with
  | none => cases e
  | some a =>
  obtain ⟨n, hn, e⟩ := Option.bind_eq_some_iff.1 (show (h a).bind _ = _ from e)
  cases e
  have hne : a ≠ s := by rintro rfl; rw [hs] at hn; cases hn
  refine ⟨?_, by simp [hne.symm, hs]⟩
  simp only [Option.bind_eq_bind, Option.bind_some, Heap.upd_apply, if_neg hne, hn, Option.some.injEq]
  funext q
  simp only [Heap.upd_apply]
  by_cases q1 : q = a <;> by_cases q2 : q = s <;> simp_all

theorem getNext_lift {h : Heap δ} {s : Nat} (x : Option (Node δ)) (hs : h s = none) {p v : Ptr} (e : getNext h p = some v) : getNext (h.upd s x) p = some v := by
  unfold getNext at e ⊢
  cases p with
  | none => cases e
  | some a =>
  obtain ⟨n, hn, e⟩ := Option.bind_eq_some_iff.1 (show (h a).bind _ = _ from e)
  have hne : a ≠ s := by rintro rfl; rw [hs] at hn; cases hn
  simpa [hne, hn] using e

theorem getPrev_lift {h : Heap δ} {s : Nat} (x : Option (Node δ)) (hs : h s = none) {p v : Ptr} (e : getPrev h p = some v) : getPrev (h.upd s x) p = some v := by
  unfold getPrev at e ⊢
  cases p with
  | none => cases e
  | some a =>
  obtain ⟨n, hn, e⟩ := Option.bind_eq_some_iff.1 (show (h a).bind _ = _ from e)
  have hne : a ≠ s := by rintro rfl; rw [hs] at hn; cases hn
  simpa [hne, hn] using e

theorem sent_getPrev (h : Heap δ) (s : Nat) (n : Node δ) : getPrev (h.upd s (some n)) (some s) = some n.prev := by simp [getPrev]

theorem sent_getNext (h : Heap δ) (s : Nat) (n : Node δ) : getNext (h.upd s (some n)) (some s) = some n.next := by simp [getNext]

theorem upd_upd (h : Heap δ) (s : Nat) (x y : Option (Node δ)) : (h.upd s x).upd s y = h.upd s y := by
  funext q; simp only [Heap.upd_apply]; split <;> rfl

theorem sent_setPrev (h : Heap δ) (s : Nat) (n : Node δ) (v : Ptr) : setPrev (h.upd s (some n)) (some s) v = some (h.upd s (some { n with prev := v })) := by
  simp [setPrev, upd_upd]

theorem sent_setNext (h : Heap δ) (s : Nat) (n : Node δ) (v : Ptr) : setNext (h.upd s (some n)) (some s) v = some (h.upd s (some { n with next := v })) := by
  simp [setNext, upd_upd]

/-- Adding with the two variables in the sentinel is adding to the chain. -/
theorem add_glue (c c' : C δ) (s n : Nat) (d : δ) (hs : c.heap s = none) (e : Chain.add c n = some c') :
    add (glue c s d) s n = some (glue c' s d) ∧ c'.heap s = none := by
  unfold Chain.add at e
  obtain ⟨h1, e1, e⟩ := Option.bind_eq_some_iff.1 e
  obtain ⟨l1, k1⟩ := setNext_lift (some ⟨d, c.head, c.tail⟩) hs e1
  unfold add glue
  simp only [l1, Option.bind_eq_bind, Option.bind_some, sent_getPrev]
  by_cases hh : c.head = none
  · rw [if_pos hh] at e ⊢
    obtain ⟨h2, e2, e⟩ := Option.bind_eq_some_iff.1 e
    cases e
    obtain ⟨l2, k2⟩ := setPrev_lift (some ⟨d, some n, c.tail⟩) k1 e2
    refine ⟨?_, k2⟩
    simp only [sent_setPrev, Option.bind_some, sent_getNext, l2, sent_setNext]
  · rw [if_neg hh] at e ⊢
    obtain ⟨h2, e2, e⟩ := Option.bind_eq_some_iff.1 e
    obtain ⟨h3, e3, e⟩ := Option.bind_eq_some_iff.1 e
    cases e
    obtain ⟨l2, k2⟩ := setNext_lift (some ⟨d, c.head, c.tail⟩) k1 e2
    obtain ⟨l3, k3⟩ := setPrev_lift (some ⟨d, c.head, c.tail⟩) k2 e3
    refine ⟨?_, k3⟩
    simp only [sent_getNext, Option.bind_some, l2, l3, sent_setNext]

/-- The first part of the chain's deletion. -/
def unl (c : C δ) (node : Nat) : Option (C δ) :=
  if c.head = some node then
    if c.tail = some node then some { c with head := none, tail := none }
    else (getNext c.heap (some node)).bind fun hd => (setPrev c.heap hd none).bind fun h => some { c with heap := h, head := hd }
  else
    if c.tail = some node then (getPrev c.heap (some node)).bind fun tl => (setNext c.heap tl none).bind fun h => some { c with heap := h, tail := tl }
    else (getPrev c.heap (some node)).bind fun p => (getNext c.heap (some node)).bind fun n => (setNext c.heap p n).bind fun h =>
      (getNext h (some node)).bind fun n' => (getPrev h (some node)).bind fun p' => (setPrev h n' p').bind fun h => some { c with heap := h }

theorem del_eq (c : C δ) (n : Nat) :
    Chain.del c n = (unl c n).bind fun c1 => (setNext c1.heap (some n) none).bind fun h => (setPrev h (some n) none).bind fun h => some { c1 with heap := h } := by
  unfold Chain.del unl
  by_cases h1 : c.head = some n <;> by_cases h2 : c.tail = some n <;> simp [h1, h2, Option.bind_assoc]

/-- Removing likewise. -/
theorem remove_glue (c c' : C δ) (s n : Nat) (d : δ) (hs : c.heap s = none) (e : Chain.del c n = some c') :
    remove (glue c s d) s n = some (glue c' s d) ∧ c'.heap s = none := by
  rw [del_eq] at e
  obtain ⟨c1, e1, e⟩ := Option.bind_eq_some_iff.1 e
  obtain ⟨h2, e2, e⟩ := Option.bind_eq_some_iff.1 e
  obtain ⟨h3, e3, e⟩ := Option.bind_eq_some_iff.1 e
  cases e
  have key : unlink (glue c s d) s n = some (glue c1 s d) ∧ c1.heap s = none := by
    unfold unl at e1
    unfold unlink glue
    simp only [sent_getPrev, sent_getNext, Option.bind_eq_bind, Option.bind_some]
    by_cases h1 : c.head = some n <;> by_cases h2 : c.tail = some n
    · rw [if_pos h1, if_pos h2] at e1 ⊢
      cases e1
      exact ⟨by simp only [sent_setNext, Option.bind_some, sent_setPrev], hs⟩
    · rw [if_pos h1, if_neg h2] at e1 ⊢
      obtain ⟨hd, a1, e1⟩ := Option.bind_eq_some_iff.1 e1
      obtain ⟨h', a2, e1⟩ := Option.bind_eq_some_iff.1 e1
      cases e1
      obtain ⟨l, k⟩ := setPrev_lift (some ⟨d, hd, c.tail⟩) hs a2
      refine ⟨?_, k⟩
      simp only [getNext_lift (some ⟨d, c.head, c.tail⟩) hs a1, Option.bind_some, sent_setPrev, sent_getPrev, l]
    · rw [if_neg h1, if_pos h2] at e1 ⊢
      obtain ⟨tl, a1, e1⟩ := Option.bind_eq_some_iff.1 e1
      obtain ⟨h', a2, e1⟩ := Option.bind_eq_some_iff.1 e1
      cases e1
      obtain ⟨l, k⟩ := setNext_lift (some ⟨d, c.head, tl⟩) hs a2
      refine ⟨?_, k⟩
      simp only [getPrev_lift (some ⟨d, c.head, c.tail⟩) hs a1, Option.bind_some, sent_setNext, sent_getNext, l]
    · rw [if_neg h1, if_neg h2] at e1 ⊢
      obtain ⟨p, a1, e1⟩ := Option.bind_eq_some_iff.1 e1
      obtain ⟨nx, a2, e1⟩ := Option.bind_eq_some_iff.1 e1
      obtain ⟨h', a3, e1⟩ := Option.bind_eq_some_iff.1 e1
      obtain ⟨n', a4, e1⟩ := Option.bind_eq_some_iff.1 e1
      obtain ⟨p', a5, e1⟩ := Option.bind_eq_some_iff.1 e1
      obtain ⟨h'', a6, e1⟩ := Option.bind_eq_some_iff.1 e1
      cases e1
      obtain ⟨l3, k3⟩ := setNext_lift (some ⟨d, c.head, c.tail⟩) hs a3
      obtain ⟨l6, k6⟩ := setPrev_lift (some ⟨d, c.head, c.tail⟩) k3 a6
      refine ⟨?_, k6⟩
      simp only [getPrev_lift (some ⟨d, c.head, c.tail⟩) hs a1, getNext_lift (some ⟨d, c.head, c.tail⟩) hs a2, Option.bind_some, l3,
        getNext_lift (some ⟨d, c.head, c.tail⟩) k3 a4, getPrev_lift (some ⟨d, c.head, c.tail⟩) k3 a5, l6]
  obtain ⟨u1, u2⟩ := key
  obtain ⟨l2, k2⟩ := setNext_lift (some ⟨d, c1.head, c1.tail⟩) u2 e2
  obtain ⟨l3, k3⟩ := setPrev_lift (some ⟨d, c1.head, c1.tail⟩) k2 e3
  refine ⟨?_, k3⟩
  unfold remove
  simp only [u1, Option.bind_eq_bind, Option.bind_some]
  unfold glue
  simp only [l2, Option.bind_some, l3]

/-! ### All lists -/

/-- The lists of the heap: every sentinel is allocated, no sentinel is in a list, no node in two,
and each list is linked. -/
structure Ok (S : List Nat) (h : Heap δ) (L : Lists) : Prop where
  sent : ∀ s ∈ S, ∃ n, h s = some n
  chain : ∀ s ∈ S, IsChain (view h s) (L s)
  free : ∀ s ∈ S, ∀ t ∈ S, t ∉ L s
  apart : ∀ s ∈ S, ∀ t ∈ S, s ≠ t → ∀ n ∈ L s, n ∉ L t

theorem glue_view {h : Heap δ} {s : Nat} {n : Node δ} (e : h s = some n) : glue (view h s) s n.data = h := by
  funext q
  simp only [glue, view, Heap.upd_apply, e, Option.bind_some]
  split
  · rename_i hq; rw [hq, e]
  · rfl

theorem view_glue (c : C δ) (s : Nat) (d : δ) (hs : c.heap s = none) : view (glue c s d) s = c := by
  cases c with
  | mk heap hd tl =>
    simp only [view, glue, Heap.upd_apply, if_pos, Option.bind_some, C.mk.injEq, and_true]
    funext q
    simp only [Heap.upd_apply]
    split
    · rename_i hq; rw [hq]; exact hs.symm
    · rfl

/-- Another list is not disturbed. -/
theorem other {h h' : Heap δ} {s t : Nat} {l m : List Nat} (hst : s ≠ t) (ht : IsChain (view h t) l) (hl : ∀ a ∈ l, a ≠ s ∧ a ∉ m) (hm : t ∉ m)
    (e : ∀ a, a ∉ m → a ≠ s → h' a = h a) : IsChain (view h' t) l := by
  have et : h' t = h t := e t hm hst.symm
  refine ⟨ht.nodup, ?_, ?_, ?_⟩
  · rw [← ht.head]; simp only [view, et]
  · rw [← ht.tail]; simp only [view, et]
  · refine seg_congr (fun a ha => ?_) ht.seg
    simp only [view, Heap.upd_apply]
    split
    · rfl
    · exact e a (hl a ha).2 (hl a ha).1

/-- One call. -/
theorem step_ok (S : List Nat) (h : Heap δ) (L : Lists) (k : Ok S h L) (c : Nat × Op) (hc : Legal (fun a => (h a).isSome) S L c) :
    ∃ h', step h c = some h' ∧ Ok S h' (next L c) ∧ (∀ a, (h' a).map Node.data = (h a).map Node.data) ∧
      (∀ a, a ∉ S → (∀ s ∈ S, a ∉ L s) → c.2 ≠ .add a → h' a = h a) := by
  obtain ⟨s, op⟩ := c
  obtain ⟨hs, hop⟩ := hc
  simp only at hs hop
  obtain ⟨n0, hn0⟩ := k.sent s hs
  have hnone : (view h s).heap s = none := by simp [view]
  -- what the chain functions do, for both calls
  have key : ∃ c', (∃ h', step h (s, op) = some h' ∧ h' = glue c' s n0.data) ∧ c'.heap s = none ∧ IsChain c' (specStep (L s) op) ∧
      ∃ m, Frame (view h s).heap c'.heap m ∧ (∀ a ∈ m, a ∈ L s ∨ op = .add a) := by
    cases op with
    | add n =>
      have hns : n ≠ s := by rintro rfl; exact hop.2.1 hs
      obtain ⟨c', e1, e2, e3⟩ := add_ok (k.chain s hs) n (hop.2.2 s hs) (by simp only [view, Heap.upd_apply, if_neg hns]; exact hop.1)
      obtain ⟨g1, g2⟩ := add_glue (view h s) c' s n n0.data hnone e1
      rw [glue_view hn0] at g1
      exact ⟨c', ⟨_, g1, rfl⟩, g2, e2, _, e3, fun a ha => by
        rcases List.mem_append.mp ha with m | m
        · exact .inl m
        · simp only [List.mem_singleton] at m; exact .inr (by rw [m])⟩
    | del n =>
      obtain ⟨c', e1, e2, e3, _⟩ := del_ok (k.chain s hs) n hop
      obtain ⟨g1, g2⟩ := remove_glue (view h s) c' s n n0.data hnone e1
      rw [glue_view hn0] at g1
      exact ⟨c', ⟨_, g1, rfl⟩, g2, e2, _, e3, fun a ha => .inl ha⟩
  obtain ⟨c', ⟨h', e, rfl⟩, hc0, hch, m, hf, hm⟩ := key
  have same : ∀ a, a ∉ m → a ≠ s → glue c' s n0.data a = h a := by
    intro a ha hne
    have := hf.1 a ha
    simp only [view, Heap.upd_apply, if_neg hne] at this
    simp only [glue, Heap.upd_apply, if_neg hne, this]
  have mem : ∀ a ∈ m, a ∉ S ∧ ∀ t ∈ S, t ≠ s → a ∉ L t := by
    intro a ha
    rcases hm a ha with h1 | h1
    · exact ⟨fun h2 => k.free s hs a h2 h1, fun t ht hne => k.apart s hs t ht hne.symm a h1⟩
    · subst h1
      exact ⟨hop.2.1, fun t ht _ => hop.2.2 t ht⟩
  have data : ∀ a, (glue c' s n0.data a).map Node.data = (h a).map Node.data := by
    intro a
    by_cases hne : a = s
    · subst hne; simp [glue, hn0]
    · have := hf.2 a
      simp only [view, Heap.upd_apply, if_neg hne] at this
      simp only [glue, Heap.upd_apply, if_neg hne, this]
  have sub : ∀ a ∈ specStep (L s) op, a ∉ S ∧ ∀ t ∈ S, t ≠ s → a ∉ L t := by
    intro a ha
    cases op with
    | add n =>
      rcases List.mem_append.mp ha with h1 | h1
      · exact ⟨fun h2 => k.free s hs a h2 h1, fun t ht hne => k.apart s hs t ht hne.symm a h1⟩
      · simp only [List.mem_singleton] at h1; subst h1
        exact ⟨hop.2.1, fun t ht _ => hop.2.2 t ht⟩
    | del n =>
      have h1 := List.mem_of_mem_erase ha
      exact ⟨fun h2 => k.free s hs a h2 h1, fun t ht hne => k.apart s hs t ht hne.symm a h1⟩
  refine ⟨_, e, ⟨?_, ?_, ?_, ?_⟩, data, ?_⟩
  · intro t ht
    have := data t
    obtain ⟨n, hn⟩ := k.sent t ht
    rw [hn] at this
    obtain ⟨x, hx, _⟩ := Option.map_eq_some_iff.mp this
    exact ⟨x, hx⟩
  · intro t ht
    by_cases hst : t = s
    · subst hst
      rw [view_glue c' t n0.data hc0]
      simpa [next] using hch
    · have : next L (s, op) t = L t := by simp [next, hst]
      rw [this]
      refine other (m := m) (Ne.symm hst) (k.chain t ht) (fun a ha => ⟨?_, fun h1 => (mem a h1).2 t ht hst ha⟩) (fun h1 => (mem t h1).1 ht) same
      rintro rfl
      exact k.free t ht a hs ha
  · intro a ha t ht
    by_cases has : a = s
    · subst has
      simp only [next, if_true]
      exact fun h1 => (sub t h1).1 ht
    · simp only [next, if_neg has]
      exact k.free a ha t ht
  · intro a ha t ht hne n hn
    by_cases has : a = s
    · subst has
      have hta : t ≠ a := hne.symm
      simp only [next, if_true] at hn
      simp only [next, if_neg hta]
      exact (sub n hn).2 t ht hta
    · simp only [next, if_neg has] at hn
      by_cases hts : t = s
      · subst hts
        simp only [next, if_true]
        exact fun h1 => (sub n h1).2 a ha has hn
      · simp only [next, if_neg hts]
        exact k.apart a ha t ht hne n hn
  · intro a haS haL hadd
    refine same a (fun h1 => ?_) (fun h1 => haS (h1 ▸ hs))
    rcases hm a h1 with h2 | h2
    · exact haL s hs h2
    · exact hadd h2

/-- **C239.** A history of calls on any number of lists with sentinels: no call dereferences NULL or
memory that is not allocated; afterwards walking a list from its head with mln_list_next gives
exactly its nodes in the order in which they were added, walking from its tail with mln_list_prev
the same nodes in reverse order; nothing else of any node changes. -/
theorem list_history (S : List Nat) (h : Heap δ) (L : Lists) (k : Ok S h L) (cs : List (Nat × Op)) (hl : LegalRun (fun a => (h a).isSome) S L cs) :
    ∃ h', run h cs = some h' ∧ (∀ a, (h' a).map Node.data = (h a).map Node.data) ∧
      ∀ s ∈ S, ∃ hd tl, head h' s = some hd ∧ tail h' s = some tl ∧ Walk Node.next h' hd (cs.foldl next L s) ∧ Walk Node.prev h' tl (cs.foldl next L s).reverse ∧
        (cs.foldl next L s).Nodup := by
  suffices hh : ∃ h', run h cs = some h' ∧ (∀ a, (h' a).map Node.data = (h a).map Node.data) ∧ Ok S h' (cs.foldl next L) by
    obtain ⟨h', e, hd, ok⟩ := hh
    refine ⟨h', e, hd, fun s hs => ?_⟩
    obtain ⟨n, hn⟩ := ok.sent s hs
    have hch := ok.chain s hs
    obtain ⟨w1, w2⟩ := isChain_iff_walks hch
    have lift : ∀ {f : Node δ → Ptr} {p : Ptr} {l : List Nat}, Walk f (view h' s).heap p l → Walk f h' p l := by
      intro f p l w
      induction w with
      | nil => exact .nil
      | cons hd _ ih =>
        refine .cons ?_ ih
        simp only [view, Heap.upd_apply] at hd
        split at hd
        · cases hd
        · exact hd
    refine ⟨n.prev, n.next, by simp [head, getPrev, hn], by simp [tail, getNext, hn], ?_, ?_, hch.nodup⟩
    · have := lift w1; simpa [view, hn] using this
    · have := lift w2; simpa [view, hn] using this
  induction cs generalizing h L with
  | nil => exact ⟨h, rfl, fun _ => rfl, k⟩
  | cons c cs ih =>
    obtain ⟨h1, h2⟩ := hl
    obtain ⟨h', e, ok, data, _⟩ := step_ok S h L k c h1
    have alloc : ∀ a, ((h' a).isSome) = ((h a).isSome) := by
      intro a
      have := congrArg Option.isSome (data a)
      simpa using this
    obtain ⟨h'', e', data', ok'⟩ := ih h' (next L c) ok (by simpa only [alloc] using h2)
    exact ⟨h'', by simp [run, e, e'], fun a => (data' a).trans (data a), ok'⟩

/-- Sentinels made with mln_list_null() are empty lists: the theorem applies from the start. -/
theorem init_ok (S : List Nat) (h : Heap δ) (hs : ∀ s ∈ S, ∃ d, h s = some ⟨d, none, none⟩) : Ok S h (fun _ => []) := by
  refine ⟨fun s m => ?_, fun s m => ?_, by simp, by simp⟩
  · obtain ⟨d, e⟩ := hs s m; exact ⟨_, e⟩
  · obtain ⟨d, e⟩ := hs s m
    exact ⟨List.nodup_nil, by simp [view, e, firstOr], by simp [view, e, lastOr], trivial⟩

/-! ### Examples -/

/-- Two sentinels (0 and 10) and allocated nodes with garbage in their links. -/
def exHeap : Heap Nat := fun a => if a = 0 ∨ a = 10 then some ⟨0, none, none⟩ else if a < 20 then some ⟨a * a, some 99, some 98⟩ else none

def exCalls : List (Nat × Op) := [(0, .add 1), (0, .add 2), (10, .add 3), (0, .add 4), (0, .del 2), (10, .add 2), (0, .del 1), (10, .del 3)]

/-- A fresh sentinel is an empty list, and the other lists stay as they were. -/
theorem init_adds (S : List Nat) (h : Heap δ) (s : Nat) (d : δ) (hs : ∀ s ∈ S, ∃ d, h s = some ⟨d, none, none⟩) : Ok (s :: S) (init h s d) (fun _ => []) := by
  refine init_ok _ _ (fun a ha => ?_)
  by_cases e : a = s
  · exact ⟨d, by simp [init, Heap.upd, e]⟩
  · obtain ⟨d', hd⟩ := hs a ((List.mem_cons.1 ha).resolve_left e)
    exact ⟨d', by simp [init, Heap.upd, e, hd]⟩

example : Ok [0] (init (fun _ => none) 0 ()) (fun _ => []) := init_adds [] _ 0 () (by simp)
example : Ok [0, 10] exHeap (fun _ => []) := init_ok _ _ (by simp [exHeap])
example : LegalRun (fun a => (exHeap a).isSome) [0, 10] (fun _ => []) exCalls := by simp [LegalRun, Legal, next, specStep, exCalls, exHeap]
example : exCalls.foldl next (fun _ => []) 0 = [4] ∧ exCalls.foldl next (fun _ => []) 10 = [2] := by decide +kernel
example : ((run exHeap exCalls).map fun h => [h 0, h 10, h 2, h 4, h 1]) =
    some [some ⟨0, some 4, some 4⟩, some ⟨0, some 2, some 2⟩, some ⟨4, none, none⟩, some ⟨16, none, none⟩, some ⟨1, none, none⟩] := by decide +kernel

end Verif.MlnList
