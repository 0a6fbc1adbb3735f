import Verif.Chain
/-
Property C05.  Specification: following `next` from `*head` lists the chain, following
`prev` from `*tail` lists it backwards, for an abstract list that grows at the end on
`add` and loses exactly the given node on `del`.
-/
set_option linter.unusedSimpArgs false

namespace Verif.Chain

/-! ### Specification -/

/-- `Walk f h p l`: starting at pointer `p` and following the link `f`, one meets
exactly the nodes `l` and then NULL. -/
inductive Walk {δ} (f : Node δ → Ptr) (h : Heap δ) : Ptr → List Nat → Prop where
  | nil : Walk f h none []
  | cons {a n l} : h a = some n → Walk f h (f n) l → Walk f h (some a) (a :: l)

/-- A call is legal: only absent allocated nodes are added, only present ones deleted. -/
def legal {δ} (h : Heap δ) (l : List Nat) : Op → Prop
  | .add n => n ∉ l ∧ (h n).isSome
  | .del n => n ∈ l

def specStep (l : List Nat) : Op → List Nat
  | .add n => l ++ [n]
  | .del n => l.erase n

/-- All calls of a history are legal when they are made (`h` only gives the set of
allocated nodes, which chain operations do not change). -/
def legalRun {δ} (h : Heap δ) : List Nat → List Op → Prop
  | _, [] => True
  | l, op :: ops => legal h l op ∧ legalRun h (specStep l op) ops

/-! ### Representation -/

/-- First element of `l`, or `q` when `l` is empty. -/
def firstOr (l : List Nat) (q : Ptr) : Ptr := match l with | [] => q | a :: _ => some a

/-- Last element of `l`, or `p` when `l` is empty. -/
def lastOr (p : Ptr) : List Nat → Ptr
  | [] => p
  | a :: l => lastOr (some a) l

/-- The nodes `l` are linked in order; the first one's `prev` is `p`, the last one's
`next` is `q`. -/
def Seg {δ} (h : Heap δ) : Ptr → List Nat → Ptr → Prop
  | _, [], _ => True
  | p, a :: l, q => (∃ d, h a = some ⟨d, p, firstOr l q⟩) ∧ Seg h (some a) l q

structure IsChain {δ} (c : C δ) (l : List Nat) : Prop where
  nodup  : l.Nodup
  head   : c.head = firstOr l none
  tail   : c.tail = lastOr none l
  seg    : Seg c.heap none l none

theorem firstOr_append (l m : List Nat) (q : Ptr) : firstOr (l ++ m) q = firstOr l (firstOr m q) := by
  cases l <;> rfl

theorem lastOr_append (p : Ptr) (l m : List Nat) : lastOr p (l ++ m) = lastOr (lastOr p l) m := by
  induction l generalizing p with
  | nil => rfl
  | cons a l ih => simp [lastOr, ih]

theorem seg_append {δ} {h : Heap δ} {p q : Ptr} {l m : List Nat} :
    Seg h p (l ++ m) q ↔ Seg h p l (firstOr m q) ∧ Seg h (lastOr p l) m q := by
  induction l generalizing p with
  | nil => simp [Seg, lastOr]
  | cons a l ih => simp [Seg, lastOr, ih, firstOr_append, and_assoc]

theorem seg_congr {δ} {h h' : Heap δ} {p q l} (e : ∀ a ∈ l, h' a = h a) (k : Seg h p l q) :
    Seg h' p l q := by
  induction l generalizing p with
  | nil => trivial
  | cons a l ih =>
    obtain ⟨⟨d, hd⟩, k2⟩ := k
    exact ⟨⟨d, by rw [e a (by simp), hd]⟩, ih (fun b hb => e b (by simp [hb])) k2⟩

theorem lastOr_concat (p : Ptr) (l : List Nat) (a : Nat) : lastOr p (l ++ [a]) = some a := by
  simp [lastOr_append, lastOr]

theorem lastOr_mem {m n : Nat} {b : List Nat} (e : lastOr (some m) b = some n) : n ∈ m :: b := by
  induction b generalizing m with
  | nil => simp [lastOr] at e; simp [e]
  | cons x b ih => simp only [lastOr] at e; exact List.mem_cons_of_mem _ (ih e)

theorem firstOr_none {l : List Nat} : firstOr l none = none ↔ l = [] := by
  cases l <;> simp [firstOr]

/-- Nodes outside the chain are not touched, and payloads are never touched. -/
def Frame {δ} (h h' : Heap δ) (l : List Nat) : Prop :=
  (∀ a, a ∉ l → h' a = h a) ∧ ∀ a, (h' a).map Node.data = (h a).map Node.data

theorem add_ok {δ} {c : C δ} {l : List Nat} (k : IsChain c l) (n : Nat) (hn : n ∉ l)
    (ha : (c.heap n).isSome) :
    ∃ c', add c n = some c' ∧ IsChain c' (l ++ [n]) ∧ Frame c.heap c'.heap (l ++ [n]) := by
  obtain ⟨⟨d, pv, nx⟩, hd⟩ := Option.isSome_iff_exists.mp ha
  rcases List.eq_nil_or_concat l with rfl | ⟨l', t, rfl⟩
  · have h1 := k.head; have h2 := k.tail
    simp only [firstOr, lastOr] at h1 h2
    simp only [add, setNext, setPrev, hd, h1, h2, Option.bind_eq_bind, Option.bind_some, Heap.upd_apply,
      if_true]
    refine ⟨_, rfl, ⟨by simp, by simp [firstOr], by simp [lastOr], ?_⟩, ?_, ?_⟩
    · exact ⟨⟨d, by simp [firstOr]⟩, trivial⟩
    · intro a ha; simp at ha; simp [ha]
    · intro a; by_cases e : a = n <;> simp [e, hd]
  · simp only [List.concat_eq_append] at *
    have h1 := k.head; have h2 := k.tail
    rw [lastOr_concat] at h2
    have hne : c.head ≠ none := by rw [h1, Ne, firstOr_none]; simp
    have hs := seg_append.mp k.seg
    obtain ⟨⟨dt, hdt⟩, -⟩ := hs.2
    have htn : t ≠ n := by rintro rfl; simp at hn
    have hnd := k.nodup
    simp only [add, setNext, setPrev, hd, hne, h2, Option.bind_eq_bind, Option.bind_some, Heap.upd_apply,
      if_true, if_false, hdt, htn, Ne.symm htn]
    refine ⟨_, rfl, ⟨?_, ?_, ?_, ?_⟩, ?_, ?_⟩
    · rw [List.nodup_append]; refine ⟨hnd, by simp, ?_⟩
      rintro a hal b hb rfl; simp only [List.mem_singleton] at hb; subst hb; exact hn hal
    · simp only [h1]; cases l' <;> rfl
    · rw [lastOr_concat]
    · simp only []
      rw [seg_append, seg_append]
      refine ⟨⟨?_, ?_⟩, ?_⟩
      · refine seg_congr ?_ hs.1
        intro a hal
        have hat : a ≠ t := by
          rintro rfl
          rw [List.nodup_append] at hnd
          exact hnd.2.2 _ hal _ (by simp) rfl
        have han : a ≠ n := by rintro rfl; exact hn (by simp [hal])
        simp [hat, han]
      · exact ⟨⟨dt, by simp [htn, firstOr]⟩, trivial⟩
      · exact ⟨⟨d, by simp [firstOr, lastOr_concat]⟩, trivial⟩
    · intro a ha; simp at ha; simp [ha]
    · intro a
      by_cases e : a = n
      · simp [e, hd]
      · by_cases e' : a = t
        · simp [e', hdt, htn]
        · simp [e, e']

theorem del_ok {δ} {c : C δ} {l : List Nat} (k : IsChain c l) (n : Nat) (hn : n ∈ l) :
    ∃ c', del c n = some c' ∧ IsChain c' (l.erase n) ∧ Frame c.heap c'.heap l ∧
      ∃ d, c'.heap n = some ⟨d, none, none⟩ := by
  obtain ⟨a, b, rfl⟩ := List.append_of_mem hn
  have hnd := k.nodup
  rw [List.nodup_append] at hnd
  obtain ⟨nda, ndb, hab⟩ := hnd
  rw [List.nodup_cons] at ndb
  obtain ⟨hnb, ndb⟩ := ndb
  have hna : n ∉ a := fun h => hab n h n (by simp) rfl
  have her : (a ++ n :: b).erase n = a ++ b := by
    rw [List.erase_append_right _ hna]; simp
  rw [her]
  have hs := seg_append.mp k.seg
  obtain ⟨hsa, ⟨d, hd⟩, hsb⟩ := hs
  have h1 := k.head; have h2 := k.tail
  rw [firstOr_append] at h1
  rw [lastOr_append] at h2
  have ndab : (a ++ b).Nodup := by
    rw [List.nodup_append]
    exact ⟨nda, ndb, fun x hx y hy => hab x hx y (by simp [hy])⟩
  rcases List.eq_nil_or_concat a with rfl | ⟨a', t, rfl⟩
  · cases b with
    | nil =>
      simp only [firstOr, lastOr] at h1 h2 hd
      simp only [del, setNext, setPrev, h1, h2, hd, Option.bind_eq_bind, Option.bind_some, if_true, Heap.upd_apply]
      refine ⟨_, rfl, ⟨by simp, rfl, rfl, trivial⟩, ⟨?_, ?_⟩, d, by simp⟩
      · intro x hx; simp at hx; simp [hx]
      · intro x; by_cases e : x = n <;> simp [e, hd]
    | cons m b =>
      simp only [firstOr, lastOr] at h1 h2 hd
      obtain ⟨⟨dm, hdm⟩, hsb'⟩ := hsb
      have hmn : m ≠ n := by rintro rfl; simp at hnb
      have hlast : ¬ (lastOr (some m) b = some n) := by
        intro e
        exact hnb (lastOr_mem e)
      simp only [del, setNext, setPrev, getNext, h1, h2, hd, hlast, Option.bind_eq_bind, Option.bind_some,
        if_true, if_false, Heap.upd_apply, hdm, hmn, Ne.symm hmn]
      refine ⟨_, rfl, ⟨by simpa using ndab, rfl, rfl, ?_⟩, ⟨?_, ?_⟩, d, by simp⟩
      · refine ⟨⟨dm, by simp [hmn]⟩, seg_congr ?_ hsb'⟩
        intro x hx
        have hxn : x ≠ n := by rintro rfl; exact hnb (by simp [hx])
        have hxm : x ≠ m := by rintro rfl; rw [List.nodup_cons] at ndb; exact ndb.1 hx
        simp [hxn, hxm]
      · intro x hx; simp at hx; simp [hx]
      · intro x
        by_cases e : x = n
        · simp [e, hd]
        · by_cases e' : x = m
          · simp [e', hdm, hmn]
          · simp [e, e']
  · simp only [List.concat_eq_append] at *
    rw [lastOr_concat] at hd h2
    have hhd : ¬ (c.head = some n) := by
      rw [h1]; intro e
      apply hna
      cases a' with
      | nil => simp [firstOr] at e; simp [e]
      | cons x a' => simp [firstOr] at e; simp [e]
    have htn : t ≠ n := by rintro rfl; simp at hna
    obtain ⟨hsa', ⟨dt, hdt⟩, -⟩ := seg_append.mp hsa
    have hta : t ∉ a' := by
      rw [List.nodup_append] at nda
      exact fun h => nda.2.2 t h t (by simp) rfl
    cases b with
    | nil =>
      simp only [lastOr] at h2
      simp only [del, setNext, setPrev, getPrev, h2, hd, hhd, Option.bind_eq_bind, Option.bind_some,
        if_true, if_false, Heap.upd_apply, hdt, htn, Ne.symm htn]
      refine ⟨_, rfl, ⟨by simpa using ndab, ?_, ?_, ?_⟩, ⟨?_, ?_⟩, d, by simp⟩
      · simp only [h1, List.append_nil]; cases a' <;> rfl
      · simp [lastOr_concat]
      · simp only [List.append_nil]
        rw [seg_append]
        refine ⟨seg_congr ?_ hsa', ⟨dt, by simp [htn, firstOr]⟩, trivial⟩
        intro x hx
        have hxn : x ≠ n := by rintro rfl; exact hna (by simp [hx])
        have hxt : x ≠ t := by rintro rfl; exact hta hx
        simp [hxn, hxt]
      · intro x hx; simp at hx; simp [hx]
      · intro x
        by_cases e : x = n
        · simp [e, hd]
        · by_cases e' : x = t
          · simp [e', hdt, htn]
          · simp [e, e']
    | cons m b =>
      simp only [firstOr, lastOr] at h2 hd
      obtain ⟨⟨dm, hdm⟩, hsb'⟩ := hsb
      have hmn : m ≠ n := by rintro rfl; simp at hnb
      have hmt : m ≠ t := fun e => hab t (by simp) m (by simp) e.symm
      have hlast : ¬ (c.tail = some n) := by
        rw [h2]; intro e
        exact hnb (lastOr_mem e)
      simp only [del, setNext, setPrev, getPrev, getNext, hd, hhd, hlast, Option.bind_eq_bind, Option.bind_some,
        if_true, if_false, Heap.upd_apply, hdt, htn, Ne.symm htn, hdm, hmn, Ne.symm hmn, hmt, Ne.symm hmt]
      refine ⟨_, rfl, ⟨by simpa using ndab, ?_, ?_, ?_⟩, ⟨?_, ?_⟩, d, by simp⟩
      · simp only [h1]; cases a' <;> rfl
      · rw [lastOr_append, lastOr_concat]; simp only [h2]; rfl
      · rw [seg_append, seg_append]
        refine ⟨⟨seg_congr ?_ hsa', ⟨dt, by simp [htn, hmt, Ne.symm hmt, firstOr]⟩, trivial⟩,
          ⟨dm, by simp [hmn, lastOr_concat]⟩, seg_congr ?_ hsb'⟩
        · intro x hx
          have hxn : x ≠ n := by rintro rfl; exact hna (by simp [hx])
          have hxt : x ≠ t := by rintro rfl; exact hta hx
          have hxm : x ≠ m := fun e => hab x (by simp [hx]) m (by simp) e
          simp [hxn, hxt, hxm]
        · intro x hx
          have hxn : x ≠ n := by rintro rfl; exact hnb (by simp [hx])
          have hxm : x ≠ m := by rintro rfl; rw [List.nodup_cons] at ndb; exact ndb.1 hx
          have hxt : x ≠ t := fun e => hab t (by simp) x (by simp [hx]) e.symm
          simp [hxn, hxm, hxt]
      · intro x hx; simp at hx; simp [hx]
      · intro x
        by_cases e : x = n
        · simp [e, hd]
        · by_cases e' : x = t
          · simp [e', hdt, htn, Ne.symm hmt]
          · by_cases e'' : x = m
            · simp [e'', hdm, hmn, hmt]
            · simp [e, e', e'']

/-! ### The representation means what the specification says -/

theorem seg_walk_next {δ} {h : Heap δ} {p : Ptr} {l : List Nat} (k : Seg h p l none) :
    Walk Node.next h (firstOr l none) l := by
  induction l generalizing p with
  | nil => exact .nil
  | cons a l ih =>
    obtain ⟨⟨d, hd⟩, k2⟩ := k
    exact .cons hd (ih k2)

theorem seg_walk_prev {δ} {h : Heap δ} : ∀ (l : List Nat) (q : Ptr), Seg h none l q →
    Walk Node.prev h (lastOr none l) l.reverse := by
  intro l
  induction hn : l.length generalizing l with
  | zero => intro q _; have := List.length_eq_zero_iff.mp hn; subst this; exact .nil
  | succ m ih =>
    intro q k
    rcases List.eq_nil_or_concat l with rfl | ⟨l', t, rfl⟩
    · simp at hn
    · simp only [List.concat_eq_append] at *
      rw [seg_append] at k
      obtain ⟨k1, ⟨d, hd⟩, -⟩ := k
      rw [lastOr_concat, List.reverse_append]
      exact .cons hd (ih l' (by simpa using hn) _ k1)

theorem isChain_iff_walks {δ} {c : C δ} {l : List Nat} (k : IsChain c l) :
    Walk Node.next c.heap c.head l ∧ Walk Node.prev c.heap c.tail l.reverse := by
  rw [k.head, k.tail]
  exact ⟨seg_walk_next k.seg, seg_walk_prev l _ k.seg⟩

/-- A chain representation is determined by its walk from `*head`: the abstract list
is not an artefact of the invariant. -/
theorem walk_unique {δ} {f : Node δ → Ptr} {h : Heap δ} {p : Ptr} {l m : List Nat}
    (a : Walk f h p l) (b : Walk f h p m) : l = m := by
  induction a generalizing m with
  | nil => cases b; rfl
  | cons hd _ ih =>
    cases b with
    | cons hd' w =>
      rw [hd] at hd'; cases hd'
      rw [ih w]

/-! ### Theorem -/

/-- **C05.**  From an empty chain, every legal history of chain_add / chain_del runs
without undefined behaviour; afterwards the forward walk is the abstract list, the
backward walk its reverse, no node occurs twice, nodes never named by the history are
unchanged and no payload is changed. -/
theorem chain_history {δ} (h : Heap δ) (ops : List Op) (hl : legalRun h [] ops) :
    ∃ c', run ⟨h, none, none⟩ ops = some c' ∧
      (ops.foldl specStep []).Nodup ∧
      Walk Node.next c'.heap c'.head (ops.foldl specStep []) ∧
      Walk Node.prev c'.heap c'.tail (ops.foldl specStep []).reverse ∧
      (∀ a, (∀ op ∈ ops, op ≠ .add a) → c'.heap a = h a) ∧
      ∀ a, (c'.heap a).map Node.data = (h a).map Node.data := by
  suffices H : ∀ (ops : List Op) (c : C δ) (l : List Nat), IsChain c l →
      (∀ a, (c.heap a).map Node.data = (h a).map Node.data) → legalRun h l ops →
      ∃ c', run c ops = some c' ∧ IsChain c' (ops.foldl specStep l) ∧
        (∀ a, a ∉ l → (∀ op ∈ ops, op ≠ .add a) → c'.heap a = c.heap a) ∧
        ∀ a, (c'.heap a).map Node.data = (h a).map Node.data by
    obtain ⟨c', h1, h2, h3, h4⟩ := H ops ⟨h, none, none⟩ [] ⟨by simp, rfl, rfl, trivial⟩ (fun _ => rfl) hl
    obtain ⟨w1, w2⟩ := isChain_iff_walks h2
    exact ⟨c', h1, h2.nodup, w1, w2, fun a ha => h3 a (by simp) ha, h4⟩
  intro ops
  induction ops with
  | nil => intro c l k hd _; exact ⟨c, rfl, k, fun _ _ _ => rfl, hd⟩
  | cons op ops ih =>
    intro c l k hd hl
    obtain ⟨hop, hops⟩ := hl
    cases op with
    | add n =>
      obtain ⟨hn, ha⟩ := hop
      have ha' : (c.heap n).isSome := by
        have := hd n
        revert this ha
        cases c.heap n <;> cases h n <;> simp
      obtain ⟨c1, e1, k1, f1⟩ := add_ok k n hn ha'
      obtain ⟨c', e2, k2, f2, f3⟩ := ih c1 _ k1 (fun a => by rw [f1.2, hd]) hops
      refine ⟨c', by simp [run, step, e1, e2], k2, ?_, f3⟩
      intro a hal hap
      have han : a ≠ n := by
        rintro rfl; exact hap (.add a) (by simp) rfl
      rw [f2 a (by simp [hal, han]) (fun op ho => hap op (by simp [ho])), f1.1 a (by simp [hal, han])]
    | del n =>
      obtain ⟨c1, e1, k1, f1, -⟩ := del_ok k n hop
      obtain ⟨c', e2, k2, f2, f3⟩ := ih c1 _ k1 (fun a => by rw [f1.2, hd]) hops
      refine ⟨c', by simp [run, step, e1, e2], k2, ?_, f3⟩
      intro a hal hap
      rw [f2 a (fun h => hal (List.mem_of_mem_erase h)) (fun op ho => hap op (by simp [ho])), f1.1 a hal]

/-! ### Non-vacuity -/

def exHeap : Heap Unit := fun a => if a < 5 then some ⟨(), some 99, some 98⟩ else none

example : legalRun exHeap [] [.add 1, .add 2, .add 3, .del 2, .add 4, .del 1, .add 2] := by
  simp [legalRun, legal, specStep, exHeap]

example : (run ⟨exHeap, none, none⟩ [.add 1, .add 2, .add 3, .del 2, .add 4, .del 1]).map
    (fun c => (c.head, c.tail, c.heap 3, c.heap 4, c.heap 2, c.heap 0)) =
    some (some 3, some 4, some ⟨(), none, some 4⟩, some ⟨(), some 3, none⟩, some ⟨(), none, none⟩,
      some ⟨(), some 99, some 98⟩) := rfl

end Verif.Chain
