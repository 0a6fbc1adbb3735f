import Verif.Stack
/-
Property C04.  Specification: a stack is a list, bottom first; push appends at the end
and pop removes the last element.
-/
set_option linter.unusedSimpArgs false

namespace Verif.Stack
open Verif.Chain

/-! ### Specification -/

inductive Op (δ : Type) where
  | push (x : δ)
  | pop
  | top

inductive Out (δ : Type) where
  | code (c : Int)
  | val (v : Option δ)
deriving DecidableEq

def step {δ} (A : Alloc δ) (m : M δ) (st : S) : Op δ → Option (Out δ × M δ × S)
  | .push x => (push A m st x).map fun r => (.code r.1, r.2)
  | .pop => (pop m st).map fun r => (.val r.1, r.2)
  | .top => (top m st).map fun r => (.val r, m, st)

def run {δ} (A : Alloc δ) (m : M δ) (st : S) : List (Op δ) → Option (List (Out δ) × M δ × S)
  | [] => some ([], m, st)
  | op :: ops => do
    let (o, m, st) ← step A m st op
    let (os, m, st) ← run A m st ops
    some (o :: os, m, st)

/-- Outcome lists that a LIFO list can show: a push either fails (allocation) and
changes nothing, or succeeds and adds on top; pop/top see the last element. -/
inductive SpecRun {δ} : List δ → List (Op δ) → List (Out δ) → List δ → Prop where
  | nil {l} : SpecRun l [] [] l
  | pushOk {l x ops os l'} : SpecRun (l ++ [x]) ops os l' → SpecRun l (.push x :: ops) (.code 0 :: os) l'
  | pushFail {l x ops os l'} : SpecRun l ops os l' → SpecRun l (.push x :: ops) (.code (-1) :: os) l'
  | pop {l ops os l'} : SpecRun l.dropLast ops os l' → SpecRun l (.pop :: ops) (.val l.getLast? :: os) l'
  | top {l ops os l'} : SpecRun l ops os l' → SpecRun l (.top :: ops) (.val l.getLast? :: os) l'

def specVisit {δ σ} (h : σ → δ → σ × Bool) : List δ → σ → σ × Int
  | [], s => (s, 0)
  | x :: l, s => if (h s x).2 then ((h s x).1, -1) else specVisit h l (h s x).1

/-- The allocator only hands out unallocated addresses. -/
def Fresh {δ} (A : Alloc δ) : Prop := ∀ t h p, A t h = some p → h p = none

/-! ### Representation -/

/-- Payloads of a list of addresses. -/
def Datas {δ} (h : Heap δ) : List Nat → List δ → Prop
  | [], [] => True
  | a :: l, x :: xs => (h a).map Node.data = some x ∧ Datas h l xs
  | _, _ => False

structure Rep {δ} (m : M δ) (st : S) (l : List Nat) (xs : List δ) : Prop where
  chain : IsChain ⟨m.heap, st.bottom, st.top⟩ l
  datas : Datas m.heap l xs
  nr    : st.nr = xs.length

theorem datas_congr {δ} {h h' : Heap δ} {l : List Nat} {xs : List δ}
    (e : ∀ a ∈ l, (h' a).map Node.data = (h a).map Node.data) (d : Datas h l xs) : Datas h' l xs := by
  induction l generalizing xs with
  | nil => cases xs with
    | nil => trivial
    | cons => exact d.elim
  | cons a l ih =>
    cases xs with
    | nil => exact d.elim
    | cons x xs => exact ⟨by rw [e a (by simp)]; exact d.1, ih (fun b hb => e b (by simp [hb])) d.2⟩

theorem datas_append {δ} {h : Heap δ} {l m : List Nat} {xs ys : List δ} (d : Datas h l xs) (e : Datas h m ys) :
    Datas h (l ++ m) (xs ++ ys) := by
  induction l generalizing xs with
  | nil => cases xs with
    | nil => exact e
    | cons => exact d.elim
  | cons a l ih => cases xs with
    | nil => exact d.elim
    | cons x xs => exact ⟨d.1, ih d.2⟩

theorem datas_length {δ} {h : Heap δ} {l : List Nat} {xs : List δ} (d : Datas h l xs) : l.length = xs.length := by
  induction l generalizing xs with
  | nil => cases xs with
    | nil => rfl
    | cons => exact d.elim
  | cons a l ih => cases xs with
    | nil => exact d.elim
    | cons x xs => simp [ih d.2]

theorem datas_concat {δ} {h : Heap δ} {l : List Nat} {a : Nat} {xs : List δ} (d : Datas h (l ++ [a]) xs) :
    ∃ ys x, xs = ys ++ [x] ∧ Datas h l ys ∧ (h a).map Node.data = some x := by
  induction l generalizing xs with
  | nil => cases xs with
    | nil => exact d.elim
    | cons x xs =>
      cases xs with
      | nil => exact ⟨[], x, rfl, trivial, d.1⟩
      | cons => exact d.2.elim
  | cons b l ih => cases xs with
    | nil => exact d.elim
    | cons x xs =>
      obtain ⟨ys, z, h1, h2, h3⟩ := ih d.2
      exact ⟨x :: ys, z, by simp [h1], ⟨d.1, h2⟩, h3⟩

theorem seg_alloc {δ} {h : Heap δ} {p q : Ptr} {l : List Nat} (k : Seg h p l q) : ∀ a ∈ l, (h a).isSome := by
  induction l generalizing p with
  | nil => simp
  | cons a l ih =>
    obtain ⟨⟨d, hd⟩, k2⟩ := k
    intro b hb
    rcases List.mem_cons.mp hb with rfl | hb
    · simp [hd]
    · exact ih k2 b hb

theorem rep_init {δ} (m : M δ) : Rep m init [] [] :=
  ⟨⟨by simp, rfl, rfl, trivial⟩, trivial, rfl⟩

/-- Push: either allocation fails and nothing but the clock changes, or a fresh node
goes on top; nodes outside the stack are unchanged. -/
theorem rep_push {δ} {A : Alloc δ} (hA : Fresh A) {m : M δ} {st : S} {l : List Nat} {xs : List δ}
    (r : Rep m st l xs) (x : δ) :
    (push A m st x = some (-1, { m with clock := m.clock + 1 }, st)) ∨
    ∃ p m' st', push A m st x = some (0, m', st') ∧ m.heap p = none ∧ p ∉ l ∧
      Rep m' st' (l ++ [p]) (xs ++ [x]) ∧ m'.log = m.log ∧
      (∀ a, a ∉ l → a ≠ p → m'.heap a = m.heap a) := by
  unfold push nodeInit
  cases hp : A m.clock m.heap with
  | none => left; rfl
  | some p =>
    right
    have hfree := hA _ _ _ hp
    have hpl : p ∉ l := by
      intro hm
      have := seg_alloc r.chain.seg p hm
      simp [hfree] at this
    have k0 : IsChain ⟨m.heap.upd p (some ⟨x, none, none⟩), st.bottom, st.top⟩ l := by
      refine ⟨r.chain.nodup, r.chain.head, r.chain.tail, seg_congr ?_ r.chain.seg⟩
      intro a ha
      have : a ≠ p := by rintro rfl; exact hpl ha
      simp [this]
    obtain ⟨c', e, k, f1, f2⟩ := add_ok k0 p hpl (by simp)
    simp only [e, Option.bind_eq_bind, Option.bind_some]
    refine ⟨p, _, _, rfl, hfree, hpl, ⟨k, ?_, by simp [r.nr]⟩, rfl, ?_⟩
    · apply datas_append
      · refine datas_congr ?_ r.datas
        intro a ha
        have hne : a ≠ p := by rintro rfl; exact hpl ha
        rw [f2 a]; simp [hne]
      · refine ⟨?_, trivial⟩
        rw [f2 p]; simp
    · intro a ha hne
      show c'.heap a = _
      rw [f1 a (by simp [ha, hne])]
      simp [hne]

theorem rep_pop {δ} {m : M δ} {st : S} {l : List Nat} {xs : List δ} (r : Rep m st l xs) :
    ∃ m' st', pop m st = some (xs.getLast?, m', st') ∧ Rep m' st' l.dropLast xs.dropLast ∧ m'.log = m.log ∧
      (∀ a, a ∉ l → m'.heap a = m.heap a) := by
  rcases List.eq_nil_or_concat l with rfl | ⟨l', t, rfl⟩
  · have h0 : xs = [] := List.length_eq_zero_iff.mp (datas_length r.datas).symm
    subst h0
    have ht : st.top = none := r.chain.tail
    refine ⟨m, st, by simp [pop, ht], ?_, rfl, fun _ _ => rfl⟩
    simpa using r
  · simp only [List.concat_eq_append] at *
    have ht : st.top = some t := by have := r.chain.tail; rwa [lastOr_concat] at this
    obtain ⟨ys, x, rfl, d1, d2⟩ := datas_concat r.datas
    obtain ⟨c', e, k, ⟨f1, f2⟩, d, hd⟩ := del_ok r.chain t (by simp)
    have hnd := r.chain.nodup
    have htl : t ∉ l' := by
      rw [List.nodup_append] at hnd
      exact fun h => hnd.2.2 t h t (by simp) rfl
    have her : (l' ++ [t]).erase t = l' := by
      rw [List.erase_append_right _ htl]; simp
    rw [her] at k
    have hdx : d = x := by
      have := f2 t
      rw [hd, d2] at this
      simpa using this
    subst hdx
    simp only [pop, ht]
    rw [← ht, e]
    simp only [Option.bind_eq_bind, Option.bind_some, hd, nodeDestroy]
    refine ⟨⟨c'.heap.upd t none, m.clock, m.log⟩, ⟨c'.head, c'.tail, st.nr - 1⟩, by simp, ⟨?_, ?_, ?_⟩, rfl, ?_⟩
    · simp only [List.dropLast_concat]
      refine ⟨k.nodup, k.head, k.tail, seg_congr ?_ k.seg⟩
      intro a ha
      have : a ≠ t := by rintro rfl; exact htl ha
      simp [this]
    · simp only [List.dropLast_concat]
      refine datas_congr ?_ d1
      intro a ha
      have : a ≠ t := by rintro rfl; exact htl ha
      simp [this, f2 a]
    · simp [r.nr]
    · intro a ha
      simp at ha
      have hat : a ≠ t := by rintro rfl; exact ha.2 rfl
      simp only [Heap.upd_apply, hat, if_false]
      exact f1 a (by simp [ha])

theorem rep_top {δ} {m : M δ} {st : S} {l : List Nat} {xs : List δ} (r : Rep m st l xs) :
    top m st = some xs.getLast? := by
  rcases List.eq_nil_or_concat l with rfl | ⟨l', t, rfl⟩
  · have h0 : xs = [] := List.length_eq_zero_iff.mp (datas_length r.datas).symm
    subst h0
    have ht : st.top = none := r.chain.tail
    simp [top, ht]
  · simp only [List.concat_eq_append] at *
    have ht : st.top = some t := by have := r.chain.tail; rwa [lastOr_concat] at this
    obtain ⟨ys, x, rfl, d1, d2⟩ := datas_concat r.datas
    simp only [top, ht]
    cases hh : m.heap t with
    | none => simp [hh] at d2
    | some n => simp [hh] at d2; simp [d2]

/-- **C04 (LIFO).**  For every allocator behaviour (including failures) and every
history of push/pop/top on a fresh stack, there is no undefined behaviour and the
results are those of a LIFO list; the element count is the length of that list.  The final state satisfies `Rep`, the
hypothesis of the iterate/destroy/dup theorems below. -/
theorem stack_lifo {δ} (A : Alloc δ) (hA : Fresh A) (m : M δ) (ops : List (Op δ)) :
    ∃ os m' st' xs, run A m init ops = some (os, m', st') ∧ SpecRun [] ops os xs ∧ st'.nr = xs.length ∧
      ∃ l, Rep m' st' l xs := by
  suffices H : ∀ (ops : List (Op δ)) (m : M δ) (st : S) (l : List Nat) (xs : List δ), Rep m st l xs →
      ∃ os m' st' ys, run A m st ops = some (os, m', st') ∧ SpecRun xs ops os ys ∧ st'.nr = ys.length ∧
        ∃ l, Rep m' st' l ys by
    exact H ops m init [] [] (rep_init m)
  intro ops
  induction ops with
  | nil => intro m st l xs r; exact ⟨[], m, st, xs, rfl, .nil, r.nr, l, r⟩
  | cons op ops ih =>
    intro m st l xs r
    cases op with
    | push x =>
      rcases rep_push hA r x with e | ⟨p, m1, st1, e, -, -, r1, -, -⟩
      · obtain ⟨os, m', st', ys, e', s', n'⟩ := ih { m with clock := m.clock + 1 } st l xs ⟨r.chain, r.datas, r.nr⟩
        exact ⟨_, m', st', ys, by simp [run, step, e, e'], .pushFail s', n'⟩
      · obtain ⟨os, m', st', ys, e', s', n'⟩ := ih m1 st1 _ _ r1
        exact ⟨_, m', st', ys, by simp [run, step, e, e'], .pushOk s', n'⟩
    | pop =>
      obtain ⟨m1, st1, e, r1, -, -⟩ := rep_pop r
      obtain ⟨os, m', st', ys, e', s', n'⟩ := ih m1 st1 _ _ r1
      exact ⟨_, m', st', ys, by simp [run, step, e, e'], .pop s', n'⟩
    | top =>
      obtain ⟨os, m', st', ys, e', s', n'⟩ := ih m st _ _ r
      exact ⟨_, m', st', ys, by simp [run, step, rep_top r, e'], .top s', n'⟩

/-! ### iterate, destroy, dup -/

theorem datas_reverse_walk {δ σ} {m : M δ} (h : σ → δ → σ × Bool) :
    ∀ (l : List Nat) (p : Ptr) (xs : List δ) (fuel : Nat) (s : σ), Walk Node.prev m.heap p l →
      Datas m.heap l xs → l.length < fuel → iterLoop m h fuel p s = some (specVisit h xs s) := by
  intro l
  induction l with
  | nil =>
    intro p xs fuel s w d hf
    cases w
    cases xs with
    | cons => exact d.elim
    | nil => cases fuel with
      | zero => omega
      | succ f => rfl
  | cons a l ih =>
    intro p xs fuel s w d hf
    cases w with
    | @cons _ n _ hn w =>
      cases xs with
      | nil => exact d.elim
      | cons x xs =>
        cases fuel with
        | zero => omega
        | succ f =>
          have hx : n.data = x := by have := d.1; simpa [hn] using this
          subst hx
          simp only [iterLoop, hn, Option.bind_eq_bind, Option.bind_some, specVisit]
          split
          · rfl
          · exact ih _ _ _ _ w d.2 (by simpa using hf)

theorem datas_reverse {δ} {h : Heap δ} {l : List Nat} {xs : List δ} (d : Datas h l xs) :
    Datas h l.reverse xs.reverse := by
  induction l generalizing xs with
  | nil => cases xs with
    | nil => trivial
    | cons => exact d.elim
  | cons a l ih => cases xs with
    | nil => exact d.elim
    | cons x xs =>
      simp only [List.reverse_cons]
      exact datas_append (ih d.2) ⟨d.1, trivial⟩

/-- **C04 (iterate).**  The walk sees the elements from the top down and stops at the
first negative handler result. -/
theorem stack_iterate {δ σ} {m : M δ} {st : S} {l : List Nat} {xs : List δ} (r : Rep m st l xs)
    (h : σ → δ → σ × Bool) (s : σ) (fuel : Nat) (hf : xs.length < fuel) :
    iterate m st h fuel s = some (specVisit h xs.reverse s) := by
  have w := (isChain_iff_walks r.chain).2
  have hl := datas_length r.datas
  exact datas_reverse_walk h _ _ _ _ _ w (datas_reverse r.datas) (by simpa [hl] using hf)

theorem rep_destroy {δ} (fh : Bool) : ∀ (l : List Nat) (m : M δ) (st : S) (xs : List δ) (fuel : Nat),
    IsChain ⟨m.heap, st.bottom, st.top⟩ l → Datas m.heap l xs → l.length < fuel →
    ∃ m', destroy fh fuel m st = some m' ∧ m'.log = m.log ++ (if fh then xs else []) ∧
      (∀ a ∈ l, m'.heap a = none) ∧ (∀ a, a ∉ l → m'.heap a = m.heap a) ∧ m'.clock = m.clock := by
  intro l
  induction l with
  | nil =>
    intro m st xs fuel k d hf
    cases xs with
    | cons => exact d.elim
    | nil =>
      cases fuel with
      | zero => omega
      | succ f =>
        have : st.bottom = none := k.head
        exact ⟨m, by simp [destroy, destroyLoop, this], by simp, by simp, fun _ _ => rfl, rfl⟩
  | cons a l ih =>
    intro m st xs fuel k d hf
    cases xs with
    | nil => exact d.elim
    | cons x xs =>
      cases fuel with
      | zero => omega
      | succ f =>
        have hb : st.bottom = some a := k.head
        obtain ⟨c', e, k', ⟨f1, f2⟩, dd, hd⟩ := del_ok k a (by simp)
        have hal : a ∉ l := (List.nodup_cons.mp k.nodup).1
        simp only [List.erase_cons_head] at k'
        have hdx : dd = x := by
          have := f2 a
          rw [hd] at this
          have h2 := d.1
          simp only [Option.map_some] at this
          rw [h2] at this
          simpa using this
        subst hdx
        have hk : IsChain ⟨c'.heap.upd a none, c'.head, c'.tail⟩ l := by
          refine ⟨k'.nodup, k'.head, k'.tail, seg_congr ?_ k'.seg⟩
          intro b hbl
          have : b ≠ a := by rintro rfl; exact hal hbl
          simp [this]
        have hd2 : Datas (c'.heap.upd a none) l xs := by
          refine datas_congr ?_ d.2
          intro b hbl
          have : b ≠ a := by rintro rfl; exact hal hbl
          simp [this, f2 b]
        obtain ⟨m', e1, e2, e3, e4, e5⟩ := ih ⟨c'.heap.upd a none, m.clock, if fh then m.log ++ [dd] else m.log⟩
          ⟨c'.head, c'.tail, st.nr⟩ xs f hk hd2 (by simpa using hf)
        refine ⟨m', ?_, ?_, ?_, ?_, e5⟩
        · rw [← e1]
          simp only [destroy, destroyLoop, hb]
          rw [← hb, e]
          simp [nodeDestroy, hd]
        · rw [e2]; cases fh <;> simp
        · intro b hbm
          by_cases hbl : b ∈ l
          · exact e3 b hbl
          · have : b = a := by simpa [hbl] using hbm
            subst this
            rw [e4 b hbl]; simp
        · intro b hbm
          simp at hbm
          rw [e4 b hbm.2]
          simp only [Heap.upd_apply, hbm.1, if_false]
          exact f1 b (by simp [hbm])

/-- **C04 (destroy).**  Every remaining element is passed to the free handler exactly
once (bottom first), every node is released, and nothing else is touched. -/
theorem stack_destroy {δ} {m : M δ} {st : S} {l : List Nat} {xs : List δ} (r : Rep m st l xs)
    (fh : Bool) (fuel : Nat) (hf : xs.length < fuel) :
    ∃ m', destroy fh fuel m st = some m' ∧ m'.log = m.log ++ (if fh then xs else []) ∧
      (∀ a ∈ l, m'.heap a = none) ∧ (∀ a, a ∉ l → m'.heap a = m.heap a) := by
  obtain ⟨m', h1, h2, h3, h4, -⟩ := rep_destroy fh l m st xs fuel r.chain r.datas
    (by rw [datas_length r.datas]; exact hf)
  exact ⟨m', h1, h2, h3, h4⟩

theorem isChain_congr {δ} {h h' : Heap δ} {p q : Ptr} {l : List Nat} (e : ∀ a ∈ l, h' a = h a)
    (k : IsChain ⟨h, p, q⟩ l) : IsChain ⟨h', p, q⟩ l :=
  ⟨k.nodup, k.head, k.tail, seg_congr e k.seg⟩

/-- Copies made so far: pointwise results of the copy handler at some times. -/
def Copied {δ} (copy : Option (Nat → δ → Option δ)) : List δ → List δ → Prop
  | [], [] => True
  | x :: xs, y :: ys => (∃ t, copyOf copy t x = some y) ∧ Copied copy xs ys
  | _, _ => False

theorem copied_concat {δ} {copy : Option (Nat → δ → Option δ)} {xs ys : List δ} {x y : δ}
    (c : Copied copy xs ys) (h : ∃ t, copyOf copy t x = some y) :
    Copied copy (xs ++ [x]) (ys ++ [y]) := by
  induction xs generalizing ys with
  | nil => cases ys with
    | nil => exact ⟨h, trivial⟩
    | cons => exact c.elim
  | cons a xs ih => cases ys with
    | nil => exact c.elim
    | cons b ys => exact ⟨c.1, ih c.2⟩

theorem dupLoop_ok {δ} {A : Alloc δ} (hA : Fresh A) (fh : Bool) (copy : Option (Nat → δ → Option δ))
    (m0 : M δ) (L : List Nat) (fuel0 : Nat) (hf0 : L.length < fuel0) (halloc : ∀ a ∈ L, (m0.heap a).isSome) :
    ∀ (l done : List Nat) (xs dx dy : List δ) (m : M δ) (scan : Ptr) (ns : S) (nl : List Nat) (fuel : Nat),
      L = done ++ l → done.length = nl.length → l.length < fuel →
      Walk Node.next m.heap scan l → Datas m.heap l xs →
      Rep m ns nl dy → Copied copy dx dy →
      (∀ a ∈ nl, m0.heap a = none) → (∀ a, a ∉ nl → m.heap a = m0.heap a) → m.log = m0.log →
      ∃ res m', dupLoop A fh copy fuel0 fuel m scan ns = some (res, m') ∧
        (match res with
         | some ns' => ∃ nl' ys, Rep m' ns' nl' ys ∧ Copied copy (dx ++ xs) ys ∧ m'.log = m0.log ∧
              (∀ a ∈ nl', m0.heap a = none) ∧ (∀ a, a ∉ nl' → m'.heap a = m0.heap a)
         | none => (∀ a, m'.heap a = m0.heap a) ∧
              ∃ pre ys, pre <+: dx ++ xs ∧ Copied copy pre ys ∧ (m'.log = m0.log ++ (if fh then ys else []) ∨
                ∃ ys' y, ys = ys' ++ [y] ∧ m'.log = m0.log ++ (if fh then y :: ys' else []))) := by
  intro l
  induction l with
  | nil =>
    intro done xs dx dy m scan ns nl fuel hL hlen hf w d r hc h1 h2 h3
    cases w
    cases xs with
    | cons => exact d.elim
    | nil => cases fuel with
      | zero => omega
      | succ f => exact ⟨some ns, m, rfl, nl, dy, r, by simpa using hc, h3, h1, h2⟩
  | cons a l ih =>
    intro done xs dx dy m scan ns nl fuel hL hlen hf w d r hc h1 h2 h3
    cases w with
    | @cons _ n _ hn w =>
      cases xs with
      | nil => exact d.elim
      | cons x xs =>
        cases fuel with
        | zero => omega
        | succ f =>
          have hx : n.data = x := by have := d.1; simpa [hn] using this
          subst hx
          have hanl : a ∉ nl := by
            intro ha
            have := h1 a ha
            have h4 := halloc a (by rw [hL]; simp)
            simp [this] at h4
          have hnl : nl.length < fuel0 := by
            have : L.length = done.length + (l.length + 1) := by rw [hL]; simp
            omega
          simp only [dupLoop, hn, Option.bind_eq_bind, Option.bind_some]
          -- the copy
          generalize hdat : copyOf copy m.clock n.data = data
          cases data with
          | none =>
            obtain ⟨m', e1, e2, e3, e4, -⟩ := rep_destroy fh nl { m with clock := m.clock + 1 } ns dy fuel0
              r.chain r.datas hnl
            simp only [e1, Option.bind_some]
            refine ⟨none, m', rfl, ?_, dx, dy, List.prefix_append _ _, hc, .inl ?_⟩
            · intro b
              by_cases hb : b ∈ nl
              · rw [e3 b hb, h1 b hb]
              · rw [e4 b hb]; exact h2 b hb
            · rw [e2]; simp [h3]
          | some y =>
            simp only []
            have hcp : Copied copy (dx ++ [n.data]) (dy ++ [y]) := by
              exact copied_concat hc ⟨_, hdat⟩
            have r0 : Rep { m with clock := m.clock + 1 } ns nl dy := ⟨r.chain, r.datas, r.nr⟩
            rcases rep_push hA r0 y with e | ⟨p, m1, st1, e, hpf, hpl, r1, hlog, hfr⟩
            · rw [e]
              simp only [Option.bind_some]
              rw [if_pos (by decide)]
              obtain ⟨m', e1, e2, e3, e4, -⟩ := rep_destroy fh nl
                (if fh then { m with clock := m.clock + 1 + 1, log := m.log ++ [y] }
                  else { m with clock := m.clock + 1 + 1 }) ns dy fuel0
                (by cases fh <;> exact r.chain) (by cases fh <;> exact r.datas) hnl
              refine ⟨none, m', ?_, ?_, dx ++ [n.data], dy ++ [y], ?_, hcp, .inr ⟨dy, y, rfl, ?_⟩⟩
              · cases fh <;> simp_all
              · intro b
                by_cases hb : b ∈ nl
                · rw [e3 b hb, h1 b hb]
                · rw [e4 b hb]; cases fh <;> exact h2 b hb
              · exact ⟨xs, by simp⟩
              · rw [e2]; cases fh <;> simp [h3]
            · rw [e]
              simp only [Option.bind_some]
              rw [if_neg (by decide)]
              have hap : a ≠ p := by
                rintro rfl
                simp only at hpf
                rw [hn] at hpf; simp at hpf
              have hma : m1.heap a = some n := by rw [hfr a hanl hap]; exact hn
              rw [hma]
              simp only [Option.bind_some]
              have hlnl : ∀ b ∈ l, m1.heap b = m.heap b := by
                intro b hb
                have hbs := halloc b (by rw [hL]; simp [hb])
                have hbn : b ∉ nl := by
                  intro h; rw [h1 b h] at hbs; simp at hbs
                refine hfr b hbn ?_
                rintro rfl
                have := h2 b hbn
                simp only at hpf
                rw [hpf] at this; rw [← this] at hbs; simp at hbs
              have w' : Walk Node.next m1.heap n.next l := by
                clear ih
                revert w hlnl
                generalize n.next = q
                clear hf hL d
                intro w hl
                induction w with
                | nil => exact .nil
                | cons hh _ ih => exact .cons (by rw [hl _ (by simp)]; exact hh) (ih (fun b hb => hl b (by simp [hb])))
              obtain ⟨res, m', q1, q2⟩ := ih (done ++ [a]) xs (dx ++ [n.data]) (dy ++ [y]) m1 n.next st1 (nl ++ [p]) f
                (by rw [hL]; simp) (by simp [hlen]) (by simpa using hf) w'
                (datas_congr (fun b hb => by rw [hlnl b hb]) d.2) r1 hcp
                (by
                  intro b hb
                  simp at hb
                  rcases hb with hb | rfl
                  · exact h1 b hb
                  · rw [← h2 b hpl]; exact hpf)
                (by
                  intro b hb
                  simp at hb
                  rw [hfr b hb.1 hb.2]; exact h2 b hb.1)
                (by rw [hlog]; exact h3)
              refine ⟨res, m', q1, ?_⟩
              simpa using q2

/-- **C04 (dup).**  For every allocator and copy handler, `mln_stack_dup` has no
undefined behaviour and either returns a new stack that holds the copies of all
elements in the same order, made of fresh nodes, leaving the original untouched and
calling no free handler; or returns NULL after releasing every new node and passing
each copy made so far to the free handler exactly once. -/
theorem stack_dup {δ} {A : Alloc δ} (hA : Fresh A) (fh : Bool) (copy : Option (Nat → δ → Option δ))
    {m : M δ} {st : S} {l : List Nat} {xs : List δ} (r : Rep m st l xs) (fuel : Nat) (hf : xs.length < fuel) :
    ∃ res m', dup A fh copy fuel m st = some (res, m') ∧
      (match res with
       | some ns => ∃ nl ys, Rep m' ns nl ys ∧ Copied copy xs ys ∧ m'.log = m.log ∧
            (∀ a ∈ nl, m.heap a = none) ∧ Rep m' st l xs
       | none => (∀ a, m'.heap a = m.heap a) ∧
            ∃ pre ys, pre <+: xs ∧ Copied copy pre ys ∧ ∃ freed, m'.log = m.log ++ freed ∧
              (if fh then freed.Perm ys else freed = [])) := by
  have hl := datas_length r.datas
  have w := (isChain_iff_walks r.chain).1
  obtain ⟨res, m', h1, h2⟩ := dupLoop_ok hA fh copy m l fuel (by omega) (seg_alloc r.chain.seg)
    l [] xs [] [] m st.bottom init [] fuel rfl rfl (by omega) w r.datas (rep_init m) trivial
    (by simp) (fun _ _ => rfl) rfl
  refine ⟨res, m', h1, ?_⟩
  cases res with
  | some ns =>
    obtain ⟨nl, ys, q1, q2, q3, q4, q5⟩ := h2
    refine ⟨nl, ys, q1, by simpa using q2, q3, q4, ?_⟩
    have hd : ∀ a ∈ l, m'.heap a = m.heap a := by
      intro a ha
      apply q5
      intro han
      have := seg_alloc r.chain.seg a ha
      simp [q4 a han] at this
    exact ⟨isChain_congr hd r.chain, datas_congr (fun a ha => by rw [hd a ha]) r.datas, r.nr⟩
  | none =>
    obtain ⟨q1, pre, ys, q2, q3, q4⟩ := h2
    refine ⟨q1, pre, ys, by simpa using q2, q3, ?_⟩
    rcases q4 with q4 | ⟨ys', y, rfl, q4⟩
    · refine ⟨_, q4, ?_⟩
      cases fh <;> simp
    · refine ⟨_, q4, ?_⟩
      cases fh
      · simp
      · simp only [if_true]
        exact (List.perm_append_comm (l₁ := ys') (l₂ := [y])).symm

/-! ### Non-vacuity -/

/-- A bump allocator that fails at time 2. -/
def exA : Alloc Nat := fun t h => if t = 2 then none else
  if h 10 = none then some 10 else if h 11 = none then some 11 else if h 12 = none then some 12 else none

theorem exA_fresh : Fresh exA := by
  intro t h p e
  unfold exA at e
  repeat' split at e
  all_goals simp_all

example : (run exA ⟨fun _ => none, 0, []⟩ init [.push 1, .push 2, .push 3, .top, .pop, .push 4, .pop, .pop, .pop]).map (·.1)
    = some [.code 0, .code 0, .code (-1), .val (some 2), .val (some 2), .code 0, .val (some 4), .val (some 1), .val none] := by
  decide

end Verif.Stack
