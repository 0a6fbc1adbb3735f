import Verif.RbTreeOps
import Verif.ChainProps
/-
Properties C22, C23 and C24: the red-black tree of mln_rbtree.c.
-/
set_option linter.unusedSimpArgs false

namespace Verif.RbTree

/-! ### Specification -/

/-- Walking the subtree at `x` left to right meets exactly the nodes `l`. -/
inductive InOrder (m : Mem) : Nat → List Nat → Prop where
  | nil : InOrder m 0 []
  | node {x l r} : x ≠ 0 → InOrder m (m.left x) l → InOrder m (m.right x) r → InOrder m x (l ++ x :: r)

/-- The subtree at `x` obeys the red-black rules and every way down meets `h` black nodes. -/
inductive RB (m : Mem) : Nat → Nat → Prop where
  | nil : RB m 0 0
  | red {x h} : x ≠ 0 → m.color x = .red → m.color (m.left x) = .black → m.color (m.right x) = .black → RB m (m.left x) h → RB m (m.right x) h → RB m x h
  | black {x h} : x ≠ 0 → m.color x = .black → RB m (m.left x) h → RB m (m.right x) h → RB m x (h + 1)

/-- What a user does with a tree. -/
inductive Op (α : Type) where
  /-- initialise a node that is not in the tree (mln_rbtree_node_new / node_init / data_set) -/
  | assign (n : Nat) (v : α)
  | insert (n : Nat)
  | delete (n : Nat)

/-- The abstract state: the data of the nodes, the nodes in sorted order, the nodes in the
order of insertion. -/
structure S (α : Type) where
  data : Nat → α
  sorted : List Nat
  queue : List Nat

/-- Insert behind everything that is not greater. -/
def place {α} (cmp : α → α → Int) (data : Nat → α) (n : Nat) : List Nat → List Nat
  | [] => [n]
  | i :: l => if cmp (data n) (data i) < 0 then n :: i :: l else i :: place cmp data n l

def specStep {α} (cmp : α → α → Int) (s : S α) : Op α → S α
  | .assign n v => { s with data := upd s.data n v }
  | .insert n => { s with sorted := place cmp s.data n s.sorted, queue := s.queue ++ [n] }
  | .delete n => { s with sorted := s.sorted.erase n, queue := s.queue.erase n }

/-- Only absent, allocated nodes are initialised or inserted, only present ones deleted. -/
def legal {α} (h : Chain.Heap Unit) (s : S α) : Op α → Prop
  | .assign n _ => n ∉ s.queue
  | .insert n => n ≠ 0 ∧ n ∉ s.queue ∧ (h n).isSome
  | .delete n => n ∈ s.queue

def legalRun {α} (cmp : α → α → Int) (h : Chain.Heap Unit) : S α → List (Op α) → Prop
  | _, [] => True
  | s, op :: ops => legal h s op ∧ legalRun cmp h (specStep cmp s op) ops

def specRun {α} (cmp : α → α → Int) : S α → List (Op α) → S α
  | s, [] => s
  | s, op :: ops => specRun cmp (specStep cmp s op) ops

def step {α} (cmp : α → α → Int) (t : Tree α) : Op α → Option (Tree α)
  | .assign n v => some { t with data := upd t.data n v }
  | .insert n => insert cmp t n
  | .delete n => delete t n

def run {α} (cmp : α → α → Int) : Tree α → List (Op α) → Option (Tree α)
  | t, [] => some t
  | t, op :: ops => (step cmp t op).bind fun t => run cmp t ops

/-! ### Representation -/

structure Inv {α} (cmp : α → α → Int) (t : Tree α) (s : S α) : Prop where
  tree : ∃ x : T, Z t.m x ∧ Good x ∧ x.ids = s.sorted
  data : t.data = s.data
  sorted : SortedBy cmp s.data s.sorted
  min : t.min = s.sorted.headD 0
  nr : t.nr = s.sorted.length
  chain : Chain.IsChain t.chain s.queue
  perm : s.sorted.Perm s.queue

theorem Inv.mem {α} {cmp : α → α → Int} {t : Tree α} {s : S α} (h : Inv cmp t s) {n : Nat} : n ∈ s.sorted ↔ n ∈ s.queue := h.perm.mem_iff

theorem Inv.nz {α} {cmp : α → α → Int} {t : Tree α} {s : S α} (h : Inv cmp t s) {n : Nat} (hn : n ∈ s.queue) : n ≠ 0 := by
  obtain ⟨x, hx, _, e⟩ := h.tree
  exact hx.rep.ne n (by rw [e]; exact h.mem.2 hn)

theorem place_split {α} {cmp : α → α → Int} {data : Nat → α} {n : Nat} : ∀ {A B : List Nat}, (∀ i ∈ A, ¬ cmp (data n) (data i) < 0) → (∀ i ∈ B, cmp (data n) (data i) < 0) → place cmp data n (A ++ B) = A ++ n :: B
  | [], [], _, _ => rfl
  | [], b :: B, _, hB => by simp [place, hB b (by simp)]
  | a :: A, B, hA, hB => by
    rw [List.cons_append, place, if_neg (hA a (by simp)), place_split (fun i hi => hA i (by simp [hi])) hB]
    rfl

theorem insert_ok {α} {cmp : α → α → Int} (o : CmpOrd cmp) {t : Tree α} {s : S α} (h : Inv cmp t s) {n : Nat} (h0 : n ≠ 0) (hn : n ∉ s.queue) (ha : (t.chain.heap n).isSome) :
    ∃ t', insert cmp t n = some t' ∧ Inv cmp t' (specStep cmp s (.insert n)) ∧ t'.iter = t.iter ∧ t'.del = t.del ∧ ∀ i, ((t'.chain.heap i).isSome ↔ (t.chain.heap i).isSome) := by
  obtain ⟨x, hz, hg, ex⟩ := h.tree
  obtain ⟨k, e1, e2, e3, A, B, e4, e5, e6, e7, e8⟩ := descend_ok o (node := n) (data := t.data) x [] (t.nr + 1) hz (by rw [h.nr, ex]; omega) trivial (by rw [ex, h.data]; exact h.sorted)
  simp only [plug, pre, post, List.nil_append, List.append_nil] at e2 e5 e6
  have hn' : n ∉ x.ids := by rw [ex, h.mem]; exact hn
  have z5 := hang_ok (cmp := cmp) (data := t.data) (k := k) (by rw [e2]; exact hz) h0 (by rw [e2]; exact hn') e3
  simp only [] at z5
  rw [← e2, good_plug] at hg
  obtain ⟨g1, g2, g3, h', g4, g5⟩ := hg
  have g4' : h' = 0 := g4
  have inv : InsInv _ k .leaf n .leaf := ⟨z5, ⟨fun _ => ⟨rfl, rfl⟩, trivial, trivial⟩, g2, 0, ⟨0, rfl, rfl, rfl⟩, g4' ▸ g5⟩
  have hkl := length_le k
  have hx : x.ids.length = A.length + B.length := by rw [e4]; simp
  obtain ⟨m', x', f1, f2, f3, f4⟩ := insertFixup_ok (t.nr + 2) inv (.inl (by rw [h.nr, ← ex, hx]; rw [e5, e6] at hkl; omega))
  obtain ⟨c', c1, c2, c3⟩ := Chain.add_ok h.chain n hn ha
  have hins : place cmp s.data n s.sorted = A ++ n :: B := by
    rw [← ex, e4, ← h.data]
    exact place_split e7 e8
  rw [← hz.root, show par ([] : List Fr) = 0 from rfl] at e1
  refine ⟨{ t with m := m', min := if t.min = 0 then n else if cmp (t.data n) (t.data t.min) < 0 then n else t.min, nr := t.nr + 1, chain := c' }, by simp only [insert, e1, Option.bind_eq_bind, Option.bind_some, f1, c1], ⟨⟨x', f2, f4, ?_⟩, h.data, ?_, ?_, ?_, c2, ?_⟩, rfl, rfl, ?_⟩
  · simp only [specStep]
    rw [f3, ids_plug, hins, e5, e6]
    simp [T.ids]
  · simp only [specStep]
    have hs := h.sorted
    rw [hins]
    rw [← ex, e4] at hs
    rw [h.data] at e7 e8
    simp only [SortedBy, List.pairwise_append, List.pairwise_cons, List.mem_cons] at hs ⊢
    refine ⟨hs.1, ⟨fun i hi => by have := e8 i hi; omega, hs.2.1⟩, ?_⟩
    rintro i hi j (rfl | hj)
    · exact o.ge.1 (e7 i hi)
    · exact hs.2.2 i hi j hj
  · simp only [specStep]
    rw [hins, h.min, h.data, ← ex, e4]
    rw [h.data] at e7 e8
    cases A with
    | nil =>
      cases B with
      | nil => simp
      | cons b B =>
        have hb0 : b ≠ 0 := hz.rep.ne b (by rw [e4]; simp)
        simp [hb0, e8 b (by simp)]
    | cons a A =>
      have ha0 : a ≠ 0 := hz.rep.ne a (by rw [e4]; simp)
      simp [ha0, e7 a (by simp)]
  · simp only [specStep]
    rw [hins, h.nr, ← ex, hx]
    simp
    omega
  · simp only [specStep]
    rw [hins]
    refine List.perm_middle.trans (((List.perm_append_comm (l₁ := [n])).trans ?_))
    rw [show A.append B = A ++ B from rfl, ← e4, ex]
    exact h.perm.append_right [n]
  · intro i
    have := c3.2 i
    rw [← Option.isSome_map (f := Chain.Node.data) (x := c'.heap i), this, Option.isSome_map]

/-- The node after `n` in the list. -/
def after (n : Nat) : List Nat → Option Nat
  | [] => none
  | i :: l => if i = n then l.head? else after n l

theorem after_split {n : Nat} {b : List Nat} : ∀ {a : List Nat}, n ∉ a → after n (a ++ n :: b) = b.head?
  | [], _ => by simp [after]
  | i :: a, h => by
    simp only [List.mem_cons, not_or] at h
    rw [List.cons_append, after, if_neg (Ne.symm h.1), after_split h.2]

theorem erase_split {n : Nat} {a b : List Nat} (h : n ∉ a) : (a ++ n :: b).erase n = a ++ b := by
  rw [List.erase_append_right _ h]; simp

theorem next_ok {c : Chain.C Unit} {q : List Nat} (h : Chain.IsChain c q) {n : Nat} (hn : n ∈ q) : Chain.getNext c.heap (some n) = some (after n q) := by
  obtain ⟨a, b, rfl, ha⟩ := List.append_of_mem hn |>.imp fun a h => h.imp fun b e => (⟨e, by
    have nd := e ▸ ‹Chain.IsChain c q›.nodup
    rw [List.nodup_append] at nd
    intro hna
    exact nd.2.2 n hna n (by simp) rfl⟩ : _ ∧ n ∉ a)
  rw [after_split ha]
  have := h.seg
  rw [Chain.seg_append] at this
  obtain ⟨_, ⟨d, hd⟩, _⟩ := this
  simp only [Chain.getNext, Option.bind_eq_bind, Option.bind_some, hd]
  cases b <;> rfl

theorem delete_ok {α} {cmp : α → α → Int} {t : Tree α} {s : S α} (h : Inv cmp t s) {n : Nat} (hn : n ∈ s.queue) :
    ∃ t', delete t n = some t' ∧ Inv cmp t' (specStep cmp s (.delete n)) ∧ t'.iter = (if t.iter = some n then after n s.queue else t.iter) ∧
      t'.del = (if t.iter = some n then true else t.del) ∧ ∀ i, ((t'.chain.heap i).isSome ↔ (t.chain.heap i).isSome) := by
  obtain ⟨x, hz, hg, ex⟩ := h.tree
  have hn' : n ∈ x.ids := by rw [ex]; exact h.mem.2 hn
  obtain ⟨k, c, a, b, rfl⟩ := locate hn'
  have hs := successor_ok (fuel := t.nr + 1) hz (by rw [h.nr, ex]; omega)
  obtain ⟨m', x', u1, u2, u3, u4⟩ := unlink_ok (fuel := t.nr + 2) hz hg (by rw [h.nr, ex]; omega)
  obtain ⟨c', c1, c2, c3, _⟩ := Chain.del_ok h.chain n hn
  have hnext := next_ok h.chain hn
  have hsort : s.sorted = (pre k ++ a.ids) ++ n :: (b.ids ++ post k) := by rw [← ex, ids_plug]; simp [T.ids]
  have hnotin : n ∉ pre k ++ a.ids := by
    have := hz.nodup
    rw [ex, hsort, List.nodup_append] at this
    intro hna
    exact this.2.2 n hna n (by simp) rfl
  have herase : s.sorted.erase n = pre k ++ (a.ids ++ (b.ids ++ post k)) := by
    rw [hsort, erase_split hnotin]; simp
  have hmin : (if n = t.min then successor (t.nr + 1) t.m n else some t.min) = some ((s.sorted.erase n).headD 0) := by
    rw [hs, h.min, herase, hsort]
    cases hpa : pre k ++ a.ids with
    | nil =>
      rw [List.append_eq_nil_iff] at hpa
      simp [hpa.1, hpa.2]
    | cons i l =>
      have hi : n ≠ i := by rintro rfl; exact hnotin (by rw [hpa]; simp)
      rw [← List.append_assoc, hpa]
      simp [hi]
  have hinv : ∀ it d, Inv cmp { t with m := m', min := (s.sorted.erase n).headD 0, nr := t.nr - 1, iter := it, del := d, chain := c' } (specStep cmp s (.delete n)) := by
    intro it d
    refine ⟨⟨x', u2, u3, u4.trans herase.symm⟩, h.data, ?_, rfl, ?_, c2, h.perm.erase n⟩
    · exact List.Pairwise.sublist List.erase_sublist h.sorted
    · simp only [specStep]
      rw [List.length_erase_of_mem (h.mem.2 hn), h.nr]
  have hheap : ∀ i, ((c'.heap i).isSome ↔ (t.chain.heap i).isSome) := by
    intro i
    have := c3.2 i
    rw [← Option.isSome_map (f := Chain.Node.data) (x := c'.heap i), this, Option.isSome_map]
  have hdel : delete t n = some { t with m := m', min := (s.sorted.erase n).headD 0, nr := t.nr - 1, iter := if t.iter = some n then after n s.queue else t.iter, del := if t.iter = some n then true else t.del, chain := c' } := by
    by_cases hm : n = t.min
    · rw [if_pos hm] at hmin
      by_cases hi : t.iter = some n
      · simp only [delete, if_pos hm, hmin, u1, Option.bind_eq_bind, Option.bind_some, hi, if_true, hnext, c1]
      · simp only [delete, if_pos hm, hmin, u1, Option.bind_eq_bind, Option.bind_some, hi, if_false, c1]
    · rw [if_neg hm] at hmin
      have hmin' : t.min = (s.sorted.erase n).headD 0 := Option.some.inj hmin
      by_cases hi : t.iter = some n
      · simp only [delete, if_neg hm, u1, Option.bind_eq_bind, Option.bind_some, hi, if_true, hnext, c1, ← hmin']
      · simp only [delete, if_neg hm, u1, Option.bind_eq_bind, Option.bind_some, hi, if_false, c1, ← hmin']
  exact ⟨_, hdel, hinv _ _, rfl, rfl, hheap⟩

theorem assign_ok {α} {cmp : α → α → Int} {t : Tree α} {s : S α} (h : Inv cmp t s) {n : Nat} (v : α) (hn : n ∉ s.queue) : Inv cmp { t with data := upd t.data n v } (specStep cmp s (.assign n v)) := by
  refine ⟨h.tree, ?_, ?_, h.min, h.nr, h.chain, h.perm⟩
  · simp only [specStep]; rw [h.data]
  · refine List.Pairwise.imp_of_mem ?_ h.sorted
    intro i j hi hj hij
    have h1 : i ≠ n := by rintro rfl; exact hn (h.mem.1 hi)
    have h2 : j ≠ n := by rintro rfl; exact hn (h.mem.1 hj)
    simpa [specStep, upd, h1, h2] using hij

/-- Every legal call succeeds and keeps the representation. -/
theorem step_ok {α} {cmp : α → α → Int} (o : CmpOrd cmp) {hp : Chain.Heap Unit} {t : Tree α} {s : S α} {op : Op α} (h : Inv cmp t s) (hh : ∀ i, ((t.chain.heap i).isSome ↔ (hp i).isSome)) (hit : t.iter = none) (hl : legal hp s op) :
    ∃ t', step cmp t op = some t' ∧ Inv cmp t' (specStep cmp s op) ∧ (∀ i, ((t'.chain.heap i).isSome ↔ (hp i).isSome)) ∧ t'.iter = none ∧ t'.del = t.del := by
  cases op with
  | assign n v => exact ⟨_, rfl, assign_ok h v hl, hh, hit, rfl⟩
  | insert n =>
    obtain ⟨t', e1, e2, e3, e4, e5⟩ := insert_ok o h hl.1 hl.2.1 ((hh n).2 hl.2.2)
    exact ⟨t', e1, e2, fun i => (e5 i).trans (hh i), e3.trans hit, e4⟩
  | delete n =>
    obtain ⟨t', e1, e2, e3, e4, e5⟩ := delete_ok h hl
    rw [hit] at e3 e4
    exact ⟨t', e1, e2, fun i => (e5 i).trans (hh i), by simpa using e3, by simpa using e4⟩

theorem run_ok {α} {cmp : α → α → Int} (o : CmpOrd cmp) {hp : Chain.Heap Unit} : ∀ (ops : List (Op α)) {t : Tree α} {s : S α}, Inv cmp t s → (∀ i, ((t.chain.heap i).isSome ↔ (hp i).isSome)) → t.iter = none → legalRun cmp hp s ops →
    ∃ t', run cmp t ops = some t' ∧ Inv cmp t' (specRun cmp s ops) ∧ t'.iter = none ∧ t'.del = t.del
  | [], t, s, h, hh, hit, hl => ⟨t, rfl, h, hit, rfl⟩
  | op :: ops, t, s, h, hh, hit, ⟨hl, hls⟩ => by
    obtain ⟨t1, e1, e2, e3, e4, e5⟩ := step_ok o h hh hit hl
    obtain ⟨t2, f1, f2, f3, f4⟩ := run_ok o ops e2 e3 e4 hls
    exact ⟨t2, by rw [run, e1]; exact f1, f2, f3, f4.trans e5⟩

/-- The empty abstract state. -/
def S.empty {α} (data : Nat → α) : S α := ⟨data, [], []⟩

theorem new_inv {α} (cmp : α → α → Int) (m : Mem) (data : Nat → α) (hp : Chain.Heap Unit) : Inv cmp (new m data hp) (S.empty data) := by
  refine ⟨⟨.leaf, ⟨trivial, rfl, by simp [T.ids], by simp [new, upd]⟩, ⟨trivial, rfl, 0, rfl⟩, rfl⟩, rfl, by simp [S.empty, SortedBy], rfl, rfl, ⟨by simp [S.empty], rfl, rfl, trivial⟩, by simp [S.empty]⟩

theorem inOrder_rep {m : Mem} : ∀ {x : T} {p : Nat}, Rep m p x → InOrder m x.rt x.ids
  | .leaf, _, _ => .nil
  | .node c l i r, p, ⟨h0, _, _, h3, h4, hl, hr⟩ => .node h0 (h3 ▸ inOrder_rep hl) (h4 ▸ inOrder_rep hr)

theorem rep_color {m : Mem} (h0 : m.color 0 = .black) : ∀ {x : T} {p : Nat}, Rep m p x → m.color x.rt = x.col
  | .leaf, _, _ => h0
  | .node c l i r, p, ⟨_, _, h2, _⟩ => h2

theorem rb_rep {m : Mem} (h0 : m.color 0 = .black) : ∀ {x : T} {p h : Nat}, Rep m p x → NoRR x → BH x h → RB m x.rt h
  | .leaf, _, h, _, _, hb => by
    have : h = 0 := hb
    exact this ▸ .nil
  | .node c l i r, p, h, ⟨i0, _, h2, h3, h4, hl, hr⟩, ⟨r1, r2, r3⟩, ⟨h', e, b1, b2⟩ => by
    have il := rb_rep h0 hl r2 b1
    have ir := rb_rep h0 hr r3 b2
    rw [← h3] at il
    rw [← h4] at ir
    subst e
    cases c with
    | red => exact .red (x := i) i0 h2 (by rw [h3, rep_color h0 hl]; exact (r1 rfl).1) (by rw [h4, rep_color h0 hr]; exact (r1 rfl).2) il ir
    | black => exact .black (x := i) i0 h2 il ir

/-- `InOrder` determines the list: it is a real walk. -/
theorem inOrder_unique {m : Mem} {x : Nat} {l l' : List Nat} (h : InOrder m x l) (h' : InOrder m x l') : l = l' := by
  induction h generalizing l' with
  | nil => cases h' with | nil => rfl | node h => exact absurd rfl h
  | node h0 _ _ ih1 ih2 =>
    cases h' with
    | nil => exact absurd rfl h0
    | node _ a b => rw [ih1 a, ih2 b]

theorem search_ok {α} {cmp : α → α → Int} (o : CmpOrd cmp) {t : Tree α} {s : S α} (h : Inv cmp t s) (key : α) (fuel : Nat) (hf : 2 * Nat.log2 (s.sorted.length + 1) < fuel) :
    ∃ x, searchFrom cmp t key fuel t.m.root = some x ∧ ((x = 0 ∧ ∀ i ∈ s.queue, cmp key (s.data i) ≠ 0) ∨ (x ∈ s.queue ∧ cmp key (s.data x) = 0)) := by
  obtain ⟨x, hz, hg, ex⟩ := h.tree
  have hh := height_good hg
  rw [ex] at hh
  obtain ⟨y, e1, e2⟩ := searchFrom_ok o (key := key) (t := t) x 0 fuel hz.rep (by omega) (by rw [ex, h.data]; exact h.sorted)
  rw [hz.root]
  refine ⟨y, e1, ?_⟩
  rw [← h.data]
  rcases e2 with ⟨a, b⟩ | ⟨a, b⟩
  · exact .inl ⟨a, fun i hi => b i (by rw [ex]; exact h.mem.2 hi)⟩
  · exact .inr ⟨h.mem.1 (by rw [← ex]; exact a), b⟩

theorem search_nr {α} {cmp : α → α → Int} (o : CmpOrd cmp) {t : Tree α} {s : S α} (h : Inv cmp t s) (key : α) :
    ∃ x, search cmp t key = some x ∧ ((x = 0 ∧ ∀ i ∈ s.queue, cmp key (s.data i) ≠ 0) ∨ (x ∈ s.queue ∧ cmp key (s.data x) = 0)) := by
  obtain ⟨x, hz, hg, ex⟩ := h.tree
  obtain ⟨y, e1, e2⟩ := searchFrom_ok o (key := key) (t := t) x 0 (t.nr + 1) hz.rep (by have := height_le x; rw [ex] at this; rw [h.nr]; omega) (by rw [ex, h.data]; exact h.sorted)
  rw [search, hz.root]
  refine ⟨y, e1, ?_⟩
  rw [← h.data]
  rcases e2 with ⟨a, b⟩ | ⟨a, b⟩
  · exact .inl ⟨a, fun i hi => b i (by rw [ex]; exact h.mem.2 hi)⟩
  · exact .inr ⟨h.mem.1 (by rw [← ex]; exact a), b⟩

/-! ### C22 -/

/-- After every legal history from an empty tree: no call fails; the in-order walk is the sorted
list of the specification, which is sorted and holds exactly the inserted and not deleted nodes;
the minimum and the count are right; the chain lists the nodes in the order of insertion. -/
theorem rbtree_refines {α} {cmp : α → α → Int} (o : CmpOrd cmp) (m : Mem) (data : Nat → α) (hp : Chain.Heap Unit) (ops : List (Op α)) (hl : legalRun cmp hp (S.empty data) ops) :
    ∃ t, run cmp (new m data hp) ops = some t ∧
      let s := specRun cmp (S.empty data) ops
      InOrder t.m t.m.root s.sorted ∧
      s.sorted.Pairwise (fun i j => cmp (s.data i) (s.data j) ≤ 0) ∧
      s.sorted.Perm s.queue ∧ s.queue.Nodup ∧ t.data = s.data ∧
      getMin t = s.sorted.headD 0 ∧ nodeNum t = s.queue.length ∧
      Chain.Walk Chain.Node.next t.chain.heap t.chain.head s.queue ∧
      t.iter = none ∧ t.del = false := by
  obtain ⟨t, e1, e2, e3, e4⟩ := run_ok o ops (new_inv cmp m data hp) (fun i => Iff.rfl) rfl hl
  refine ⟨t, e1, ?_⟩
  obtain ⟨x, hz, hg, ex⟩ := e2.tree
  refine ⟨by rw [hz.root, ← ex]; exact inOrder_rep hz.rep, e2.sorted, e2.perm, e2.chain.nodup, e2.data, e2.min, e2.nr.trans e2.perm.length_eq, (Chain.isChain_iff_walks e2.chain).1, e3, e4⟩

/-- mln_rbtree_search finds a node exactly when an equal element is stored, and what it finds is
stored and equal. -/
theorem rbtree_search {α} {cmp : α → α → Int} (o : CmpOrd cmp) (m : Mem) (data : Nat → α) (hp : Chain.Heap Unit) (ops : List (Op α)) (hl : legalRun cmp hp (S.empty data) ops) (key : α) :
    ∃ t x, run cmp (new m data hp) ops = some t ∧ search cmp t key = some x ∧
      let s := specRun cmp (S.empty data) ops
      (x ≠ 0 ↔ ∃ i ∈ s.queue, cmp key (s.data i) = 0) ∧ (x ≠ 0 → x ∈ s.queue ∧ cmp key (s.data x) = 0) := by
  obtain ⟨t, e1, e2, e3, e4⟩ := run_ok o ops (new_inv cmp m data hp) (fun i => Iff.rfl) rfl hl
  obtain ⟨x, f1, f2⟩ := search_nr o e2 key
  refine ⟨t, x, e1, f1, ?_⟩
  rcases f2 with ⟨a, b⟩ | ⟨a, b⟩
  · refine ⟨⟨fun h => absurd a h, fun ⟨i, hi, hc⟩ => absurd hc (b i hi)⟩, fun h => absurd a h⟩
  · exact ⟨⟨fun _ => ⟨x, a, b⟩, fun _ => e2.nz a⟩, fun _ => ⟨a, b⟩⟩

/-- mln_rbtree_successor steps through the sorted list; after the last node it gives the sentinel. -/
theorem rbtree_successor {α} {cmp : α → α → Int} (o : CmpOrd cmp) (m : Mem) (data : Nat → α) (hp : Chain.Heap Unit) (ops : List (Op α)) (hl : legalRun cmp hp (S.empty data) ops) :
    ∃ t, run cmp (new m data hp) ops = some t ∧ ∀ a n b, (specRun cmp (S.empty data) ops).sorted = a ++ n :: b → successor (t.nr + 1) t.m n = some (b.headD 0) := by
  obtain ⟨t, e1, e2, e3, e4⟩ := run_ok o ops (new_inv cmp m data hp) (fun i => Iff.rfl) rfl hl
  refine ⟨t, e1, ?_⟩
  intro a n b e
  obtain ⟨x, hz, hg, ex⟩ := e2.tree
  have hn : n ∈ x.ids := by rw [ex, e]; simp
  obtain ⟨k, c, l, r, rfl⟩ := locate hn
  rw [successor_ok hz (by rw [e2.nr, ex]; omega)]
  have nd := hz.nodup
  rw [ids_plug, show (T.node c l n r).ids = l.ids ++ n :: r.ids from rfl] at ex nd
  rw [e, show pre k ++ (l.ids ++ n :: r.ids ++ post k) = (pre k ++ l.ids) ++ n :: (r.ids ++ post k) by simp] at ex
  rw [show pre k ++ (l.ids ++ n :: r.ids ++ post k) = (pre k ++ l.ids) ++ n :: (r.ids ++ post k) by simp] at nd
  have h1 : n ∉ pre k ++ l.ids := by
    rw [List.nodup_append] at nd
    intro h; exact nd.2.2 n h n (by simp) rfl
  have h2 : n ∉ a := by
    rw [ex, List.nodup_append] at nd
    intro h; exact nd.2.2 n h n (by simp) rfl
  have h3 : ∀ (a a' b b' : List Nat), n ∉ a → n ∉ a' → a ++ n :: b = a' ++ n :: b' → b = b' := by
    intro a
    induction a with
    | nil =>
      intro a' b b' _ h e
      cases a' with
      | nil => simpa using e
      | cons i a' => simp at e h; exact absurd e.1 h.1
    | cons i a ih =>
      intro a' b b' h h' e
      cases a' with
      | nil => simp at e h; exact absurd e.1.symm h.1
      | cons j a' =>
        simp only [List.cons_append, List.cons.injEq, List.mem_cons, not_or] at e h h'
        exact ih a' b b' h.2 h'.2 e.2
  rw [h3 _ _ _ _ h1 h2 ex]

/-! ### C23 -/

/-- After every legal history the tree obeys the red-black rules, and a search for any key ends
after at most 2·log2(n+1) steps down (the fuel counts the visited positions including the final
one). -/
theorem rbtree_balanced {α} {cmp : α → α → Int} (o : CmpOrd cmp) (m : Mem) (data : Nat → α) (hp : Chain.Heap Unit) (ops : List (Op α)) (hl : legalRun cmp hp (S.empty data) ops) :
    ∃ t, run cmp (new m data hp) ops = some t ∧ t.m.color t.m.root = .black ∧ (∃ h, RB t.m t.m.root h) ∧
      ∀ key, ∃ x, searchFrom cmp t key (2 * Nat.log2 (nodeNum t + 1) + 1) t.m.root = some x := by
  obtain ⟨t, e1, e2, e3, e4⟩ := run_ok o ops (new_inv cmp m data hp) (fun i => Iff.rfl) rfl hl
  obtain ⟨x, hz, hg, ex⟩ := e2.tree
  refine ⟨t, e1, ?_, ?_, ?_⟩
  · rw [hz.root, rep_color hz.nil hz.rep]; exact hg.2.1
  · obtain ⟨h, hb⟩ := hg.2.2
    exact ⟨h, by rw [hz.root]; exact rb_rep hz.nil hz.rep hg.1 hb⟩
  · intro key
    obtain ⟨y, f, _⟩ := search_ok o e2 key (2 * Nat.log2 (nodeNum t + 1) + 1) (by rw [nodeNum, e2.nr]; omega)
    exact ⟨y, f⟩

/-! ### C24 -/

/-- What a handler may do when called on a node: delete some present nodes, change its own state,
and abort or go on. -/
structure Act (σ : Type) where
  state : σ
  dels : List Nat
  abort : Bool

def deleteAll {α} : Tree α → List Nat → Option (Tree α)
  | t, [] => some t
  | t, n :: l => (delete t n).bind fun t => deleteAll t l

def handler {α} {σ : Type} (h : σ → Nat → Act σ) (t : Tree α) (n : Nat) (s : σ) : Option (Tree α × σ × Bool) :=
  (deleteAll t (h s n).dels).map fun t => (t, (h s n).state, (h s n).abort)

/-- The specification of an iteration: visit the pending nodes in order, leave out those that
have been deleted meanwhile, stop when the handler aborts. -/
def visits {σ : Type} (h : σ → Nat → Act σ) : List Nat → σ → σ × Int
  | [], s => (s, 0)
  | n :: p, s =>
    if (h s n).abort then ((h s n).state, -1)
    else visits h (p.filter (· ∉ (h s n).dels)) (h s n).state
termination_by p => p.length
decreasing_by
  simp only [List.length_cons, List.length_unattach]
  refine Nat.lt_succ_of_le (Nat.le_trans (List.length_filter_le _ _) ?_)
  simp

/-- Every deletion is legal when it happens; `q` is what the tree holds. -/
def legalDels : List Nat → List Nat → Prop
  | _, [] => True
  | q, n :: l => n ∈ q ∧ legalDels (q.erase n) l

def legalVisits {σ : Type} (h : σ → Nat → Act σ) : List Nat → List Nat → σ → Prop
  | _, [], _ => True
  | q, n :: p, s => legalDels q (h s n).dels ∧
    ((h s n).abort = false → legalVisits h (q.filter (· ∉ (h s n).dels)) (p.filter (· ∉ (h s n).dels)) (h s n).state)
termination_by _ p => p.length
decreasing_by
  simp only [List.length_cons, List.length_unattach]
  refine Nat.lt_succ_of_le (Nat.le_trans (List.length_filter_le _ _) ?_)
  simp

def eraseAll {α} (s : S α) (l : List Nat) : S α := { s with sorted := s.sorted.filter (· ∉ l), queue := s.queue.filter (· ∉ l) }

theorem filter_true' (l : List Nat) : l.filter (fun _ => true) = l := by simp [List.filter_eq_self]

theorem filter_erase {q : List Nat} (nd : q.Nodup) (n : Nat) (l : List Nat) : (q.erase n).filter (· ∉ l) = q.filter (· ∉ n :: l) := by
  rw [nd.erase_eq_filter, List.filter_filter]
  congr 1
  funext x
  simp only [List.mem_cons, not_or, Bool.decide_and, Bool.and_comm]
  congr 1
  by_cases h : x = n <;> simp [h]

theorem after_erase {q1 p : List Nat} {n : Nat} (nd : (q1 ++ n :: p).Nodup) : after n (q1 ++ n :: p) = p.head? := by
  refine after_split ?_
  intro h
  rw [List.nodup_append] at nd
  exact nd.2.2 n h n (by simp) rfl

theorem erase_filter {q : List Nat} (nd : q.Nodup) (n : Nat) : q.erase n = q.filter (fun x => decide (x ≠ n)) := by
  rw [nd.erase_eq_filter]
  congr 1
  funext x
  by_cases h : x = n <;> simp [h]

theorem filter_cons_not (p : List Nat) (n : Nat) (l : List Nat) : (p.filter (fun x => decide (x ≠ n))).filter (· ∉ l) = p.filter (· ∉ n :: l) := by
  rw [List.filter_filter]
  congr 1
  funext x
  by_cases h : x = n <;> simp [h]

/-- A handler's deletions: the iterator stands at the current node while it is there, afterwards
at the first pending node that is left; the flag records that the current node has gone. -/
theorem deleteAll_ok {α} {cmp : α → α → Int} : ∀ (l : List Nat) {t : Tree α} {s : S α}, Inv cmp t s → s.sorted.Nodup → legalDels s.queue l →
    ∀ (q1 p : List Nat), s.queue = q1 ++ p → t.iter = p.head? →
    ∃ t', deleteAll t l = some t' ∧ Inv cmp t' (eraseAll s l) ∧ t'.iter = (p.filter (· ∉ l)).head? ∧
      (t.del = true → t'.del = true) ∧ (∀ n ∈ p.head?, n ∈ l → t'.del = true) ∧ ((∀ n ∈ p.head?, n ∉ l) → t'.del = t.del)
  | [], t, s, h, hnd, hl, q1, p, e, hit => by
    refine ⟨t, rfl, ?_, ?_, id, by simp, by simp⟩
    · have : eraseAll s [] = s := by cases s; simp only [eraseAll, List.not_mem_nil, not_false_eq_true, decide_true, filter_true']
      rw [this]; exact h
    · rw [hit]; simp only [List.not_mem_nil, not_false_eq_true, decide_true, filter_true']
  | x :: l, t, s, h, hnd, ⟨hx, hl⟩, q1, p, e, hit => by
    obtain ⟨t1, e1, e2, e3, e4, e5⟩ := delete_ok h hx
    have nd := h.chain.nodup
    have hq : (specStep cmp s (.delete x)).queue = q1.filter (fun y => decide (y ≠ x)) ++ p.filter (fun y => decide (y ≠ x)) := by
      simp only [specStep]
      rw [erase_filter nd, e, List.filter_append]
    have hit1 : t1.iter = (p.filter (fun y => decide (y ≠ x))).head? := by
      rw [e3, hit]
      cases p with
      | nil => simp
      | cons n p =>
        by_cases hn : n = x
        · subst hn
          rw [if_pos (show (n :: p).head? = some n from rfl), e]
          rw [e] at nd
          rw [after_erase nd]
          have : p.filter (fun y => decide (y ≠ n)) = p := by
            rw [List.filter_eq_self]
            intro y hy
            rw [List.nodup_append, List.nodup_cons] at nd
            have : y ≠ n := by rintro rfl; exact nd.2.1.1 hy
            simpa using this
          rw [List.filter_cons_of_neg (by simp), this]
        · rw [if_neg (by simpa using hn), List.filter_cons_of_pos (by simpa using hn)]
          rfl
    obtain ⟨t2, f1, f2, f3, f4, f5, f6⟩ := deleteAll_ok l e2 (hnd.erase x) hl _ _ hq hit1
    refine ⟨t2, by rw [deleteAll, e1]; exact f1, ?_, ?_, ?_, ?_, ?_⟩
    · have : eraseAll (specStep cmp s (.delete x)) l = eraseAll s (x :: l) := by
        simp only [eraseAll, specStep]
        rw [filter_erase nd, filter_erase hnd]
      rw [← this]; exact f2
    · rw [f3, filter_cons_not]
    · intro hd
      refine f4 ?_
      rw [e4, hd]; simp
    · intro n hn hnl
      by_cases hnx : n = x
      · subst hnx
        refine f4 ?_
        rw [e4, hit, if_pos (show p.head? = some n from hn)]
      · refine f5 n ?_ (by simpa [hnx] using hnl)
        cases p with
        | nil => simp at hn
        | cons m p =>
          simp only [List.head?_cons, Option.mem_def, Option.some.injEq] at hn
          subst hn
          rw [List.filter_cons_of_pos (by simpa using hnx)]
          rfl
    · intro hn
      cases p with
      | nil =>
        rw [f6 (by simp), e4, hit]; simp
      | cons m p =>
        have hm := hn m rfl
        simp only [List.mem_cons, not_or] at hm
        rw [f6 ?_, e4, hit, if_neg (by simpa using hm.1)]
        intro n hn'
        rw [List.filter_cons_of_pos (by simpa using hm.1)] at hn'
        simp only [List.head?_cons, Option.mem_def, Option.some.injEq] at hn'
        subst hn'
        exact hm.2

theorem eraseAll_nodup {α} {s : S α} (h : s.sorted.Nodup) (l : List Nat) : (eraseAll s l).sorted.Nodup := h.filter _

theorem iterateFrom_ok {α} {σ : Type} {cmp : α → α → Int} (h : σ → Nat → Act σ) : ∀ (fuel : Nat) (p q1 : List Nat) {t : Tree α} {s : S α} (u : σ), p.length < fuel → Inv cmp t s → s.sorted.Nodup → s.queue = q1 ++ p → t.iter = p.head? → t.del = false → legalVisits h s.queue p u →
    ∃ t', iterateFrom (handler h) fuel t u = some (t', (visits h p u).1, (visits h p u).2) ∧
      (∃ s', Inv cmp t' s' ∧ s'.queue.Sublist s.queue) ∧ ((visits h p u).2 = 0 → t'.iter = none ∧ t'.del = false)
  | 0, p, q1, t, s, u, hf, hi, hnd, hq, hit, hd, hl => by omega
  | fuel + 1, [], q1, t, s, u, hf, hi, hnd, hq, hit, hd, hl => by
    refine ⟨t, ?_, ⟨s, hi, List.Sublist.refl _⟩, fun _ => ⟨hit, hd⟩⟩
    rw [iterateFrom, hit]
    simp [visits]
  | fuel + 1, n :: p, q1, t, s, u, hf, hi, hnd, hq, hit, hd, hl => by
    rw [legalVisits] at hl
    obtain ⟨hl1, hl2⟩ := hl
    obtain ⟨t1, e1, e2, e3, e4, e5, e6⟩ := deleteAll_ok (h u n).dels hi hnd hl1 q1 (n :: p) hq hit
    have hsub : (eraseAll s (h u n).dels).queue.Sublist s.queue := List.filter_sublist
    have nd := hi.chain.nodup
    rw [hq] at nd
    rw [iterateFrom, hit]
    simp only [List.head?_cons, handler, e1, Option.map_some, Option.bind_eq_bind, Option.bind_some]
    rw [visits]
    by_cases hab : (h u n).abort = true
    · rw [if_pos hab, if_pos hab]
      exact ⟨t1, rfl, ⟨_, e2, hsub⟩, fun h => by simp at h⟩
    · rw [if_neg hab, if_neg hab]
      have hl2' := hl2 (by simpa using hab)
      have hlen : (p.filter (· ∉ (h u n).dels)).length < fuel := by
        have := List.length_filter_le (fun x => decide (x ∉ (h u n).dels)) p
        simp only [List.length_cons] at hf
        omega
      by_cases hn : n ∈ (h u n).dels
      · have hdel := e5 n rfl hn
        rw [if_pos hdel]
        rw [List.filter_cons_of_neg (by simpa using hn)] at e3
        obtain ⟨t', f1, ⟨s', f2, f2'⟩, f3⟩ := iterateFrom_ok h fuel (p.filter (· ∉ (h u n).dels)) (q1.filter (· ∉ (h u n).dels)) (t := { t1 with del := false }) (s := eraseAll s (h u n).dels) (h u n).state hlen
          ⟨e2.tree, e2.data, e2.sorted, e2.min, e2.nr, e2.chain, e2.perm⟩ (eraseAll_nodup hnd _) (by simp only [eraseAll]; rw [hq, List.filter_append, List.filter_cons_of_neg (by simpa using hn)]) e3 rfl hl2'
        exact ⟨t', f1, ⟨s', f2, f2'.trans hsub⟩, f3⟩
      · have hdel := e6 (by intro m hm; simp only [List.head?_cons, Option.mem_def, Option.some.injEq] at hm; subst hm; exact hn)
        rw [if_neg (by rw [hdel, hd]; simp)]
        rw [List.filter_cons_of_pos (by simpa using hn)] at e3
        have hq' : (eraseAll s (h u n).dels).queue = q1.filter (· ∉ (h u n).dels) ++ n :: p.filter (· ∉ (h u n).dels) := by
          simp only [eraseAll]
          rw [hq, List.filter_append, List.filter_cons_of_pos (by simpa using hn)]
        have nd' := e2.chain.nodup
        rw [hq'] at nd'
        have hnx := next_ok e2.chain (n := n) (by rw [hq']; simp)
        rw [hq', after_erase nd'] at hnx
        rw [show t1.iter = some n from e3, hnx]
        simp only [Option.bind_some]
        obtain ⟨t', f1, ⟨s', f2, f2'⟩, f3⟩ := iterateFrom_ok h fuel (p.filter (· ∉ (h u n).dels)) (q1.filter (· ∉ (h u n).dels) ++ [n]) (t := { t1 with iter := (p.filter (· ∉ (h u n).dels)).head? }) (s := eraseAll s (h u n).dels) (h u n).state hlen
          ⟨e2.tree, e2.data, e2.sorted, e2.min, e2.nr, e2.chain, e2.perm⟩ (eraseAll_nodup hnd _) (by rw [hq']; simp) rfl (hdel.trans hd) hl2'
        exact ⟨t', f1, ⟨s', f2, f2'.trans hsub⟩, f3⟩

/-- On every tree reached by a legal history, for every handler that deletes any present nodes it
likes (the current one included): mln_rbtree_iterate calls the handler exactly as the
specification says, the tree stays well formed, and after a full run it is ready for the next. -/
theorem rbtree_iterate_partial {α} {σ : Type} {cmp : α → α → Int} (o : CmpOrd cmp) (m : Mem) (data : Nat → α) (hp : Chain.Heap Unit) (ops : List (Op α)) (hl : legalRun cmp hp (S.empty data) ops) (h : σ → Nat → Act σ) (u : σ)
    (hv : legalVisits h (specRun cmp (S.empty data) ops).queue (specRun cmp (S.empty data) ops).queue u) :
    ∃ t t', run cmp (new m data hp) ops = some t ∧
      let v := visits h (specRun cmp (S.empty data) ops).queue u
      iterate (handler h) (nodeNum t + 1) t u = some (t', v.1, v.2) ∧ (∃ l, InOrder t'.m t'.m.root l ∧ l.Nodup) ∧
      (v.2 = 0 → t'.iter = none ∧ t'.del = false) := by
  obtain ⟨t, e1, e2, e3, e4⟩ := run_ok o ops (new_inv cmp m data hp) (fun i => Iff.rfl) rfl hl
  obtain ⟨x, hz, hg, ex⟩ := e2.tree
  have hhd : t.chain.head = (specRun cmp (S.empty data) ops).queue.head? := by
    rw [e2.chain.head]; cases (specRun cmp (S.empty data) ops).queue <;> rfl
  obtain ⟨t', f1, ⟨s', f2, _⟩, f3⟩ := iterateFrom_ok (cmp := cmp) h (nodeNum t + 1) (specRun cmp (S.empty data) ops).queue [] (t := { t with iter := t.chain.head }) (s := specRun cmp (S.empty data) ops) u
    (by rw [nodeNum, e2.nr, e2.perm.length_eq]; omega) ⟨e2.tree, e2.data, e2.sorted, e2.min, e2.nr, e2.chain, e2.perm⟩ (by rw [← ex]; exact hz.nodup) rfl hhd e4 hv
  obtain ⟨x', hz', _, ex'⟩ := f2.tree
  exact ⟨t, t', e1, f1, ⟨x'.ids, by rw [hz'.root]; exact inOrder_rep hz'.rep, hz'.nodup⟩, f3⟩

/-- A handler that at most deletes the node it is called on, never aborts, and records its calls. -/
def recorder (d : Nat → Bool) (l : List Nat) (n : Nat) : Act (List Nat) := ⟨l ++ [n], if d n then [n] else [], false⟩

theorem visits_recorder (d : Nat → Bool) : ∀ (p l : List Nat), p.Nodup → visits (recorder d) p l = (l ++ p, 0)
  | [], l, _ => by simp [visits]
  | n :: p, l, nd => by
    rw [List.nodup_cons] at nd
    have : p.filter (· ∉ (recorder d l n).dels) = p := by
      rw [List.filter_eq_self]
      intro x hx
      simp only [recorder]
      split
      · have : x ≠ n := by rintro rfl; exact nd.1 hx
        simpa using this
      · simp
    rw [visits, if_neg (by simp [recorder]), this]
    simp only [recorder]
    rw [visits_recorder d p _ nd.2]
    simp

theorem legal_recorder (d : Nat → Bool) : ∀ (p q l : List Nat), p.Nodup → (∀ n ∈ p, n ∈ q) → legalVisits (recorder d) q p l
  | [], q, l, _, _ => by rw [legalVisits]; trivial
  | n :: p, q, l, nd, hpq => by
    rw [List.nodup_cons] at nd
    have hx : ∀ x ∈ p, x ∉ (recorder d l n).dels := by
      intro x hx
      have : x ≠ n := by rintro rfl; exact nd.1 hx
      simp only [recorder]
      split <;> simp [this]
    have hp : p.filter (· ∉ (recorder d l n).dels) = p := by
      rw [List.filter_eq_self]
      intro x h; simpa using hx x h
    rw [legalVisits, hp]
    refine ⟨?_, fun _ => legal_recorder d p _ _ nd.2 ?_⟩
    · simp only [recorder]
      split
      · exact ⟨hpq n (by simp), trivial⟩
      · trivial
    · intro x h
      rw [List.mem_filter]
      exact ⟨hpq x (by simp [h]), by simpa using hx x h⟩

/-- The plain reading of the property: whatever subset of the visited nodes the handler deletes,
every node is visited exactly once, in the order of insertion. -/
theorem rbtree_iterate_each_once {α} {cmp : α → α → Int} (o : CmpOrd cmp) (m : Mem) (data : Nat → α) (hp : Chain.Heap Unit) (ops : List (Op α)) (hl : legalRun cmp hp (S.empty data) ops) (d : Nat → Bool) :
    ∃ t t', run cmp (new m data hp) ops = some t ∧
      iterate (handler (recorder d)) (nodeNum t + 1) t [] = some (t', (specRun cmp (S.empty data) ops).queue, 0) ∧ t'.iter = none ∧ t'.del = false := by
  obtain ⟨_, e1, e2, e3, e4⟩ := run_ok o ops (new_inv cmp m data hp) (fun i => Iff.rfl) rfl hl
  have nd := e2.chain.nodup
  obtain ⟨t, t', f1, f2, _, f3⟩ := rbtree_iterate_partial o m data hp ops hl (recorder d) [] (legal_recorder d _ _ _ nd (fun _ h => h))
  simp only [visits_recorder d _ _ nd, List.nil_append] at f2 f3
  exact ⟨t, t', f1, f2, f3 trivial⟩

/-- The full property fails: when the handler deletes the node it is called on and aborts, the
deletion flag stays set, and the next iteration calls its handler twice for the first node.  This
holds for every tree with the flag set, whatever it stores. -/
theorem rbtree_iterate_after_abort {α} {cmp : α → α → Int} {t : Tree α} {s : S α} (hi : Inv cmp t s) {n : Nat} {q : List Nat} (hq : s.queue = n :: q) (hd : t.del = true) :
    ∃ t', iterate (handler (recorder fun _ => false)) (nodeNum t + 2) t [] = some (t', n :: n :: q, 0) := by
  have hnd : s.sorted.Nodup := hi.perm.nodup_iff.2 hi.chain.nodup
  have hhd : t.chain.head = some n := by rw [hi.chain.head, hq]; rfl
  have hnil : ∀ (l : List Nat) (n : Nat), (recorder (fun _ => false) l n).dels = [] := fun _ _ => rfl
  rw [iterate, iterateFrom, hhd]
  simp only [handler, hnil, deleteAll, Option.map_some, Option.bind_eq_bind, Option.bind_some, hd, if_true]
  rw [if_neg (by simp [recorder])]
  have nd := hi.chain.nodup
  obtain ⟨t', f1, _, _⟩ := iterateFrom_ok (cmp := cmp) (recorder fun _ => false) (nodeNum t + 1) s.queue [] (t := { t with iter := some n, del := false }) (s := s) [n]
    (by rw [nodeNum, hi.nr, hi.perm.length_eq]; omega) ⟨hi.tree, hi.data, hi.sorted, hi.min, hi.nr, hi.chain, hi.perm⟩ hnd rfl (by rw [hq]; rfl) rfl (legal_recorder _ _ _ _ nd (fun _ h => h))
  rw [visits_recorder _ _ _ nd, hq] at f1
  exact ⟨t', f1⟩

/-- Deleting the current node and aborting leaves the flag set, on every tree. -/
theorem rbtree_abort_leaves_flag {α} {cmp : α → α → Int} {t : Tree α} {s : S α} (hi : Inv cmp t s) {n : Nat} {q : List Nat} (hq : s.queue = n :: q) :
    ∃ t', iterate (handler fun (_ : Unit) x => ⟨(), [x], true⟩) (nodeNum t + 1) t () = some (t', (), -1) ∧ t'.del = true ∧ Inv cmp t' (specStep cmp s (.delete n)) := by
  have hhd : t.chain.head = some n := by rw [hi.chain.head, hq]; rfl
  obtain ⟨t1, e1, e2, e3, e4, e5⟩ := delete_ok (t := { t with iter := some n }) (s := s) (cmp := cmp) ⟨hi.tree, hi.data, hi.sorted, hi.min, hi.nr, hi.chain, hi.perm⟩ (n := n) (by rw [hq]; simp)
  refine ⟨t1, ?_, by rw [e4]; simp, e2⟩
  rw [iterate, iterateFrom, hhd]
  simp [handler, deleteAll, e1]

/-- Both together: from a fresh tree with the nodes 1, 2 and 3, an iteration that deletes node 1
and aborts, then a plain iteration: node 2 is visited twice. -/
theorem rbtree_ready_after_abort_false : ∃ t t1 t2 : Tree Int,
    run (fun a b => a - b) (new ⟨fun _ => 0, fun _ => 0, fun _ => 0, fun _ => .black, 0⟩ (fun n => (n : Int)) fun _ => some ⟨(), none, none⟩) [.insert 1, .insert 2, .insert 3] = some t ∧
    iterate (handler fun (_ : Unit) x => ⟨(), [x], true⟩) 4 t () = some (t1, (), -1) ∧
    iterate (handler (recorder fun _ => false)) 4 t1 [] = some (t2, [2, 2, 3], 0) := by
  have o : CmpOrd (fun a b : Int => a - b) := ⟨fun a b => by omega, fun a b c h1 h2 => by omega⟩
  obtain ⟨t, e1, e2, e3, e4⟩ := run_ok (hp := fun _ => some ⟨(), none, none⟩) o [.insert 1, .insert 2, .insert 3] (new_inv _ ⟨fun _ => 0, fun _ => 0, fun _ => 0, fun _ => .black, 0⟩ (fun n => (n : Int)) fun _ => some ⟨(), none, none⟩) (fun i => Iff.rfl) rfl
    ⟨⟨by decide, by simp [S.empty], rfl⟩, ⟨by decide, by simp [specStep, S.empty], rfl⟩, ⟨by decide, by simp [specStep, S.empty], rfl⟩, trivial⟩
  obtain ⟨t1, f1, f2, f3⟩ := rbtree_abort_leaves_flag e2 (n := 1) (q := [2, 3]) rfl
  obtain ⟨t2, g1⟩ := rbtree_iterate_after_abort f3 (n := 2) (q := [3]) rfl f2
  have n3 : nodeNum t = 3 := e2.nr
  have n2 : nodeNum t1 = 2 := f3.nr
  rw [n3] at f1
  rw [n2] at g1
  exact ⟨t, t1, t2, e1, f1, g1⟩

/-! ### Concrete cases -/

/-- A history that needs rotations: the sorted list is read off the real pointers. -/
def exOps : List (Op Int) := [.assign 7 50, .insert 7, .assign 3 20, .insert 3, .assign 9 10, .insert 9, .assign 4 20, .insert 4, .assign 5 60, .insert 5, .delete 3]
def exMem : Mem := ⟨fun _ => 77, fun _ => 77, fun _ => 77, fun _ => .red, 77⟩
def exTree : Option (Tree Int) := run (fun a b => a - b) (new exMem (fun _ => 0) fun _ => some ⟨(), none, none⟩) exOps

example : (exTree.map fun t => (getMin t, nodeNum t, t.m.root)) = some (9, 4, 4) := by decide +kernel
example : (exTree.bind fun t => successor 5 t.m 9) = some 4 := by decide +kernel
example : (exTree.bind fun t => search (fun a b => a - b) t 60) = some 5 := by decide +kernel
example : (exTree.bind fun t => search (fun a b => a - b) t 61) = some 0 := by decide +kernel
example : (specRun (fun a b : Int => a - b) (S.empty fun _ => 0) exOps).sorted = [9, 4, 7, 5] := by decide +kernel
example : (specRun (fun a b : Int => a - b) (S.empty fun _ => 0) exOps).queue = [7, 9, 4, 5] := by decide +kernel
/-- Equal keys are kept in the order of insertion. -/
example : place (fun a b : Int => a - b) (fun n => if n = 2 then 1 else n) 1 [2, 5] = [2, 1, 5] := by decide +kernel
/-- A whole iteration that deletes every second node. -/
example : (exTree.bind fun t => (iterate (handler (recorder fun n => n % 2 = 1)) 5 t []).map fun r => (r.2.1, r.2.2, nodeNum r.1)) = some ([7, 9, 4, 5], 0, 1) := by decide +kernel

end Verif.RbTree
