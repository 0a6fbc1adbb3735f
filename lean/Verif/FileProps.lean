import Verif.File
import Verif.RbTreeProps
import Verif.StrProps
import Mathlib.Data.List.Nodup
import Mathlib.Data.List.Count
import Mathlib.Data.List.Perm.Subperm
import Mathlib.Tactic.Common
/-
Properties C54, C90 and C91: the file cache of mln_file.c.
-/
set_option linter.unusedSimpArgs false

namespace Verif.File
open Verif.RbTree (Tree CmpOrd)

/-! ### Specification -/

/-- A user closes only what they hold; the allocator hands out unused memory, the system unused descriptors, and
the node of the tree is never refused. -/
def legal {P} (s : St P) (held : List (Nat × P)) : Op P → Prop
  | .opn _ e => e.addr ≠ 0 ∧ (s.free.heap e.addr) = none ∧ (∀ fd, e.fd = some fd → fd ∉ s.fds) ∧ e.nodeOk = true
  | .cls a p => (a, p) ∈ held

def legalRun {P} [DecidableEq P] (cmp : P → P → Int) (s : St P) (held : List (Nat × P)) (log : List Nat) : List (Op P) → Prop
  | [] => True
  | op :: ops => legal s held op ∧ ∀ s' held' log', step cmp s held log op = some (s', held', log') → legalRun cmp s' held' log' ops

/-- After the last close of `a`, `b` was closed. -/
def Before (log : List Nat) (a b : Nat) : Prop := ∃ l1 l2, log = l1 ++ a :: l2 ∧ a ∉ l2 ∧ b ∈ l2

/-- The file at an address. -/
def file {P} (s : St P) (a : Nat) : Option File := (s.free.heap a).map Chain.Node.data

/-! ### The invariant -/

structure Inv {P} (cmp : P → P → Int) (s : St P) (held : List (Nat × P)) (S : RbTree.S P) (idle : List Nat) : Prop where
  tree : RbTree.Inv cmp s.tree S
  iter : s.tree.iter = none
  free : Chain.IsChain s.free idle
  inj : ∀ i ∈ S.queue, ∀ j ∈ S.queue, S.data i = S.data j → i = j
  files : ∀ a, a ∈ S.queue ↔ (file s a).isSome
  nodes : ∀ a, a ∈ S.queue ↔ (s.tree.chain.heap a).isSome
  refs : ∀ a f, file s a = some f → f.refs = (held.map Prod.fst).count a
  holds : ∀ x ∈ held, x.1 ∈ S.queue ∧ S.data x.1 = x.2
  unused : ∀ a, a ∈ idle ↔ a ∈ S.queue ∧ a ∉ held.map Prod.fst
  fds : s.fds.Perm (S.queue.map fun a => ((file s a).map File.fd).getD 0)
  fdnd : s.fds.Nodup

/-- The unused files are not too many, and in the order in which they were closed. -/
structure Ord (max : Nat) (log idle : List Nat) : Prop where
  le : idle.length ≤ max
  before : idle.Pairwise (Before log)
  logged : ∀ a ∈ idle, a ∈ log

theorem before_snoc {log : List Nat} {a b c : Nat} (h : Before log a b) (hc : a ≠ c) : Before (log ++ [c]) a b := by
  obtain ⟨l1, l2, e, h1, h2⟩ := h
  exact ⟨l1, l2 ++ [c], by simp [e], by simp [h1, hc], by simp [h2]⟩

theorem before_last {log : List Nat} {a c : Nat} (h : a ∈ log) (hc : a ≠ c) : Before (log ++ [c]) a c := by
  have : ∃ l1 l2, log = l1 ++ a :: l2 ∧ a ∉ l2 := by
    induction log with
    | nil => simp at h
    | cons x l ih =>
      by_cases hm : a ∈ l
      · obtain ⟨l1, l2, e, h2⟩ := ih hm
        exact ⟨x :: l1, l2, by simp [e], h2⟩
      · rcases List.mem_cons.1 h with rfl | h
        · exact ⟨[], l, rfl, hm⟩
        · exact absurd h hm
  obtain ⟨l1, l2, e, h1⟩ := this
  exact ⟨l1, l2 ++ [c], by simp [e], by simp [h1, hc], by simp⟩

theorem isChain_upd {c : Chain.C File} {l : List Nat} (k : Chain.IsChain c l) {a : Nat} {x} (ha : a ∉ l) :
    Chain.IsChain { c with heap := c.heap.upd a x } l := by
  refine ⟨k.nodup, k.head, k.tail, Chain.seg_congr ?_ k.seg⟩
  intro b hb
  have : b ≠ a := fun e => ha (e ▸ hb)
  simp [this]

/-- Changing the payload of a node keeps the chain. -/
theorem seg_data {h : Chain.Heap File} {a : Nat} {n : Chain.Node File} (hn : h a = some n) (d : File) :
    ∀ {p l q}, Chain.Seg h p l q → Chain.Seg (h.upd a (some { n with data := d })) p l q
  | _, [], _, _ => trivial
  | p, b :: l, q, ⟨⟨d', e⟩, k⟩ => by
    refine ⟨?_, seg_data hn d k⟩
    by_cases hb : b = a
    · subst hb; rw [hn] at e; cases e; exact ⟨d, by simp⟩
    · exact ⟨d', by simp [hb, e]⟩

theorem isChain_data {c : Chain.C File} {l : List Nat} (k : Chain.IsChain c l) {a : Nat} {n : Chain.Node File} (hn : c.heap a = some n) (d : File) :
    Chain.IsChain { c with heap := c.heap.upd a (some { n with data := d }) } l :=
  ⟨k.nodup, k.head, k.tail, seg_data hn d k.seg⟩

theorem treeInv_heap {P} {cmp : P → P → Int} {t : Tree P} {S : RbTree.S P} (h : RbTree.Inv cmp t S) {a : Nat} (ha : a ∉ S.queue) (x) :
    RbTree.Inv cmp { t with chain := { t.chain with heap := t.chain.heap.upd a x } } S := by
  refine ⟨h.tree, h.data, h.sorted, h.min, h.nr, ?_, h.perm⟩
  refine ⟨h.chain.nodup, h.chain.head, h.chain.tail, Chain.seg_congr ?_ h.chain.seg⟩
  intro b hb
  have : b ≠ a := fun e => ha (e ▸ hb)
  simp [this]

theorem init_inv {P} (cmp : P → P → Int) (m : RbTree.Mem) (data : Nat → P) (max : Nat) :
    Inv cmp (init m data max) [] (RbTree.S.empty data) [] where
  tree := RbTree.new_inv cmp m data _
  iter := rfl
  free := ⟨by simp, rfl, rfl, trivial⟩
  inj := by simp [RbTree.S.empty]
  files := by simp [RbTree.S.empty, file, init]
  nodes := by simp [RbTree.S.empty, init, RbTree.new]
  refs := by simp [file, init]
  holds := by simp
  unused := by simp [RbTree.S.empty]
  fds := by simp [RbTree.S.empty, init]
  fdnd := by simp [init]

/-- `take` on a file of the cache. -/
theorem take_ok {P} {cmp : P → P → Int} {s : St P} {held : List (Nat × P)} {S : RbTree.S P} {idle : List Nat}
    (I : Inv cmp s held S idle) {a : Nat} (ha : a ∈ S.queue) :
    ∃ s', take s a = some (s', some a) ∧ s'.max = s.max ∧ s'.tree = s.tree ∧ s'.fds = s.fds ∧ Inv cmp s' ((a, S.data a) :: held) S (idle.erase a) := by
  have hf := (I.files a).1 ha
  obtain ⟨n, hn⟩ : ∃ n, s.free.heap a = some n := by
    simp only [file, Option.isSome_map] at hf
    exact Option.isSome_iff_exists.1 hf
  have hr := I.refs a n.data (by simp [file, hn])
  have key : ∀ c : Chain.C File, Chain.IsChain c (idle.erase a) →
      (∀ b, (c.heap b).map Chain.Node.data = ((s.free.heap.upd a (some { n with data := { n.data with refs := n.data.refs + 1 } })) b).map Chain.Node.data) →
      Inv cmp { s with free := c } ((a, S.data a) :: held) S (idle.erase a) := by
    intro c hc hd
    have hfile : ∀ b, file { s with free := c } b = if b = a then some { n.data with refs := n.data.refs + 1 } else file s b := by
      intro b
      rw [file, hd]
      by_cases hb : b = a <;> simp [hb, file]
    refine ⟨I.tree, I.iter, hc, I.inj, ?_, I.nodes, ?_, ?_, ?_, ?_, I.fdnd⟩
    · intro b
      rw [hfile]
      by_cases hb : b = a
      · simp [hb, ha]
      · simp only [hb, if_false]; exact I.files b
    · intro b f hbf
      rw [hfile] at hbf
      by_cases hb : b = a
      · subst hb
        simp only [if_true, Option.some.injEq] at hbf
        subst hbf
        simp [hr]
      · simp only [hb, if_false] at hbf
        rw [I.refs b f hbf]
        simp [List.count_cons, Ne.symm hb]
    · intro x hx
      rcases List.mem_cons.1 hx with rfl | hx
      · exact ⟨ha, rfl⟩
      · exact I.holds x hx
    · intro b
      rw [I.free.nodup.mem_erase_iff, I.unused]
      simp only [List.map_cons, List.mem_cons, not_or]
      tauto
    · refine I.fds.trans (List.Perm.of_eq (List.map_congr_left ?_))
      intro b hb
      rw [hfile]
      by_cases e : b = a
      · subst e; simp [file, hn]
      · simp [e]
  by_cases h0 : n.data.refs = 0
  · have hidle : a ∈ idle := by
      rw [I.unused]; refine ⟨ha, ?_⟩
      rw [h0] at hr
      exact List.count_eq_zero.1 hr.symm
    obtain ⟨c, e1, e2, e3, _⟩ := Chain.del_ok (isChain_data I.free hn { n.data with refs := n.data.refs + 1 }) a hidle
    exact ⟨{ s with free := c }, by simp only [take, hn, Option.bind_eq_bind, Option.bind_some, h0, if_true]; rw [h0] at e1; simp only [e1, Option.bind_some], rfl, rfl, rfl, key c e2 e3.2⟩
  · have hidle : a ∉ idle := by
      rw [I.unused, not_and_not_right]; intro _
      exact List.count_pos_iff.1 (by omega)
    refine ⟨{ s with free := { s.free with heap := s.free.heap.upd a (some { n with data := { n.data with refs := n.data.refs + 1 } }) } }, by simp only [take, hn, Option.bind_eq_bind, Option.bind_some, h0, if_false], rfl, rfl, rfl, key _ ?_ (fun _ => rfl)⟩
    rw [List.erase_of_not_mem hidle]
    exact isChain_data I.free hn _

theorem Ord.erase {max : Nat} {log idle : List Nat} (h : Ord max log idle) (a : Nat) : Ord max log (idle.erase a) :=
  ⟨Nat.le_trans List.length_erase_le h.le, h.before.sublist List.erase_sublist, fun b hb => h.logged b (List.mem_of_mem_erase hb)⟩

theorem Ord.snoc {max : Nat} {log idle : List Nat} {c : Nat} (h : Ord max log idle) (hc : c ∉ idle) : Ord max (log ++ [c]) idle :=
  ⟨h.le, h.before.imp_of_mem fun ha _ hab => before_snoc hab (fun e => hc (e ▸ ha)), fun b hb => by simp [h.logged b hb]⟩

/-- The new file of mln_file_open, put into the chain and into the tree. -/
theorem add_ok {P} {cmp : P → P → Int} (o : CmpOrd cmp) {s : St P} {held : List (Nat × P)} {S : RbTree.S P} {idle : List Nat}
    (I : Inv cmp s held S idle) {a fd : Nat} {p : P} (h0 : a ≠ 0) (hfree : s.free.heap a = none) (hfd : fd ∉ s.fds)
    (hp : ∀ i ∈ S.queue, S.data i ≠ p) :
    ∃ c t, Chain.add { s.free with heap := s.free.heap.upd a (some ⟨⟨fd, 0⟩, none, none⟩) } a = some c ∧
      RbTree.insert cmp (nodeNew s.tree a p) a = some t ∧
      Inv cmp { s with tree := t, free := c, fds := fd :: s.fds } held (RbTree.specStep cmp (RbTree.specStep cmp S (.assign a p)) (.insert a)) (idle ++ [a]) := by
  have hq : a ∉ S.queue := by rw [I.files, file, hfree]; simp
  have hi : a ∉ idle := by rw [I.unused]; exact fun h => hq h.1
  have hh : a ∉ held.map Prod.fst := by
    intro h
    obtain ⟨x, hx, rfl⟩ := List.mem_map.1 h
    exact hq (I.holds x hx).1
  obtain ⟨c, e1, e2, e3⟩ := Chain.add_ok (isChain_upd I.free (x := some ⟨⟨fd, 0⟩, none, none⟩) hi) a hi (by simp)
  have T1 : RbTree.Inv cmp (nodeNew s.tree a p) (RbTree.specStep cmp S (.assign a p)) :=
    treeInv_heap (RbTree.assign_ok I.tree p hq) (by exact hq) (some ⟨(), none, none⟩)
  obtain ⟨t, f1, f2, f3, f4, f5⟩ := RbTree.insert_ok o T1 h0 (by exact hq) (by simp [nodeNew])
  refine ⟨c, t, e1, f1, ?_⟩
  have hfile : ∀ b, file { s with tree := t, free := c, fds := fd :: s.fds } b = if b = a then some ⟨fd, 0⟩ else file s b := by
    intro b
    rw [file, e3.2]
    by_cases hb : b = a <;> simp [hb, file]
  have hdata : ∀ b, b ∈ S.queue → (RbTree.upd S.data a p) b = S.data b := by
    intro b hb
    have : b ≠ a := fun e => hq (e ▸ hb)
    simp [RbTree.upd, this]
  refine ⟨f2, ?_, e2, ?_, ?_, ?_, ?_, ?_, ?_, ?_, ?_⟩
  · rw [f3]; exact I.iter
  · intro i h1 j hj hij
    simp only [RbTree.specStep, List.mem_append, List.mem_singleton] at h1 hj hij
    rcases h1 with h1 | rfl <;> rcases hj with hj | rfl
    · rw [hdata i h1, hdata j hj] at hij; exact I.inj i h1 j hj hij
    · rw [hdata i h1] at hij; simp [RbTree.upd] at hij; exact absurd hij (hp i h1)
    · rw [hdata j hj] at hij; simp [RbTree.upd] at hij; exact absurd hij.symm (hp j hj)
    · rfl
  · intro b
    rw [hfile]
    simp only [RbTree.specStep, List.mem_append, List.mem_singleton]
    by_cases hb : b = a
    · simp [hb]
    · simp [hb, I.files b]
  · intro b
    simp only [RbTree.specStep, List.mem_append, List.mem_singleton]
    rw [f5]
    by_cases hb : b = a
    · simp [hb, nodeNew]
    · simp [hb, nodeNew, I.nodes b]
  · intro b f hbf
    rw [hfile] at hbf
    by_cases hb : b = a
    · subst hb
      simp only [if_true, Option.some.injEq] at hbf
      subst hbf
      exact (List.count_eq_zero.2 hh).symm
    · simp only [hb, if_false] at hbf
      exact I.refs b f hbf
  · intro x hx
    obtain ⟨h1, h2⟩ := I.holds x hx
    refine ⟨by simp [RbTree.specStep, h1], ?_⟩
    rw [← h2]; exact hdata _ h1
  · intro b
    simp only [RbTree.specStep, List.mem_append, List.mem_singleton]
    rw [I.unused]
    constructor
    · rintro (⟨h1, h2⟩ | rfl)
      · exact ⟨.inl h1, h2⟩
      · exact ⟨.inr rfl, hh⟩
    · rintro ⟨h1 | rfl, h2⟩
      · exact .inl ⟨h1, h2⟩
      · exact .inr rfl
  · simp only [RbTree.specStep, List.map_append, List.map_cons, List.map_nil]
    refine (List.Perm.cons fd I.fds).trans ?_
    refine (List.perm_append_singleton _ _).symm.trans (List.Perm.of_eq ?_)
    congr 1
    · refine List.map_congr_left fun b hb => ?_
      have : b ≠ a := fun e => hq (e ▸ hb)
      rw [hfile, if_neg this]
    · rw [hfile]; simp
  · exact List.nodup_cons.2 ⟨hfd, I.fdnd⟩

/-- What mln_file_open answers: the cached file, else a new one unless something fails. -/
theorem openF_ok {P} {cmp : P → P → Int} (o : CmpOrd cmp) (z : ∀ a b, cmp a b = 0 ↔ a = b) {s : St P} {held : List (Nat × P)} {S : RbTree.S P} {idle : List Nat}
    (I : Inv cmp s held S idle) (p : P) (e : Env) (he : legal s held (.opn p e)) :
    (∃ a ∈ S.queue, S.data a = p ∧ ∃ s', openF cmp s p e = some (s', some a) ∧ s'.max = s.max ∧ s'.tree = s.tree ∧ s'.fds = s.fds ∧ Inv cmp s' ((a, p) :: held) S (idle.erase a)) ∨
    ((∀ a ∈ S.queue, S.data a ≠ p) ∧ (e.fileOk = false ∨ e.pathOk = false ∨ e.fd = none ∨ e.statOk = false) ∧ openF cmp s p e = some (s, none)) ∨
    ((∀ a ∈ S.queue, S.data a ≠ p) ∧ ∃ fd, e.fd = some fd ∧ ∃ s' S', openF cmp s p e = some (s', some e.addr) ∧ s'.max = s.max ∧ s'.fds = fd :: s.fds ∧ S'.queue = S.queue ++ [e.addr] ∧
      Inv cmp s' ((e.addr, p) :: held) S' idle) := by
  obtain ⟨h0, hfree, hfd, hnode⟩ := he
  obtain ⟨x, e1, e2⟩ := RbTree.search_nr o I.tree p
  rcases e2 with ⟨rfl, e2⟩ | ⟨e2, e3⟩
  · have hp : ∀ a ∈ S.queue, S.data a ≠ p := fun a ha h => e2 a ha ((z _ _).2 h.symm)
    by_cases h1 : e.fileOk = false ∨ e.pathOk = false
    · refine .inr (.inl ⟨hp, ?_, ?_⟩)
      · tauto
      · simp only [openF, e1, Option.bind_eq_bind, Option.bind_some, if_true]
        rw [if_pos (by rcases h1 with h | h <;> simp [h])]
    · have h1' : (!e.fileOk || !e.pathOk) = false := by
        cases hf : e.fileOk <;> cases hg : e.pathOk <;> simp_all
      cases h2 : e.fd with
      | none =>
        refine .inr (.inl ⟨hp, by tauto, ?_⟩)
        simp [openF, e1, h1', h2]
      | some fd =>
        by_cases h3 : e.statOk = false
        · refine .inr (.inl ⟨hp, by tauto, ?_⟩)
          simp [openF, e1, h1', h2, h3]
        · have h3' : e.statOk = true := by simpa using h3
          obtain ⟨c, t, f1, f2, J⟩ := add_ok o I h0 hfree (hfd fd h2) hp
          obtain ⟨s', g1, g2, g3, g4, g5⟩ := take_ok J (a := e.addr) (by simp [RbTree.specStep])
          have hi : e.addr ∉ idle := by
            rw [I.unused, I.files, file, hfree]; simp
          refine .inr (.inr ⟨hp, fd, rfl, s', RbTree.specStep cmp (RbTree.specStep cmp S (.assign e.addr p)) (.insert e.addr), ?_, g2, g4, rfl, ?_⟩)
          · simp only [openF, e1, Option.bind_eq_bind, Option.bind_some, if_true, h1', h2, h3', hnode, f1, f2, Bool.not_true, Bool.false_eq_true, if_false]
            exact g1
          · rw [List.erase_append_right _ hi] at g5
            simpa [RbTree.specStep, RbTree.upd] using g5
  · have hp : S.data x = p := ((z _ _).1 e3).symm
    obtain ⟨s', g1, g2, g3, g4, g5⟩ := take_ok I e2
    refine .inl ⟨x, e2, hp, s', ?_, g2, g3, g4, ?_⟩
    · simp only [openF, e1, Option.bind_eq_bind, Option.bind_some, if_neg (I.tree.nz e2)]
      exact g1
    · rw [← hp]; exact g5

/-- The account after a close. -/
theorem count_erase {P} [DecidableEq P] {held : List (Nat × P)} {a : Nat} {p : P} (h : (a, p) ∈ held) (b : Nat) :
    (held.map Prod.fst).count b = ((held.erase (a, p)).map Prod.fst).count b + if a = b then 1 else 0 := by
  have := ((List.perm_cons_erase h).map Prod.fst).count_eq b
  rw [this, List.map_cons, List.count_cons]
  simp

theorem release_ok {P} [DecidableEq P] {cmp : P → P → Int} {s : St P} {held : List (Nat × P)} {S : RbTree.S P} {idle idle' : List Nat}
    (I : Inv cmp s held S idle) {a : Nat} {p : P} (ha : (a, p) ∈ held) {n : Chain.Node File} (hn : s.free.heap a = some n) {c : Chain.C File} (hc : Chain.IsChain c idle')
    (hd : ∀ b, (c.heap b).map Chain.Node.data = ((s.free.heap.upd a (some { n with data := { n.data with refs := n.data.refs - 1 } })) b).map Chain.Node.data)
    (hidle : ∀ b, b ∈ idle' ↔ b ∈ S.queue ∧ b ∉ (held.erase (a, p)).map Prod.fst) :
    Inv cmp { s with free := c } (held.erase (a, p)) S idle' := by
  have hfile : ∀ b, file { s with free := c } b = if b = a then some { n.data with refs := n.data.refs - 1 } else file s b := by
    intro b
    rw [file, hd]
    by_cases hb : b = a <;> simp [hb, file]
  have haq := (I.holds _ ha).1
  refine ⟨I.tree, I.iter, hc, I.inj, ?_, I.nodes, ?_, ?_, hidle, ?_, I.fdnd⟩
  · intro b
    rw [hfile]
    by_cases hb : b = a
    · subst hb; simpa using haq
    · simp only [hb, if_false]; exact I.files b
  · intro b f hbf
    rw [hfile] at hbf
    have hcount := count_erase ha b
    by_cases hb : b = a
    · subst hb
      simp only [if_true, Option.some.injEq] at hbf
      subst hbf
      have := I.refs b n.data (by simp [file, hn])
      simp only [if_true] at hcount
      show n.data.refs - 1 = _
      omega
    · simp only [hb, if_false] at hbf
      rw [I.refs b f hbf, hcount, if_neg (Ne.symm hb)]
      rfl
  · intro x hx
    exact I.holds x (List.mem_of_mem_erase hx)
  · refine I.fds.trans (List.Perm.of_eq (List.map_congr_left ?_))
    intro b hb
    rw [hfile]
    by_cases e : b = a
    · subst e; simp [file, hn]
    · simp [e]

/-- The eviction of mln_file_close. -/
theorem evict_ok {P} {cmp : P → P → Int} {s : St P} {held : List (Nat × P)} {S : RbTree.S P} {v : Nat} {rest : List Nat}
    (I : Inv cmp s held S (v :: rest)) :
    ∃ c t s' f, s.free.head = some v ∧ Chain.del s.free v = some c ∧ RbTree.delete s.tree v = some t ∧ dispose { s with tree := t, free := c } v = some s' ∧
      file s v = some f ∧ f.fd ∈ s.fds ∧ s'.max = s.max ∧ s'.fds = s.fds.erase f.fd ∧
      Inv cmp s' held (RbTree.specStep cmp S (.delete v)) rest := by
  obtain ⟨hv, hvh⟩ := (I.unused v).1 (by simp)
  obtain ⟨c, e1, e2, e3, d, e4⟩ := Chain.del_ok I.free v (by simp)
  rw [List.erase_cons_head] at e2
  obtain ⟨t, f1, f2, f3, f4, f5⟩ := RbTree.delete_ok I.tree hv
  obtain ⟨f, hf⟩ := Option.isSome_iff_exists.1 ((I.files v).1 hv)
  have hdf : d = f := by
    have := e3.2 v
    rw [e4] at this
    rw [file, ← this] at hf
    simpa using hf
  subst hdf
  have hvr : v ∉ rest := (List.nodup_cons.1 I.free.nodup).1
  have hqn := I.tree.chain.nodup
  have hq : ∀ b, b ∈ S.queue.erase v ↔ b ≠ v ∧ b ∈ S.queue := fun b => hqn.mem_erase_iff
  have hmem : d.fd ∈ s.fds := I.fds.mem_iff.2 (List.mem_map.2 ⟨v, hv, by simp [hf]⟩)
  refine ⟨c, t, { s with tree := { t with chain := { t.chain with heap := t.chain.heap.upd v none } }, free := { c with heap := c.heap.upd v none }, fds := s.fds.erase d.fd }, d, I.free.head, e1, f1, by simp [dispose, e4], hf, hmem, rfl, rfl, ?_⟩
  have hfile : ∀ b, ((c.heap.upd v none) b).map Chain.Node.data = if b = v then none else file s b := by
    intro b
    by_cases hb : b = v
    · simp [hb]
    · simp only [Chain.Heap.upd_apply, if_neg hb]; exact e3.2 b
  have hvS : v ∉ (RbTree.specStep cmp S (.delete v)).queue := by
    show v ∉ S.queue.erase v
    rw [hq]; simp
  refine ⟨treeInv_heap f2 hvS none, ?_, isChain_upd e2 hvr, ?_, ?_, ?_, ?_, ?_, ?_, ?_, I.fdnd.erase _⟩
  · show t.iter = none
    rw [f3, I.iter]; simp
  · intro i hi j hj hij
    exact I.inj i ((hq i).1 hi).2 j ((hq j).1 hj).2 hij
  · intro b
    show b ∈ S.queue.erase v ↔ (((c.heap.upd v none) b).map Chain.Node.data).isSome
    rw [hfile, hq]
    by_cases hb : b = v
    · simp [hb]
    · simp [hb, I.files b]
  · intro b
    show b ∈ S.queue.erase v ↔ ((t.chain.heap.upd v none) b).isSome
    rw [hq]
    by_cases hb : b = v
    · simp [hb]
    · simp [hb, f5, I.nodes b]
  · intro b g hbg
    change ((c.heap.upd v none) b).map Chain.Node.data = some g at hbg
    rw [hfile] at hbg
    by_cases hb : b = v
    · simp [hb] at hbg
    · simp only [hb, if_false] at hbg
      exact I.refs b g hbg
  · intro x hx
    obtain ⟨h1, h2⟩ := I.holds x hx
    refine ⟨(hq _).2 ⟨?_, h1⟩, h2⟩
    intro e
    exact hvh (e ▸ List.mem_map.2 ⟨x, hx, rfl⟩)
  · intro b
    show b ∈ rest ↔ b ∈ S.queue.erase v ∧ _
    rw [hq]
    have := I.unused b
    simp only [List.mem_cons] at this
    constructor
    · intro hb
      have h2 := this.1 (.inr hb)
      exact ⟨⟨fun e => hvr (e ▸ hb), h2.1⟩, h2.2⟩
    · rintro ⟨⟨h1, h2⟩, h3⟩
      rcases this.2 ⟨h2, h3⟩ with h | h
      · exact absurd h h1
      · exact h
  · show (s.fds.erase d.fd).Perm ((S.queue.erase v).map fun a => ((((c.heap.upd v none) a).map Chain.Node.data).map File.fd).getD 0)
    have hm : (S.queue.erase v).map (fun a => ((((c.heap.upd v none) a).map Chain.Node.data).map File.fd).getD 0) = (S.queue.erase v).map (fun a => ((file s a).map File.fd).getD 0) := by
      refine List.map_congr_left fun b hb => ?_
      rw [hfile, if_neg ((hq b).1 hb).1]
    rw [hm]
    refine (List.perm_cons d.fd).1 ?_
    refine (List.perm_cons_erase hmem).symm.trans (I.fds.trans ?_)
    refine ((List.perm_cons_erase hv).map _).trans (List.Perm.of_eq ?_)
    rw [List.map_cons, hf]
    rfl

/-- What mln_file_close does with a handle the user holds. -/
theorem closeF_ok {P} [DecidableEq P] {cmp : P → P → Int} {s : St P} {held : List (Nat × P)} {S : RbTree.S P} {idle log : List Nat}
    (I : Inv cmp s held S idle) (O : Ord s.max log idle) {a : Nat} {p : P} (ha : (a, p) ∈ held) :
    ∃ s' S' idle', closeF s a = some s' ∧ s'.max = s.max ∧ Inv cmp s' (held.erase (a, p)) S' idle' ∧ Ord s'.max (log ++ [a]) idle' ∧
      ((a ∈ (held.erase (a, p)).map Prod.fst ∧ S' = S ∧ idle' = idle ∧ s'.fds = s.fds) ∨
       (a ∉ (held.erase (a, p)).map Prod.fst ∧ S.queue.length ≤ s.max ∧ S' = S ∧ idle' = idle ++ [a] ∧ s'.fds = s.fds) ∨
       (a ∉ (held.erase (a, p)).map Prod.fst ∧ s.max < S.queue.length ∧ ∃ v f, idle ++ [a] = v :: idle' ∧ file s v = some f ∧ f.fd ∈ s.fds ∧ s'.fds = s.fds.erase f.fd ∧ S'.queue = S.queue.erase v)) := by
  have haq := (I.holds _ ha).1
  have hf := (I.files a).1 haq
  obtain ⟨n, hn⟩ : ∃ n, s.free.heap a = some n := by
    simp only [file, Option.isSome_map] at hf
    exact Option.isSome_iff_exists.1 hf
  have hr := I.refs a n.data (by simp [file, hn])
  have hc := count_erase ha a
  rw [if_pos rfl] at hc
  have hai : a ∉ idle := by
    rw [I.unused]; exact fun h => h.2 (List.mem_map.2 ⟨_, ha, rfl⟩)
  have hr0 : n.data.refs ≠ 0 := by omega
  have hmem : ∀ b, b ≠ a → (b ∈ (held.erase (a, p)).map Prod.fst ↔ b ∈ held.map Prod.fst) := by
    intro b hb
    have := count_erase ha b
    rw [if_neg (Ne.symm hb), Nat.add_zero] at this
    rw [← List.count_pos_iff, ← List.count_pos_iff, this]
  by_cases h1 : n.data.refs - 1 > 0
  · have hm : a ∈ (held.erase (a, p)).map Prod.fst := List.count_pos_iff.1 (by omega)
    refine ⟨{ s with free := { s.free with heap := s.free.heap.upd a (some { n with data := { n.data with refs := n.data.refs - 1 } }) } }, S, idle, ?_, rfl, ?_, O.snoc hai, .inl ⟨hm, rfl, rfl, rfl⟩⟩
    · simp only [closeF, hn, Option.bind_eq_bind, Option.bind_some, hr0, if_false, h1, if_true]
    · refine release_ok I ha hn (isChain_data I.free hn _) (fun _ => rfl) ?_
      intro b
      by_cases hb : b = a
      · subst hb; simp only [hai, false_iff]; exact fun h => h.2 hm
      · rw [hmem b hb]; exact I.unused b
  · have hm : a ∉ (held.erase (a, p)).map Prod.fst := by
      rw [← List.count_eq_zero]; omega
    obtain ⟨c, e1, e2, e3⟩ := Chain.add_ok (isChain_data I.free hn { n.data with refs := n.data.refs - 1 }) a hai (by simp)
    have J : Inv cmp { s with free := c } (held.erase (a, p)) S (idle ++ [a]) := by
      refine release_ok I ha hn e2 e3.2 ?_
      intro b
      by_cases hb : b = a
      · subst hb; simp [haq, hm]
      · rw [hmem b hb]; simp only [List.mem_append, List.mem_singleton, hb, or_false]; exact I.unused b
    have O1 := O.snoc hai
    have hB : (idle ++ [a]).Pairwise (Before (log ++ [a])) := by
      rw [List.pairwise_append]
      refine ⟨O1.before, by simp, ?_⟩
      intro x hx y hy
      rw [List.mem_singleton] at hy; subst hy
      exact before_last (O.logged x hx) (fun e => hai (e ▸ hx))
    have hL : ∀ b ∈ idle ++ [a], b ∈ log ++ [a] := by
      intro b hb
      rw [List.mem_append] at hb ⊢
      exact hb.imp (O.logged b) id
    have hnum : RbTree.nodeNum s.tree = S.queue.length := I.tree.nr.trans I.tree.perm.length_eq
    by_cases h2 : RbTree.nodeNum s.tree > s.max
    · obtain ⟨v, rest, hvr⟩ : ∃ v rest, idle ++ [a] = v :: rest := by
        cases idle <;> simp
      rw [hvr] at J hB hL
      obtain ⟨c2, t, s', f, g1, g2, g3, g4, g5, g6, g7, g8, K⟩ := evict_ok J
      have hrest : rest.length = idle.length := by
        have := congrArg List.length hvr
        simpa using this.symm
      have hfv : ∃ f', file s v = some f' ∧ f'.fd = f.fd := by
        rw [file, show ({ s with free := c } : St P).free.heap = c.heap from rfl, e3.2] at g5
        by_cases hva : v = a
        · subst hva
          simp only [Chain.Heap.upd_apply, if_true, Option.map_some, Option.some.injEq] at g5
          exact ⟨n.data, by simp [file, hn], by rw [← g5]⟩
        · simp only [Chain.Heap.upd_apply, if_neg hva] at g5
          exact ⟨f, g5, rfl⟩
      obtain ⟨f', k1, k2⟩ := hfv
      refine ⟨s', _, rest, ?_, g7, K, ⟨?_, (List.pairwise_cons.1 hB).2, fun b hb => hL b (by simp [hb])⟩, .inr (.inr ⟨hm, by omega, v, f', hvr, k1, by rw [k2]; exact g6, by rw [k2]; exact g8, rfl⟩)⟩
      · simp only [closeF, hn, Option.bind_eq_bind, Option.bind_some, hr0, if_false, h1, e1, h2, if_true]
        simp only at g1 g2 g3
        simp only [g1, Option.bind_some, g2, g3]
        exact g4
      · rw [g7, hrest]; exact O.le
    · refine ⟨{ s with free := c }, S, idle ++ [a], ?_, rfl, J, ⟨?_, hB, hL⟩, .inr (.inl ⟨hm, by omega, rfl, rfl, rfl⟩)⟩
      · simp only [closeF, hn, Option.bind_eq_bind, Option.bind_some, hr0, if_false, h1, e1, h2]
      · show (idle ++ [a]).length ≤ s.max
        have hsub : (idle ++ [a]).Subperm S.queue := List.subperm_of_subset J.free.nodup fun b hb => ((J.unused b).1 hb).1
        have := hsub.length_le
        omega

/-- Every legal history succeeds and keeps the invariant. -/
theorem run_ok {P} [DecidableEq P] {cmp : P → P → Int} (o : CmpOrd cmp) (z : ∀ a b, cmp a b = 0 ↔ a = b) :
    ∀ (ops : List (Op P)) {s : St P} {held : List (Nat × P)} {log : List Nat} {S : RbTree.S P} {idle : List Nat},
      Inv cmp s held S idle → Ord s.max log idle → legalRun cmp s held log ops →
      ∃ s' held' log' S' idle', run cmp s held log ops = some (s', held', log') ∧ s'.max = s.max ∧ Inv cmp s' held' S' idle' ∧ Ord s'.max log' idle'
  | [], s, held, log, S, idle, I, O, _ => ⟨s, held, log, S, idle, rfl, rfl, I, O⟩
  | .opn p e :: ops, s, held, log, S, idle, I, O, ⟨hl, hls⟩ => by
    rcases openF_ok o z I p e hl with ⟨a, _, _, s', e1, e2, _, _, J⟩ | ⟨_, _, e1⟩ | ⟨_, fd, _, s', S', e1, e2, _, _, J⟩
    · have hs : step cmp s held log (.opn p e) = some (s', (a, p) :: held, log) := by simp [step, e1]
      obtain ⟨s2, h2, l2, S2, i2, f1, f2, f3, f4⟩ := run_ok o z ops J (by rw [e2]; exact O.erase a) (hls _ _ _ hs)
      exact ⟨s2, h2, l2, S2, i2, by simp only [run, hs, Option.bind_eq_bind, Option.bind_some]; exact f1, f2.trans e2, f3, f4⟩
    · have hs : step cmp s held log (.opn p e) = some (s, held, log) := by simp [step, e1]
      obtain ⟨s2, h2, l2, S2, i2, f1, f2, f3, f4⟩ := run_ok o z ops I O (hls _ _ _ hs)
      exact ⟨s2, h2, l2, S2, i2, by simp only [run, hs, Option.bind_eq_bind, Option.bind_some]; exact f1, f2, f3, f4⟩
    · have hs : step cmp s held log (.opn p e) = some (s', (e.addr, p) :: held, log) := by simp [step, e1]
      obtain ⟨s2, h2, l2, S2, i2, f1, f2, f3, f4⟩ := run_ok o z ops J (by rw [e2]; exact O) (hls _ _ _ hs)
      exact ⟨s2, h2, l2, S2, i2, by simp only [run, hs, Option.bind_eq_bind, Option.bind_some]; exact f1, f2.trans e2, f3, f4⟩
  | .cls a p :: ops, s, held, log, S, idle, I, O, ⟨hl, hls⟩ => by
    obtain ⟨s', S', idle', e1, e2, J, O', _⟩ := closeF_ok I O hl
    have hs : step cmp s held log (.cls a p) = some (s', held.erase (a, p), log ++ [a]) := by simp [step, e1]
    obtain ⟨s2, h2, l2, S2, i2, f1, f2, f3, f4⟩ := run_ok o z ops J O' (hls _ _ _ hs)
    exact ⟨s2, h2, l2, S2, i2, by simp only [run, hs, Option.bind_eq_bind, Option.bind_some]; exact f1, f2.trans e2, f3, f4⟩

/-! ### The paths -/

/-- A path of 7-bit characters. -/
structure Path where
  bytes : List Str.Byte
  ascii : Str.Ascii bytes
deriving DecidableEq

/-- mln_file_set_cmp on such paths. -/
def cmpP (a b : Path) : Int := cmp a.bytes b.bytes

theorem cmpP_zero (a b : Path) : cmpP a b = 0 ↔ a = b := by
  obtain ⟨r, e, h⟩ := Str.strcmp_zero a.1 b.1
  rw [cmpP, cmp, e, Option.getD_some, h]
  exact ⟨fun h => by cases a; cases b; cases h; rfl, fun h => by rw [h]⟩

theorem cmpP_lt (a b : Path) : (cmpP a b < 0 ↔ Str.Lex (Str.key a.1) (Str.key b.1)) ∧ (0 < cmpP a b ↔ Str.Lex (Str.key b.1) (Str.key a.1)) := by
  obtain ⟨r, e, h⟩ := Str.strcmp_key_partial a.1 b.1 a.2 b.2
  rw [cmpP, cmp, e, Option.getD_some]
  exact h

theorem cmpP_ord : CmpOrd cmpP where
  sign a b := by rw [(cmpP_lt a b).1, (cmpP_lt b a).2]
  trans a b c h1 h2 := by
    rcases Int.lt_or_eq_of_le h1 with h1 | h1
    · rcases Int.lt_or_eq_of_le h2 with h2 | h2
      · exact Int.le_of_lt ((cmpP_lt a c).1.2 (((cmpP_lt a b).1.1 h1).trans ((cmpP_lt b c).1.1 h2)))
      · rw [← (cmpP_zero b c).1 h2]; omega
    · rw [(cmpP_zero a b).1 h1]; exact h2

/-! ### C54 -/

/-- What the cache looks like after a history. -/
structure Good {P} (cmp : P → P → Int) (s : St P) (held : List (Nat × P)) (log : List Nat) : Prop where
  /-- a file that is held is cached under the path it was opened with, its descriptor is open, its count is right -/
  holds : ∀ x ∈ held, RbTree.search cmp s.tree x.2 = some x.1 ∧ ∃ f, file s x.1 = some f ∧ f.fd ∈ s.fds ∧ f.refs = (held.map Prod.fst).count x.1
  /-- the cached files are those of the tree; there is one for each path; their descriptors are the open ones;
  the unused files are those of the chain, at most `max`, in the order in which they were closed -/
  cache : ∃ cached idle : List Nat, RbTree.InOrder s.tree.m s.tree.m.root cached ∧ cached.Nodup ∧ (cached.map s.tree.data).Nodup ∧
    s.fds.Nodup ∧ s.fds.Perm (cached.map fun a => ((file s a).map File.fd).getD 0) ∧ (∀ a, a ∈ cached ↔ (file s a).isSome) ∧
    Chain.Walk Chain.Node.next s.free.heap s.free.head idle ∧ (∀ a, a ∈ idle ↔ a ∈ cached ∧ a ∉ held.map Prod.fst) ∧
    idle.length ≤ s.max ∧ idle.Pairwise (Before log)

theorem Inv.good {P} {cmp : P → P → Int} (o : CmpOrd cmp) (z : ∀ a b, cmp a b = 0 ↔ a = b) {s : St P} {held : List (Nat × P)} {log : List Nat} {S : RbTree.S P} {idle : List Nat}
    (I : Inv cmp s held S idle) (O : Ord s.max log idle) : Good cmp s held log := by
  refine ⟨?_, S.sorted, idle, ?_, I.tree.perm.nodup_iff.2 I.tree.chain.nodup, ?_, I.fdnd, I.fds.trans (I.tree.perm.symm.map _), ?_, (Chain.isChain_iff_walks I.free).1, ?_, O.le, O.before⟩
  · intro x hx
    obtain ⟨h1, h2⟩ := I.holds x hx
    obtain ⟨f, hf⟩ := Option.isSome_iff_exists.1 ((I.files x.1).1 h1)
    refine ⟨?_, f, hf, I.fds.mem_iff.2 (List.mem_map.2 ⟨x.1, h1, by simp [hf]⟩), I.refs _ _ hf⟩
    obtain ⟨y, e1, e2⟩ := RbTree.search_nr o I.tree x.2
    rw [e1]
    rcases e2 with ⟨_, e2⟩ | ⟨e2, e3⟩
    · exact absurd ((z _ _).2 h2.symm) (e2 x.1 h1)
    · rw [I.inj y e2 x.1 h1 (by rw [h2, (z _ _).1 e3])]
  · obtain ⟨t, hz, _, ex⟩ := I.tree.tree
    rw [hz.root, ← ex]
    exact RbTree.inOrder_rep hz.rep
  · rw [I.tree.data]
    refine List.Nodup.map_on ?_ (I.tree.perm.nodup_iff.2 I.tree.chain.nodup)
    intro i hi j hj hij
    exact I.inj i (I.tree.mem.1 hi) j (I.tree.mem.1 hj) hij
  · intro a
    rw [I.tree.mem]; exact I.files a
  · intro a
    rw [I.tree.mem]; exact I.unused a

/-- After every history of opens and closes of 7-bit paths in which the node of the tree is never refused: nothing
is undefined, and the cache is as `Good` says.  Missing: other paths and a refused node, where it is false
(`path_cached_twice`, `refused_node_dangles`). -/
theorem file_cache_partial (m : RbTree.Mem) (data : Nat → Path) (max : Nat) (ops : List (Op Path)) (hl : legalRun cmpP (init m data max) [] [] ops) :
    ∃ s held log, run cmpP (init m data max) [] [] ops = some (s, held, log) ∧ s.max = max ∧ Good cmpP s held log := by
  obtain ⟨s, held, log, S, idle, e1, e2, I, O⟩ := run_ok cmpP_ord cmpP_zero ops (init_inv cmpP m data max) ⟨by simp, by simp, by simp⟩ hl
  exact ⟨s, held, log, e1, e2, I.good cmpP_ord cmpP_zero O⟩

/-! ### C90 -/

/-- After any such history, mln_file_open of a cached path gives the cached file and opens no descriptor; of another
path it gives a new file, or fails and leaves the cache alone. -/
theorem file_open_answers (m : RbTree.Mem) (data : Nat → Path) (max : Nat) (ops : List (Op Path)) (hl : legalRun cmpP (init m data max) [] [] ops) :
    ∃ s held log, run cmpP (init m data max) [] [] ops = some (s, held, log) ∧ ∀ p e, legal s held (.opn p e) →
      (∃ a s', (file s a).isSome ∧ s.tree.data a = p ∧ openF cmpP s p e = some (s', some a) ∧ s'.fds = s.fds) ∨
      ((∀ a, (file s a).isSome → s.tree.data a ≠ p) ∧ (e.fileOk = false ∨ e.pathOk = false ∨ e.fd = none ∨ e.statOk = false) ∧ openF cmpP s p e = some (s, none)) ∨
      ((∀ a, (file s a).isSome → s.tree.data a ≠ p) ∧ ∃ fd s', e.fd = some fd ∧ openF cmpP s p e = some (s', some e.addr) ∧ s'.fds = fd :: s.fds) := by
  obtain ⟨s, held, log, S, idle, e1, e2, I, O⟩ := run_ok cmpP_ord cmpP_zero ops (init_inv cmpP m data max) ⟨by simp, by simp, by simp⟩ hl
  refine ⟨s, held, log, e1, ?_⟩
  intro p e he
  rw [I.tree.data]
  rcases openF_ok cmpP_ord cmpP_zero I p e he with ⟨a, h1, h2, s', h3, _, _, h4, _⟩ | ⟨h1, h2, h3⟩ | ⟨h1, fd, h2, s', S', h3, _, h4, _, _⟩
  · exact .inl ⟨a, s', (I.files a).1 h1, h2, h3, h4⟩
  · exact .inr (.inl ⟨fun a ha => h1 a ((I.files a).2 ha), h2, h3⟩)
  · exact .inr (.inr ⟨fun a ha => h1 a ((I.files a).2 ha), fd, s', h2, h3, h4⟩)

/-- After any such history, mln_file_close of a held file closes no descriptor while the file is still held
elsewhere or the cache has room; else it closes exactly one, that of the unused file whose last close is oldest
(the file that is closed now counts as unused and is the youngest). -/
theorem file_close_evicts (m : RbTree.Mem) (data : Nat → Path) (max : Nat) (ops : List (Op Path)) (hl : legalRun cmpP (init m data max) [] [] ops) :
    ∃ s held log, run cmpP (init m data max) [] [] ops = some (s, held, log) ∧ ∀ a p, (a, p) ∈ held →
      ∃ s', closeF s a = some s' ∧
        ((a ∈ (held.erase (a, p)).map Prod.fst ∨ s.fds.length ≤ max) ∧ s'.fds = s.fds ∨
         (a ∉ (held.erase (a, p)).map Prod.fst ∧ max < s.fds.length ∧ ∃ v f, file s v = some f ∧ f.fd ∈ s.fds ∧ s'.fds = s.fds.erase f.fd ∧ file s' v = none ∧
           v ∉ (held.erase (a, p)).map Prod.fst ∧
           ∀ w, w ≠ v → (file s w).isSome → w ∉ (held.erase (a, p)).map Prod.fst → Before (log ++ [a]) v w)) := by
  obtain ⟨s, held, log, S, idle, e1, e2, I, O⟩ := run_ok cmpP_ord cmpP_zero ops (init_inv cmpP m data max) ⟨by simp, by simp, by simp⟩ hl
  refine ⟨s, held, log, e1, ?_⟩
  intro a p ha
  obtain ⟨s', S', idle', f1, f2, J, O', f3⟩ := closeF_ok I O ha
  refine ⟨s', f1, ?_⟩
  have hlen : s.fds.length = S.queue.length := by rw [I.fds.length_eq, List.length_map]
  have hmax : s.max = max := e2
  rcases f3 with ⟨h1, _, _, h2⟩ | ⟨h1, h2, _, _, h3⟩ | ⟨h1, h2, v, f, h3, h4, h5, h6, h7⟩
  · exact .inl ⟨.inl h1, h2⟩
  · exact .inl ⟨.inr (by omega), h3⟩
  · have hai : a ∉ idle := by
      rw [I.unused]; exact fun h => h.2 (List.mem_map.2 ⟨_, ha, rfl⟩)
    have hB : (idle ++ [a]).Pairwise (Before (log ++ [a])) := by
      rw [List.pairwise_append]
      refine ⟨(O.snoc hai).before, by simp, ?_⟩
      intro x hx y hy
      rw [List.mem_singleton] at hy; subst hy
      exact before_last (O.logged x hx) (fun e => hai (e ▸ hx))
    have hmem : ∀ w, w ∈ idle ++ [a] ↔ (file s w).isSome ∧ w ∉ (held.erase (a, p)).map Prod.fst := by
      intro w
      rw [← I.files]
      have hc := count_erase ha w
      by_cases hw : w = a
      · subst hw; simp only [List.mem_append, List.mem_singleton, or_true, true_iff]; exact ⟨(I.holds _ ha).1, h1⟩
      · rw [if_neg (Ne.symm hw), Nat.add_zero] at hc
        have : w ∈ (held.erase (a, p)).map Prod.fst ↔ w ∈ held.map Prod.fst := by rw [← List.count_pos_iff, ← List.count_pos_iff, hc]
        rw [this]
        simp only [List.mem_append, List.mem_singleton, hw, or_false]; exact I.unused w
    rw [h3] at hB hmem
    refine .inr ⟨h1, by omega, v, f, h4, h5, h6, ?_, ((hmem v).1 (by simp)).2, ?_⟩
    · have : v ∉ S'.queue := by rw [h7, I.tree.chain.nodup.mem_erase_iff]; simp
      rw [J.files] at this
      simpa using this
    · intro w hw hwf hwh
      rcases List.mem_cons.1 ((hmem w).2 ⟨hwf, hwh⟩) with h | h
      · exact absurd h hw
      · exact (List.pairwise_cons.1 hB).1 w h

/-! ### C91 -/

theorem dispose_last {P} : ∀ (l : List Nat) {s : St P} (k : Nat), l.length < k → Chain.IsChain s.tree.chain l → s.fds.Perm (l.map fun a => ((file s a).map File.fd).getD 0) → (∀ a ∈ l, (file s a).isSome) →
    ∃ s', destroy k s = some s' ∧ s'.fds = [] := by
  intro l
  induction hn : l.length generalizing l with
  | zero =>
    intro s k hk hc hp _
    rw [List.length_eq_zero_iff] at hn; subst hn
    obtain ⟨k, rfl⟩ : ∃ j, k = j + 1 := ⟨k - 1, by omega⟩
    refine ⟨s, ?_, by simpa using hp⟩
    rw [destroy, hc.tail]; rfl
  | succ n ih =>
    intro s k hk hc hp hs
    obtain ⟨k, rfl⟩ : ∃ j, k = j + 1 := ⟨k - 1, by omega⟩
    obtain ⟨l0, v, rfl⟩ : ∃ l0 v, l = l0 ++ [v] := by
      rcases List.eq_nil_or_concat l with h | ⟨l0, v, h⟩
      · simp [h] at hn
      · exact ⟨l0, v, by simpa using h⟩
    have hv0 : v ∉ l0 := by
      have := hc.nodup
      rw [List.nodup_append] at this
      exact fun h => this.2.2 v h v (by simp) rfl
    obtain ⟨c, e1, e2, e3, _⟩ := Chain.del_ok hc v (by simp)
    rw [List.erase_append_right _ hv0, List.erase_cons_head, List.append_nil] at e2
    obtain ⟨f, hf⟩ := Option.isSome_iff_exists.1 (hs v (by simp))
    obtain ⟨nd, hnd⟩ : ∃ nd, s.free.heap v = some nd := by
      cases h : s.free.heap v with
      | none => simp [file, h] at hf
      | some nd => exact ⟨nd, rfl⟩
    have hfd : nd.data = f := by simpa [file, hnd] using hf
    let s1 : St P := { s with
      fds := s.fds.erase nd.data.fd
      free := { s.free with heap := s.free.heap.upd v none }
      tree := { s.tree with chain := { c with heap := c.heap.upd v none } } }
    have hfile : ∀ a ∈ l0, file s1 a = file s a := by
      intro a ha
      have : a ≠ v := fun e => hv0 (e ▸ ha)
      simp [file, s1, this]
    have hA : Chain.IsChain s1.tree.chain l0 := by
      refine ⟨e2.nodup, e2.head, e2.tail, Chain.seg_congr ?_ e2.seg⟩
      intro b hb
      have : b ≠ v := fun e => hv0 (e ▸ hb)
      simp [s1, this]
    have hB : s1.fds.Perm (l0.map fun a => ((file s1 a).map File.fd).getD 0) := by
      show (s.fds.erase nd.data.fd).Perm _
      have h1 : l0.map (fun a => ((file s1 a).map File.fd).getD 0) = l0.map (fun a => ((file s a).map File.fd).getD 0) :=
        List.map_congr_left fun a ha => by rw [hfile a ha]
      rw [h1, hfd]
      have h2 : s.fds.Perm (f.fd :: l0.map (fun a => ((file s a).map File.fd).getD 0)) := by
        refine hp.trans ?_
        rw [List.map_append, List.map_cons, List.map_nil, hf]
        exact List.perm_append_singleton _ _
      have := h2.erase f.fd
      rwa [List.erase_cons_head] at this
    have hC : ∀ a ∈ l0, (file s1 a).isSome := by
      intro a ha
      rw [hfile a ha]; exact hs a (by simp [ha])
    obtain ⟨s', g1, g2⟩ := ih l0 (by simpa using hn) (s := s1) k (by simp at hk; omega) hA hB hC
    refine ⟨s', ?_, g2⟩
    rw [destroy, hc.tail, Chain.lastOr_concat]
    simp only [e1, Option.bind_eq_bind, Option.bind_some, dispose, hnd]
    exact g1

/-- After any such history mln_fileset_destroy closes every descriptor, also of the files still held. -/
theorem file_destroy_closes (m : RbTree.Mem) (data : Nat → Path) (max : Nat) (ops : List (Op Path)) (hl : legalRun cmpP (init m data max) [] [] ops) :
    ∃ s held log, run cmpP (init m data max) [] [] ops = some (s, held, log) ∧ ∃ s', destroy (s.fds.length + 1) s = some s' ∧ s'.fds = [] := by
  obtain ⟨s, held, log, S, idle, e1, e2, I, O⟩ := run_ok cmpP_ord cmpP_zero ops (init_inv cmpP m data max) ⟨by simp, by simp, by simp⟩ hl
  exact ⟨s, held, log, e1, dispose_last S.queue _ (by rw [I.fds.length_eq, List.length_map]; omega) I.tree.chain I.fds fun a ha => (I.files a).1 ha⟩

/-! ### Refutations -/

/-- Whatever the state of the cache: if the node of the tree is refused during the opening of a file, that call fails
in order, but the next opening of a file that is not cached (and whose memory is not by chance the memory just
freed) uses freed memory. -/
theorem refused_node_dangles {P} (cmp : P → P → Int) (s s1 : St P) (p q : P) (e e' : Env) (hp : RbTree.search cmp s.tree p = some 0)
    (he : e.fileOk = true ∧ e.pathOk = true ∧ e.fd.isSome ∧ e.statOk = true ∧ e.nodeOk = false)
    (h1 : openF cmp s p e = some (s1, none))
    (hq : RbTree.search cmp s.tree q = some 0) (he' : e'.fileOk = true ∧ e'.pathOk = true ∧ e'.fd.isSome ∧ e'.statOk = true) (ha : e'.addr ≠ e.addr) :
    s1.fds = s.fds ∧ openF cmp s1 q e' = none := by
  obtain ⟨a1, a2, a3, a4, a5⟩ := he
  obtain ⟨b1, b2, b3, b4⟩ := he'
  obtain ⟨fd, hfd⟩ := Option.isSome_iff_exists.1 a3
  obtain ⟨fd', hfd'⟩ := Option.isSome_iff_exists.1 b3
  simp only [openF, hp, Option.bind_eq_bind, Option.bind_some, if_true, a1, a2, hfd, a4, a5, Bool.not_true, Bool.or_self, Bool.false_eq_true, if_false, Bool.not_false] at h1
  cases hadd : Chain.add { s.free with heap := s.free.heap.upd e.addr (some ⟨⟨fd, 0⟩, none, none⟩) } e.addr with
  | none => simp [hadd] at h1
  | some c =>
    simp only [hadd, Option.bind_some, Option.some.injEq, Prod.mk.injEq, and_true] at h1
    subst h1
    have hc : c.head ≠ none ∧ c.tail = some e.addr := by
      simp only [Chain.add, Option.bind_eq_bind] at hadd
      rw [Option.bind_eq_some_iff] at hadd
      obtain ⟨h, _, hadd⟩ := hadd
      by_cases hh : s.free.head = none
      · rw [if_pos hh, Option.bind_eq_some_iff] at hadd
        obtain ⟨h', _, hadd⟩ := hadd
        cases hadd
        simp
      · rw [if_neg hh, Option.bind_eq_some_iff] at hadd
        obtain ⟨h', _, hadd⟩ := hadd
        rw [Option.bind_eq_some_iff] at hadd
        obtain ⟨h'', _, hadd⟩ := hadd
        cases hadd
        exact ⟨hh, rfl⟩
    refine ⟨rfl, ?_⟩
    simp only [openF, hq, Option.bind_eq_bind, Option.bind_some, if_true, b1, b2, hfd', b4, Bool.not_true, Bool.or_self, Bool.false_eq_true, if_false]
    have : Chain.add { heap := (c.heap.upd e.addr none).upd e'.addr (some ⟨⟨fd', 0⟩, none, none⟩), head := c.head, tail := c.tail } e'.addr = none := by
      simp [Chain.add, hc.1, hc.2, Chain.setNext, Ne.symm ha]
    rw [this]; rfl

def m0 : RbTree.Mem := ⟨fun _ => 0, fun _ => 0, fun _ => 0, fun _ => .black, 0⟩

/-- The surroundings give the address `a` and the descriptor `a + 10`. -/
def env (a : Nat) : Env := ⟨a, true, true, some (a + 10), true, true⟩

/-- Opening "abca", "abc\xe1", "z" and "abca" again: the last call does not find the first file, although it is open and
held, and caches the path a second time. -/
theorem path_cached_twice :
    (run cmp (init m0 (fun _ => []) 10) [] [] [.opn [97, 98, 99, 97] (env 1), .opn [97, 98, 99, 0xe1] (env 2), .opn [122] (env 3), .opn [97, 98, 99, 97] (env 4)]).map
      (fun r => (r.2.1, r.1.fds)) =
    some ([(4, [97, 98, 99, 97]), (3, [122]), (2, [97, 98, 99, 0xe1]), (1, [97, 98, 99, 97])], [14, 13, 12, 11]) := by
  decide +kernel

/-! ### Examples -/

def pa : Path := ⟨[97], by simp [Str.Ascii]⟩
def pb : Path := ⟨[98], by simp [Str.Ascii]⟩
def pc : Path := ⟨[99], by simp [Str.Ascii]⟩

/-- Three files in a cache for one: the unused files are closed in the order in which they fell out of use. -/
def exOps : List (Op Path) :=
  [.opn pa (env 1), .opn pb (env 2), .opn pc (env 3), .opn pa (env 4), .cls 2 pb, .cls 1 pa, .cls 3 pc, .opn pb (env 2), .cls 1 pa]

example : (run cmpP (init m0 (fun _ => pa) 1) [] [] exOps).map (fun r => (r.2.1, r.1.fds)) = some ([(2, pb)], [12]) := by
  decide +kernel

/-- The account says what is closed when. -/
example : (List.range 10).map (fun n => (run cmpP (init m0 (fun _ => pa) 1) [] [] (exOps.take n)).map (fun r => r.1.fds)) =
    [some [], some [11], some [12, 11], some [13, 12, 11], some [13, 12, 11], some [13, 11], some [13, 11], some [11], some [12, 11], some [12]] := by
  decide +kernel

/-- The history of the example is legal. -/
theorem ex_legal : legalRun cmpP (init m0 (fun _ => pa) 1) [] [] [.opn pa (env 1), .opn pb (env 2), .cls 1 pa] := by
  refine ⟨by simp [legal, env, init], ?_⟩
  intro s' held' log' h
  rcases openF_ok cmpP_ord cmpP_zero (init_inv cmpP m0 (fun _ => pa) 1) pa (env 1) (by simp [legal, env, init]) with ⟨a, h1, _⟩ | ⟨_, h1, _⟩ | ⟨_, fd, h1, s1, S1, e1, e2, e3, e4, I⟩
  · simp [RbTree.S.empty] at h1
  · simp [env] at h1
  · simp only [step, e1, Option.bind_eq_bind, Option.bind_some, Option.some.injEq, Prod.mk.injEq] at h
    obtain ⟨rfl, rfl, rfl⟩ := h
    have hq : S1.queue = [1] := by rw [e4]; rfl
    have hfd : s1.fds = [11] := by
      rw [e3]; cases h1; rfl
    have hl : legal s1 [(1, pa)] (.opn pb (env 2)) := by
      refine ⟨by decide, ?_, ?_, rfl⟩
      · have := (not_congr (I.files 2)).1 (by simp [hq])
        simpa [file, env] using this
      · intro fd h; cases h; simp [hfd]
    refine ⟨hl, ?_⟩
    intro s2 held2 log2 h
    rcases openF_ok cmpP_ord cmpP_zero I pb (env 2) hl with ⟨a, _, _, s3, f1, _⟩ | ⟨_, h2, _⟩ | ⟨_, fd, _, s3, S3, f1, _⟩
    · simp only [step, f1, Option.bind_eq_bind, Option.bind_some, Option.some.injEq, Prod.mk.injEq] at h
      obtain ⟨rfl, rfl, rfl⟩ := h
      exact ⟨by simp [legal, env], fun _ _ _ _ => trivial⟩
    · simp [env] at h2
    · simp only [step, f1, Option.bind_eq_bind, Option.bind_some, Option.some.injEq, Prod.mk.injEq] at h
      obtain ⟨rfl, rfl, rfl⟩ := h
      exact ⟨by simp [legal, env], fun _ _ _ _ => trivial⟩

end Verif.File
