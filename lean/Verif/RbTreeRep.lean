import Verif.RbTree
import Mathlib.Tactic.Common
/-
Trees as data: when a memory (`Mem`) represents a binary tree, and what the pointer operations of
mln_rbtree.h do to the represented tree.
-/
namespace Verif.RbTree

/-- A binary tree with colours; `i` is the address of the node. -/
inductive T where
  | leaf
  | node (c : Color) (l : T) (i : Nat) (r : T)
deriving DecidableEq

def T.rt : T → Nat
  | .leaf => 0
  | .node _ _ i _ => i

def T.col : T → Color
  | .leaf => .black
  | .node c _ _ _ => c

/-- The addresses in order. -/
def T.ids : T → List Nat
  | .leaf => []
  | .node _ l i r => l.ids ++ i :: r.ids

/-- `t` hangs below `p` in the memory: every node has the colour, the children and the parent
that the tree says. -/
def Rep (m : Mem) : Nat → T → Prop
  | _, .leaf => True
  | p, .node c l i r => i ≠ 0 ∧ m.parent i = p ∧ m.color i = c ∧ m.left i = l.rt ∧ m.right i = r.rt ∧ Rep m i l ∧ Rep m i r

/-- The memory represents the tree `t`. -/
structure Z (m : Mem) (t : T) : Prop where
  rep : Rep m 0 t
  root : m.root = t.rt
  nodup : t.ids.Nodup
  nil : m.color 0 = .black

/-- One step of a path from a subtree up to the root. -/
inductive Fr where
  | L (c : Color) (i : Nat) (r : T)
  | R (c : Color) (l : T) (i : Nat)

/-- The tree with `t` at the end of the path. -/
def plug : List Fr → T → T
  | [], t => t
  | .L c i r :: k, t => plug k (.node c t i r)
  | .R c l i :: k, t => plug k (.node c l i t)

def par : List Fr → Nat
  | [] => 0
  | .L _ i _ :: _ => i
  | .R _ _ i :: _ => i

/-- Addresses before and after the subtree. -/
def pre : List Fr → List Nat
  | [] => []
  | .L _ _ _ :: k => pre k
  | .R _ l i :: k => pre k ++ (l.ids ++ [i])

def post : List Fr → List Nat
  | [] => []
  | .L _ i r :: k => i :: (r.ids ++ post k)
  | .R _ _ _ :: k => post k

theorem ids_plug (k : List Fr) : ∀ t, (plug k t).ids = pre k ++ (t.ids ++ post k) := by
  induction k with
  | nil => simp [plug, pre, post]
  | cons f k ih => cases f <;> simp [plug, pre, post, ih, T.ids]

def RepC (m : Mem) : List Fr → Nat → Prop
  | [], x => m.root = x
  | .L c i r :: k, x => i ≠ 0 ∧ m.parent i = par k ∧ m.color i = c ∧ m.left i = x ∧ m.right i = r.rt ∧ Rep m i r ∧ RepC m k i
  | .R c l i :: k, x => i ≠ 0 ∧ m.parent i = par k ∧ m.color i = c ∧ m.left i = l.rt ∧ m.right i = x ∧ Rep m i l ∧ RepC m k i

theorem rep_plug (m : Mem) (k : List Fr) : ∀ t, (Rep m 0 (plug k t) ∧ m.root = (plug k t).rt) ↔ Rep m (par k) t ∧ RepC m k t.rt := by
  induction k with
  | nil => simp [plug, RepC, par]
  | cons f k ih =>
    intro t
    cases f with
    | L c i r =>
      rw [plug, ih]
      simp only [Rep, RepC, par, T.rt]
      tauto
    | R c l i =>
      rw [plug, ih]
      simp only [Rep, RepC, par, T.rt]
      tauto

theorem rt_mem {t : T} (h : t ≠ .leaf) : t.rt ∈ t.ids := by
  cases t with
  | leaf => exact absurd rfl h
  | node c l i r => simp [T.rt, T.ids]

theorem Rep.ne {m : Mem} : ∀ {t : T} {p : Nat}, Rep m p t → ∀ i ∈ t.ids, i ≠ 0
  | .leaf, _, _, i, hi => by simp [T.ids] at hi
  | .node c l x r, p, h, i, hi => by
    obtain ⟨h0, _, _, _, _, hl, hr⟩ := h
    simp only [T.ids, List.mem_append, List.mem_cons] at hi
    rcases hi with hi | rfl | hi
    · exact Rep.ne hl i hi
    · exact h0
    · exact Rep.ne hr i hi

theorem RepC.ne {m : Mem} : ∀ {k : List Fr} {x : Nat}, RepC m k x → ∀ i, i ∈ pre k ∨ i ∈ post k → i ≠ 0
  | [], _, _, i, hi => by simp [pre, post] at hi
  | .L c j r :: k, p, h, i, hi => by
    obtain ⟨h0, _, _, _, _, hr, hk⟩ := h
    simp only [pre, post, List.mem_append, List.mem_cons] at hi
    rcases hi with hi | rfl | hi | hi
    · exact RepC.ne hk i (.inl hi)
    · exact h0
    · exact Rep.ne hr i hi
    · exact RepC.ne hk i (.inr hi)
  | .R c l j :: k, p, h, i, hi => by
    obtain ⟨h0, _, _, _, _, hr, hk⟩ := h
    simp only [pre, post, List.mem_append, List.mem_cons, List.not_mem_nil, or_false] at hi
    rcases hi with (hi | hi | rfl) | hi
    · exact RepC.ne hk i (.inl hi)
    · exact Rep.ne hr i hi
    · exact h0
    · exact RepC.ne hk i (.inr hi)

/-- What does not touch a subtree, except the parent of its root, keeps it. -/
theorem Rep.frame {m m' : Mem} {t : T} {p p' : Nat} (h : Rep m p t)
    (h1 : ∀ i ∈ t.ids, m'.left i = m.left i ∧ m'.right i = m.right i ∧ m'.color i = m.color i)
    (h2 : ∀ i ∈ t.ids, i ≠ t.rt → m'.parent i = m.parent i)
    (h3 : t ≠ .leaf → m'.parent t.rt = p') (nd : t.ids.Nodup) : Rep m' p' t := by
  induction t generalizing p p' with
  | leaf => trivial
  | node c l i r ihl ihr =>
    obtain ⟨g0, g1, g2, g3, g4, hl, hr⟩ := h
    simp only [T.ids, List.mem_append, List.mem_cons] at h1 h2
    simp only [T.ids, List.nodup_append, List.nodup_cons, List.mem_cons] at nd
    obtain ⟨e1, e2, e3⟩ := h1 i (by simp)
    refine ⟨g0, h3 (by simp), e3.trans g2, e1.trans g3, e2.trans g4, ?_, ?_⟩
    · have hni : ∀ j ∈ l.ids, j ≠ i := fun j hj => nd.2.2 j hj i (by simp)
      refine ihl hl (fun j hj => h1 j (by simp [hj])) (fun j hj _ => h2 j (by simp [hj]) (hni j hj)) ?_ nd.1
      intro hne
      rw [h2 _ (by simp [rt_mem hne]) (hni _ (rt_mem hne))]
      cases l with
      | leaf => exact absurd rfl hne
      | node => exact hl.2.1
    · have hni : ∀ j ∈ r.ids, j ≠ i := fun j hj e => nd.2.1.1 (e ▸ hj)
      refine ihr hr (fun j hj => h1 j (by simp [hj])) (fun j hj _ => h2 j (by simp [hj]) (hni j hj)) ?_ nd.2.1.2
      intro hne
      rw [h2 _ (by simp [rt_mem hne]) (hni _ (rt_mem hne))]
      cases r with
      | leaf => exact absurd rfl hne
      | node => exact hr.2.1

theorem Rep.parent_rt {m : Mem} {t : T} {p : Nat} (h : Rep m p t) (hne : t ≠ .leaf) : m.parent t.rt = p := by
  cases t with
  | leaf => exact absurd rfl hne
  | node => exact h.2.1

/-- The same with the parent kept. -/
theorem Rep.congr {m m' : Mem} {t : T} {p : Nat} (h : Rep m p t) (nd : t.ids.Nodup)
    (h1 : ∀ i ∈ t.ids, m'.left i = m.left i ∧ m'.right i = m.right i ∧ m'.color i = m.color i ∧ m'.parent i = m.parent i) : Rep m' p t := by
  refine h.frame (fun i hi => ⟨(h1 i hi).1, (h1 i hi).2.1, (h1 i hi).2.2.1⟩) (fun i hi _ => (h1 i hi).2.2.2) ?_ nd
  intro hne
  rw [(h1 _ (rt_mem hne)).2.2.2, h.parent_rt hne]

theorem RepC.congr {m m' : Mem} {k : List Fr} {x : Nat} (h : RepC m k x) (nd : (pre k ++ post k).Nodup)
    (hr : m'.root = m.root)
    (h1 : ∀ i, i ∈ pre k ∨ i ∈ post k → m'.left i = m.left i ∧ m'.right i = m.right i ∧ m'.color i = m.color i ∧ m'.parent i = m.parent i) : RepC m' k x := by
  induction k generalizing x with
  | nil => exact hr.trans h
  | cons f k ih =>
    cases f with
    | L c i r =>
      obtain ⟨g0, g1, g2, g3, g4, g5, g6⟩ := h
      simp only [pre, post, List.mem_cons, List.mem_append] at h1
      have nd' : (i :: (r.ids ++ (pre k ++ post k))).Nodup := by
        refine nd.perm ?_
        simp only [pre, post]
        refine List.perm_middle.trans (List.Perm.cons _ ?_)
        rw [← List.append_assoc, ← List.append_assoc]
        exact List.Perm.append_right _ List.perm_append_comm
      simp only [List.nodup_cons, List.nodup_append] at nd'
      obtain ⟨a1, a2, a3, a4⟩ := h1 i (by simp)
      refine ⟨g0, a4.trans g1, a3.trans g2, a1.trans g3, a2.trans g4, g5.congr nd'.2.1 (fun j hj => h1 j (by simp [hj])), ih g6 (by simp only [List.nodup_append]; exact nd'.2.2.1) (fun j hj => h1 j (by tauto))⟩
    | R c l i =>
      obtain ⟨g0, g1, g2, g3, g4, g5, g6⟩ := h
      simp only [pre, post, List.mem_cons, List.mem_append, List.not_mem_nil, or_false] at h1
      have nd' : (i :: (l.ids ++ (pre k ++ post k))).Nodup := by
        refine nd.perm ?_
        simp only [pre, post]
        simp only [List.append_assoc, List.cons_append, List.nil_append]
        refine List.Perm.trans (by rw [← List.append_assoc]) (List.perm_middle.trans (List.Perm.cons _ ?_))
        rw [← List.append_assoc]
        exact List.Perm.append_right _ List.perm_append_comm
      simp only [List.nodup_cons, List.nodup_append] at nd'
      obtain ⟨a1, a2, a3, a4⟩ := h1 i (by simp)
      refine ⟨g0, a4.trans g1, a3.trans g2, a1.trans g3, a2.trans g4, g5.congr nd'.2.1 (fun j hj => h1 j (by simp [hj])), ih g6 (by simp only [List.nodup_append]; exact nd'.2.2.1) (fun j hj => h1 j (by tauto))⟩

/-- The parent's link to the subtree is `x'` now, all else above is as before. -/
def Link (m m' : Mem) (x' : Nat) : List Fr → Prop
  | [] => m'.root = x'
  | .L _ i _ :: _ => m'.left i = x' ∧ m'.right i = m.right i ∧ m'.root = m.root
  | .R _ _ i :: _ => m'.left i = m.left i ∧ m'.right i = x' ∧ m'.root = m.root

theorem RepC.frame {m m' : Mem} {k : List Fr} {x x' : Nat} (h : RepC m k x) (nd : (pre k ++ post k).Nodup) (hl : Link m m' x' k)
    (h1 : ∀ i, i ∈ pre k ∨ i ∈ post k → m'.color i = m.color i ∧ m'.parent i = m.parent i)
    (h2 : ∀ i, i ∈ pre k ∨ i ∈ post k → i ≠ par k → m'.left i = m.left i ∧ m'.right i = m.right i) : RepC m' k x' := by
  cases k with
  | nil => exact hl
  | cons f k =>
    cases f with
    | L c i r =>
      obtain ⟨g0, g1, g2, g3, g4, g5, g6⟩ := h
      simp only [pre, post, List.mem_cons, List.mem_append, par] at h1 h2
      have nd' : (i :: (r.ids ++ (pre k ++ post k))).Nodup := by
        refine nd.perm ?_
        simp only [pre, post]
        refine List.perm_middle.trans (List.Perm.cons _ ?_)
        rw [← List.append_assoc, ← List.append_assoc]
        exact List.Perm.append_right _ List.perm_append_comm
      rw [List.nodup_cons, List.mem_append, List.mem_append, List.nodup_append] at nd'
      obtain ⟨a3, a4⟩ := h1 i (by simp)
      refine ⟨g0, a4.trans g1, a3.trans g2, hl.1, hl.2.1.trans g4, g5.congr nd'.2.1 ?_, g6.congr nd'.2.2.1 hl.2.2 ?_⟩
      · intro j hj
        have hne : j ≠ i := fun e => nd'.1 (by rw [← e]; exact .inl hj)
        exact ⟨(h2 j (by simp [hj]) hne).1, (h2 j (by simp [hj]) hne).2, h1 j (by simp [hj])⟩
      · intro j hj
        have hne : j ≠ i := fun e => nd'.1 (by rw [← e]; exact .inr hj)
        exact ⟨(h2 j (by tauto) hne).1, (h2 j (by tauto) hne).2, h1 j (by tauto)⟩
    | R c l i =>
      obtain ⟨g0, g1, g2, g3, g4, g5, g6⟩ := h
      simp only [pre, post, List.mem_cons, List.mem_append, par, List.not_mem_nil, or_false] at h1 h2
      have nd' : (i :: (l.ids ++ (pre k ++ post k))).Nodup := by
        refine nd.perm ?_
        simp only [pre, post]
        simp only [List.append_assoc, List.cons_append, List.nil_append]
        refine List.Perm.trans (by rw [← List.append_assoc]) (List.perm_middle.trans (List.Perm.cons _ ?_))
        rw [← List.append_assoc]
        exact List.Perm.append_right _ List.perm_append_comm
      rw [List.nodup_cons, List.mem_append, List.mem_append, List.nodup_append] at nd'
      obtain ⟨a3, a4⟩ := h1 i (by simp)
      refine ⟨g0, a4.trans g1, a3.trans g2, hl.1.trans g3, hl.2.1, g5.congr nd'.2.1 ?_, g6.congr nd'.2.2.1 hl.2.2 ?_⟩
      · intro j hj
        have hne : j ≠ i := fun e => nd'.1 (by rw [← e]; exact .inl hj)
        exact ⟨(h2 j (by simp [hj]) hne).1, (h2 j (by simp [hj]) hne).2, h1 j (by simp [hj])⟩
      · intro j hj
        have hne : j ≠ i := fun e => nd'.1 (by rw [← e]; exact .inr hj)
        exact ⟨(h2 j (by tauto) hne).1, (h2 j (by tauto) hne).2, h1 j (by tauto)⟩

end Verif.RbTree
