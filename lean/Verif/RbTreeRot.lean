import Verif.RbTreeRep
/-
Rotations, recolouring and transplanting on represented trees.
-/
namespace Verif.RbTree

theorem Z.focus {m : Mem} {k : List Fr} {t : T} (h : Z m (plug k t)) :
    Rep m (par k) t ∧ RepC m k t.rt ∧ (pre k ++ (t.ids ++ post k)).Nodup ∧ m.color 0 = .black := by
  have := (rep_plug m k t).1 ⟨h.rep, h.root⟩
  exact ⟨this.1, this.2, ids_plug k t ▸ h.nodup, h.nil⟩

theorem Z.unfocus {m : Mem} {k : List Fr} {t : T} (h1 : Rep m (par k) t) (h2 : RepC m k t.rt) (h3 : (pre k ++ (t.ids ++ post k)).Nodup) (h4 : m.color 0 = .black) : Z m (plug k t) := by
  have := (rep_plug m k t).2 ⟨h1, h2⟩
  exact ⟨this.1, this.2, by rw [ids_plug]; exact h3, h4⟩

/-- The three-way assignment of the link from the parent in left_rotate and transplant. -/
def relink (m : Mem) (n v : Nat) : Mem :=
  if m.parent n = 0 then m.setRoot v
  else if n = m.left (m.parent n) then m.setLeft (m.parent n) v
  else m.setRight (m.parent n) v

theorem par_mem {k : List Fr} (h : k ≠ []) : par k ∈ pre k ∨ par k ∈ post k := by
  cases k with
  | nil => exact absurd rfl h
  | cons f k => cases f <;> simp [par, pre, post]

theorem relink_spec {m : Mem} {k : List Fr} {n : Nat} (v : Nat) (h : RepC m k n) (hp : m.parent n = par k) (h0 : n ≠ 0) (hn : n ∉ pre k) :
    (relink m n v).parent = m.parent ∧ (relink m n v).color = m.color ∧ Link m (relink m n v) v k ∧
    (∀ i, i ≠ par k → (relink m n v).left i = m.left i ∧ (relink m n v).right i = m.right i) := by
  unfold relink
  cases k with
  | nil =>
    rw [hp]
    simp [par, Mem.setRoot, Link]
  | cons f k =>
    cases f with
    | L c i r =>
      obtain ⟨g0, g1, g2, g3, g4, g5, g6⟩ := h
      have hp' : m.parent n = i := hp
      rw [hp', if_neg g0, if_pos g3.symm]
      refine ⟨rfl, rfl, ⟨by simp [Mem.setLeft, upd], rfl, rfl⟩, fun j hj => ⟨by simp [Mem.setLeft, upd, show j ≠ i from hj], rfl⟩⟩
    | R c l i =>
      obtain ⟨g0, g1, g2, g3, g4, g5, g6⟩ := h
      have hp' : m.parent n = i := hp
      have : n ≠ m.left i := by
        rw [g3]
        intro e
        by_cases hl : l = .leaf
        · rw [hl] at e; exact h0 e
        · apply hn
          have := rt_mem hl
          simp [pre, e, this]
      rw [hp', if_neg g0, if_neg this]
      refine ⟨rfl, rfl, ⟨rfl, by simp [Mem.setRight, upd], rfl⟩, fun j hj => ⟨rfl, by simp [Mem.setRight, upd, show j ≠ i from hj]⟩⟩

theorem leftRotate_eq (m : Mem) (n : Nat) (h : m.right n ≠ 0) : leftRotate m n =
    let tmp := m.right n
    let m := m.setRight n (m.left tmp)
    let m := if m.left tmp ≠ 0 then m.setParent (m.left tmp) n else m
    let m := m.setParent tmp (m.parent n)
    let m := relink m n tmp
    let m := m.setLeft tmp n
    m.setParent n tmp := by
  unfold leftRotate relink
  rw [if_neg h]

theorem Link.congr {m m0 m' m'' : Mem} {x : Nat} {k : List Fr} (h : Link m m' x k) (h0 : m0.root = m.root)
    (hr : m''.root = m'.root) (hp : ∀ i, i = par k → m''.left i = m'.left i ∧ m''.right i = m'.right i ∧ m0.left i = m.left i ∧ m0.right i = m.right i) : Link m0 m'' x k := by
  cases k with
  | nil => exact hr.trans h
  | cons f k =>
    cases f with
    | L c i r =>
      obtain ⟨a, b, c', d⟩ := hp i rfl
      exact ⟨a.trans h.1, b.trans (h.2.1.trans d.symm), hr.trans (h.2.2.trans h0.symm)⟩
    | R c l i =>
      obtain ⟨a, b, c', d⟩ := hp i rfl
      exact ⟨a.trans (h.1.trans c'.symm), b.trans h.2.1, hr.trans (h.2.2.trans h0.symm)⟩

/-- Left rotation. -/
theorem leftRotate_ok {m : Mem} {k : List Fr} {c d : Color} {a b e : T} {x y : Nat} (h : Z m (plug k (.node c a x (.node d b y e)))) :
    Z (leftRotate m x) (plug k (.node d (.node c a x b) y e)) ∧ (leftRotate m x).parent 0 = m.parent 0 ∧
      (leftRotate m x).color = m.color := by
  obtain ⟨hrep, hctx, nd, nil⟩ := h.focus
  obtain ⟨x0, xp, xc, xl, xr, ha, y0, yp, yc, yl, yr, hb, he⟩ := hrep
  simp only [T.rt] at xr hctx
  have nda : a.ids.Nodup ∧ b.ids.Nodup ∧ e.ids.Nodup ∧ (pre k ++ post k).Nodup := by
    simp only [T.ids, List.nodup_append, List.nodup_cons, List.mem_append, List.mem_cons] at nd ⊢
    grind
  have nd2 : (pre k ++ ((T.node d (.node c a x b) y e).ids ++ post k)).Nodup := by
    simpa [T.ids] using nd
  have hpz : par k ≠ 0 → par k ∈ pre k ∨ par k ∈ post k := fun hz => par_mem (by rintro rfl; exact hz rfl)
  have hbz : b.rt ≠ 0 → b.rt ∈ b.ids := fun hz => rt_mem (by rintro rfl; exact hz rfl)
  have az := ha.ne
  have bz := hb.ne
  have ez := he.ne
  have kz := hctx.ne
  have hbl : b ≠ .leaf → b.rt ≠ 0 := fun hz => bz _ (rt_mem hz)
  rw [leftRotate_eq m x (by rw [xr]; exact y0)]
  simp only [xr]
  generalize hm3 : (Mem.setParent (if (m.setRight x (m.left y)).left y ≠ 0 then (m.setRight x (m.left y)).setParent ((m.setRight x (m.left y)).left y) x else m.setRight x (m.left y)) y
      ((if (m.setRight x (m.left y)).left y ≠ 0 then (m.setRight x (m.left y)).setParent ((m.setRight x (m.left y)).left y) x else m.setRight x (m.left y)).parent x)) = m3
  have hxn : x ∉ pre k ∧ x ∉ post k ∧ y ∉ pre k ∧ y ∉ post k ∧ x ≠ y ∧ x ∉ b.ids ∧ x ∉ a.ids ∧ x ∉ e.ids ∧ y ∉ a.ids ∧ y ∉ b.ids ∧ y ∉ e.ids := by
    simp only [T.ids, List.nodup_append, List.nodup_cons, List.mem_append, List.mem_cons] at nd
    grind
  obtain ⟨n1, n2, n3, n4, n5, n6, n7, n8, n9, n10, n11⟩ := hxn
  have hbk : ∀ i ∈ b.ids, i ∉ pre k ∧ i ∉ post k ∧ i ∉ a.ids ∧ i ∉ e.ids := by
    simp only [T.ids, List.nodup_append, List.nodup_cons, List.mem_append, List.mem_cons] at nd
    grind
  have hak : ∀ i, i ∈ a.ids ∨ i ∈ b.ids ∨ i ∈ e.ids → i ∉ pre k ∧ i ∉ post k := by
    simp only [T.ids, List.nodup_append, List.nodup_cons, List.mem_append, List.mem_cons] at nd
    grind
  have hbx : b.rt ≠ x := by intro hh; by_cases hz : b.rt = 0 <;> grind
  have hby : b.rt ≠ y := by intro hh; by_cases hz : b.rt = 0 <;> grind
  have f1 : m3.left = m.left := by
    rw [← hm3]; by_cases hz : b.rt = 0 <;> simp [Mem.setRight, Mem.setParent, yl, hz]
  have f2 : ∀ i, m3.right i = if i = x then b.rt else m.right i := by
    intro i
    rw [← hm3]; by_cases hz : b.rt = 0 <;> simp [Mem.setRight, Mem.setParent, yl, hz, upd]
  have f3 : m3.color = m.color := by
    rw [← hm3]; by_cases hz : b.rt = 0 <;> simp [Mem.setRight, Mem.setParent, yl, hz]
  have f4 : m3.root = m.root := by
    rw [← hm3]; by_cases hz : b.rt = 0 <;> simp [Mem.setRight, Mem.setParent, yl, hz]
  have f5 : ∀ i, m3.parent i = if i = y then par k else if b.rt ≠ 0 ∧ i = b.rt then x else m.parent i := by
    intro i
    rw [← hm3]; simp only [Mem.setRight, Mem.setParent, yl]
    by_cases hz : b.rt = 0
    · simp [hz, upd, xp]
    · simp only [ne_eq, hz, not_false_eq_true, if_true, upd, if_neg (Ne.symm hbx), xp, true_and]
  have hctx3 : RepC m3 k x := by
    refine hctx.congr nda.2.2.2 f4 ?_
    intro i hi
    rw [f1, f2, f3, f5]
    have : i ≠ x ∧ i ≠ y ∧ (b.rt ≠ 0 → i ≠ b.rt) := by grind
    simp only [this, if_false, true_and, ne_eq]
    by_cases hz : b.rt = 0
    · simp [hz]
    · simp [this.2.2 hz]
  have xp3 : m3.parent x = par k := by
    rw [f5, if_neg n5, if_neg (by rintro ⟨_, h⟩; exact hbx h.symm), xp]
  obtain ⟨r1, r2, r3, r4⟩ := relink_spec y hctx3 xp3 x0 n1
  generalize relink m3 x y = m4 at r1 r2 r3 r4
  have hpx : par k ≠ x := by intro hh; by_cases hz : par k = 0 <;> grind
  have hpy : par k ≠ y := by intro hh; by_cases hz : par k = 0 <;> grind
  have hpabe : ∀ i, i ∈ a.ids ∨ i ∈ b.ids ∨ i ∈ e.ids → i ≠ par k := by
    intro i hi hh; by_cases hz : par k = 0 <;> grind
  -- the final fields
  have p1 : ∀ i, ((m4.setLeft y x).setParent x y).parent i = if i = x then y else if i = y then par k else if b.rt ≠ 0 ∧ i = b.rt then x else m.parent i := by
    intro i
    simp only [Mem.setLeft, Mem.setParent, upd, r1, f5]
  have p2 : ((m4.setLeft y x).setParent x y).color = m.color := by
    simp only [Mem.setLeft, Mem.setParent, r2, f3]
  have p3 : ∀ i, i ≠ par k → ((m4.setLeft y x).setParent x y).left i = (if i = y then x else m.left i) ∧ ((m4.setLeft y x).setParent x y).right i = (if i = x then b.rt else m.right i) := by
    intro i hi
    simp only [Mem.setLeft, Mem.setParent, upd, (r4 i hi).1, (r4 i hi).2, f1, f2, and_self]
  have p4 : Link m3 ((m4.setLeft y x).setParent x y) y k := by
    refine r3.congr rfl rfl ?_
    rintro i rfl
    simp [Mem.setLeft, Mem.setParent, upd, hpy]
  generalize ((m4.setLeft y x).setParent x y) = m6 at p1 p2 p3 p4
  have q3 : ∀ i, i ≠ par k → i ≠ x → i ≠ y → m6.left i = m.left i ∧ m6.right i = m.right i := by
    intro i h1 h2 h3
    rw [(p3 i h1).1, (p3 i h1).2, if_neg h3, if_neg h2]; exact ⟨rfl, rfl⟩
  have q1 : ∀ i, i ≠ x → i ≠ y → i ≠ b.rt → m6.parent i = m.parent i := by
    intro i h1 h2 h3
    rw [p1, if_neg h1, if_neg h2, if_neg (by tauto)]
  refine ⟨Z.unfocus ⟨y0, ?_, by rw [p2, yc], ?_, ?_, ⟨x0, ?_, by rw [p2, xc], ?_, ?_, ?_, ?_⟩, ?_⟩ ?_ nd2 ?_, ?_, p2⟩
  · rw [p1, if_neg (Ne.symm n5), if_pos rfl]
  · rw [(p3 y (Ne.symm hpy)).1, if_pos rfl]; rfl
  · rw [(p3 y (Ne.symm hpy)).2, if_neg (Ne.symm n5), yr]
  · rw [p1, if_pos rfl]
  · rw [(p3 x (Ne.symm hpx)).1, if_neg n5, xl]
  · rw [(p3 x (Ne.symm hpx)).2, if_pos rfl]
  · refine ha.congr nda.1 ?_
    intro i hi
    have h1 : i ≠ x := by grind
    have h2 : i ≠ y := by grind
    have h3 : i ≠ b.rt := by intro hh; by_cases hz : b.rt = 0 <;> grind
    exact ⟨(q3 i (hpabe i (.inl hi)) h1 h2).1, (q3 i (hpabe i (.inl hi)) h1 h2).2, by rw [p2], q1 i h1 h2 h3⟩
  · refine hb.frame ?_ ?_ ?_ nda.2.1
    · intro i hi
      have h1 : i ≠ x := by grind
      have h2 : i ≠ y := by grind
      exact ⟨(q3 i (hpabe i (.inr (.inl hi))) h1 h2).1, (q3 i (hpabe i (.inr (.inl hi))) h1 h2).2, by rw [p2]⟩
    · intro i hi h3
      exact q1 i (by grind) (by grind) h3
    · intro hz
      rw [p1, if_neg hbx, if_neg hby, if_pos ⟨hbl hz, rfl⟩]
  · refine he.congr nda.2.2.1 ?_
    intro i hi
    have h1 : i ≠ x := by grind
    have h2 : i ≠ y := by grind
    have h3 : i ≠ b.rt := by intro hh; by_cases hz : b.rt = 0 <;> grind
    exact ⟨(q3 i (hpabe i (.inr (.inr hi))) h1 h2).1, (q3 i (hpabe i (.inr (.inr hi))) h1 h2).2, by rw [p2], q1 i h1 h2 h3⟩
  · refine hctx3.frame nda.2.2.2 p4 ?_ ?_
    · intro i hi
      have h1 : i ≠ x := by grind
      have h2 : i ≠ y := by grind
      have h3 : i ≠ b.rt := by intro hh; by_cases hz : b.rt = 0 <;> grind
      refine ⟨by rw [p2, f3], ?_⟩
      rw [q1 i h1 h2 h3, f5, if_neg h2, if_neg (by tauto)]
    · intro i hi hk
      have h1 : i ≠ x := by grind
      have h2 : i ≠ y := by grind
      rw [(q3 i hk h1 h2).1, (q3 i hk h1 h2).2, f1, f2, if_neg h1]
      exact ⟨rfl, rfl⟩
  · rw [p2]; exact nil
  · rw [p1, if_neg (Ne.symm x0), if_neg (Ne.symm y0), if_neg (by rintro ⟨u, v⟩; exact u v.symm)]

/-! ### Recolouring and reading -/

theorem setColor_ok {m : Mem} {k : List Fr} {c : Color} {a b : T} {x : Nat} (c' : Color) (h : Z m (plug k (.node c a x b))) : Z (m.setColor x c') (plug k (.node c' a x b)) := by
  obtain ⟨⟨x0, xp, xc, xl, xr, ha, hb⟩, hctx, nd, nil⟩ := h.focus
  have hxn : x ∉ pre k ∧ x ∉ post k ∧ x ∉ b.ids ∧ x ∉ a.ids ∧ a.ids.Nodup ∧ b.ids.Nodup ∧ (pre k ++ post k).Nodup := by
    simp only [T.ids, List.nodup_append, List.nodup_cons, List.mem_append, List.mem_cons] at nd ⊢
    grind
  obtain ⟨n1, n2, n3, n4, n5, n6, n7⟩ := hxn
  refine Z.unfocus ⟨x0, xp, by simp [Mem.setColor, upd], xl, xr, ha.congr n5 ?_, hb.congr n6 ?_⟩ (hctx.congr n7 rfl ?_) (by simpa [T.ids] using nd) ?_
  · intro i hi
    have : i ≠ x := by grind
    simp [Mem.setColor, upd, this]
  · intro i hi
    have : i ≠ x := by grind
    simp [Mem.setColor, upd, this]
  · intro i hi
    have : i ≠ x := by grind
    simp [Mem.setColor, upd, this]
  · simp [Mem.setColor, upd, Ne.symm x0, nil]

theorem Z.node {m : Mem} {k : List Fr} {c : Color} {a b : T} {x : Nat} (h : Z m (plug k (.node c a x b))) :
    x ≠ 0 ∧ m.parent x = par k ∧ m.color x = c ∧ m.left x = a.rt ∧ m.right x = b.rt := by
  obtain ⟨⟨x0, xp, xc, xl, xr, ha, hb⟩, hctx, nd, nil⟩ := h.focus
  exact ⟨x0, xp, xc, xl, xr⟩

theorem Z.col {m : Mem} {k : List Fr} {t : T} (h : Z m (plug k t)) : m.color t.rt = t.col := by
  cases t with
  | leaf => exact h.nil
  | node => exact h.node.2.2.1

/-- Different places have different addresses. -/
theorem Z.sib {m : Mem} {k : List Fr} {c : Color} {a b : T} {x : Nat} (h : Z m (plug k (.node c a x b))) : a.rt = b.rt → a = .leaf ∧ b = .leaf := by
  obtain ⟨⟨x0, xp, xc, xl, xr, ha, hb⟩, hctx, nd, nil⟩ := h.focus
  intro e
  simp only [T.ids, List.nodup_append, List.nodup_cons, List.mem_append, List.mem_cons] at nd
  by_cases h1 : a = .leaf
  · refine ⟨h1, ?_⟩
    by_contra h2
    refine hb.ne _ (rt_mem h2) ?_
    rw [← e, h1]; rfl
  · exfalso
    by_cases h2 : b = .leaf
    · refine ha.ne _ (rt_mem h1) ?_
      rw [e, h2]; rfl
    · have g1 := rt_mem h1
      have g2 := rt_mem h2
      rw [← e] at g2
      grind

theorem Z.rt_ne_zero {m : Mem} {k : List Fr} {t : T} (h : Z m (plug k t)) (ht : t ≠ .leaf) : t.rt ≠ 0 :=
  h.focus.1.ne _ (rt_mem ht)

theorem Z.mem_ne_zero {m : Mem} {t : T} (h : Z m t) : ∀ i ∈ t.ids, i ≠ 0 := h.rep.ne

/-! ### Mirror images -/

def Mem.mir (m : Mem) : Mem := { m with left := m.right, right := m.left }

def T.mir : T → T
  | .leaf => .leaf
  | .node c l i r => .node c r.mir i l.mir

def Fr.mir : Fr → Fr
  | .L c i r => .R c r.mir i
  | .R c l i => .L c i l.mir

theorem T.mir_mir (t : T) : t.mir.mir = t := by induction t <;> simp_all [T.mir]
theorem T.mir_rt (t : T) : t.mir.rt = t.rt := by cases t <;> rfl
theorem T.mir_col (t : T) : t.mir.col = t.col := by cases t <;> rfl
theorem T.mir_ids (t : T) : t.mir.ids = t.ids.reverse := by induction t <;> simp_all [T.mir, T.ids]
theorem Mem.mir_mir (m : Mem) : m.mir.mir = m := rfl
theorem Fr.mir_mir (f : Fr) : f.mir.mir = f := by cases f <;> simp [Fr.mir, T.mir_mir]

theorem plug_mir (k : List Fr) : ∀ t, (plug k t).mir = plug (k.map Fr.mir) t.mir := by
  induction k with
  | nil => intro t; rfl
  | cons f k ih => intro t; cases f <;> simp [plug, Fr.mir, ih, T.mir]

theorem Rep.mir {m : Mem} : ∀ {t : T} {p : Nat}, Rep m p t → Rep m.mir p t.mir
  | .leaf, _, _ => trivial
  | .node c l i r, p, ⟨h0, h1, h2, h3, h4, hl, hr⟩ =>
    ⟨h0, h1, h2, h4.trans r.mir_rt.symm, h3.trans l.mir_rt.symm, hr.mir, hl.mir⟩

theorem Z.mir {m : Mem} {t : T} (h : Z m t) : Z m.mir t.mir :=
  ⟨h.rep.mir, h.root.trans t.mir_rt.symm, by rw [T.mir_ids]; exact h.nodup.perm (List.reverse_perm _).symm, h.nil⟩

theorem mir_ite (p : Prop) [Decidable p] (a b : Mem) : (if p then a else b).mir = if p then a.mir else b.mir := by split <;> rfl

theorem rightRotate_mir (m : Mem) (n : Nat) : rightRotate m n = (leftRotate m.mir n).mir := by
  unfold rightRotate leftRotate
  by_cases h1 : m.left n = 0
  · rw [if_pos h1, if_pos (show m.mir.right n = 0 from h1)]; rfl
  · rw [if_neg h1, if_neg (show ¬ m.mir.right n = 0 from h1)]
    have e1 : (if (m.setLeft n (m.right (m.left n))).right (m.left n) ≠ 0 then (m.setLeft n (m.right (m.left n))).setParent ((m.setLeft n (m.right (m.left n))).right (m.left n)) n else (m.setLeft n (m.right (m.left n)))) =
        (if (m.mir.setRight n (m.mir.left (m.mir.right n))).left (m.mir.right n) ≠ 0 then (m.mir.setRight n (m.mir.left (m.mir.right n))).setParent ((m.mir.setRight n (m.mir.left (m.mir.right n))).left (m.mir.right n)) n else (m.mir.setRight n (m.mir.left (m.mir.right n)))).mir := by
      rw [mir_ite]; rfl
    simp only
    rw [e1]
    generalize (if (m.mir.setRight n (m.mir.left (m.mir.right n))).left (m.mir.right n) ≠ 0 then (m.mir.setRight n (m.mir.left (m.mir.right n))).setParent ((m.mir.setRight n (m.mir.left (m.mir.right n))).left (m.mir.right n)) n else (m.mir.setRight n (m.mir.left (m.mir.right n)))) = M
    have e2 : ∀ (M : Mem) (v : Nat), (if M.mir.parent n = 0 then M.mir.setRoot v else if n = M.mir.right (M.mir.parent n) then M.mir.setRight (M.mir.parent n) v else M.mir.setLeft (M.mir.parent n) v) =
        (if M.parent n = 0 then M.setRoot v else if n = M.left (M.parent n) then M.setLeft (M.parent n) v else M.setRight (M.parent n) v).mir := by
      intro M v
      rw [mir_ite, mir_ite]; rfl
    have := e2 (M.setParent (m.left n) (M.parent n)) (m.left n)
    show ((_ : Mem).setRight _ _).setParent _ _ = _
    rw [show M.mir.setParent (m.left n) (M.mir.parent n) = (M.setParent (m.left n) (M.parent n)).mir from rfl, this]
    rfl

/-- Right rotation. -/
theorem rightRotate_ok {m : Mem} {k : List Fr} {c d : Color} {a b e : T} {x y : Nat} (h : Z m (plug k (.node c (.node d a y b) x e))) :
    Z (rightRotate m x) (plug k (.node d a y (.node c b x e))) ∧ (rightRotate m x).parent 0 = m.parent 0 ∧ (rightRotate m x).color = m.color := by
  have h' := h.mir
  rw [plug_mir] at h'
  obtain ⟨h1, h2, h3⟩ := leftRotate_ok h'
  rw [rightRotate_mir]
  refine ⟨?_, h2, h3⟩
  have h1' := h1.mir
  rw [plug_mir] at h1'
  simpa [T.mir, T.mir_mir, Function.comp_def, Fr.mir_mir] using h1'

/-! ### Transplanting -/

theorem transplant_eq (m : Mem) (u v : Nat) : transplant m u v = (relink m u v).setParent v ((relink m u v).parent u) := rfl

/-- Replacing a node by one of its children. -/
theorem transplant_ok {m : Mem} {k : List Fr} {c : Color} {l r s : T} {x : Nat} (h : Z m (plug k (.node c l x r))) (hs : s = l ∨ s = r) :
    Z (transplant m x s.rt) (plug k s) ∧ (transplant m x s.rt).parent s.rt = par k ∧
      ∀ i, i ∉ s.ids → i ∉ pre k → i ∉ post k → i ≠ 0 → (transplant m x s.rt).parent i = m.parent i ∧ (transplant m x s.rt).left i = m.left i ∧ (transplant m x s.rt).right i = m.right i ∧ (transplant m x s.rt).color i = m.color i := by
  obtain ⟨⟨x0, xp, xc, xl, xr, hl, hr⟩, hctx, nd, nil⟩ := h.focus
  simp only [T.rt] at hctx
  have hrep : Rep m x s := by rcases hs with rfl | rfl <;> assumption
  have hxn : x ∉ pre k ∧ x ∉ post k ∧ x ∉ s.ids ∧ s.ids.Nodup ∧ (pre k ++ post k).Nodup ∧ (pre k ++ (s.ids ++ post k)).Nodup ∧ (∀ i ∈ s.ids, i ∉ pre k ∧ i ∉ post k) := by
    simp only [T.ids, List.nodup_append, List.nodup_cons, List.mem_append, List.mem_cons] at nd ⊢
    rcases hs with rfl | rfl <;> grind
  obtain ⟨n1, n2, n3, n4, n5, n6, n7⟩ := hxn
  obtain ⟨r1, r2, r3, r4⟩ := relink_spec s.rt hctx xp x0 n1
  rw [transplant_eq, r1, xp]
  have kz := hctx.ne
  have sz := hrep.ne
  have hpz : par k ≠ 0 → par k ∈ pre k ∨ par k ∈ post k := fun hz => par_mem (by rintro rfl; exact hz rfl)
  have hsz : s.rt ≠ 0 → s.rt ∈ s.ids := fun hz => rt_mem (by rintro rfl; exact hz rfl)
  have p1 : ∀ i, ((relink m x s.rt).setParent s.rt (par k)).parent i = if i = s.rt then par k else m.parent i := by
    intro i; simp [Mem.setParent, upd, r1]
  have p2 : ((relink m x s.rt).setParent s.rt (par k)).color = m.color := r2
  have p3 : ∀ i, i ≠ par k → ((relink m x s.rt).setParent s.rt (par k)).left i = m.left i ∧ ((relink m x s.rt).setParent s.rt (par k)).right i = m.right i := r4
  have p4 : Link m ((relink m x s.rt).setParent s.rt (par k)) s.rt k := r3.congr rfl rfl (by intro i _; exact ⟨rfl, rfl, rfl, rfl⟩)
  generalize ((relink m x s.rt).setParent s.rt (par k)) = m' at p1 p2 p3 p4
  refine ⟨Z.unfocus ?_ ?_ n6 ?_, ?_, ?_⟩
  · refine hrep.frame ?_ ?_ ?_ n4
    · intro i hi
      have : i ≠ par k := by intro hh; by_cases hz : par k = 0 <;> grind
      exact ⟨(p3 i this).1, (p3 i this).2, by rw [p2]⟩
    · intro i hi hne
      rw [p1, if_neg hne]
    · intro hne
      rw [p1, if_pos rfl]
  · refine hctx.frame n5 p4 ?_ ?_
    · intro i hi
      have : i ≠ s.rt := by intro hh; by_cases hz : s.rt = 0 <;> grind
      rw [p2, p1, if_neg this]; exact ⟨rfl, rfl⟩
    · intro i hi hne
      exact p3 i hne
  · rw [p2]; exact nil
  · rw [p1, if_pos rfl]
  · intro i i1 i2 i3 i0
    have h1 : i ≠ par k := by intro hh; by_cases hz : par k = 0 <;> grind
    have h2 : i ≠ s.rt := by intro hh; by_cases hz : s.rt = 0 <;> grind
    rw [p1, if_neg h2, p2]
    exact ⟨rfl, (p3 i h1).1, (p3 i h1).2, rfl⟩

/-- Putting the node `y`, below which `r` hangs already, in the place of `n`: lines 205-208 of
mln_rbtree_delete. -/
theorem replace_ok {m : Mem} {k : List Fr} {c : Color} {a r : T} {n y : Nat} (n0 : n ≠ 0) (np : m.parent n = par k) (nc : m.color n = c) (nl : m.left n = a.rt)
    (ha : Rep m n a) (ha0 : a ≠ .leaf) (y0 : y ≠ 0) (yr : m.right y = r.rt) (hr : Rep m y r) (hctx : RepC m k n)
    (nd : (pre k ++ ((a.ids ++ y :: r.ids) ++ post k)).Nodup) (hn : n ∉ pre k ++ ((a.ids ++ y :: r.ids) ++ post k)) (nil : m.color 0 = .black) :
    let m1 := transplant m n y
    let m2 := m1.setLeft y (m1.left n)
    let m3 := m2.setParent (m2.left y) y
    let m4 := m3.setColor y (m3.color n)
    Z m4 (plug k (.node c a y r)) ∧ m4.parent 0 = m.parent 0 := by
  simp only [List.mem_append, List.mem_cons, not_or] at hn
  obtain ⟨n1, ⟨n2, n3, n4⟩, n5⟩ := hn
  have hxn : y ∉ pre k ∧ y ∉ post k ∧ y ∉ a.ids ∧ y ∉ r.ids ∧ a.ids.Nodup ∧ r.ids.Nodup ∧ (pre k ++ post k).Nodup ∧ (∀ i ∈ a.ids, i ∉ pre k ∧ i ∉ post k) ∧ (∀ i ∈ r.ids, i ∉ pre k ∧ i ∉ post k ∧ i ∉ a.ids) := by
    simp only [List.nodup_append, List.nodup_cons, List.mem_append, List.mem_cons] at nd ⊢
    grind
  obtain ⟨y1, y2, y3, y4, e1, e2, e3, e4, e5⟩ := hxn
  obtain ⟨r1, r2, r3, r4⟩ := relink_spec y hctx np n0 n1
  have kz := hctx.ne
  have az := ha.ne
  have rz := hr.ne
  have hpz : par k ≠ 0 → par k ∈ pre k ∨ par k ∈ post k := fun hz => par_mem (by rintro rfl; exact hz rfl)
  have har := rt_mem ha0
  have hpn : n ≠ par k := by intro hh; by_cases hz : par k = 0 <;> grind
  have hpy : y ≠ par k := by intro hh; by_cases hz : par k = 0 <;> grind
  simp only [transplant_eq, r1, np]
  have l1 : ((relink m n y).setParent y (par k)).left n = a.rt := by
    show (relink m n y).left n = _
    rw [(r4 n hpn).1, nl]
  rw [l1]
  have l2 : (((relink m n y).setParent y (par k)).setLeft y a.rt).left y = a.rt := by simp [Mem.setLeft, upd]
  rw [l2]
  have l3 : ((((relink m n y).setParent y (par k)).setLeft y a.rt).setParent a.rt y).color n = c := by
    show (relink m n y).color n = c
    rw [r2, nc]
  rw [l3]
  have hay : a.rt ≠ y := by grind
  have p1 : ∀ i, (((((relink m n y).setParent y (par k)).setLeft y a.rt).setParent a.rt y).setColor y c).parent i = if i = a.rt then y else if i = y then par k else m.parent i := by
    intro i; simp [Mem.setParent, Mem.setLeft, Mem.setColor, upd, r1]
  have p2 : ∀ i, (((((relink m n y).setParent y (par k)).setLeft y a.rt).setParent a.rt y).setColor y c).color i = if i = y then c else m.color i := by
    intro i; simp [Mem.setParent, Mem.setLeft, Mem.setColor, upd, r2]
  have p3 : ∀ i, i ≠ par k → (((((relink m n y).setParent y (par k)).setLeft y a.rt).setParent a.rt y).setColor y c).left i = (if i = y then a.rt else m.left i) ∧ (((((relink m n y).setParent y (par k)).setLeft y a.rt).setParent a.rt y).setColor y c).right i = m.right i := by
    intro i hi
    simp [Mem.setParent, Mem.setLeft, Mem.setColor, upd, (r4 i hi).1, (r4 i hi).2]
  have p4 : Link m (((((relink m n y).setParent y (par k)).setLeft y a.rt).setParent a.rt y).setColor y c) y k := by
    refine r3.congr rfl rfl ?_
    rintro i rfl
    simp [Mem.setParent, Mem.setLeft, Mem.setColor, upd, Ne.symm hpy]
  generalize (((((relink m n y).setParent y (par k)).setLeft y a.rt).setParent a.rt y).setColor y c) = m' at p1 p2 p3 p4
  refine ⟨Z.unfocus ⟨y0, ?_, ?_, ?_, ?_, ?_, ?_⟩ ?_ (by simpa [T.ids] using nd) ?_, ?_⟩
  · rw [p1, if_neg (Ne.symm hay), if_pos rfl]
  · rw [p2, if_pos rfl]
  · rw [(p3 y hpy).1, if_pos rfl]
  · rw [(p3 y hpy).2, yr]
  · refine ha.frame ?_ ?_ ?_ e1
    · intro i hi
      have h1 : i ≠ par k := by intro hh; by_cases hz : par k = 0 <;> grind
      have h2 : i ≠ y := by grind
      rw [(p3 i h1).1, (p3 i h1).2, p2, if_neg h2, if_neg h2]; exact ⟨rfl, rfl, rfl⟩
    · intro i hi hne
      have h2 : i ≠ y := by grind
      rw [p1, if_neg hne, if_neg h2]
    · intro _
      rw [p1, if_pos rfl]
  · refine hr.congr e2 ?_
    intro i hi
    have h1 : i ≠ par k := by intro hh; by_cases hz : par k = 0 <;> grind
    have h2 : i ≠ y := by grind
    have h3 : i ≠ a.rt := by grind
    rw [(p3 i h1).1, (p3 i h1).2, p2, p1, if_neg h2, if_neg h2, if_neg h3, if_neg h2]; exact ⟨rfl, rfl, rfl, rfl⟩
  · refine hctx.frame e3 p4 ?_ ?_
    · intro i hi
      have h2 : i ≠ y := by grind
      have h3 : i ≠ a.rt := by grind
      rw [p2, p1, if_neg h2, if_neg h3, if_neg h2]; exact ⟨rfl, rfl⟩
    · intro i hi hne
      have h2 : i ≠ y := by grind
      rw [(p3 i hne).1, (p3 i hne).2, if_neg h2]; exact ⟨rfl, rfl⟩
  · rw [p2, if_neg (Ne.symm y0)]; exact nil
  · have h3 : 0 ≠ a.rt := by grind
    rw [p1, if_neg h3, if_neg (Ne.symm y0)]

end Verif.RbTree
