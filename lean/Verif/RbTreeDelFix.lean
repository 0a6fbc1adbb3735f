import Verif.RbTreeFix
/-
The repair loop of deletion.
-/
set_option linter.unusedSimpArgs false

namespace Verif.RbTree

/-- The second half of the loop body (the sibling `tmp` is black). -/
def delFixL2 (m : Mem) (n tmp : Nat) : Mem × Nat :=
  if m.color (m.left tmp) = .black ∧ m.color (m.right tmp) = .black then
    (m.setColor tmp .red, m.parent n)
  else
    let q := if m.color (m.right tmp) = .black then
        let m := m.setColor (m.left tmp) .black
        let m := m.setColor tmp .red
        let m := rightRotate m tmp
        (m, m.right (m.parent n))
      else (m, tmp)
    let m := q.1
    let tmp := q.2
    let m := m.setColor tmp (m.color (m.parent n))
    let m := m.setColor (m.parent n) .black
    let m := m.setColor (m.right tmp) .black
    let m := leftRotate m (m.parent n)
    (m, m.root)

theorem delFixL_eq (m : Mem) (n : Nat) : delFixL m n =
    if m.color (m.right (m.parent n)) = .red then
      let m := m.setColor (m.right (m.parent n)) .black
      let m := m.setColor (m.parent n) .red
      let m := leftRotate m (m.parent n)
      delFixL2 m n (m.right (m.parent n))
    else delFixL2 m n (m.right (m.parent n)) := by
  unfold delFixL delFixL2
  by_cases h : m.color (m.right (m.parent n)) = .red
  · simp only [h, if_true]
    rfl
  · simp only [h, if_false]
    rfl

theorem T.rt_node (c : Color) (l : T) (i : Nat) (r : T) : (T.node c l i r).rt = i := rfl

/-- The tree with its root painted black. -/
def blk : T → T
  | .leaf => .leaf
  | .node _ l i r => .node .black l i r

theorem blk_mir (t : T) : (blk t).mir = blk t.mir := by cases t <;> rfl
theorem blk_black {t : T} (h : t.col = .black) : blk t = t := by
  cases t with
  | leaf => rfl
  | node c l i r => cases h; rfl

/-- The state of the deletion loop: the subtree `t` has one black node too few. -/
structure DelInv (m : Mem) (k : List Fr) (t : T) : Prop where
  z : Z m (plug k t)
  up : m.parent t.rt = par k
  rr : NoRR (blk t)
  rrc : RRC k
  bh : ∃ h, BH t h ∧ BHC k (h + 1)

theorem DelInv.mir {m : Mem} {k : List Fr} {t : T} (h : DelInv m k t) : DelInv m.mir (k.map Fr.mir) t.mir := by
  have := h.z.mir
  rw [plug_mir] at this
  obtain ⟨h', h1, h2⟩ := h.bh
  refine ⟨this, ?_, ?_, h.rrc.mir, h', h1.mir, h2.mir⟩
  · rw [T.mir_rt, par_mir]; exact h.up
  · rw [← blk_mir]; exact h.rr.mir

/-- What one round of the deletion loop leaves. -/
def DelOut (m' : Mem) (n' : Nat) (len : Nat) (ids : List Nat) : Prop :=
  (∃ k t, DelInv m' k t ∧ t.rt = n' ∧ (plug k t).ids = ids ∧ (k.length < len ∨ t.col = .red)) ∨
  (∃ t, Z m' t ∧ n' = m'.root ∧ t.ids = ids ∧ Good t)

theorem DelOut.mir {m : Mem} {n len : Nat} {ids : List Nat} (h : DelOut m n len ids) : DelOut m.mir n len ids.reverse := by
  rcases h with ⟨k, t, h1, h2, h3, h4⟩ | ⟨t, h1, h2, h3, h4⟩
  · left
    refine ⟨_, _, h1.mir, by rw [T.mir_rt]; exact h2, ?_, ?_⟩
    · rw [← plug_mir, T.mir_ids, h3]
    · rw [List.length_map, T.mir_col]; exact h4
  · right
    exact ⟨_, h1.mir, h2, by rw [T.mir_ids, h3], h4.mir⟩

/-- The address of the subtree's parent survives operations that keep it in place. -/
theorem up_of {m m' : Mem} {k : List Fr} {t : T} (h : Z m' (plug k t)) (h0 : m'.parent 0 = m.parent 0) (hu : t = .leaf → m.parent 0 = par k) : m'.parent t.rt = par k := by
  cases t with
  | leaf => exact h0.trans (hu rfl)
  | node c l i r => exact h.node.2.1

theorem up_leaf {m : Mem} {t : T} {p : Nat} (h : m.parent t.rt = p) : t = .leaf → m.parent 0 = p := by
  rintro rfl; exact h

theorem delFixL2_final {m : Mem} {k : List Fr} {c : Color} {p si z : Nat} {sl y1 y2 t : T} {h : Nat}
    (hz : Z m (plug (.L c p (.node .black sl si (.node .red y1 z y2)) :: k) t)) (hup : m.parent t.rt = p)
    (hrr : NoRR t) (hrrc : RRC (.L c p (.node .black sl si (.node .red y1 z y2)) :: k)) (hbh : BH t h) (hbhc : BHC (.L c p (.node .black sl si (.node .red y1 z y2)) :: k) (h + 1)) :
    let m1 := m.setColor si (m.color (m.parent t.rt))
    let m2 := m1.setColor (m1.parent t.rt) .black
    let m3 := m2.setColor (m2.right si) .black
    let m4 := leftRotate m3 (m3.parent t.rt)
    ∃ t', Z m4 t' ∧ t'.ids = (plug (.L c p (.node .black sl si (.node .red y1 z y2)) :: k) t).ids ∧ Good t' := by
  have hz1 : Z m (plug k (.node c t p (.node .black sl si (.node .red y1 z y2)))) := hz
  have hz2 : Z m (plug (.R c t p :: k) (.node .black sl si (.node .red y1 z y2))) := hz
  obtain ⟨p0, pp, pc, pl, pr⟩ := hz1.node
  obtain ⟨s0, sp, sc, sl', sr⟩ := hz2.node
  have s1 := setColor_ok c hz2
  have s2 := setColor_ok (k := k) .black s1
  have s3 := setColor_ok (k := .R c sl si :: .R .black t p :: k) .black s2
  have s4 := (leftRotate_ok (k := k) s3).1
  have e : ∀ (m : Mem) i c, (m.setColor i c).parent = m.parent ∧ (m.setColor i c).right = m.right := fun _ _ _ => ⟨rfl, rfl⟩
  simp only [(e _ _ _).1, (e _ _ _).2, hup, pc, sr]
  refine ⟨_, s4, ?_, ?_⟩
  · simp [ids_plug, T.ids, pre, post]
  · obtain ⟨⟨q1, q2, q3, q4, q5⟩, q6, q7⟩ := hrrc
    obtain ⟨⟨h', e1, b1, h'', e2, b2, b3⟩, b4⟩ := hbhc
    simp only [Color.w, Nat.add_zero] at e1 e2
    have : h' = h := by omega
    subst this
    subst e2
    refine (good_plug _ _).2 ⟨⟨fun _ => ⟨rfl, rfl⟩, ⟨by simp, hrr, q2⟩, by simp, q4, q5⟩, q7, fun e => (q6 e).2, _, ⟨h' + 1, rfl, ⟨h', rfl, hbh, b1⟩, h', rfl, b2, b3⟩, b4⟩

theorem delFixL2_ok {m : Mem} {k : List Fr} {c : Color} {p si : Nat} {sl sr t : T} (h : DelInv m (.L c p (.node .black sl si sr) :: k) t) (ht : t.col = .black) :
    (∃ t', DelInv (delFixL2 m t.rt si).1 k t' ∧ t'.rt = (delFixL2 m t.rt si).2 ∧ (plug k t').ids = (plug (.L c p (.node .black sl si sr) :: k) t).ids ∧ t'.col = c) ∨
    (∃ t', Z (delFixL2 m t.rt si).1 t' ∧ (delFixL2 m t.rt si).2 = (delFixL2 m t.rt si).1.root ∧ t'.ids = (plug (.L c p (.node .black sl si sr) :: k) t).ids ∧ Good t') := by
  obtain ⟨hz, hup, hrr, hrrc, hh, hbh, hbhc⟩ := h
  rw [blk_black ht] at hrr
  simp only [par] at hup
  have hz1 : Z m (plug k (.node c t p (.node .black sl si sr))) := hz
  have hz2 : Z m (plug (.R c t p :: k) (.node .black sl si sr)) := hz
  obtain ⟨p0, pp, pc, pl, pr⟩ := hz1.node
  obtain ⟨s0, sp, sc, sl', sr'⟩ := hz2.node
  have cl : m.color sl.rt = sl.col := Z.col (k := .L .black si sr :: .R c t p :: k) hz
  have cr : m.color sr.rt = sr.col := Z.col (k := .R .black sl si :: .R c t p :: k) hz
  obtain ⟨⟨q1, q2, q3⟩, q6, q7⟩ := hrrc
  obtain ⟨⟨h', e1, b1, b2⟩, b4⟩ := hbhc
  have : h' = hh := by simp only [Color.w] at e1; omega
  subst this
  unfold delFixL2
  simp only [sl', sr', cl, cr]
  by_cases hcase : sl.col = .black ∧ sr.col = .black
  · rw [if_pos hcase]
    left
    have s1 := setColor_ok .red hz2
    have s2 : Z (m.setColor si .red) (plug k (.node c t p (.node .red sl si sr))) := s1
    refine ⟨.node c t p (.node .red sl si sr), ⟨s2, s2.node.2.1, ⟨by simp, hrr, fun _ => hcase, q2, q3⟩, q7, h' + c.w, ⟨h', rfl, hbh, h', rfl, b1, b2⟩, ?_⟩, hup.symm, ?_, rfl⟩
    · rw [show h' + c.w + 1 = h' + 1 + c.w by omega]; exact b4
    · simp [ids_plug, T.ids, pre, post]
  · rw [if_neg hcase]
    right
    by_cases hr : sr.col = .black
    · rw [if_pos hr]
      have hl : sl.col = .red := by
        cases hc : sl.col with
        | red => rfl
        | black => exact absurd ⟨hc, hr⟩ hcase
      cases sl with
      | leaf => cases hl
      | node lc x1 q x2 =>
        cases hl
        have s1 := setColor_ok (k := .L .black si sr :: .R c t p :: k) .black hz
        have s2 := setColor_ok (k := .R c t p :: k) .red s1
        obtain ⟨s3, s3p, _⟩ := rightRotate_ok (k := .R c t p :: k) s2
        simp only [T.rt_node]
        generalize rightRotate ((m.setColor q .black).setColor si .red) si = m1 at s3 s3p
        have s3t : Z m1 (plug (.L c p (.node .black x1 q (.node .red x2 si sr)) :: k) t) := s3
        have hup1 : m1.parent t.rt = p := up_of s3t (m := m) (s3p) (up_leaf hup)
        have hq : m1.right (m1.parent t.rt) = q := by
          rw [hup1]; exact (Z.node (k := k) s3).2.2.2.2
        rw [hq]
        obtain ⟨h'', e2, b5, b6⟩ := b1
        simp only [Color.w, Nat.add_zero] at e2
        subst e2
        obtain ⟨q8, q9, q10⟩ := q2
        obtain ⟨t', g1, g2, g3⟩ := delFixL2_final s3t hup1 hrr ⟨⟨by simp, q9, fun _ => ⟨(q8 rfl).2, hr⟩, q10, q3⟩, fun e => ⟨rfl, (q6 e).2⟩, q7⟩ hbh ⟨⟨h', rfl, b5, h', rfl, b6, b2⟩, b4⟩
        refine ⟨t', g1, trivial, ?_, g3⟩
        rw [g2]
        simp [ids_plug, T.ids, pre, post]
    · rw [if_neg hr]
      have hr' : sr.col = .red := by
        cases hc : sr.col with
        | red => rfl
        | black => exact absurd hc hr
      cases sr with
      | leaf => cases hr'
      | node rc y1 z y2 =>
        cases hr'
        obtain ⟨t', g1, g2, g3⟩ := delFixL2_final hz hup hrr ⟨⟨q1, q2, q3⟩, q6, q7⟩ hbh ⟨⟨h', rfl, b1, b2⟩, b4⟩
        exact ⟨t', g1, rfl, g2, g3⟩

theorem delFixL_ok {m : Mem} {k : List Fr} {c : Color} {p : Nat} {s t : T} (h : DelInv m (.L c p s :: k) t) (ht : t.col = .black) :
    DelOut (delFixL m t.rt).1 (delFixL m t.rt).2 (k.length + 1) (plug (.L c p s :: k) t).ids := by
  have hz := h.z
  have hz1 : Z m (plug k (.node c t p s)) := hz
  have hup : m.parent t.rt = p := h.up
  obtain ⟨p0, pp, pc, pl, pr⟩ := hz1.node
  have cs : m.color s.rt = s.col := Z.col (k := .R c t p :: k) hz
  obtain ⟨hh, hbh, hs, hk⟩ := h.bh
  obtain ⟨q1, q2, q3⟩ := h.rrc
  rw [delFixL_eq]
  simp only [hup, pr, cs]
  cases s with
  | leaf => simp only [BH] at hs; omega
  | node sc sl si sr =>
    cases sc with
    | black =>
      rw [if_neg (by simp [T.col])]
      rcases delFixL2_ok h ht with ⟨t', h1, h2, h3, h4⟩ | ho
      · exact .inl ⟨k, t', h1, h2, h3, .inl (by omega)⟩
      · exact .inr ho
    | red =>
      rw [if_pos (show (T.node .red sl si sr).col = .red from rfl)]
      have hc : c = .black := by
        cases c with
        | black => rfl
        | red => cases (q2 rfl).1
      subst hc
      obtain ⟨h', e1, b1, b2⟩ := hs
      simp only [Color.w, Nat.add_zero] at e1
      subst e1
      obtain ⟨r1, r2, r3⟩ := q1
      have s1 := setColor_ok (k := .R .black t p :: k) .black hz
      have s2 := setColor_ok (k := k) .red s1
      obtain ⟨s3, s3p, _⟩ := leftRotate_ok (k := k) s2
      have e : ((m.setColor si .black).setColor (m.parent t.rt) .red) = ((m.setColor si .black).setColor p .red) := by rw [hup]
      simp only [T.rt_node]
      have e2 : ((m.setColor si .black).setColor ((m.setColor si .black).parent t.rt) .red) = ((m.setColor si .black).setColor p .red) := e
      rw [e2]
      have e3 : ((m.setColor si .black).setColor p .red).parent t.rt = p := hup
      rw [e3]
      generalize leftRotate ((m.setColor si .black).setColor p .red) p = m1 at s3 s3p
      have s3t : Z m1 (plug (.L .red p sl :: .L .black si sr :: k) t) := s3
      have hup1 : m1.parent t.rt = p := up_of s3t (m := m) s3p (up_leaf hup)
      have hr1 : m1.right (m1.parent t.rt) = sl.rt := by
        rw [hup1]; exact (Z.node (k := .L .black si sr :: k) s3).2.2.2.2
      rw [hr1]
      cases sl with
      | leaf => simp only [BH] at b1; omega
      | node lc x1 q x2 =>
        have : lc = .black := (r1 rfl).1
        subst this
        have hd : DelInv m1 (.L .red p (.node .black x1 q x2) :: .L .black si sr :: k) t :=
          ⟨s3t, hup1, h.rr, ⟨r2, fun _ => ⟨rfl, rfl⟩, r3, by simp, q3⟩, hh, hbh, b1, b2, hk⟩
        have ho := delFixL2_ok hd ht
        have hids : (plug (.L .red p (.node .black x1 q x2) :: .L .black si sr :: k) t).ids = (plug (.L .black p (.node .red (.node .black x1 q x2) si sr) :: k) t).ids := by
          simp [ids_plug, T.ids, pre, post]
        rw [hids] at ho
        rcases ho with ⟨t', h1, h2, h3, h4⟩ | ho
        · exact .inl ⟨_, t', h1, h2, h3, .inr h4⟩
        · exact .inr ho

theorem delFixR_mir (m : Mem) (n : Nat) : delFixR m n = ((delFixL m.mir n).1.mir, (delFixL m.mir n).2) := by
  unfold delFixR delFixL
  simp only [Mem.mir_parent, Mem.mir_left, Mem.mir_right, Mem.mir_color, Mem.mir_setColor, leftRotate_mir]
  by_cases h1 : m.color (m.left (m.parent n)) = .red
  · simp only [h1, if_true, Mem.mir_parent, Mem.mir_left, Mem.mir_right, Mem.mir_color, Mem.mir_setColor, leftRotate_mir, rightRotate_mir']
    generalize rightRotate ((m.setColor (m.left (m.parent n)) Color.black).setColor ((m.setColor (m.left (m.parent n)) Color.black).parent n) Color.red) (((m.setColor (m.left (m.parent n)) Color.black).setColor ((m.setColor (m.left (m.parent n)) Color.black).parent n) Color.red).parent n) = M
    generalize M.left (M.parent n) = tmp
    by_cases h2 : M.color (M.right tmp) = .black ∧ M.color (M.left tmp) = .black
    · rw [if_pos h2, if_pos h2]; rfl
    · rw [if_neg h2, if_neg h2]
      by_cases h3 : M.color (M.left tmp) = .black
      · rw [if_pos h3, if_pos h3]
        simp only [Mem.mir_parent, Mem.mir_left, Mem.mir_right, Mem.mir_color, Mem.mir_setColor, leftRotate_mir, rightRotate_mir', Mem.mir_root]
        rfl
      · rw [if_neg h3, if_neg h3]
        simp only [Mem.mir_parent, Mem.mir_left, Mem.mir_right, Mem.mir_color, Mem.mir_setColor, leftRotate_mir, rightRotate_mir', Mem.mir_root]
        rfl
  · simp only [h1, if_false, Mem.mir_parent, Mem.mir_left, Mem.mir_right, Mem.mir_color, Mem.mir_setColor, leftRotate_mir, rightRotate_mir']
    generalize m.left (m.parent n) = tmp
    by_cases h2 : m.color (m.right tmp) = .black ∧ m.color (m.left tmp) = .black
    · rw [if_pos h2, if_pos h2]; rfl
    · rw [if_neg h2, if_neg h2]
      by_cases h3 : m.color (m.left tmp) = .black
      · rw [if_pos h3, if_pos h3]
        simp only [Mem.mir_parent, Mem.mir_left, Mem.mir_right, Mem.mir_color, Mem.mir_setColor, leftRotate_mir, rightRotate_mir', Mem.mir_root]
        rfl
      · rw [if_neg h3, if_neg h3]
        simp only [Mem.mir_parent, Mem.mir_left, Mem.mir_right, Mem.mir_color, Mem.mir_setColor, leftRotate_mir, rightRotate_mir', Mem.mir_root]
        rfl

theorem delFixR_ok {m : Mem} {k : List Fr} {c : Color} {p : Nat} {s t : T} (h : DelInv m (.R c s p :: k) t) (ht : t.col = .black) :
    DelOut (delFixR m t.rt).1 (delFixR m t.rt).2 (k.length + 1) (plug (.R c s p :: k) t).ids := by
  have := (delFixL_ok (c := c) (p := p) (s := s.mir) h.mir (by rw [T.mir_col]; exact ht)).mir
  rw [delFixR_mir]
  simp only [List.length_map, T.mir_rt] at this
  convert this using 1
  rw [← T.mir_ids, plug_mir, show Fr.L c p s.mir :: List.map Fr.mir k = (Fr.R c s p :: k).map Fr.mir from rfl, map_mir_mir, T.mir_mir]

theorem blacken_ok {m : Mem} {k : List Fr} {t : T} (h : Z m (plug k t)) : Z (m.setColor t.rt .black) (plug k (blk t)) := by
  cases t with
  | node c l i r => exact setColor_ok .black h
  | leaf =>
    obtain ⟨h1, h2, h3, h4⟩ := h.focus
    refine Z.unfocus trivial (h2.congr ?_ rfl ?_) h3 ?_
    · simpa [T.ids] using h3
    · intro i hi
      have := h2.ne i hi
      simp [Mem.setColor, upd, T.rt, this]
    · simp [Mem.setColor, upd, T.rt]

theorem blk_ids (t : T) : (blk t).ids = t.ids := by cases t <;> rfl
theorem blk_col (t : T) : (blk t).col = .black := by cases t <;> rfl

/-- The loop ends at once at the root. -/
theorem deleteFixup_root {fuel : Nat} {m : Mem} {t : T} (hf : 0 < fuel) (hz : Z m t) (hg : Good t) : ∃ m' t', deleteFixup fuel m m.root = some m' ∧ Z m' t' ∧ t'.ids = t.ids ∧ Good t' := by
  obtain ⟨f, rfl⟩ : ∃ f, fuel = f + 1 := ⟨fuel - 1, by omega⟩
  refine ⟨_, t, by rw [deleteFixup, if_neg (by simp)], ?_, rfl, hg⟩
  have := blacken_ok (k := []) hz
  rw [plug, blk_black hg.2.1, ← hz.root] at this
  exact this

theorem deleteFixup_ok : ∀ (fuel : Nat) {m : Mem} {k : List Fr} {t : T}, DelInv m k t → (k.length + 1 < fuel ∨ (t.col = .red ∧ 0 < fuel)) →
    ∃ m' t', deleteFixup fuel m t.rt = some m' ∧ Z m' t' ∧ t'.ids = (plug k t).ids ∧ Good t'
  | 0, m, k, t, h, hf => by omega
  | fuel + 1, m, k, t, h, hf => by
    rw [deleteFixup]
    have hcol := h.z.col
    -- leaving the loop
    have exit (hx : k = [] ∨ t.col = .red) : ∃ m' t', some (m.setColor t.rt .black) = some m' ∧ Z m' t' ∧ t'.ids = (plug k t).ids ∧ Good t' := by
      refine ⟨_, _, rfl, blacken_ok h.z, by simp [ids_plug, blk_ids], ?_⟩
      obtain ⟨hh, hb, hbc⟩ := h.bh
      rcases hx with rfl | hx
      · refine ⟨h.rr, blk_col t, ?_⟩
        show ∃ h, BH (blk t) h
        cases t with
        | leaf => exact ⟨0, rfl⟩
        | node c l i r =>
          obtain ⟨h', e, b1, b2⟩ := hb
          exact ⟨h' + 1, h', rfl, b1, b2⟩
      · refine (good_plug _ _).2 ⟨h.rr, h.rrc, by rw [blk_col]; simp, hh + 1, ?_, hbc⟩
        cases t with
        | leaf => cases hx
        | node c l i r =>
          cases hx
          obtain ⟨h', e, b1, b2⟩ := hb
          simp only [Color.w, Nat.add_zero] at e
          subst e
          exact ⟨hh, rfl, b1, b2⟩
    by_cases hr : t.col = .red
    · rw [if_neg (by rw [hcol, hr]; simp)]
      exact exit (.inr hr)
    · have hb : t.col = .black := by cases hc : t.col <;> simp_all
      cases k with
      | nil =>
        rw [if_neg (by rw [h.z.root]; simp [plug])]
        exact exit (.inl rfl)
      | cons f k =>
        have hlen : (f :: k).length + 1 < fuel + 1 := by
          rcases hf with hf | hf
          · exact hf
          · exact absurd hf.1 hr
        -- not at the root
        have hnr : t.rt ≠ m.root := by
          intro e
          obtain ⟨h1, h2, h3, h4⟩ := h.z.focus
          have hroot := h.z.root
          have hne : (plug (f :: k) t) ≠ .leaf := by
            intro e'
            have : (plug (f :: k) t).ids = [] := by rw [e']; rfl
            rw [ids_plug] at this
            cases f <;> simp [pre, post] at this
          have hrm := rt_mem hne
          have hr0 := h.z.mem_ne_zero _ hrm
          -- the root has no parent, `t` has one
          have hp0 : m.parent m.root = 0 := by
            rw [hroot]; exact h.z.rep.parent_rt hne
          rw [← e, h.up] at hp0
          have := h2.ne (par (f :: k)) (par_mem (by simp))
          exact this hp0
        rw [if_pos ⟨hnr, by rw [hcol, hb]⟩, h.up]
        have hout : DelOut (if t.rt = m.left (par (f :: k)) then delFixL m t.rt else delFixR m t.rt).1 (if t.rt = m.left (par (f :: k)) then delFixL m t.rt else delFixR m t.rt).2 (k.length + 1) (plug (f :: k) t).ids := by
          cases f with
          | L c p s =>
            rw [if_pos (show t.rt = m.left (par (.L c p s :: k)) from (Z.node (k := k) h.z).2.2.2.1.symm)]
            exact delFixL_ok h hb
          | R c s p =>
            rw [if_neg]
            · exact delFixR_ok h hb
            · intro e
              have h1 := (Z.node (k := k) h.z).2.2.2.1
              have h2 := (Z.sib (k := k) h.z (h1.symm.trans e.symm)).1
              obtain ⟨hh, hbh, hs, _⟩ := h.bh
              rw [h2] at hs
              simp only [BH] at hs
              omega
        generalize (if t.rt = m.left (par (f :: k)) then delFixL m t.rt else delFixR m t.rt) = q at hout
        simp only [List.length_cons] at hlen
        rcases hout with ⟨k', t', h1, h2, h3, h4⟩ | ⟨t', h1, h2, h3, h4⟩
        · obtain ⟨m', t'', e1, e2, e3, e4⟩ := deleteFixup_ok fuel h1 (by
            rcases h4 with h4 | h4
            · left; omega
            · right; exact ⟨h4, by omega⟩)
          exact ⟨m', t'', by simp only; rw [← h2]; exact e1, e2, e3.trans h3, e4⟩
        · obtain ⟨m', t'', e1, e2, e3, e4⟩ := deleteFixup_root (fuel := fuel) (by omega) h1 h4
          exact ⟨m', t'', by simp only; rw [h2]; exact e1, e2, e3.trans h3, e4⟩

end Verif.RbTree
