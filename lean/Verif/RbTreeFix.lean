import Verif.RbTreeRot
/-
The red-black invariants and the two repair loops.
-/
set_option linter.unusedSimpArgs false

namespace Verif.RbTree

def Color.w : Color → Nat
  | .red => 0
  | .black => 1

/-- Every path down has `h` black nodes. -/
def BH : T → Nat → Prop
  | .leaf, h => h = 0
  | .node c l _ r, h => ∃ h', h = h' + c.w ∧ BH l h' ∧ BH r h'

/-- No red node has a red child. -/
def NoRR : T → Prop
  | .leaf => True
  | .node c l _ r => (c = .red → l.col = .black ∧ r.col = .black) ∧ NoRR l ∧ NoRR r

/-- The invariants of a red-black tree. -/
def Good (t : T) : Prop := NoRR t ∧ t.col = .black ∧ ∃ h, BH t h

/-- The colour above the subtree; a tree whose root is red counts as a violation. -/
def pcol : List Fr → Color
  | [] => .red
  | .L c _ _ :: _ => c
  | .R c _ _ :: _ => c

def BHC : List Fr → Nat → Prop
  | [], _ => True
  | .L c _ r :: k, h => BH r h ∧ BHC k (h + c.w)
  | .R c l _ :: k, h => BH l h ∧ BHC k (h + c.w)

def RRC : List Fr → Prop
  | [] => True
  | .L c _ r :: k => NoRR r ∧ (c = .red → r.col = .black ∧ pcol k = .black) ∧ RRC k
  | .R c l _ :: k => NoRR l ∧ (c = .red → l.col = .black ∧ pcol k = .black) ∧ RRC k

theorem T.col_node (c : Color) (l : T) (i : Nat) (r : T) : (T.node c l i r).col = c := rfl
theorem pcol_L (c : Color) (i : Nat) (r : T) (k : List Fr) : pcol (.L c i r :: k) = c := rfl
theorem pcol_R (c : Color) (i : Nat) (l : T) (k : List Fr) : pcol (.R c l i :: k) = c := rfl

theorem good_plug (k : List Fr) : ∀ t, Good (plug k t) ↔ NoRR t ∧ RRC k ∧ (t.col = .red → pcol k = .black) ∧ ∃ h, BH t h ∧ BHC k h := by
  induction k with
  | nil =>
    intro t
    simp only [Good, plug, RRC, pcol, BHC, and_true, true_and]
    cases t.col <;> simp
  | cons f k ih =>
    intro t
    cases f with
    | L c i r =>
      rw [plug, ih]
      simp only [NoRR, T.col_node, RRC, pcol_L, pcol_R, BHC, BH]
      constructor
      · rintro ⟨⟨h1, h2, h3⟩, h4, h5, h, ⟨h', rfl, h7, h8⟩, h9⟩
        refine ⟨h2, ⟨h3, fun e => ⟨(h1 e).2, h5 e⟩, h4⟩, ?_, h', h7, h8, h9⟩
        intro e
        cases c with
        | black => rfl
        | red => rw [(h1 rfl).1] at e; cases e
      · rintro ⟨h2, ⟨h3, h1, h4⟩, h5, h', h7, h8, h9⟩
        refine ⟨⟨fun e => ⟨?_, (h1 e).1⟩, h2, h3⟩, h4, fun e => (h1 e).2, _, ⟨h', rfl, h7, h8⟩, h9⟩
        cases hc : t.col with
        | black => rfl
        | red => rw [e] at h5; cases h5 hc
    | R c l i =>
      rw [plug, ih]
      simp only [NoRR, T.col_node, RRC, pcol_L, pcol_R, BHC, BH]
      constructor
      · rintro ⟨⟨h1, h2, h3⟩, h4, h5, h, ⟨h', rfl, h7, h8⟩, h9⟩
        refine ⟨h3, ⟨h2, fun e => ⟨(h1 e).1, h5 e⟩, h4⟩, ?_, h', h8, h7, h9⟩
        intro e
        cases c with
        | black => rfl
        | red => rw [(h1 rfl).2] at e; cases e
      · rintro ⟨h2, ⟨h3, h1, h4⟩, h5, h', h7, h8, h9⟩
        refine ⟨⟨fun e => ⟨(h1 e).1, ?_⟩, h3, h2⟩, h4, fun e => (h1 e).2, _, ⟨h', rfl, h8, h7⟩, h9⟩
        cases hc : t.col with
        | black => rfl
        | red => rw [e] at h5; cases h5 hc

/-! ### Mirror images -/

theorem BH.mir : ∀ {t : T} {h : Nat}, BH t h → BH t.mir h
  | .leaf, _, h => h
  | .node _ _ _ _, _, ⟨h', e, hl, hr⟩ => ⟨h', e, hr.mir, hl.mir⟩

theorem NoRR.mir : ∀ {t : T}, NoRR t → NoRR t.mir
  | .leaf, _ => trivial
  | .node _ l _ r, ⟨h, hl, hr⟩ => ⟨fun e => by rw [T.mir_col, T.mir_col]; exact (h e).symm, hr.mir, hl.mir⟩

theorem Good.mir {t : T} (h : Good t) : Good t.mir := ⟨h.1.mir, by rw [T.mir_col]; exact h.2.1, h.2.2.imp fun _ g => g.mir⟩

theorem BHC.mir : ∀ {k : List Fr} {h : Nat}, BHC k h → BHC (k.map Fr.mir) h
  | [], _, _ => trivial
  | .L _ _ _ :: _, _, h => ⟨h.1.mir, h.2.mir⟩
  | .R _ _ _ :: _, _, h => ⟨h.1.mir, h.2.mir⟩

theorem pcol_mir (k : List Fr) : pcol (k.map Fr.mir) = pcol k := by
  cases k with
  | nil => rfl
  | cons f k => cases f <;> rfl

theorem par_mir (k : List Fr) : par (k.map Fr.mir) = par k := by
  cases k with
  | nil => rfl
  | cons f k => cases f <;> rfl

theorem RRC.mir : ∀ {k : List Fr}, RRC k → RRC (k.map Fr.mir)
  | [], _ => trivial
  | .L _ _ _ :: k, h => ⟨h.1.mir, fun e => by rw [T.mir_col, pcol_mir]; exact h.2.1 e, h.2.2.mir⟩
  | .R _ _ _ :: k, h => ⟨h.1.mir, fun e => by rw [T.mir_col, pcol_mir]; exact h.2.1 e, h.2.2.mir⟩

theorem Mem.mir_parent (m : Mem) : m.mir.parent = m.parent := rfl
theorem Mem.mir_left (m : Mem) : m.mir.left = m.right := rfl
theorem Mem.mir_right (m : Mem) : m.mir.right = m.left := rfl
theorem Mem.mir_color (m : Mem) : m.mir.color = m.color := rfl
theorem Mem.mir_root (m : Mem) : m.mir.root = m.root := rfl
theorem Mem.mir_setColor (m : Mem) (i : Nat) (c : Color) : m.mir.setColor i c = (m.setColor i c).mir := rfl

theorem leftRotate_mir (m : Mem) (n : Nat) : leftRotate m.mir n = (rightRotate m n).mir := by
  rw [rightRotate_mir]; rfl

theorem rightRotate_mir' (m : Mem) (n : Nat) : rightRotate m.mir n = (leftRotate m n).mir := by
  rw [rightRotate_mir]; rfl

theorem insFixR_mir (m : Mem) (n : Nat) : insFixR m n = ((insFixL m.mir n).1.mir, (insFixL m.mir n).2) := by
  unfold insFixR insFixL
  simp only [Mem.mir_parent, Mem.mir_left, Mem.mir_right, Mem.mir_color, Mem.mir_setColor, leftRotate_mir]
  by_cases h1 : m.color (m.left (m.parent (m.parent n))) = .red
  · rw [if_pos h1, if_pos h1]; rfl
  · rw [if_neg h1, if_neg h1]
    by_cases h2 : n = m.left (m.parent n)
    · rw [if_pos h2, if_pos h2]
      simp only [Mem.mir_parent, Mem.mir_left, Mem.mir_right, Mem.mir_color, Mem.mir_setColor, rightRotate_mir']
      rfl
    · rw [if_neg h2, if_neg h2]
      simp only [Mem.mir_parent, Mem.mir_left, Mem.mir_right, Mem.mir_color, Mem.mir_setColor, rightRotate_mir']
      rfl

theorem map_mir_mir (k : List Fr) : (k.map Fr.mir).map Fr.mir = k := by
  simp [Function.comp_def, Fr.mir_mir]

/-! ### Insertion -/

/-- The state of the insertion loop: a red node below the path `k`. -/
structure InsInv (m : Mem) (k : List Fr) (a : T) (n : Nat) (b : T) : Prop where
  z : Z m (plug k (.node .red a n b))
  rr : NoRR (.node .red a n b)
  rrc : RRC k
  bh : ∃ h, BH (.node .red a n b) h ∧ BHC k h

theorem InsInv.mir {m : Mem} {k : List Fr} {a b : T} {n : Nat} (h : InsInv m k a n b) : InsInv m.mir (k.map Fr.mir) b.mir n a.mir := by
  have := h.z.mir
  rw [plug_mir] at this
  obtain ⟨h', h1, h2⟩ := h.bh
  exact ⟨this, h.rr.mir, h.rrc.mir, h', h1.mir, h2.mir⟩

/-- What one round of the insertion loop leaves. -/
def InsOut (m' : Mem) (n' : Nat) (len : Nat) (ids : List Nat) : Prop :=
  (∃ k a b, InsInv m' k a n' b ∧ (plug k (.node .red a n' b)).ids = ids ∧ (k.length < len ∧ (pcol k = .black ∨ k.length + 1 < len)))

theorem InsOut.mir {m : Mem} {n len : Nat} {ids : List Nat} (h : InsOut m n len ids) : InsOut m.mir n len ids.reverse := by
  obtain ⟨k, a, b, h1, h2, h3⟩ := h
  refine ⟨_, _, _, h1.mir, ?_, ?_⟩
  · rw [show T.node .red b.mir n a.mir = (T.node .red a n b).mir from rfl, ← plug_mir, T.mir_ids, h2]
  · rw [pcol_mir, List.length_map]; exact h3

theorem insFixL_ok {m : Mem} {k : List Fr} {f : Fr} {a b u : T} {n g : Nat} (h : InsInv m (f :: .L .black g u :: k) a n b) (hf : pcol [f] = .red) :
    InsOut (insFixL m n).1 (insFixL m n).2 (k.length + 2) (plug (f :: .L .black g u :: k) (.node .red a n b)).ids := by
  obtain ⟨hz, hrr, hrrc, hh, hbh, hbhc⟩ := h
  cases f with
  | L c p r =>
    cases hf
    obtain ⟨n0, np, nc, nl, nr⟩ := hz.node
    have hz1 : Z m (plug (.L .black g u :: k) (.node .red (.node .red a n b) p r)) := hz
    have hz2 : Z m (plug k (.node .black (.node .red (.node .red a n b) p r) g u)) := hz
    obtain ⟨p0, pp, pc, pl, pr⟩ := hz1.node
    obtain ⟨g0, gp, gc, gl, gr⟩ := hz2.node
    simp only [par] at np pp
    have huc : m.color u.rt = u.col := Z.col (k := .R .black (.node .red (.node .red a n b) p r) g :: k) hz2
    obtain ⟨q1, q2, q3⟩ := hrrc
    obtain ⟨q4, q5, q6⟩ := q3
    obtain ⟨⟨hr1, ⟨hu1, hk⟩⟩⟩ : (BH r hh ∧ (BH u hh ∧ BHC k (hh + 1))) ∧ True := ⟨hbhc, trivial⟩
    unfold insFixL
    simp only [np, pp, gr, huc]
    by_cases hu : u.col = .red
    · rw [if_pos hu]
      cases u with
      | leaf => cases hu
      | node uc ul ui ur =>
        simp only [T.col] at hu
        subst hu
        refine ⟨k, .node .black (.node .red a n b) p r, .node .black ul ui ur, ⟨?_, ?_, q6, ?_⟩, ?_, ?_⟩
        · simp only [Mem.setColor, np, pp, T.rt]
          have s1 := setColor_ok .black hz1
          have s2 := setColor_ok .black (k := .R .black (.node .black (.node .red a n b) p r) g :: k) s1
          exact setColor_ok .red (k := k) s2
        · refine ⟨fun _ => ⟨rfl, rfl⟩, ⟨by simp, hrr, q1⟩, by simp, q4.2⟩
        · refine ⟨hh + 1, ⟨hh + 1, rfl, ⟨hh, rfl, hbh, hr1⟩, ?_⟩, hk⟩
          obtain ⟨h', e, b1, b2⟩ := hu1
          simp only [Color.w, Nat.add_zero] at e
          subst e
          exact ⟨hh, rfl, b1, b2⟩
        · simp [Mem.setColor, np, pp, ids_plug, T.ids, pre, post]
        · simp
    · rw [if_neg hu]
      have huB : u.col = .black := by cases hc : u.col <;> simp_all
      have hnr : n ≠ m.right p := by
        rw [pr]
        intro e
        have := (hz1.sib e).1
        cases this
      rw [if_neg hnr]
      simp only [np, Mem.setColor, pp]
      have s1 := setColor_ok .black hz1
      have s2 := setColor_ok .red (k := k) s1
      have s3 := (rightRotate_ok s2).1
      refine ⟨.L .black p (.node .red r g u) :: k, a, b, ⟨s3, hrr, ⟨⟨fun _ => ⟨(q2 rfl).1, huB⟩, q1, q4⟩, by simp, q6⟩, hh, hbh, ⟨hh, rfl, hr1, hu1⟩, hk⟩, ?_, ?_⟩
      · simp [ids_plug, T.ids, pre, post]
      · simp [pcol]
  | R c l p =>
    cases hf
    obtain ⟨n0, np, nc, nl, nr⟩ := hz.node
    have hz1 : Z m (plug (.L .black g u :: k) (.node .red l p (.node .red a n b))) := hz
    have hz2 : Z m (plug k (.node .black (.node .red l p (.node .red a n b)) g u)) := hz
    obtain ⟨p0, pp, pc, pl, pr⟩ := hz1.node
    obtain ⟨g0, gp, gc, gl, gr⟩ := hz2.node
    simp only [par] at np pp
    have huc : m.color u.rt = u.col := Z.col (k := .R .black (.node .red l p (.node .red a n b)) g :: k) hz2
    obtain ⟨q1, q2, q3⟩ := hrrc
    obtain ⟨q4, q5, q6⟩ := q3
    obtain ⟨⟨hr1, ⟨hu1, hk⟩⟩⟩ : (BH l hh ∧ (BH u hh ∧ BHC k (hh + 1))) ∧ True := ⟨hbhc, trivial⟩
    unfold insFixL
    simp only [np, pp, gr, huc]
    by_cases hu : u.col = .red
    · rw [if_pos hu]
      cases u with
      | leaf => cases hu
      | node uc ul ui ur =>
        simp only [T.col] at hu
        subst hu
        refine ⟨k, .node .black l p (.node .red a n b), .node .black ul ui ur, ⟨?_, ?_, q6, ?_⟩, ?_, ?_⟩
        · simp only [Mem.setColor, np, pp, T.rt]
          have s1 := setColor_ok .black hz1
          have s2 := setColor_ok .black (k := .R .black (.node .black l p (.node .red a n b)) g :: k) s1
          exact setColor_ok .red (k := k) s2
        · refine ⟨fun _ => ⟨rfl, rfl⟩, ⟨by simp, q1, hrr⟩, by simp, q4.2⟩
        · refine ⟨hh + 1, ⟨hh + 1, rfl, ⟨hh, rfl, hr1, hbh⟩, ?_⟩, hk⟩
          obtain ⟨h', e, b1, b2⟩ := hu1
          simp only [Color.w, Nat.add_zero] at e
          subst e
          exact ⟨hh, rfl, b1, b2⟩
        · simp [Mem.setColor, np, pp, ids_plug, T.ids, pre, post]
        · simp
    · rw [if_neg hu]
      have huB : u.col = .black := by cases hc : u.col <;> simp_all
      rw [if_pos (show n = m.right p from pr.symm)]
      have s0 := (leftRotate_ok hz1).1
      have s0' : Z (leftRotate m p) (plug (.L .red n b :: .L .black g u :: k) (.node .red l p a)) := s0
      obtain ⟨_, np', _⟩ := s0.node
      obtain ⟨_, pp', _⟩ := s0'.node
      simp only [par] at np' pp'
      simp only [np', pp', Mem.setColor]
      have s1 := setColor_ok .black s0
      have s2 := setColor_ok .red (k := k) s1
      have s3 := (rightRotate_ok s2).1
      obtain ⟨h', e, b1, b2⟩ := hbh
      simp only [Color.w, Nat.add_zero] at e
      subst e
      obtain ⟨hab, ha, hb⟩ := hrr
      refine ⟨.L .black n (.node .red b g u) :: k, l, a, ⟨s3, ⟨fun _ => ⟨(q2 rfl).1, (hab rfl).1⟩, q1, ha⟩, ⟨⟨fun _ => ⟨(hab rfl).2, huB⟩, hb, q4⟩, by simp, q6⟩, hh, ⟨hh, rfl, hr1, b1⟩, ⟨hh, rfl, b2, hu1⟩, hk⟩, ?_, ?_⟩
      · simp [ids_plug, T.ids, pre, post]
      · simp [pcol]

theorem insFixR_ok {m : Mem} {k : List Fr} {f : Fr} {a b u : T} {n g : Nat} (h : InsInv m (f :: .R .black u g :: k) a n b) (hf : pcol [f] = .red) :
    InsOut (insFixR m n).1 (insFixR m n).2 (k.length + 2) (plug (f :: .R .black u g :: k) (.node .red a n b)).ids := by
  have hf' : pcol [f.mir] = .red := by cases f <;> exact hf
  have := (insFixL_ok (f := f.mir) h.mir hf').mir
  rw [insFixR_mir]
  simp only [List.length_map] at this
  convert this using 1
  rw [← T.mir_ids, plug_mir]
  rw [List.map_cons, Fr.mir_mir, show Fr.L .black g u.mir :: List.map Fr.mir k = (Fr.R .black u g :: k).map Fr.mir from rfl, map_mir_mir, T.mir, T.mir_mir, T.mir_mir]

theorem pcol_color {m : Mem} {k : List Fr} {t : T} (h : Z m (plug k t)) (hk : k ≠ []) : m.color (par k) = pcol k := by
  cases k with
  | nil => exact absurd rfl hk
  | cons f k => cases f <;> exact (Z.node (k := k) h).2.2.1

theorem insertFixup_ok : ∀ (fuel : Nat) {m : Mem} {k : List Fr} {a b : T} {n : Nat}, InsInv m k a n b → (k.length + 1 < fuel ∨ ((k = [] ∨ pcol k = .black) ∧ 0 < fuel)) →
    ∃ m' t', insertFixup fuel m n = some m' ∧ Z m' t' ∧ t'.ids = (plug k (.node .red a n b)).ids ∧ Good t'
  | 0, m, k, a, b, n, h, hf => by omega
  | fuel + 1, m, k, a, b, n, h, hf => by
    obtain ⟨n0, np, nc, nl, nr⟩ := h.z.node
    rw [insertFixup, np]
    by_cases hk : k = []
    · subst hk
      have hc : m.color (par []) = .black := h.z.nil
      rw [if_neg (by rw [hc]; simp)]
      have hroot : m.root = n := h.z.root
      refine ⟨_, .node .black a n b, rfl, ?_, ?_, ?_⟩
      · rw [hroot]; exact setColor_ok (k := []) .black h.z
      · rfl
      · obtain ⟨h', ⟨h'', e, b1, b2⟩, _⟩ := h.bh
        exact ⟨⟨by simp, h.rr.2⟩, rfl, _, h'', rfl, b1, b2⟩
    · have hpc := pcol_color h.z hk
      by_cases hb : pcol k = .black
      · rw [if_neg (by rw [hpc, hb]; simp)]
        have hg : Good (plug k (.node .red a n b)) := (good_plug _ _).2 ⟨h.rr, h.rrc, fun _ => hb, h.bh⟩
        refine ⟨_, _, rfl, ?_, rfl, hg⟩
        have hz := h.z
        rw [hz.root]
        generalize plug k (.node .red a n b) = t at hz hg
        cases t with
        | leaf =>
          refine ⟨trivial, hz.root, hz.nodup, ?_⟩
          simp [Mem.setColor, upd, T.rt]
        | node c l i r =>
          have : c = .black := hg.2.1
          subst this
          exact setColor_ok (k := []) .black hz
      · have hr : pcol k = .red := by cases hc : pcol k <;> simp_all
        rw [if_pos (by rw [hpc, hr])]
        have hf2 : k.length + 1 < fuel + 1 := by
          rcases hf with hf | ⟨h1 | h1, _⟩
          · exact hf
          · exact absurd h1 hk
          · exact absurd h1 hb
        obtain ⟨f, k1, rfl⟩ := List.exists_cons_of_ne_nil hk
        -- the path has a second, black frame
        have hk1 : pcol k1 = .black := by
          have := h.rrc
          cases f with
          | L c p r => exact (this.2.1 hr).2
          | R c l p => exact (this.2.1 hr).2
        obtain ⟨g, k2, rfl⟩ : ∃ g k2, k1 = g :: k2 := by
          cases k1 with
          | nil => cases hk1
          | cons g k2 => exact ⟨g, k2, rfl⟩
        have hfp : pcol [f] = .red := by cases f <;> exact hr
        have hpp : m.parent (par (f :: g :: k2)) = par (g :: k2) := by
          have hz := h.z
          cases f with
          | L c p r => exact (Z.node (k := g :: k2) hz).2.1
          | R c l p => exact (Z.node (k := g :: k2) hz).2.1
        rw [hpp]
        have hout : InsOut (if par (f :: g :: k2) = m.left (par (g :: k2)) then insFixL m n else insFixR m n).1 (if par (f :: g :: k2) = m.left (par (g :: k2)) then insFixL m n else insFixR m n).2 (k2.length + 2) (plug (f :: g :: k2) (.node .red a n b)).ids := by
          cases g with
          | L c g u =>
            have : c = .black := hk1
            subst this
            have hl : par (f :: .L .black g u :: k2) = m.left (par (.L .black g u :: k2)) := by
              have hz := h.z
              cases f with
              | L c p r => exact (Z.node (k := k2) hz).2.2.2.1.symm
              | R c l p => exact (Z.node (k := k2) hz).2.2.2.1.symm
            rw [if_pos hl]
            exact insFixL_ok h hfp
          | R c u g =>
            have : c = .black := hk1
            subst this
            have hl : ¬ par (f :: .R .black u g :: k2) = m.left (par (.R .black u g :: k2)) := by
              have hz := h.z
              intro e
              cases f with
              | L c p r =>
                have h2 := (Z.node (k := k2) hz).2.2.2.1
                have := (Z.sib (k := k2) hz (h2.symm.trans e.symm)).2
                cases this
              | R c l p =>
                have h2 := (Z.node (k := k2) hz).2.2.2.1
                have := (Z.sib (k := k2) hz (h2.symm.trans e.symm)).2
                cases this
            rw [if_neg hl]
            exact insFixR_ok h hfp
        generalize (if par (f :: g :: k2) = m.left (par (g :: k2)) then insFixL m n else insFixR m n) = q at hout
        obtain ⟨k', a', b', h1, h2, h3, h4⟩ := hout
        simp only [List.length_cons] at hf2
        obtain ⟨m', t', e1, e2, e3, e4⟩ := insertFixup_ok fuel h1 (by
          rcases h4 with h4 | h4
          · right; exact ⟨.inr h4, by omega⟩
          · left; omega)
        exact ⟨m', t', e1, e2, e3.trans h2, e4⟩

end Verif.RbTree
