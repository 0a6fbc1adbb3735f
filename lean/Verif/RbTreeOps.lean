import Verif.RbTreeDelFix
/-
Insertion, removal and search on represented trees.
-/
set_option linter.unusedSimpArgs false

namespace Verif.RbTree

/-! ### Positions -/

theorem plug_append (k k' : List Fr) : ∀ t, plug (k ++ k') t = plug k' (plug k t) := by
  induction k with
  | nil => intro t; rfl
  | cons f k ih => intro t; cases f <;> simp [plug, ih]

theorem locate {n : Nat} : ∀ {t : T}, n ∈ t.ids → ∃ k c a b, t = plug k (.node c a n b)
  | .leaf, h => by simp [T.ids] at h
  | .node c l i r, h => by
    simp only [T.ids, List.mem_append, List.mem_cons] at h
    rcases h with h | rfl | h
    · obtain ⟨k, c', a, b, e⟩ := locate h
      exact ⟨k ++ [.L c i r], c', a, b, by rw [plug_append, ← e]; rfl⟩
    · exact ⟨[], c, l, r, rfl⟩
    · obtain ⟨k, c', a, b, e⟩ := locate h
      exact ⟨k ++ [.R c l i], c', a, b, by rw [plug_append, ← e]; rfl⟩

theorem length_le (k : List Fr) : k.length ≤ (pre k).length + (post k).length := by
  induction k with
  | nil => simp
  | cons f k ih => cases f <;> simp [pre, post] <;> omega

theorem pre_append (k k' : List Fr) : pre (k ++ k') = pre k' ++ pre k := by
  induction k with
  | nil => simp [pre]
  | cons f k ih => cases f <;> simp [pre, ih]

theorem post_append (k k' : List Fr) : post (k ++ k') = post k ++ post k' := by
  induction k with
  | nil => simp [post]
  | cons f k ih => cases f <;> simp [post, ih]

/-! ### Minimum and successor -/

theorem minimum_ok {m : Mem} : ∀ {t : T} {p : Nat}, Rep m p t → t ≠ .leaf →
    ∃ k d y b, t = plug k (.node d .leaf y b) ∧ pre k = [] ∧ ∀ fuel, t.ids.length < fuel → minimum fuel m t.rt = some y
  | .leaf, _, _, h => absurd rfl h
  | .node c l i r, p, ⟨h0, h1, h2, h3, h4, hl, hr⟩, _ => by
    by_cases hlf : l = .leaf
    · subst hlf
      refine ⟨[], c, i, r, rfl, rfl, ?_⟩
      intro fuel hf
      obtain ⟨f, rfl⟩ : ∃ f, fuel = f + 1 := ⟨fuel - 1, by omega⟩
      rw [minimum, T.rt_node, h3, if_neg (by simp [T.rt])]
    · obtain ⟨k, d, y, b, e1, e2, e3⟩ := minimum_ok hl hlf
      refine ⟨k ++ [.L c i r], d, y, b, by rw [plug_append, ← e1]; rfl, by rw [pre_append, e2]; rfl, ?_⟩
      intro fuel hf
      simp only [T.ids, List.length_append, List.length_cons] at hf
      obtain ⟨f, rfl⟩ : ∃ f, fuel = f + 1 := ⟨fuel - 1, by omega⟩
      rw [minimum, T.rt_node, h3, if_pos (hl.ne _ (rt_mem hlf))]
      exact e3 f (by omega)

theorem succUp_ok {m : Mem} : ∀ (k : List Fr) {t : T} {fuel : Nat}, Z m (plug k t) → t ≠ .leaf → k.length < fuel → succUp fuel m t.rt (par k) = some ((post k).headD 0)
  | [], t, fuel, hz, ht, hf => by
    obtain ⟨f, rfl⟩ : ∃ f, fuel = f + 1 := ⟨fuel - 1, by simp at hf; omega⟩
    rw [succUp, if_neg (by simp [par])]; rfl
  | .L c i r :: k, t, fuel, hz, ht, hf => by
    obtain ⟨f, rfl⟩ : ∃ f, fuel = f + 1 := ⟨fuel - 1, by simp at hf; omega⟩
    have hn := Z.node (k := k) hz
    have : ¬ (par (.L c i r :: k) ≠ 0 ∧ t.rt = m.right (par (.L c i r :: k))) := by
      rintro ⟨_, e⟩
      exact ht (Z.sib (k := k) hz (e.trans hn.2.2.2.2)).1
    rw [succUp, if_neg this]; rfl
  | .R c l i :: k, t, fuel, hz, ht, hf => by
    obtain ⟨f, rfl⟩ : ∃ f, fuel = f + 1 := ⟨fuel - 1, by simp at hf; omega⟩
    have hn := Z.node (k := k) hz
    rw [succUp, if_pos ⟨hn.1, hn.2.2.2.2.symm⟩]
    have := succUp_ok k (t := .node c l i t) (fuel := f) hz (by simp) (by simp at hf; omega)
    rw [show m.parent (par (.R c l i :: k)) = par k from hn.2.1]
    exact this

theorem successor_ok {m : Mem} {k : List Fr} {c : Color} {a b : T} {n fuel : Nat} (hz : Z m (plug k (.node c a n b))) (hf : (plug k (.node c a n b)).ids.length < fuel) :
    successor fuel m n = some ((b.ids ++ post k).headD 0) := by
  obtain ⟨n0, np, nc, nl, nr⟩ := hz.node
  rw [ids_plug] at hf
  simp only [T.ids, List.length_append, List.length_cons] at hf
  unfold successor
  by_cases hb : b = .leaf
  · subst hb
    rw [if_neg (by rw [nr]; simp [T.rt]), np]
    have := succUp_ok k (fuel := fuel) hz (by simp) (by have := length_le k; omega)
    simpa [T.ids, T.rt_node] using this
  · obtain ⟨hrep, _⟩ := hz.focus
    obtain ⟨_, _, _, _, _, ha, hbr⟩ := hrep
    rw [if_pos ⟨n0, by rw [nr]; exact hbr.ne _ (rt_mem hb)⟩, nr]
    obtain ⟨k2, d, y, b', e1, e2, e3⟩ := minimum_ok hbr hb
    rw [e3 fuel (by omega), e1, ids_plug, e2]
    simp [T.ids]

/-! ### Deletion -/

theorem RRC_rename {k k2 : List Fr} {c : Color} {a : T} {n : Nat} (y : Nat) : RRC (k2 ++ .R c a n :: k) → RRC (k2 ++ .R c a y :: k) := by
  have hp : ∀ k2 : List Fr, pcol (k2 ++ .R c a n :: k) = pcol (k2 ++ .R c a y :: k) := by
    intro k2; cases k2 with
    | nil => rfl
    | cons f _ => cases f <;> rfl
  induction k2 with
  | nil => exact fun h => h
  | cons f k2 ih =>
    cases f with
    | L => exact fun h => ⟨h.1, fun e => ⟨(h.2.1 e).1, hp _ ▸ (h.2.1 e).2⟩, ih h.2.2⟩
    | R => exact fun h => ⟨h.1, fun e => ⟨(h.2.1 e).1, hp _ ▸ (h.2.1 e).2⟩, ih h.2.2⟩

theorem BHC_rename {k k2 : List Fr} {c : Color} {a : T} {n : Nat} (y : Nat) : ∀ {h : Nat}, BHC (k2 ++ .R c a n :: k) h → BHC (k2 ++ .R c a y :: k) h := by
  induction k2 with
  | nil => exact fun h => h
  | cons f k2 ih =>
    cases f with
    | L => exact fun h => ⟨h.1, ih h.2⟩
    | R => exact fun h => ⟨h.1, ih h.2⟩

theorem NoRR.blk {t : T} (h : NoRR t) : NoRR (blk t) := by
  cases t with
  | leaf => trivial
  | node c l i r => exact ⟨by simp, h.2⟩

/-- Taking out a node of colour `d` that has at most one child `s`: the repair loop runs iff the
colour is black. -/
theorem spliced {m : Mem} {k : List Fr} {d : Color} {a b s : T} {y fuel : Nat} (hz : Z m (plug k s)) (hup : m.parent s.rt = par k)
    (hs : (s = a ∧ b = .leaf) ∨ (s = b ∧ a = .leaf)) (rr : NoRR (.node d a y b)) (rrc : RRC k) (hpc : d = .red → pcol k = .black) (bh : ∃ h, BH (.node d a y b) h ∧ BHC k h) (hf : k.length + 1 < fuel) :
    ∃ m' t', ((d = .black → deleteFixup fuel m s.rt = some m') ∧ (d ≠ .black → m = m')) ∧ Z m' t' ∧ t'.ids = (plug k s).ids ∧ Good t' := by
  obtain ⟨h, ⟨h', e, b1, b2⟩, hbc⟩ := bh
  obtain ⟨r1, r2, r3⟩ := rr
  have hsn : NoRR s ∧ BH s h' ∧ (d = .red → s.col = .black) := by
    rcases hs with ⟨rfl, _⟩ | ⟨rfl, _⟩
    · exact ⟨r2, b1, fun e => (r1 e).1⟩
    · exact ⟨r3, b2, fun e => (r1 e).2⟩
  cases d with
  | black =>
    simp only [Color.w] at e
    subst e
    obtain ⟨m', t', e1, e2⟩ := deleteFixup_ok fuel ⟨hz, hup, hsn.1.blk, rrc, h', hsn.2.1, hbc⟩ (.inl hf)
    exact ⟨m', t', ⟨fun _ => e1, fun h => absurd rfl h⟩, e2⟩
  | red =>
    simp only [Color.w, Nat.add_zero] at e
    subst e
    refine ⟨m, _, ⟨by simp, fun _ => rfl⟩, hz, rfl, (good_plug _ _).2 ⟨hsn.1, rrc, ?_, h, hsn.2.1, hbc⟩⟩
    intro e
    rw [hsn.2.2 rfl] at e
    cases e

/-- Stores to a node outside the tree do not matter. -/
theorem Z.outside {m m' : Mem} {t : T} (hz : Z m t) (hr : m'.root = m.root) (h0 : m'.color 0 = m.color 0)
    (h : ∀ i ∈ t.ids, m'.left i = m.left i ∧ m'.right i = m.right i ∧ m'.color i = m.color i ∧ m'.parent i = m.parent i) : Z m' t :=
  ⟨hz.rep.congr hz.nodup h, hr.trans hz.root, hz.nodup, h0.trans hz.nil⟩

set_option maxHeartbeats 2000000 in
/-- mln_rbtree_delete on the tree. -/
theorem unlink_ok {m : Mem} {k : List Fr} {c : Color} {a b : T} {n fuel : Nat} (hz : Z m (plug k (.node c a n b))) (hg : Good (plug k (.node c a n b))) (hf : (plug k (.node c a n b)).ids.length + 2 ≤ fuel) :
    ∃ m' t', unlink fuel m n = some m' ∧ Z m' t' ∧ Good t' ∧ t'.ids = pre k ++ (a.ids ++ (b.ids ++ post k)) := by
  obtain ⟨n0, np, nc, nl, nr⟩ := hz.node
  obtain ⟨⟨_, _, _, _, _, ha, hb⟩, hctx, nd, nil⟩ := hz.focus
  have hlen : (plug k (.node c a n b)).ids.length = (pre k).length + (a.ids.length + (b.ids.length + 1) + (post k).length) := by
    rw [ids_plug]; simp [T.ids]; omega
  have hkl := length_le k
  obtain ⟨g1, g2, g3, g4⟩ := (good_plug _ _).1 hg
  -- the end of the function
  have finish : ∀ (m1 : Mem) (s : T), Z m1 s → Good s → s.ids = pre k ++ (a.ids ++ (b.ids ++ post k)) →
      ∃ m' t', some (((m1.setRight n 0).setLeft n 0).setParent n 0) = some m' ∧ Z m' t' ∧ Good t' ∧ t'.ids = pre k ++ (a.ids ++ (b.ids ++ post k)) := by
    intro m1 s h1 h2 h3
    refine ⟨_, s, rfl, h1.outside rfl rfl ?_, h2, h3⟩
    intro i hi
    have : i ≠ n := by
      rintro rfl
      rw [h3] at hi
      simp only [T.ids, List.nodup_append, List.nodup_cons, List.mem_append, List.mem_cons] at nd hi
      grind
    simp [Mem.setRight, Mem.setLeft, Mem.setParent, upd, this]
  unfold unlink
  by_cases ha0 : a = .leaf
  · subst ha0
    rw [if_pos (by rw [nl]; rfl), nr, nc]
    obtain ⟨z1, u1, _⟩ := transplant_ok hz (s := b) (.inr rfl)
    obtain ⟨m', t', e1, e2, e3, e4⟩ := spliced (y := n) (fuel := fuel) z1 u1 (.inr ⟨rfl, rfl⟩) g1 g2 g3 g4 (by omega)
    have hfin := finish m' t' e2 e4 (by rw [e3, ids_plug]; simp [T.ids])
    simp only [Option.bind_eq_bind, Option.bind_some]
    by_cases hd : c = .black
    · rw [if_pos hd, e1.1 hd]; exact hfin
    · rw [if_neg hd, e1.2 hd]; exact hfin
  · have hal : m.left n ≠ 0 := by rw [nl]; exact ha.ne _ (rt_mem ha0)
    rw [if_neg hal]
    by_cases hb0 : b = .leaf
    · subst hb0
      rw [if_pos (by rw [nr]; rfl), nl, nc]
      obtain ⟨z1, u1, _⟩ := transplant_ok hz (s := a) (.inl rfl)
      obtain ⟨m', t', e1, e2, e3, e4⟩ := spliced (y := n) (fuel := fuel) z1 u1 (.inl ⟨rfl, rfl⟩) g1 g2 g3 g4 (by omega)
      have hfin := finish m' t' e2 e4 (by rw [e3, ids_plug]; simp [T.ids])
      simp only [Option.bind_eq_bind, Option.bind_some]
      by_cases hd : c = .black
      · rw [if_pos hd, e1.1 hd]; exact hfin
      · rw [if_neg hd, e1.2 hd]; exact hfin
    · rw [if_neg (by rw [nr]; exact hb.ne _ (rt_mem hb0))]
      obtain ⟨k2, d, y, B, eb, ep, emin⟩ := minimum_ok hb hb0
      rw [nr, emin fuel (by omega)]
      simp only [Option.bind_eq_bind, Option.bind_some]
      -- the whole tree, seen from `y`
      have hplug : plug k (.node c a n b) = plug (k2 ++ .R c a n :: k) (.node d .leaf y B) := by
        rw [plug_append, ← eb]; rfl
      have hz' := hz
      rw [hplug] at hz'
      obtain ⟨y0, yp, yc, yl, yr⟩ := hz'.node
      have hg' := hg
      rw [hplug] at hg'
      obtain ⟨f1, f2, f3, f4⟩ := (good_plug _ _).1 hg'
      have hbids : b.ids = y :: (B.ids ++ post k2) := by
        rw [eb, ids_plug, ep]; simp [T.ids]
      have hnd := nd
      simp only [T.ids, hbids] at hnd
      have hk2 := length_le k2
      rw [ep] at hk2
      simp only [List.length_nil, Nat.zero_add] at hk2
      have hbl : b.ids.length = 1 + B.ids.length + (post k2).length := by rw [hbids]; simp; omega
      have facts : y ≠ n ∧ y ∉ pre k ∧ y ∉ post k ∧ y ∉ a.ids ∧ y ∉ B.ids ∧ y ∉ post k2 ∧ n ∉ pre k ∧ n ∉ post k ∧ n ∉ a.ids ∧ n ∉ B.ids ∧ n ∉ post k2 ∧
          (∀ i ∈ B.ids, i ∉ pre k ∧ i ∉ post k ∧ i ∉ a.ids) ∧ (∀ i ∈ post k2, i ∉ pre k ∧ i ∉ post k ∧ i ∉ a.ids) ∧ a.ids.Nodup ∧ (B.ids ++ post k2).Nodup ∧ (pre k ++ post k).Nodup ∧
          (pre k ++ ((a.ids ++ y :: (B.ids ++ post k2)) ++ post k)).Nodup := by
        simp only [List.nodup_append, List.nodup_cons, List.mem_append, List.mem_cons] at hnd ⊢
        grind
      obtain ⟨j1, j2, j3, j4, j5, j6, j7, j8, j9, j10, j11, j12, j13, j14, j15, j16, j17⟩ := facts
      -- the state before lines 205-208
      obtain ⟨m3, hm3, k1, k2', k3, k4, k5, k6, k7, k8, k9⟩ : ∃ m3, (if m.parent y = n then m.setParent (m.right y) y
            else ((transplant m y (m.right y)).setRight y ((transplant m y (m.right y)).right n)).setParent (((transplant m y (m.right y)).setRight y ((transplant m y (m.right y)).right n)).right y) y) = m3 ∧
          m3.parent n = par k ∧ m3.color n = c ∧ m3.left n = a.rt ∧ Rep m3 n a ∧ m3.right y = (plug k2 B).rt ∧ Rep m3 y (plug k2 B) ∧ RepC m3 k n ∧ m3.color 0 = .black ∧ (B = .leaf → m3.parent 0 = par (k2 ++ .R c a y :: k)) := by
        have aok : ∀ m3 : Mem, (∀ i, i ∈ a.ids → m3.left i = m.left i ∧ m3.right i = m.right i ∧ m3.color i = m.color i ∧ m3.parent i = m.parent i) → Rep m3 n a := fun m3 h => ha.congr j14 h
        rw [yr]
        cases k2 with
        | nil =>
          have hpy : m.parent y = n := yp
          rw [if_pos hpy]
          have hBz : B.rt ≠ 0 → B.rt ∈ B.ids := fun hz => rt_mem (by rintro rfl; exact hz rfl)
          have hb' := hb
          rw [eb] at hb'
          obtain ⟨_, _, _, _, _, _, hB⟩ := hb'
          have az := ha.ne
          have kz := hctx.ne
          refine ⟨_, rfl, ?_, nc, nl, ?_, yr, ?_, ?_, nil, ?_⟩
          · have : n ≠ B.rt := by intro hh; by_cases hz : B.rt = 0 <;> grind
            simp [Mem.setParent, upd, this, np]
          · refine aok _ ?_
            intro i hi
            have : i ≠ B.rt := by intro hh; by_cases hz : B.rt = 0 <;> grind
            simp [Mem.setParent, upd, this]
          · refine hB.frame (fun i hi => ⟨rfl, rfl, rfl⟩) ?_ ?_ ?_
            · intro i hi hne
              simp [Mem.setParent, upd, hne]
            · intro _
              simp [Mem.setParent, upd]
            · simp only [post, List.append_nil] at j15; exact j15
          · refine hctx.congr j16 rfl ?_
            intro i hi
            have : i ≠ B.rt := by intro hh; by_cases hz : B.rt = 0 <;> grind
            simp [Mem.setParent, upd, this]
          · rintro rfl
            simp [Mem.setParent, upd, T.rt, par]
        | cons f k2 =>
          have hne : m.parent y ≠ n := by
            rw [yp]
            intro e
            have : par ((f :: k2) ++ .R c a n :: k) = par (f :: k2) := by cases f <;> rfl
            rw [this] at e
            have := par_mem (k := f :: k2) (by simp)
            rw [ep] at this
            simp only [List.not_mem_nil, false_or] at this
            rw [e] at this
            exact j11 this
          rw [if_neg hne]
          obtain ⟨z1, u1, o1⟩ := transplant_ok hz' (s := B) (.inr rfl)
          have hmem : ∀ i, (i ∉ B.ids ∧ i ∉ pre ((f :: k2) ++ .R c a n :: k) ∧ i ∉ post ((f :: k2) ++ .R c a n :: k)) ↔ i ∉ B.ids ∧ i ∉ pre k ∧ i ∉ a.ids ∧ i ≠ n ∧ i ∉ post (f :: k2) ∧ i ∉ post k := by
            intro i
            rw [pre_append, post_append, ep]
            simp only [pre, post, List.append_nil, List.mem_append, List.mem_singleton, List.mem_cons]
            tauto
          -- `y` is outside now
          generalize transplant m y B.rt = m1 at z1 u1 o1
          have z2 : Z m1 (plug k (.node c a n (plug (f :: k2) B))) := by
            have := z1; rw [plug_append] at this; exact this
          obtain ⟨_, np1, nc1, nl1, nr1⟩ := z2.node
          obtain ⟨⟨_, _, _, _, _, ha1, hR1⟩, hctx1, nd1, nil1⟩ := z2.focus
          simp only [T.rt] at hctx1
          have hRids : (plug (f :: k2) B).ids = B.ids ++ post (f :: k2) := by rw [ids_plug, ep]; simp
          have hRne : plug (f :: k2) B ≠ .leaf := by
            intro e
            rw [e] at hRids
            have := par_mem (k := f :: k2) (by simp)
            rw [ep] at this
            simp only [List.not_mem_nil, false_or] at this
            have h' : par (f :: k2) ∈ B.ids ++ post (f :: k2) := by simp [this]
            rw [← hRids] at h'
            simp [T.ids] at h'
          have hRm := rt_mem hRne
          rw [hRids] at hRm
          simp only [List.mem_append] at hRm
          generalize hR : plug (f :: k2) B = R at *
          rw [nr1]
          have e1 : (m1.setRight y R.rt).right y = R.rt := by simp [Mem.setRight, upd]
          rw [e1]
          have hRn : R.rt ≠ n := by grind
          have hRy : R.rt ≠ y := by grind
          have hRk : R.rt ∉ pre k ∧ R.rt ∉ post k ∧ R.rt ∉ a.ids := by grind
          refine ⟨_, rfl, ?_, ?_, ?_, ?_, ?_, ?_, ?_, ?_, ?_⟩
          · simp [Mem.setParent, Mem.setRight, upd, Ne.symm hRn, np1]
          · simp [Mem.setParent, Mem.setRight, upd, nc1]
          · simp [Mem.setParent, Mem.setRight, upd, nl1]
          · refine ha1.congr j14 ?_
            intro i hi
            have h1 : i ≠ R.rt := by grind
            have h2 : i ≠ y := by grind
            simp [Mem.setParent, Mem.setRight, upd, h1, h2]
          · simp [Mem.setParent, Mem.setRight, upd]
          · refine hR1.frame ?_ ?_ ?_ (by rw [hRids]; exact j15)
            · intro i hi
              rw [hRids, List.mem_append] at hi
              have h2 : i ≠ y := by grind
              simp [Mem.setParent, Mem.setRight, upd, h2]
            · intro i hi hne
              simp [Mem.setParent, Mem.setRight, upd, hne]
            · intro _
              simp [Mem.setParent, Mem.setRight, upd]
          · refine hctx1.congr j16 rfl ?_
            intro i hi
            have h1 : i ≠ R.rt := by grind
            have h2 : i ≠ y := by grind
            simp [Mem.setParent, Mem.setRight, upd, h1, h2]
          · simp [Mem.setParent, Mem.setRight, upd, nil1]
          · intro hB
            rw [hB] at u1
            have : par ((f :: k2) ++ .R c a n :: k) = par ((f :: k2) ++ .R c a y :: k) := by cases f <;> rfl
            rw [← this, ← u1]
            have h0 : 0 ≠ R.rt := Ne.symm (hR1.ne _ (rt_mem hRne))
            show upd m1.parent R.rt y 0 = m1.parent 0
            rw [upd, if_neg h0]
      rw [hm3]
      have hRids : (plug k2 B).ids = B.ids ++ post k2 := by rw [ids_plug, ep]; simp
      obtain ⟨zf, z0⟩ := replace_ok n0 k1 k2' k3 k4 ha0 y0 k5 k6 k7 (by rw [hRids]; exact j17) (by rw [hRids]; simp only [List.mem_append, List.mem_cons, not_or]; tauto) k8
      generalize (((transplant m3 n y).setLeft y ((transplant m3 n y).left n)).setParent (((transplant m3 n y).setLeft y ((transplant m3 n y).left n)).left y) y).setColor y ((((transplant m3 n y).setLeft y ((transplant m3 n y).left n)).setParent (((transplant m3 n y).setLeft y ((transplant m3 n y).left n)).left y) y).color n) = m4 at zf z0
      have zf' : Z m4 (plug (k2 ++ .R c a y :: k) B) := by rw [plug_append]; exact zf
      have hup : m4.parent B.rt = par (k2 ++ .R c a y :: k) := up_of zf' z0 k9
      obtain ⟨h, hb1, hb2⟩ := f4
      have hpc : pcol (k2 ++ .R c a y :: k) = pcol (k2 ++ .R c a n :: k) := by
        cases k2 with
        | nil => rfl
        | cons f _ => cases f <;> rfl
      obtain ⟨m', t', e1, e2, e3, e4⟩ := spliced (y := y) (fuel := fuel) zf' hup (.inr ⟨rfl, rfl⟩) f1 (RRC_rename y f2) (by rw [hpc]; exact f3) ⟨h, hb1, BHC_rename y hb2⟩ (by simp; omega)
      have hfin := finish m' t' e2 e4 (by
        rw [e3, ids_plug, pre_append, post_append, ep, hbids]
        simp [pre, post])
      rw [yc, yr]
      by_cases hd : d = .black
      · rw [if_pos hd, e1.1 hd]; exact hfin
      · rw [if_neg hd, e1.2 hd]; exact hfin

/-! ### Insertion -/

/-- A comparison function is an order: its sign flips with the arguments, and "not greater" is
transitive. -/
structure CmpOrd {α} (cmp : α → α → Int) : Prop where
  sign : ∀ a b, cmp a b < 0 ↔ 0 < cmp b a
  trans : ∀ a b c, cmp a b ≤ 0 → cmp b c ≤ 0 → cmp a c ≤ 0

theorem CmpOrd.lt_le {α} {cmp : α → α → Int} (o : CmpOrd cmp) {a b c : α} (h1 : cmp a b < 0) (h2 : cmp b c ≤ 0) : cmp a c < 0 := by
  by_contra h
  have h3 : cmp c a ≤ 0 := by
    by_contra h3
    exact h ((o.sign a c).2 (by omega))
  have h4 := o.trans _ _ _ h2 h3
  have h5 := (o.sign a b).1 h1
  omega

theorem CmpOrd.le_lt {α} {cmp : α → α → Int} (o : CmpOrd cmp) {a b c : α} (h1 : cmp a b ≤ 0) (h2 : cmp b c < 0) : cmp a c < 0 := by
  by_contra h
  have h3 : cmp c a ≤ 0 := by
    by_contra h3
    exact h ((o.sign a c).2 (by omega))
  have h4 := o.trans _ _ _ h3 h1
  have h5 := (o.sign b c).1 h2
  omega

theorem CmpOrd.ge {α} {cmp : α → α → Int} (o : CmpOrd cmp) {a b : α} : ¬ cmp a b < 0 ↔ cmp b a ≤ 0 := by
  rw [o.sign]; omega

/-- The addresses hold their data in order. -/
def SortedBy {α} (cmp : α → α → Int) (data : Nat → α) (l : List Nat) : Prop := l.Pairwise fun i j => cmp (data i) (data j) ≤ 0

/-- The last turn taken was the one the comparison says. -/
def HeadOk {α} (cmp : α → α → Int) (data : Nat → α) (node : Nat) : List Fr → Prop
  | [] => True
  | .L _ i _ :: _ => cmp (data node) (data i) < 0
  | .R _ _ i :: _ => ¬ cmp (data node) (data i) < 0

theorem par_L (c : Color) (i : Nat) (r : T) (k : List Fr) : par (.L c i r :: k) = i := rfl
theorem par_R (c : Color) (l : T) (i : Nat) (k : List Fr) : par (.R c l i :: k) = i := rfl

theorem descend_ok {α} {cmp : α → α → Int} (o : CmpOrd cmp) {data : Nat → α} {m : Mem} {node : Nat} : ∀ (t : T) (k : List Fr) (fuel : Nat), Z m (plug k t) → t.ids.length < fuel → HeadOk cmp data node k → SortedBy cmp data t.ids →
    ∃ k', descend cmp data m node fuel (par k) t.rt = some (par k') ∧ plug k' .leaf = plug k t ∧ HeadOk cmp data node k' ∧
      ∃ A B, t.ids = A ++ B ∧ pre k' = pre k ++ A ∧ post k' = B ++ post k ∧ (∀ i ∈ A, ¬ cmp (data node) (data i) < 0) ∧ ∀ i ∈ B, cmp (data node) (data i) < 0
  | .leaf, k, fuel, hz, hf, hk, hs => by
    obtain ⟨f, rfl⟩ : ∃ f, fuel = f + 1 := ⟨fuel - 1, by omega⟩
    refine ⟨k, by rw [descend, if_neg (by simp [T.rt])], rfl, hk, [], [], rfl, by simp, by simp, by simp, by simp⟩
  | .node c l i r, k, fuel, hz, hf, hk, hs => by
    simp only [T.ids, List.length_append, List.length_cons] at hf
    obtain ⟨f, rfl⟩ : ∃ f, fuel = f + 1 := ⟨fuel - 1, by omega⟩
    obtain ⟨i0, ip, ic, il, ir⟩ := hz.node
    simp only [SortedBy, T.ids, List.pairwise_append, List.pairwise_cons, List.mem_cons] at hs
    obtain ⟨s1, ⟨s2, s3⟩, s4⟩ := hs
    rw [descend, T.rt_node, if_pos i0]
    by_cases hc : cmp (data node) (data i) < 0
    · rw [if_pos hc, il]
      obtain ⟨k', e1, e2, e3, A, B, e4, e5, e6, e7, e8⟩ := descend_ok o l (.L c i r :: k) f hz (by omega) hc s1
      refine ⟨k', e1, e2, e3, A, B ++ i :: r.ids, by simp [T.ids, e4], e5, by rw [e6]; simp [post], e7, ?_⟩
      intro j hj
      simp only [List.mem_append, List.mem_cons] at hj
      rcases hj with hj | rfl | hj
      · exact e8 j hj
      · exact hc
      · exact o.lt_le hc (s2 j hj)
    · rw [if_neg hc, ir]
      obtain ⟨k', e1, e2, e3, A, B, e4, e5, e6, e7, e8⟩ := descend_ok o r (.R c l i :: k) f hz (by omega) hc s3
      refine ⟨k', e1, e2, e3, l.ids ++ i :: A, B, by simp [T.ids, e4], by rw [e5]; simp [pre], e6, ?_, e8⟩
      intro j hj
      simp only [List.mem_append, List.mem_cons] at hj
      rcases hj with hj | rfl | hj
      · intro h
        exact hc (o.lt_le h (s4 j hj i (by simp)))
      · exact hc
      · exact e7 j hj

/-- Hanging a new node into an empty place: lines 98-103 of mln_rbtree_insert. -/
theorem hang_ok {α} {cmp : α → α → Int} {data : Nat → α} {m : Mem} {k : List Fr} {node : Nat} (hz : Z m (plug k .leaf)) (h0 : node ≠ 0) (hn : node ∉ (plug k .leaf).ids) (hk : HeadOk cmp data node k) :
    let m1 := m.setParent node (par k)
    let m2 := if par k = 0 then m1.setRoot node
      else if cmp (data node) (data (par k)) < 0 then m1.setLeft (par k) node
      else m1.setRight (par k) node
    let m3 := m2.setRight node 0
    let m4 := m3.setLeft node 0
    let m5 := m4.setColor node .red
    Z m5 (plug k (.node .red .leaf node .leaf)) := by
  obtain ⟨_, hctx, nd, nil⟩ := hz.focus
  rw [ids_plug] at hn
  simp only [T.ids, List.nil_append, List.mem_append, not_or] at hn nd
  simp only [T.rt] at hctx
  have kz := hctx.ne
  have nd' : (pre k ++ ((T.node .red .leaf node .leaf).ids ++ post k)).Nodup := by
    simp only [T.ids, List.nil_append, List.nodup_append, List.nodup_cons, List.mem_append, List.mem_cons] at nd ⊢
    grind
  have hpn : par k ≠ node := by
    intro e
    cases k with
    | nil => exact h0 e.symm
    | cons f k =>
      have := par_mem (k := f :: k) (by simp)
      rw [e] at this
      tauto
  have key : ∀ m2 : Mem, (∀ i, m2.parent i = if i = node then par k else m.parent i) → m2.color = m.color → Link m m2 node k → (∀ i, i ≠ par k → m2.left i = m.left i ∧ m2.right i = m.right i) →
      Z (((m2.setRight node 0).setLeft node 0).setColor node .red) (plug k (.node .red .leaf node .leaf)) := by
    intro m2 p1 p2 p3 p4
    refine Z.unfocus ⟨h0, ?_, ?_, ?_, ?_, trivial, trivial⟩ (hctx.frame nd ?_ ?_ ?_) nd' ?_
    · simp [Mem.setRight, Mem.setLeft, Mem.setColor, upd, p1]
    · simp [Mem.setRight, Mem.setLeft, Mem.setColor, upd]
    · simp [Mem.setRight, Mem.setLeft, Mem.setColor, upd, T.rt]
    · simp [Mem.setRight, Mem.setLeft, Mem.setColor, upd, T.rt]
    · refine p3.congr rfl rfl ?_
      rintro i rfl
      simp [Mem.setRight, Mem.setLeft, Mem.setColor, upd, hpn]
    · intro i hi
      have : i ≠ node := by rintro rfl; tauto
      simp [Mem.setRight, Mem.setLeft, Mem.setColor, upd, p1, p2, this]
    · intro i hi hne
      have : i ≠ node := by rintro rfl; tauto
      simp [Mem.setRight, Mem.setLeft, Mem.setColor, upd, p4 i hne, this]
    · simp [Mem.setRight, Mem.setLeft, Mem.setColor, upd, p2, nil, Ne.symm h0]
  cases k with
  | nil =>
    simp only [par, if_true]
    refine key _ ?_ rfl rfl ?_
    · intro i; rfl
    · intro i _; exact ⟨rfl, rfl⟩
  | cons f k =>
    cases f with
    | L c i r =>
      have i0 : i ≠ 0 := kz i (by simp [post])
      simp only []
      rw [if_neg (show ¬ par (.L c i r :: k) = 0 from i0), if_pos (show cmp (data node) (data (par (.L c i r :: k))) < 0 from hk)]
      refine key _ ?_ rfl ⟨by simp [Mem.setLeft, upd, par_L], rfl, rfl⟩ ?_
      · intro j; rfl
      · intro j hj
        have : j ≠ i := hj
        simp [Mem.setLeft, Mem.setParent, upd, this, par_L]
    | R c l i =>
      have i0 : i ≠ 0 := kz i (by simp [pre])
      simp only []
      rw [if_neg (show ¬ par (.R c l i :: k) = 0 from i0), if_neg (show ¬ cmp (data node) (data (par (.R c l i :: k))) < 0 from hk)]
      refine key _ ?_ rfl ⟨rfl, by simp [Mem.setRight, upd, par_R], rfl⟩ ?_
      · intro j; rfl
      · intro j hj
        have : j ≠ i := hj
        simp [Mem.setRight, Mem.setParent, upd, this, par_R]

/-! ### Search and height -/

def T.height : T → Nat
  | .leaf => 0
  | .node _ l _ r => max l.height r.height + 1

theorem height_bh : ∀ {t : T} {h : Nat}, NoRR t → BH t h → t.height ≤ 2 * h + (if t.col = .red then 1 else 0)
  | .leaf, h, _, _ => by simp [T.height]
  | .node c l i r, h, ⟨r1, r2, r3⟩, ⟨h', e, b1, b2⟩ => by
    have hl := height_bh r2 b1
    have hr := height_bh r3 b2
    simp only [T.height, T.col_node]
    cases c with
    | red =>
      rw [(r1 rfl).1] at hl
      rw [(r1 rfl).2] at hr
      simp only [Color.w] at e
      simp at hl hr ⊢
      omega
    | black =>
      simp only [Color.w] at e
      have : ∀ d : Color, (if d = Color.red then 1 else 0) ≤ 1 := by intro d; split <;> omega
      have h1 := this l.col
      have h2 := this r.col
      simp
      omega

theorem size_bh : ∀ {t : T} {h : Nat}, BH t h → 2 ^ h ≤ t.ids.length + 1
  | .leaf, h, e => by simp only [BH] at e; simp [e, T.ids]
  | .node c l i r, h, ⟨h', e, b1, b2⟩ => by
    have hl := size_bh b1
    have hr := size_bh b2
    simp only [T.ids, List.length_append, List.length_cons]
    cases c with
    | red =>
      simp only [Color.w, Nat.add_zero] at e
      subst e
      omega
    | black =>
      simp only [Color.w] at e
      subst e
      rw [Nat.pow_succ]
      omega

theorem height_good {t : T} (h : Good t) : t.height ≤ 2 * Nat.log2 (t.ids.length + 1) := by
  obtain ⟨h1, h2, hh, h3⟩ := h
  have a := height_bh h1 h3
  rw [h2] at a
  simp only [reduceCtorEq, if_false, Nat.add_zero] at a
  have b := (Nat.le_log2 (by omega)).2 (size_bh h3)
  omega

theorem height_le (t : T) : t.height ≤ t.ids.length := by
  induction t with
  | leaf => simp [T.height]
  | node c l i r ihl ihr => simp only [T.height, T.ids, List.length_append, List.length_cons]; omega

theorem searchFrom_ok {α} {cmp : α → α → Int} (o : CmpOrd cmp) {t : Tree α} {key : α} : ∀ (s : T) (p fuel : Nat), Rep t.m p s → s.height < fuel → SortedBy cmp t.data s.ids →
    ∃ x, searchFrom cmp t key fuel s.rt = some x ∧ ((x = 0 ∧ ∀ i ∈ s.ids, cmp key (t.data i) ≠ 0) ∨ (x ∈ s.ids ∧ cmp key (t.data x) = 0))
  | .leaf, p, fuel, h, hf, hs => by
    obtain ⟨f, rfl⟩ : ∃ f, fuel = f + 1 := ⟨fuel - 1, by omega⟩
    exact ⟨0, by rw [searchFrom]; simp [T.rt], .inl ⟨rfl, by simp [T.ids]⟩⟩
  | .node c l i r, p, fuel, h, hf, hs => by
    simp only [T.height] at hf
    obtain ⟨f, rfl⟩ : ∃ f, fuel = f + 1 := ⟨fuel - 1, by omega⟩
    obtain ⟨h0, h1, h2, h3, h4, hl, hr⟩ := h
    simp only [SortedBy, T.ids, List.pairwise_append, List.pairwise_cons, List.mem_cons] at hs
    obtain ⟨s1, ⟨s2, s3⟩, s4⟩ := hs
    rw [searchFrom, T.rt_node]
    by_cases hc : cmp key (t.data i) = 0
    · rw [if_neg (by simp [hc])]
      exact ⟨i, rfl, .inr ⟨by simp [T.ids], hc⟩⟩
    · rw [if_pos ⟨h0, hc⟩]
      by_cases hlt : cmp key (t.data i) < 0
      · rw [if_pos hlt, h3]
        obtain ⟨x, e1, e2⟩ := searchFrom_ok o l i f hl (by omega) s1
        refine ⟨x, e1, ?_⟩
        rcases e2 with ⟨e2, e3⟩ | ⟨e2, e3⟩
        · refine .inl ⟨e2, ?_⟩
          intro j hj
          simp only [T.ids, List.mem_append, List.mem_cons] at hj
          rcases hj with hj | rfl | hj
          · exact e3 j hj
          · exact hc
          · have := o.lt_le hlt (s2 j hj)
            omega
        · exact .inr ⟨by simp [T.ids, e2], e3⟩
      · rw [if_neg hlt, h4]
        obtain ⟨x, e1, e2⟩ := searchFrom_ok o r i f hr (by omega) s3
        refine ⟨x, e1, ?_⟩
        rcases e2 with ⟨e2, e3⟩ | ⟨e2, e3⟩
        · refine .inl ⟨e2, ?_⟩
          intro j hj
          simp only [T.ids, List.mem_append, List.mem_cons] at hj
          rcases hj with hj | rfl | hj
          · have h5 : cmp (t.data i) key < 0 := (o.sign _ _).2 (by omega)
            have h6 := o.le_lt (s4 j hj i (by simp)) h5
            have := (o.sign _ _).1 h6
            omega
          · exact hc
          · exact e3 j hj
        · exact .inr ⟨by simp [T.ids, e2], e3⟩

end Verif.RbTree
