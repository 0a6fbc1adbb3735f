import Verif.FheapProps
import Mathlib.Algebra.BigOperators.Group.List.Basic

/-
Nodes of the Fibonacci heap that are inserted again after they were taken out, as
mln_event_fd_timeout_set does (/repo/src/mln_event.c lines 681-686).  Such a node keeps the degree
it had (property C98).
-/
namespace Verif.Fheap
variable {α : Type}

/-! ## Order and degrees, degrees not tied to children -/

mutual
def ordT (lt : α → α → Bool) : T α → Prop
  | .mk n kids => (∀ t ∈ kids, lt t.key n.key = false) ∧ ordL lt kids
def ordL (lt : α → α → Bool) : List (T α) → Prop
  | [] => True
  | t :: ts => ordT lt t ∧ ordL lt ts
end

mutual
/-- The degrees of all nodes. -/
def degT : T α → List Nat
  | .mk n kids => n.degree :: degL kids
def degL : List (T α) → List Nat
  | [] => []
  | t :: ts => degT t ++ degL ts
end

theorem ordL_iff {lt : α → α → Bool} (l : List (T α)) : ordL lt l ↔ ∀ t ∈ l, ordT lt t := by
  induction l with
  | nil => simp [ordL]
  | cons t l ih => rw [ordL, ih]; simp

theorem ordT_iff {lt : α → α → Bool} (t : T α) : ordT lt t ↔ (∀ s ∈ t.kids, lt s.key t.key = false) ∧ ∀ s ∈ t.kids, ordT lt s := by
  cases t with
  | mk n kids => rw [ordT, ordL_iff]; rfl

mutual
theorem ord_of_okT {lt : α → α → Bool} : ∀ t : T α, okT lt t → ordT lt t
  | .mk n kids => by intro h; rw [okT] at h; rw [ordT]; exact ⟨h.2.2.1, ord_of_okL kids h.2.2.2⟩
theorem ord_of_okL {lt : α → α → Bool} : ∀ l : List (T α), okL lt l → ordL lt l
  | [] => by intro _; rw [ordL]; trivial
  | t :: ts => by intro h; rw [okL] at h; rw [ordL]; exact ⟨ord_of_okT t h.1, ord_of_okL ts h.2⟩
end

mutual
theorem rootOT {lt : α → α → Bool} (wk : Weak lt) : ∀ t : T α, ordT lt t → ∀ p ∈ itemsT t, lt p.2 t.key = false
  | .mk n kids => by
    intro h p hp
    rw [ordT] at h
    rw [itemsT] at hp
    rcases List.mem_cons.1 hp with rfl | hp
    · exact weak_irrefl wk _
    · exact rootOL wk kids n.key h.2 h.1 p hp
theorem rootOL {lt : α → α → Bool} (wk : Weak lt) : ∀ (l : List (T α)) (k : α), ordL lt l → (∀ t ∈ l, lt t.key k = false) → ∀ p ∈ itemsL l, lt p.2 k = false
  | [], _ => by intro _ _ p hp; rw [itemsL] at hp; cases hp
  | t :: ts, k => by
    intro h hk p hp
    rw [ordL] at h
    rw [itemsL] at hp
    rcases List.mem_append.1 hp with hp | hp
    · exact wk.trans _ _ _ (hk t (by simp)) (rootOT wk t h.1 p hp)
    · exact rootOL wk ts k h.2 (fun s hs => hk s (by simp [hs])) p hp
end

theorem degT_eq (t : T α) : degT t = t.degree :: degL t.kids := by
  cases t with
  | mk n kids => rw [degT]; rfl

theorem degL_append (a b : List (T α)) : degL (a ++ b) = degL a ++ degL b := by
  induction a with
  | nil => rw [List.nil_append, degL, List.nil_append]
  | cons t a ih => rw [List.cons_append, degL, ih, degL, List.append_assoc]

theorem degL_single (t : T α) : degL [t] = degT t := by rw [degL, degL, List.append_nil]

theorem degL_perm {a b : List (T α)} (h : a.Perm b) : (degL a).Perm (degL b) := by
  induction h with
  | nil => exact List.Perm.refl _
  | cons t _ ih => rw [degL, degL]; exact List.Perm.append_left _ ih
  | swap s t l =>
    rw [degL, degL, degL, degL, ← List.append_assoc, ← List.append_assoc]
    exact List.Perm.append_right _ List.perm_append_comm
  | trans _ _ h1 h2 => exact h1.trans h2

theorem linked_deg (y x : T α) : (degT (linked y x)).Perm ((x.degree + 1) :: (degL x.kids ++ degT y)) := by
  unfold linked
  rw [degT, degL_append, degL_single, degT, degT_eq y]
  exact List.Perm.refl _

theorem linked_ord {lt : α → α → Bool} {y x : T α} (hx : ordT lt x) (hy : ordT lt y) (ho : lt y.key x.key = false) : ordT lt (linked y x) := by
  rw [ordT_iff] at hx
  unfold linked
  rw [ordT, ordL_iff]
  refine ⟨?_, ?_⟩
  · intro t ht
    rcases List.mem_append.1 ht with ht | ht
    · exact hx.1 t ht
    · rw [List.mem_singleton.1 ht]; exact ho
  · intro t ht
    rcases List.mem_append.1 ht with ht | ht
    · exact hx.2 t ht
    · rw [List.mem_singleton.1 ht, ordT_iff]
      exact (ordT_iff y).1 hy

/-- At most `n - v` degrees are `v` or more. -/
def Park (n : Nat) (l : List Nat) : Prop := ∀ v, v ≤ n → l.countP (fun d => decide (v ≤ d)) ≤ n - v

theorem park_perm {n : Nat} {l l' : List Nat} (h : Park n l) (hp : l.Perm l') : Park n l' := by
  intro v hv
  rw [← hp.countP_eq]
  exact h v hv

/-- One of two equal degrees may grow. -/
theorem park_link {n d : Nat} {l : List Nat} (h : Park n (d :: d :: l)) : Park n ((d + 1) :: d :: l) := by
  intro v hv
  have h1 := h v hv
  simp only [List.countP_cons] at h1 ⊢
  by_cases hvd : v = d + 1
  · subst hvd
    have h2 := h d (by omega)
    simp only [List.countP_cons] at h2
    have h3 : l.countP (fun e => decide (d + 1 ≤ e)) ≤ l.countP (fun e => decide (d ≤ e)) := by
      apply List.countP_mono_left
      intro e _ he
      simp only [decide_eq_true_eq] at he ⊢
      omega
    simp at h2 ⊢
    omega
  · have e1 : (decide (v ≤ d + 1)) = decide (v ≤ d) := by
      by_cases h0 : v ≤ d
      · simp [h0]; omega
      · simp [h0]; omega
    rw [e1]
    exact h1

theorem park_top {n : Nat} {l : List Nat} (h : Park n l) : ∀ d ∈ l, d < n := by
  intro d hd
  have h1 := h n (le_refl _)
  rw [Nat.sub_self, Nat.le_zero, List.countP_eq_zero] at h1
  have := h1 d hd
  simpa using this

/-- Every link takes a root away and adds one to a degree. -/
structure Acc (new old : List (T α)) : Prop where
  sum : (degL new).sum + new.length = (degL old).sum + old.length
  len : new.length ≤ old.length
  same : new.length = old.length → new = old
  top : ∀ M, 64 ≤ M → (∀ d ∈ degL old, d ≤ M) → ∀ d ∈ degL new, d ≤ M
  park : ∀ n c, Park n (c ++ degL old) → Park n (c ++ degL new)

theorem acc_refl (l : List (T α)) : Acc l l := ⟨rfl, le_refl _, fun _ => rfl, fun _ _ h => h, fun _ _ h => h⟩

theorem acc_trans {a b c : List (T α)} (h1 : Acc a b) (h2 : Acc b c) : Acc a c :=
  ⟨h1.sum.trans h2.sum, h1.len.trans h2.len,
   fun h => by
     have e1 := h1.len
     have e2 := h2.len
     rw [h1.same (by omega), h2.same (by omega)],
   fun M hM h => h1.top M hM (h2.top M hM h),
   fun n c h => h1.park n c (h2.park n c h)⟩

/-- A link on the way led to a root that has no place in the table. -/
def Over (ring : List (T α)) : Prop :=
  ∃ ring' t, t ∈ ring' ∧ 65 ≤ t.degree ∧ (itemsL ring').Perm (itemsL ring) ∧ (degL ring').sum + ring'.length = (degL ring).sum + ring.length ∧
    ∀ n c, Park n (c ++ degL ring) → Park n (c ++ degL ring')

structure GoodO (lt : α → α → Bool) (ring : List (T α)) : Prop where
  diff : Diff ring
  ok : ∀ t ∈ ring, ordT lt t

theorem inner_again {lt : α → α → Bool} (wk : Weak lt) : ∀ (fuel : Nat) (vis todo : List (T α)) (w : Nat) (d : Nat) (table : List (Option Nat)) (tx : T α) (S : List (T α)),
    GoodO lt (vis ++ todo) → vis.Perm (tx :: S) → tx.degree = d → Tab table S → 66 ≤ fuel + d → (todo ++ vis).head?.map T.id = some w →
    (inner lt fuel (vis ++ todo) w tx.id d table = none ∧ Over (vis ++ todo)) ∨
    ∃ vis' w' table', inner lt fuel (vis ++ todo) w tx.id d table = some (vis' ++ todo, w', table') ∧ vis' ≠ [] ∧ GoodO lt (vis' ++ todo) ∧ Tab table' vis' ∧
      (itemsL (vis' ++ todo)).Perm (itemsL (vis ++ todo)) ∧ (todo ++ vis').head?.map T.id = some w' ∧ d < 65 ∧ Acc (vis' ++ todo) (vis ++ todo) := by
  intro fuel
  induction fuel with
  | zero =>
    intro vis todo w d table tx S hg hp hd ht hf hw
    left
    exact ⟨rfl, vis ++ todo, tx, List.mem_append_left _ (hp.mem_iff.2 (by simp)), by omega, List.Perm.refl _, rfl, fun _ _ h => h⟩
  | succ fuel ih =>
    intro vis todo w d table tx S hg hp hd ht hf hw
    have hxm : tx ∈ vis := hp.mem_iff.2 (by simp)
    have hdv : Diff vis := by
      have := hg.diff
      unfold Diff at this ⊢
      rw [List.map_append] at this
      exact (List.nodup_append.1 this).1
    have hdS : Diff (tx :: S) := diff_perm hp hdv
    cases hval : table[d]? with
    | none =>
      have := List.getElem?_eq_none_iff.1 hval
      rw [ht.len] at this
      left
      exact ⟨by rw [inner, hval]; rfl, vis ++ todo, tx, List.mem_append_left _ hxm, by omega, List.Perm.refl _, rfl, fun _ _ h => h⟩
    | some o =>
      have hlt : d < 65 := by
        have := (List.getElem?_eq_some_iff.1 hval).1
        rw [ht.len] at this
        exact this
      cases o with
      | none =>
        right
        refine ⟨vis, w, table.set d (some tx.id), by rw [inner, hval, bsome], List.ne_nil_of_mem hxm, hg, ?_, List.Perm.refl _, hw, hlt, acc_refl _⟩
        refine tab_perm ⟨by rw [List.length_set]; exact ht.len, fun e i => ?_⟩ hp.symm
        by_cases he : e = d
        · subst he
          rw [List.getElem?_set_self (by rw [ht.len]; omega)]
          constructor
          · intro h; cases h; exact ⟨tx, by simp, rfl, hd⟩
          · rintro ⟨t, htm, h1, h2⟩
            rcases List.mem_cons.1 htm with rfl | htm
            · rw [h1]
            · have := (ht.iff e t.id).2 ⟨t, htm, rfl, h2⟩
              rw [hval] at this
              cases this
        · rw [List.getElem?_set_ne (by omega), ht.iff]
          constructor
          · rintro ⟨t, htm, h1⟩; exact ⟨t, by simp [htm], h1⟩
          · rintro ⟨t, htm, h1, h2⟩
            rcases List.mem_cons.1 htm with rfl | htm
            · omega
            · exact ⟨t, htm, h1, h2⟩
      | some y =>
        obtain ⟨ty, hym, rfl, hyd⟩ := (ht.iff d y).1 hval
        obtain ⟨S', hS⟩ := (show ∃ S', S.Perm (ty :: S') by obtain ⟨u, v, rfl⟩ := List.append_of_mem hym; exact ⟨u ++ v, List.perm_middle⟩)
        have hp2 : vis.Perm (tx :: ty :: S') := hp.trans (List.Perm.cons _ hS)
        have hyv : ty ∈ vis := hp2.mem_iff.2 (by simp)
        have hgx := get_some hg.diff (List.mem_append_left todo hxm)
        have hgy := get_some hg.diff (List.mem_append_left todo hyv)
        -- the smaller and the larger one
        obtain ⟨X, Y, hXY, hpXY, hXd, hYd, hord⟩ : ∃ X Y, (if lt ty.key tx.key then (ty, tx) else (tx, ty)) = (X, Y) ∧ vis.Perm (X :: Y :: S') ∧ X.degree = d ∧ Y.degree = d ∧ lt Y.key X.key = false := by
          cases hc : lt ty.key tx.key with
          | true => exact ⟨ty, tx, by rw [if_pos rfl], hp2.trans (List.Perm.swap _ _ _), hyd, hd, wk.asymm _ _ hc⟩
          | false => exact ⟨tx, ty, by rw [if_neg (by simp)], hp2, hd, hyd, hc⟩
        obtain ⟨vis', a, b, hlink, hab, hids, hperm'⟩ := link_spec hg.diff hpXY
        have hXv : X ∈ vis := hpXY.mem_iff.2 (by simp)
        have hYv : Y ∈ vis := hpXY.mem_iff.2 (by simp)
        have hdYX : Diff (X :: Y :: S') := diff_perm hpXY hdv
        -- the new ring
        have hidsub : List.Sublist ((vis' ++ todo).map T.id) ((vis ++ todo).map T.id) := by
          rw [List.map_append, List.map_append, hids, hab]
          refine List.Sublist.append_right ?_ _
          simp only [List.map_append, List.map_cons]
          exact List.Sublist.append_left (List.sublist_cons_self _ _) _
        have hitems : (itemsL (vis' ++ todo)).Perm (itemsL (vis ++ todo)) := by
          rw [itemsL_append, itemsL_append]
          refine List.Perm.append_right _ ?_
          refine (itemsL_perm hperm').trans (List.Perm.trans ?_ (itemsL_perm hpXY).symm)
          rw [itemsL, itemsL, itemsL, ← List.append_assoc]
          exact List.Perm.append_right _ (linked_items Y X)
        have hg' : GoodO lt (vis' ++ todo) := by
          refine ⟨hidsub.nodup hg.diff, ?_⟩
          intro t htm
          rcases List.mem_append.1 htm with htm | htm
          · rcases List.mem_cons.1 (hperm'.mem_iff.1 htm) with rfl | htm
            · exact linked_ord (hg.ok X (by simp [hXv])) (hg.ok Y (by simp [hYv])) hord
            · exact hg.ok t (List.mem_append_left _ (hpXY.mem_iff.2 (by simp [htm])))
          · exact hg.ok t (by simp [htm])
        -- the table
        have hdS2 : Diff (ty :: S') := by
          have := diff_perm hp2 hdv
          unfold Diff at this ⊢
          exact (List.nodup_cons.1 this).2
        have htab : Tab (table.set d none) S' := by
          refine ⟨by rw [List.length_set]; exact ht.len, fun e i => ?_⟩
          by_cases he : e = d
          · subst he
            rw [List.getElem?_set_self (by rw [ht.len]; omega)]
            constructor
            · intro h; cases h
            · rintro ⟨t, htm, h1, h2⟩
              have h3 := (ht.iff e t.id).2 ⟨t, hS.mem_iff.2 (by simp [htm]), rfl, h2⟩
              rw [hval] at h3
              have h4 : ty.id = t.id := by simpa using h3
              unfold Diff at hdS2
              rw [List.map_cons, List.nodup_cons] at hdS2
              exact absurd (h4 ▸ List.mem_map_of_mem htm) hdS2.1
          · rw [List.getElem?_set_ne (by omega), ht.iff]
            constructor
            · rintro ⟨t, htm, h1, h2⟩
              rcases List.mem_cons.1 (hS.mem_iff.1 htm) with rfl | htm
              · omega
              · exact ⟨t, htm, h1, h2⟩
            · rintro ⟨t, htm, h1⟩; exact ⟨t, hS.mem_iff.2 (by simp [htm]), h1⟩
        -- where w goes
        have hXab : X ∈ a ++ b := by
          have h1 : (Y :: (a ++ b)).Perm (Y :: X :: S') := by
            rw [hab] at hpXY
            exact (List.perm_middle.symm.trans hpXY).trans (List.Perm.swap _ _ _)
          exact (List.Perm.cons_inv h1).mem_iff.2 (by simp)
        obtain ⟨w', hw', hwid⟩ : ∃ w', (if Y.id = w then right (vis ++ todo) w else some w) = some w' ∧ (todo ++ vis').head?.map T.id = some w' := by
          have hheads : ∀ l : List (T α), l.head?.map T.id = (l.map T.id).head? := fun l => by cases l <;> rfl
          cases todo with
          | cons t todo =>
            rw [List.cons_append, List.head?_cons, Option.map_some] at hw
            have hwt : t.id = w := by simpa using hw
            have hne : Y.id ≠ w := by
              rw [← hwt]
              exact (diff_split hg.diff).1 Y hYv
            exact ⟨w, by rw [if_neg hne], by rw [List.cons_append, List.head?_cons, Option.map_some, hwt]⟩
          | nil =>
            rw [List.nil_append] at hw ⊢
            rw [hheads, hids, ← hheads]
            by_cases hYw : Y.id = w
            · rw [if_pos hYw, List.append_nil]
              have ha : a = [] := by
                cases a with
                | nil => rfl
                | cons t a =>
                  rw [hab, List.cons_append, List.head?_cons, Option.map_some] at hw
                  have hwt : t.id = w := by simpa using hw
                  have := hdv
                  rw [hab] at this
                  exact absurd (hwt.trans hYw.symm) ((diff_split this).1 t (by simp))
              subst ha
              rw [List.nil_append] at hab hXab ⊢
              rw [← hYw, hab]
              have := right_split (a := []) (t := Y) (b := b) (by rw [List.nil_append, ← hab]; exact hdv)
              rw [List.nil_append] at this
              rw [this]
              cases b with
              | nil => cases hXab
              | cons t b => exact ⟨t.id, rfl, rfl⟩
            · rw [if_neg hYw]
              refine ⟨w, rfl, ?_⟩
              cases a with
              | nil =>
                rw [hab, List.nil_append, List.head?_cons, Option.map_some] at hw
                exact absurd (by simpa using hw) hYw
              | cons t a =>
                rw [hab, List.cons_append, List.head?_cons] at hw
                rw [List.cons_append, List.head?_cons]
                exact hw
        -- the degrees
        have hdeg : (degL (vis' ++ todo)).Perm ((X.degree + 1) :: (degL X.kids ++ degT Y ++ degL S' ++ degL todo)) := by
          rw [degL_append]
          refine ((degL_perm hperm').append_right _).trans ?_
          rw [degL]
          have := ((linked_deg Y X).append_right (degL S')).append_right (degL todo)
          simpa only [List.cons_append] using this
        have hdeg0 : (degL (vis ++ todo)).Perm (X.degree :: (degL X.kids ++ degT Y ++ degL S' ++ degL todo)) := by
          rw [degL_append]
          refine ((degL_perm hpXY).append_right _).trans ?_
          rw [degL, degL, degT_eq X]
          simp only [List.cons_append, List.append_assoc]
          exact List.Perm.refl _
        have hl1 : (vis' ++ todo).length + 1 = (vis ++ todo).length := by
          rw [List.length_append, List.length_append, hperm'.length_eq, hpXY.length_eq]
          simp only [List.length_cons]; omega
        have hsum : (degL (vis' ++ todo)).sum + (vis' ++ todo).length = (degL (vis ++ todo)).sum + (vis ++ todo).length := by
          rw [hdeg.sum_eq, hdeg0.sum_eq, List.sum_cons, List.sum_cons]
          omega
        have hpark : ∀ n c, Park n (c ++ degL (vis ++ todo)) → Park n (c ++ degL (vis' ++ todo)) := by
          intro n c h
          have q0 : (c ++ degL (vis ++ todo)).Perm (d :: d :: (c ++ (degL X.kids ++ degL Y.kids ++ degL S' ++ degL todo))) := by
            refine (List.Perm.append_left c hdeg0).trans ?_
            rw [hXd, degT_eq Y, hYd]
            refine List.perm_middle.trans (List.Perm.cons _ ?_)
            have : (degL X.kids ++ d :: degL Y.kids ++ degL S' ++ degL todo).Perm (d :: (degL X.kids ++ degL Y.kids ++ degL S' ++ degL todo)) :=
              (List.perm_middle.append_right _).append_right _
            exact (List.Perm.append_left c this).trans List.perm_middle
          have q1 : (c ++ degL (vis' ++ todo)).Perm ((d + 1) :: d :: (c ++ (degL X.kids ++ degL Y.kids ++ degL S' ++ degL todo))) := by
            refine (List.Perm.append_left c hdeg).trans ?_
            rw [hXd, degT_eq Y, hYd]
            refine List.perm_middle.trans (List.Perm.cons _ ?_)
            have : (degL X.kids ++ d :: degL Y.kids ++ degL S' ++ degL todo).Perm (d :: (degL X.kids ++ degL Y.kids ++ degL S' ++ degL todo)) :=
              (List.perm_middle.append_right _).append_right _
            exact (List.Perm.append_left c this).trans List.perm_middle
          exact park_perm (park_link (park_perm h q0)) q1.symm
        have estep : inner lt (fuel + 1) (vis ++ todo) w tx.id d table = inner lt fuel (vis' ++ todo) w' X.id (d + 1) (table.set d none) := by
          rw [inner, hval, bsome]
          simp only
          rw [hgy, bsome, hgx, bsome, hXY]
          simp only
          rw [hlink]
          by_cases hYw : Y.id = w
          · rw [if_pos hYw] at hw' ⊢
            rw [hw', bsome]
          · rw [if_neg hYw] at hw' ⊢
            rw [hw', bsome]
        rw [estep]
        rcases ih vis' todo w' (d + 1) (table.set d none) (linked Y X) S' hg' hperm' (by show X.degree + 1 = d + 1; omega) htab (by omega) hwid with ⟨e, r', t, o1, o2, o3, o4, o5⟩ | ⟨vis2, w2, table2, e2, h1, h2, h3, h4, h5, h6, h7⟩
        · left
          exact ⟨e, r', t, o1, o2, o3.trans hitems, o4.trans hsum, fun n c h => o5 n c (hpark n c h)⟩
        · right
          refine ⟨vis2, w2, table2, e2, h1, h2, h3, h4.trans hitems, h5, hlt, acc_trans h7 ⟨hsum, by omega, fun h => by omega, ?_, hpark⟩⟩
          intro M hM hall k hk
          rcases List.mem_cons.1 (hdeg.mem_iff.1 hk) with rfl | hk
          · omega
          · exact hall k (hdeg0.mem_iff.2 (List.mem_cons_of_mem _ hk))

theorem outer_again {lt : α → α → Bool} (wk : Weak lt) : ∀ (fuel : Nat) (todo vis : List (T α)) (w mark : Nat) (table : List (Option Nat)),
    GoodO lt (vis ++ todo) → Tab table vis → (todo ++ vis).head?.map T.id = some w → (mark ≠ 0 ↔ vis ≠ []) → todo.length < fuel →
    (outer lt fuel (vis ++ todo) w mark table = none ∧ Over (vis ++ todo)) ∨
    ∃ vis' table', outer lt fuel (vis ++ todo) w mark table = some (vis', table') ∧ GoodO lt vis' ∧ Tab table' vis' ∧ (itemsL vis').Perm (itemsL (vis ++ todo)) ∧ Acc vis' (vis ++ todo) := by
  intro fuel
  induction fuel with
  | zero => intro todo vis w mark table _ _ _ _ h; omega
  | succ fuel ih =>
    intro todo vis w mark table hg ht hw hm hf
    cases todo with
    | nil =>
      rw [List.nil_append] at hw
      rw [List.append_nil] at hg ⊢
      have hne : vis ≠ [] := by intro h; rw [h] at hw; cases hw
      rw [outer, if_pos ⟨hw, hm.2 hne⟩]
      right
      exact ⟨vis, table, rfl, hg, ht, List.Perm.refl _, acc_refl _⟩
    | cons t todo =>
      rw [List.cons_append, List.head?_cons, Option.map_some] at hw
      have hwt : t.id = w := by simpa using hw
      subst hwt
      have hcond : ¬ ((vis ++ t :: todo).head?.map T.id = some t.id ∧ mark ≠ 0) := by
        rintro ⟨h1, h2⟩
        cases vis with
        | nil => exact (hm.1 h2) rfl
        | cons v vis =>
          rw [List.cons_append, List.head?_cons, Option.map_some] at h1
          exact (diff_split hg.diff).1 v (by simp) (by simpa using h1)
      have hmark : (if (vis ++ t :: todo).head?.map T.id = some t.id then mark + 1 else mark) ≠ 0 := by
        cases vis with
        | nil => rw [if_pos (by simp)]; omega
        | cons v vis =>
          split
          · omega
          · exact hm.2 (by simp)
      have hr := right_split hg.diff
      have hgt := get_some hg.diff (show t ∈ vis ++ t :: todo by simp)
      obtain ⟨r, hr2⟩ : ∃ r, (todo ++ vis ++ [t]).head?.map T.id = some r := by
        cases todo with
        | nil => cases vis with
          | nil => exact ⟨_, rfl⟩
          | cons v vis => exact ⟨_, rfl⟩
        | cons v todo => exact ⟨_, rfl⟩
      rw [hr2] at hr
      have hsplit : vis ++ t :: todo = (vis ++ [t]) ++ todo := by simp
      rw [outer, if_neg hcond]
      simp only
      rw [hgt, bsome, hr, bsome]
      generalize hmk : (if (vis ++ t :: todo).head?.map T.id = some t.id then mark + 1 else mark) = mk at hmark ⊢
      rw [hsplit] at hg ⊢
      rcases inner_again wk 66 (vis ++ [t]) todo r t.degree table t vis hg List.perm_append_comm rfl ht (by omega) (by rw [← List.append_assoc]; exact hr2) with ⟨e, ho⟩ | ⟨vis', w', table', e, h1, h2, h3, h4, h5, -, h7⟩
      · left
        rw [e]
        exact ⟨rfl, ho⟩
      · rw [e, bsome]
        simp only
        rcases ih todo vis' w' mk table' h2 h3 h5 ⟨fun _ => h1, fun _ => hmark⟩ (by simp at hf; omega) with ⟨e2, r', t', o1, o2, o3, o4, o5⟩ | ⟨vis2, table2, e2, g1, g2, g3, g4⟩
        · left
          exact ⟨e2, r', t', o1, o2, o3.trans h4, o4.trans h7.sum, fun n c h => o5 n c (h7.park n c h)⟩
        · right
          exact ⟨vis2, table2, e2, g1, g2, g3.trans h4, acc_trans g4 h7⟩

/-- Consolidation of any ordered trees: it leaves the table, or keeps the nodes and leaves roots of
different degrees. -/
theorem consolidate_again {lt : α → α → Bool} (wk : Weak lt) (ring : List (T α)) (hne : ring ≠ []) (hg : GoodO lt ring) :
    (consolidate lt ring = none ∧ Over ring) ∨
    ∃ new m vis, consolidate lt ring = some (new, some m.id) ∧ GoodO lt new ∧ (itemsL new).Perm (itemsL ring) ∧ Least lt new (some m) ∧
      (new.map T.degree).Nodup ∧ (∀ t ∈ new, t.degree < 65) ∧ new.Perm vis ∧ Acc vis ring := by
  cases ring with
  | nil => exact absurd rfl hne
  | cons t ring =>
    have htab0 : Tab (List.replicate 65 none) ([] : List (T α)) := by
      refine ⟨by simp, fun e i => ?_⟩
      rw [List.getElem?_replicate]
      constructor
      · intro h; split at h <;> cases h
      · rintro ⟨s, hs, -⟩; cases hs
    rcases outer_again wk ((t :: ring).length + 1) (t :: ring) [] t.id 0 _ (by simpa using hg) htab0 (by simp) (by simp) (by omega) with ⟨e, ho⟩ | ⟨vis, table, e, h1, h2, h3, h4⟩
    · left
      rw [List.nil_append] at e ho
      exact ⟨by unfold consolidate; simp only; rw [e]; rfl, ho⟩
    right
    rw [List.nil_append] at e h3 h4
    have hids : ∀ i, i ∈ table.filterMap (fun o => o) ↔ i ∈ vis.map T.id := by
      intro i
      rw [List.mem_filterMap, List.mem_map]
      constructor
      · rintro ⟨a, ha, rfl⟩
        obtain ⟨j, hj⟩ := List.getElem?_of_mem ha
        obtain ⟨s, hs, hsi, -⟩ := (h2.iff j i).1 hj
        exact ⟨s, hs, hsi⟩
      · rintro ⟨s, hs, hsi⟩
        exact ⟨some i, List.mem_of_getElem? ((h2.iff s.degree i).2 ⟨s, hs, hsi, rfl⟩), rfl⟩
    have hnd : (table.filterMap (fun o => o)).Nodup := filterMap_nodup table (fun e f i he hf => by
      obtain ⟨s, hs, hsi, hse⟩ := (h2.iff e i).1 he
      obtain ⟨u, hu, hui, huf⟩ := (h2.iff f i).1 hf
      rw [diff_eq h1.diff hs hu (hsi.trans hui.symm)] at hse
      omega)
    obtain ⟨ts, m, ec, c1, c2, c3⟩ := collect_spec wk table vis [] none h1.diff hnd (fun i hi => by
      obtain ⟨s, hs, hsi⟩ := List.mem_map.1 ((hids i).1 hi)
      exact ⟨s, hs, hsi⟩) rfl
    rw [List.nil_append] at ec c3
    have hts : ts.Perm vis := by
      have n1 : ts.Nodup := List.Nodup.of_map T.id (by rw [c1]; exact hnd)
      have n2 : vis.Nodup := List.Nodup.of_map T.id h1.diff
      rw [List.perm_ext_iff_of_nodup n1 n2]
      intro s
      refine ⟨c2 s, fun hs => ?_⟩
      have : s.id ∈ ts.map T.id := by rw [c1, hids]; exact List.mem_map_of_mem hs
      obtain ⟨u, hu, hui⟩ := List.mem_map.1 this
      rwa [← diff_eq h1.diff (c2 u hu) hs hui]
    have hit : (itemsL ts).Perm (itemsL (t :: ring)) := (itemsL_perm hts).trans h3
    cases m with
    | none =>
      have : ts = [] := c3
      rw [this] at hit
      have := hit.length_eq
      rw [itemsL, itemsL, itemsT_eq] at this
      simp at this
    | some m =>
      have hfit : ∀ s ∈ vis, table[s.degree]? = some (some s.id) := fun s hs => (h2.iff _ _).2 ⟨s, hs, rfl, rfl⟩
      refine ⟨ts, m, vis, ?_, ⟨diff_perm hts.symm h1.diff, fun s hs => h1.ok s (c2 s hs)⟩, hit, c3, ?_, ?_, hts, h4⟩
      rotate_left
      · apply List.Nodup.map_on _ (List.Nodup.of_map T.id (diff_perm hts.symm h1.diff))
        intro s hs u hu hd
        have e1 := hfit s (c2 s hs)
        have e2 := hfit u (c2 u hu)
        rw [hd, e2] at e1
        exact diff_eq h1.diff (c2 s hs) (c2 u hu) (by simpa using e1.symm)
      · intro s hs
        have := (List.getElem?_eq_some_iff.1 (hfit s (c2 s hs))).1
        rw [h2.len] at this
        exact this
      unfold consolidate
      simp only
      rw [e, bsome]
      simp only
      rw [ec, bsome]
      rfl

/-! ## The timeout that is due next is set again -/

/-- The descriptor whose timeout is due next gets a new one; `minVal` of the heap is 0. -/
def step (h : Heap Nat) (k : Nat) : Option (Heap Nat) := do
  let m ← h.min
  retime natLt h m 0 k

structure AInv (h : Heap Nat) : Prop where
  ord : ∀ t ∈ h.roots, ordT natLt t
  ids : ((itemsL h.roots).map Prod.fst).Nodup
  min : ∃ m, Least natLt h.roots (some m) ∧ h.min = some m.id

theorem find_root {l : List (T α)} (hn : ((itemsL l).map Prod.fst).Nodup) {t : T α} (ht : t ∈ l) : ∃ a b, findL t.id l = some (t, [], a, b) ∧ l = a ++ t :: b := by
  obtain ⟨⟨x, path, a, b⟩, hv⟩ := Option.isSome_iff_exists.1 (findL_some t.id l (List.mem_map_of_mem (f := Prod.fst) (mem_items ht)))
  obtain ⟨hl, hx⟩ := findL_spec t.id l x path a b hv
  cases path with
  | nil =>
    rw [up] at hl
    have : x = t := diff_eq (diff_of hn) (by rw [hl]; simp) ht hx
    subst this
    exact ⟨a, b, hv, hl⟩
  | cons f fs =>
    exfalso
    have hit : (itemsL l).Perm ((x.id, x.key) :: (itemsL x.kids ++ itemsF (f :: fs) ++ itemsL (a ++ b))) := by
      rw [hl]
      refine (itemsL_perm List.perm_middle).trans ?_
      rw [itemsL]
      have := (up_items x (f :: fs)).append_right (itemsL (a ++ b))
      rw [itemsT_eq x, List.cons_append, List.cons_append] at this
      exact this
    have h2 : t.id ∈ (itemsL x.kids ++ itemsF (f :: fs) ++ itemsL (a ++ b)).map Prod.fst := by
      have h3 : t ∈ a ++ b ∨ t = up x (f :: fs) := by
        rw [hl] at ht
        rcases List.mem_append.1 ht with h1 | h1
        · left; simp [h1]
        · rcases List.mem_cons.1 h1 with h1 | h1
          · right; exact h1
          · left; simp [h1]
      rcases h3 with h3 | h3
      · exact List.mem_map_of_mem (f := Prod.fst) (List.mem_append_right _ (mem_items h3))
      · rw [h3]
        exact List.mem_map_of_mem (f := Prod.fst) (List.mem_append_left _ (List.mem_append_right _ (up_root_mem x f fs)))
    have := (hit.map Prod.fst).nodup hn
    rw [List.map_cons, List.nodup_cons] at this
    exact this.1 (by show x.id ∈ _; rw [hx]; exact h2)

/-- One step: it leaves the degree table, or the node `tm` moved to the end. -/
theorem step_cases (h : Heap Nat) (hi : AInv h) (k : Nat) (hk : ∀ p ∈ itemsL h.roots, p.2 < k) (h2 : 2 ≤ (itemsL h.roots).length) :
    ∃ tm a b, h.roots = a ++ tm :: b ∧ (∀ p ∈ itemsL h.roots, tm.key ≤ p.2) ∧
      ((step h k = none ∧ Over (a ++ (b ++ tm.kids))) ∨
       ∃ h' new vis, step h k = some h' ∧ AInv h' ∧ h'.roots = new ++ [.mk { tm.info with key := k } []] ∧ (itemsL new).Perm (itemsL (a ++ (b ++ tm.kids))) ∧
         (new.map T.degree).Nodup ∧ (∀ t ∈ new, t.degree < 65) ∧ new.Perm vis ∧ Acc vis (a ++ (b ++ tm.kids))) := by
  obtain ⟨tm, hm, he⟩ := hi.min
  obtain ⟨a, b, hf, hab⟩ := find_root hi.ids hm.1
  have hmin : ∀ p ∈ itemsL h.roots, tm.key ≤ p.2 := by
    intro p hp
    have := rootOL natLt_weak h.roots tm.key ((ordL_iff _).2 hi.ord) hm.2 p hp
    simpa [natLt] using this
  refine ⟨tm, a, b, hab, hmin, ?_⟩
  have hit : (itemsL h.roots).Perm ((tm.id, tm.key) :: itemsL (a ++ (b ++ tm.kids))) := by
    rw [hab]
    refine (itemsL_perm List.perm_middle).trans ?_
    rw [itemsL, itemsT_eq, List.cons_append]
    refine List.Perm.cons _ ?_
    rw [← List.append_assoc, itemsL_append (a ++ b)]
    exact List.perm_append_comm
  have hids2 := (hit.map Prod.fst).nodup hi.ids
  rw [List.map_cons, List.nodup_cons] at hids2
  -- the key is set to the minimum value
  generalize htz : (T.mk { tm.info with key := 0 } tm.kids : T Nat) = z
  have hzid : z.id = tm.id := by rw [← htz]; rfl
  have hzk : z.kids = tm.kids := by rw [← htz]; rfl
  have hdec : decreaseKey natLt h tm.id 0 = some (0, { h with roots := a ++ z :: b }) := by
    unfold decreaseKey
    rw [hf, bsome]
    simp only
    rw [if_neg (by simp [natLt]), he, bsome, if_pos rfl, moved, htz]
  have hdz : Diff (a ++ z :: (b ++ tm.kids)) := by
    have h1 := diff_of hids2.2
    have h2 : tm.id ∉ (a ++ (b ++ tm.kids)).map T.id := fun hc => hids2.1 ((ids_sub _).subset hc)
    unfold Diff at h1 ⊢
    rw [List.map_append, List.map_cons, List.nodup_middle, List.nodup_cons, ← List.map_append, hzid]
    exact ⟨h2, h1⟩
  have hdr : Diff (a ++ z :: b) := by
    unfold Diff at hdz ⊢
    refine List.Sublist.nodup ?_ hdz
    rw [← List.cons_append, ← List.append_assoc, List.map_append (l₂ := tm.kids)]
    exact List.sublist_append_left _ _
  have hg := get_some hdr (show z ∈ a ++ z :: b by simp)
  rw [hzid] at hg
  have hr := right_split hdz
  have hdel := del_split hdz
  rw [hzid] at hr hdel
  have hne : a ++ (b ++ tm.kids) ≠ [] := by
    intro hc
    have := hit.length_eq
    rw [hc, itemsL] at this
    simp at this
    omega
  obtain ⟨r, hr1, hr2⟩ : ∃ r, (b ++ tm.kids ++ a ++ [z]).head?.map T.id = some r ∧ r ≠ tm.id := by
    cases hc : b ++ tm.kids ++ a with
    | nil =>
      exfalso; apply hne
      simp only [List.append_eq_nil_iff] at hc ⊢
      exact ⟨hc.2, hc.1⟩
    | cons s l =>
      refine ⟨s.id, rfl, ?_⟩
      rw [← hzid]
      have hs : s ∈ b ++ tm.kids ++ a := by rw [hc]; simp
      rcases List.mem_append.1 hs with hs | hs
      · exact (diff_split hdz).2 s hs
      · exact (diff_split hdz).1 s hs
  have hordr : ∀ t ∈ a ++ (b ++ tm.kids), ordT natLt t := by
    intro t ht
    rcases List.mem_append.1 ht with ht | ht
    · exact hi.ord t (by rw [hab]; simp [ht])
    · rcases List.mem_append.1 ht with ht | ht
      · exact hi.ord t (by rw [hab]; simp [ht])
      · exact ((ordT_iff tm).1 (hi.ord tm hm.1)).2 t ht
  have hext : extractMin natLt { h with roots := a ++ z :: b } = (consolidate natLt (a ++ (b ++ tm.kids)) >>= fun r => some (some z.info, ⟨r.1, r.2, h.num - 1⟩)) := by
    unfold extractMin
    simp only [he]
    rw [hg, bsome, hzk]
    simp only [List.append_assoc, List.cons_append]
    rw [hr, hr1, bsome, hdel, if_neg hr2]
  have hstep : step h k = ((consolidate natLt (a ++ (b ++ tm.kids)) >>= fun r => some (some z.info, (⟨r.1, r.2, h.num - 1⟩ : Heap Nat))) >>= fun q =>
      match q with
      | (some n, h) => if n.id = tm.id then insert natLt h { n with key := k } else none
      | (none, _) => none) := by
    unfold step retime delete
    rw [he, bsome, hdec, bsome]
    simp only
    rw [hext]
    cases consolidate natLt (a ++ (b ++ tm.kids)) <;> rfl
  rcases consolidate_again natLt_weak _ hne ⟨diff_of hids2.2, hordr⟩ with ⟨e, ho⟩ | ⟨new, m, vis, e, g1, g2, g3, g4, g5, g6, g7⟩
  · left
    exact ⟨by rw [hstep, e]; rfl, ho⟩
  · right
    have hmk : m.key < k := hk (m.id, m.key) (hit.mem_iff.2 (List.mem_cons_of_mem _ (g2.mem_iff.1 (mem_items g3.1))))
    have hids3 : ((itemsL (new ++ [T.mk { tm.info with key := k } []])).map Prod.fst).Nodup := by
      have hp : ((itemsL (new ++ [T.mk { tm.info with key := k } []])).map Prod.fst).Perm (tm.id :: (itemsL (a ++ (b ++ tm.kids))).map Prod.fst) := by
        rw [itemsL_append, itemsL_single, itemsT, itemsL, List.map_append]
        exact List.perm_append_comm.trans (List.Perm.cons _ (g2.map Prod.fst))
      exact hp.symm.nodup (List.nodup_cons.2 ⟨hids2.1, hids2.2⟩)
    have hgm := get_some (diff_of hids3) (List.mem_append_left [T.mk { tm.info with key := k } []] g3.1)
    refine ⟨⟨new ++ [.mk { tm.info with key := k } []], some m.id, h.num - 1 + 1⟩, new, vis, ?_, ⟨?_, hids3, ⟨m, ⟨by simp [g3.1], ?_⟩, rfl⟩⟩, rfl, g2, g4, g5, g6, g7⟩
    · rw [hstep, e, bsome, bsome]
      simp only
      rw [if_pos (by rw [← htz]; rfl)]
      unfold insert addChild
      simp only
      rw [show (T.mk { z.info with key := k } [] : T Nat) = T.mk { tm.info with key := k } [] by rw [← htz]; rfl]
      rw [hgm, bsome]
      rw [if_neg (by simp [natLt]; omega)]
    · intro t ht
      rcases List.mem_append.1 ht with ht | ht
      · exact g1.ok t ht
      · rw [List.mem_singleton.1 ht, ordT]
        exact ⟨by simp, by simp [ordL]⟩
    · intro s hs
      rcases List.mem_append.1 hs with hs | hs
      · exact g3.2 s hs
      · rw [List.mem_singleton.1 hs]
        show natLt k m.key = false
        simp [natLt]; omega

/-- What a step that stays inside the table does, as far as it is needed below. -/
structure Moved (h : Heap Nat) (k : Nat) (h' : Heap Nat) (tm : T Nat) (a b : List (T Nat)) : Prop where
  inv : AInv h'
  split : h.roots = a ++ tm :: b
  least : ∀ p ∈ itemsL h.roots, tm.key ≤ p.2
  before : (itemsL h.roots).Perm ((tm.id, tm.key) :: itemsL (a ++ (b ++ tm.kids)))
  after : (itemsL h'.roots).Perm ((tm.id, k) :: itemsL (a ++ (b ++ tm.kids)))
  sum : (degL h.roots).sum ≤ (degL h'.roots).sum
  top : ∀ M, 64 ≤ M → (∀ d ∈ degL h.roots, d ≤ M) → ∀ d ∈ degL h'.roots, d ≤ M
  still : (degL h'.roots).sum = (degL h.roots).sum →
    h'.roots.Perm (.mk { tm.info with key := k } [] :: (a ++ (b ++ tm.kids))) ∧ ((a ++ (b ++ tm.kids)).map T.degree).Nodup ∧ ∀ t ∈ a ++ (b ++ tm.kids), t.degree < 65

theorem step_moved (h : Heap Nat) (hi : AInv h) (k : Nat) (hk : ∀ p ∈ itemsL h.roots, p.2 < k) (h2 : 2 ≤ (itemsL h.roots).length) (h' : Heap Nat) (he : step h k = some h') :
    ∃ tm a b, Moved h k h' tm a b := by
  obtain ⟨tm, a, b, hab, hmin, ⟨e, -⟩ | ⟨h1, new, vis, e, g1, g2, g3, g4, g5, g6, g7⟩⟩ := step_cases h hi k hk h2
  · rw [he] at e; cases e
  · have hh : h' = h1 := by rw [he] at e; simpa using e
    subst hh
    have hdh : (degL h.roots).Perm (tm.degree :: degL (a ++ (b ++ tm.kids))) := by
      rw [hab]
      refine (degL_perm List.perm_middle).trans ?_
      rw [degL, degT_eq, List.cons_append]
      refine List.Perm.cons _ ?_
      rw [← List.append_assoc, degL_append (a ++ b)]
      exact List.perm_append_comm
    have hdh' : (degL h'.roots).Perm (tm.degree :: degL new) := by
      rw [g2, degL_append, degL_single, degT, degL]
      exact List.perm_append_comm
    have hsum' : (degL new).sum = (degL vis).sum := (degL_perm g6).sum_eq
    have hs := g7.sum
    have hl := g7.len
    refine ⟨tm, a, b, g1, hab, hmin, ?_, ?_, ?_, ?_, ?_⟩
    · rw [hab]
      refine (itemsL_perm List.perm_middle).trans ?_
      rw [itemsL, itemsT_eq, List.cons_append]
      refine List.Perm.cons _ ?_
      rw [← List.append_assoc, itemsL_append (a ++ b)]
      exact List.perm_append_comm
    · rw [g2, itemsL_append, itemsL_single, itemsT, itemsL]
      exact List.perm_append_comm.trans (List.Perm.cons _ g3)
    · rw [hdh.sum_eq, hdh'.sum_eq, List.sum_cons, List.sum_cons]; omega
    · intro M hM hall d hd
      rcases List.mem_cons.1 (hdh'.mem_iff.1 hd) with rfl | hd
      · exact hall _ (hdh.mem_iff.2 (by simp))
      · exact g7.top M hM (fun d hd => hall d (hdh.mem_iff.2 (List.mem_cons_of_mem _ hd))) d ((degL_perm g6).mem_iff.1 hd)
    · intro hst
      rw [hdh.sum_eq, hdh'.sum_eq, List.sum_cons, List.sum_cons] at hst
      have hv : vis = a ++ (b ++ tm.kids) := g7.same (by omega)
      rw [hv] at g6
      refine ⟨?_, (g6.map T.degree).nodup g4, fun t ht => g5 t (g6.mem_iff.2 ht)⟩
      rw [g2]
      exact List.perm_append_comm.trans (List.Perm.cons _ g6)

/-! ## It does not go on for ever -/

/-- The steps with the new timeouts `keys 0`, `keys 1`, ... -/
def serve (keys : Nat → Nat) (h : Heap Nat) : Nat → Option (Heap Nat)
  | 0 => some h
  | s + 1 => do
    let h ← serve keys h s
    step h (keys s)

mutual
theorem deg_lenT : ∀ t : T α, (degT t).length = (itemsT t).length
  | .mk n kids => by rw [degT, itemsT, List.length_cons, List.length_cons, deg_lenL kids]
theorem deg_lenL : ∀ l : List (T α), (degL l).length = (itemsL l).length
  | [] => by rw [degL, itemsL]; rfl
  | t :: ts => by rw [degL, itemsL, List.length_append, List.length_append, deg_lenT t, deg_lenL ts]
end

theorem sum_le (l : List Nat) (M : Nat) (h : ∀ d ∈ l, d ≤ M) : l.sum ≤ l.length * M := by
  induction l with
  | nil => simp
  | cons a l ih =>
    rw [List.sum_cons, List.length_cons, Nat.succ_mul]
    have := ih (fun d hd => h d (by simp [hd]))
    have := h a (by simp)
    omega

theorem mem_le_sum {l : List Nat} {d : Nat} (h : d ∈ l) : d ≤ l.sum := by
  obtain ⟨a, b, rfl⟩ := List.append_of_mem h
  rw [List.sum_append, List.sum_cons]
  omega

theorem full_sum (l : List Nat) (hn : l.Nodup) (hl : ∀ d ∈ l, d < 65) (h : 65 ≤ l.length) : l.sum = 2080 := by
  have hsub : l.Subperm (List.range 65) := hn.subperm (fun d hd => List.mem_range.2 (hl d hd))
  have hp := hsub.perm_of_length_le (by rw [List.length_range]; exact h)
  rw [hp.sum_eq]
  decide

theorem items_kid {l : List (T α)} {t : T α} (ht : t ∈ l) {p : Nat × α} (hp : p ∈ itemsT t) : p ∈ itemsL l := by
  obtain ⟨a, b, rfl⟩ := List.append_of_mem ht
  rw [itemsL_append, itemsL]
  simp [hp]

theorem leaf_items (l : List (T α)) (h : ∀ t ∈ l, t.kids = []) : itemsL l = l.map (fun t => (t.id, t.key)) := by
  induction l with
  | nil => rw [itemsL]; rfl
  | cons t l ih => rw [itemsL, itemsT_eq, h t (by simp), itemsL, ih (fun s hs => h s (by simp [hs]))]; rfl

theorem leaf_degs (l : List (T α)) (h : ∀ t ∈ l, t.kids = []) : degL l = l.map T.degree := by
  induction l with
  | nil => rw [degL]; rfl
  | cons t l ih => rw [degL, degT_eq, h t (by simp), degL, ih (fun s hs => h s (by simp [hs]))]; rfl

/-- An endless run. -/
structure Endless (keys : Nat → Nat) (H : Nat → Heap Nat) (n : Nat) : Prop where
  mono : ∀ s, keys s < keys (s + 1)
  inv : AInv (H 0)
  low : ∀ p ∈ itemsL (H 0).roots, p.2 < keys 0
  len : (itemsL (H 0).roots).length = n
  many : 66 ≤ n
  steps : ∀ s, step (H s) (keys s) = some (H (s + 1))

theorem endless_all {keys : Nat → Nat} {H : Nat → Heap Nat} {n : Nat} (e : Endless keys H n) (s : Nat) :
    AInv (H s) ∧ (∀ p ∈ itemsL (H s).roots, p.2 < keys s) ∧ (itemsL (H s).roots).length = n ∧ ∃ tm a b, Moved (H s) (keys s) (H (s + 1)) tm a b := by
  have key : ∀ s, AInv (H s) → (∀ p ∈ itemsL (H s).roots, p.2 < keys s) → (itemsL (H s).roots).length = n → ∃ tm a b, Moved (H s) (keys s) (H (s + 1)) tm a b :=
    fun s h1 h2 h3 => step_moved (H s) h1 (keys s) h2 (by have := e.many; omega) _ (e.steps s)
  induction s with
  | zero => exact ⟨e.inv, e.low, e.len, key 0 e.inv e.low e.len⟩
  | succ s ih =>
    obtain ⟨h1, h2, h3, tm, a, b, m⟩ := ih
    have g2 : ∀ p ∈ itemsL (H (s + 1)).roots, p.2 < keys (s + 1) := by
      intro p hp
      have hm := e.mono s
      rcases List.mem_cons.1 (m.after.mem_iff.1 hp) with rfl | hp
      · exact hm
      · exact (h2 p (m.before.mem_iff.2 (List.mem_cons_of_mem _ hp))).trans hm
    have g3 : (itemsL (H (s + 1)).roots).length = n := by
      rw [m.after.length_eq, List.length_cons, ← List.length_cons (a := (tm.id, tm.key)), ← m.before.length_eq, h3]
    exact ⟨m.inv, g2, g3, key (s + 1) m.inv g2 g3⟩

/-- The node that moves is not the one that moved just before. -/
theorem other_node {h h' : Heap Nat} {k k' : Nat} {h'' : Heap Nat} {x y : T Nat} {a b c d : List (T Nat)} (m1 : Moved h k h' x a b) (m2 : Moved h' k' h'' y c d)
    (hk : ∀ p ∈ itemsL h.roots, p.2 < k) (hl : 2 ≤ (itemsL h.roots).length) : y.id ≠ x.id := by
  intro he
  have hy : (y.id, y.key) ∈ itemsL h'.roots := m2.before.mem_iff.2 (by simp)
  have hx : (y.id, k) ∈ itemsL h'.roots := by rw [he]; exact m1.after.mem_iff.2 (by simp)
  have hyk : y.key = k := key_unique m1.inv.ids hy hx
  have hR : 1 ≤ (itemsL (a ++ (b ++ x.kids))).length := by
    have := m1.before.length_eq
    rw [List.length_cons] at this
    omega
  obtain ⟨p, hp⟩ := List.exists_mem_of_length_pos hR
  have h1 := m2.least p (m1.after.mem_iff.2 (List.mem_cons_of_mem _ hp))
  have h2 := hk p (m1.before.mem_iff.2 (List.mem_cons_of_mem _ hp))
  omega

/-- Nor the one before that. -/
theorem other_node2 {h h1 h2 h3 : Heap Nat} {k k1 k2 : Nat} {x y z : T Nat} {a b c d e f : List (T Nat)} (m1 : Moved h k h1 x a b) (m2 : Moved h1 k1 h2 y c d) (m3 : Moved h2 k2 h3 z e f)
    (hk : ∀ p ∈ itemsL h.roots, p.2 < k) (hxy : y.id ≠ x.id) (hl : 3 ≤ (itemsL h.roots).length) : z.id ≠ x.id := by
  intro he
  have hx1 : (x.id, k) ∈ itemsL h1.roots := m1.after.mem_iff.2 (by simp)
  have hx2 : (x.id, k) ∈ itemsL (c ++ (d ++ y.kids)) := by
    rcases List.mem_cons.1 (m2.before.mem_iff.1 hx1) with h0 | h0
    · exact absurd (Prod.ext_iff.1 h0).1.symm hxy
    · exact h0
  have hz : (z.id, z.key) ∈ itemsL h2.roots := m3.before.mem_iff.2 (by simp)
  have hzx : (z.id, k) ∈ itemsL h2.roots := by rw [he]; exact m2.after.mem_iff.2 (List.mem_cons_of_mem _ hx2)
  have hzk : z.key = k := key_unique m2.inv.ids hz hzx
  obtain ⟨u, v, huv⟩ := List.append_of_mem hx2
  have hlen : 1 ≤ (u ++ v).length := by
    have l1 := m1.before.length_eq
    have l2 := m1.after.length_eq
    have l3 := m2.before.length_eq
    rw [huv] at l3
    simp only [List.length_cons, List.length_append] at *
    omega
  obtain ⟨p, hp⟩ := List.exists_mem_of_length_pos hlen
  have hpc : p ∈ itemsL (c ++ (d ++ y.kids)) := by
    rw [huv]
    rcases List.mem_append.1 hp with hp | hp <;> simp [hp]
  have hpne : p.1 ≠ x.id := by
    have hnd := (m2.before.map Prod.fst).nodup m1.inv.ids
    rw [List.map_cons, List.nodup_cons, huv, List.map_append, List.map_cons, List.nodup_middle, List.nodup_cons, ← List.map_append] at hnd
    intro hc
    exact hnd.2.1 (by show x.id ∈ _; rw [← hc]; exact List.mem_map_of_mem hp)
  have hp1 : p ∈ itemsL h1.roots := m2.before.mem_iff.2 (List.mem_cons_of_mem _ hpc)
  have hp0 : p.2 < k := by
    rcases List.mem_cons.1 (m1.after.mem_iff.1 hp1) with h0 | h0
    · exact absurd (Prod.ext_iff.1 h0).1 hpne
    · exact hk p (m1.before.mem_iff.2 (List.mem_cons_of_mem _ h0))
  have := m3.least p (m2.after.mem_iff.2 (List.mem_cons_of_mem _ hpc))
  omega

theorem mem_rest {a b : List (T Nat)} {z t : T Nat} (h : t ∈ a ++ z :: b) (hne : t.id ≠ z.id) (c : List (T Nat)) : t ∈ a ++ (b ++ c) := by
  rcases List.mem_append.1 h with h | h
  · simp [h]
  · rcases List.mem_cons.1 h with rfl | h
    · exact absurd rfl hne
    · simp [h]

/-- Three steps from a heap without children, all inside the table and without links: impossible with
66 nodes. -/
theorem three_steps {h h1 h2 h3 : Heap Nat} {k k1 k2 : Nat} {x y z : T Nat} {a b c d e f : List (T Nat)} (m1 : Moved h k h1 x a b) (m2 : Moved h1 k1 h2 y c d) (m3 : Moved h2 k2 h3 z e f)
    (hk : ∀ p ∈ itemsL h.roots, p.2 < k) (hk1 : ∀ p ∈ itemsL h1.roots, p.2 < k1) (hl : 66 ≤ (itemsL h.roots).length) (leaf : ∀ t ∈ h.roots, t.kids = [])
    (s1 : (degL h1.roots).sum = (degL h.roots).sum) (s2 : (degL h2.roots).sum = (degL h1.roots).sum) (s3 : (degL h3.roots).sum = (degL h2.roots).sum) : False := by
  have hyx : y.id ≠ x.id := other_node m1 m2 hk (by omega)
  have hl1 : (itemsL h1.roots).length = (itemsL h.roots).length := by rw [m1.after.length_eq, m1.before.length_eq, List.length_cons, List.length_cons]
  have hzy : z.id ≠ y.id := other_node m2 m3 hk1 (by omega)
  have hzx : z.id ≠ x.id := other_node2 m1 m2 m3 hk hyx (by omega)
  obtain ⟨p1, n1, d1⟩ := m1.still s1
  obtain ⟨p2, n2, d2⟩ := m2.still s2
  obtain ⟨p3, n3, d3⟩ := m3.still s3
  have hxk : x.kids = [] := leaf x (by rw [m1.split]; simp)
  rw [hxk, List.append_nil] at p1 n1 d1
  have leaf1 : ∀ t ∈ h1.roots, t.kids = [] := by
    intro t ht
    rcases List.mem_cons.1 (p1.mem_iff.1 ht) with rfl | ht
    · rfl
    · apply leaf t
      rw [m1.split]
      rcases List.mem_append.1 ht with ht | ht <;> simp [ht]
  have hyk : y.kids = [] := leaf1 y (by rw [m2.split]; simp)
  rw [hyk, List.append_nil] at p2 n2 d2
  have len0 : h.roots.length = (itemsL h.roots).length := by rw [leaf_items _ leaf, List.length_map]
  have lenA : 65 ≤ ((a ++ b).map T.degree).length := by
    have := congrArg List.length m1.split
    simp only [List.length_map, List.length_append, List.length_cons] at this ⊢
    omega
  have lenC : 65 ≤ ((c ++ d).map T.degree).length := by
    have h1 := p1.length_eq
    have h2 := congrArg List.length m2.split
    simp only [List.length_map, List.length_append, List.length_cons] at h1 h2 lenA ⊢
    omega
  have sA := full_sum _ n1 (by intro k hk; obtain ⟨t, ht, rfl⟩ := List.mem_map.1 hk; exact d1 t ht) lenA
  have sC := full_sum _ n2 (by intro k hk; obtain ⟨t, ht, rfl⟩ := List.mem_map.1 hk; exact d2 t ht) lenC
  have e1 : (h1.roots.map T.degree).sum = x.degree + 2080 := by
    rw [(p1.map T.degree).sum_eq, List.map_cons, List.sum_cons, sA]; rfl
  have e2 : (h1.roots.map T.degree).sum = y.degree + 2080 := by
    rw [m2.split, (List.perm_middle.map T.degree).sum_eq, List.map_cons, List.sum_cons, sC]
  have hdeg : x.degree = y.degree := by omega
  -- both are still there
  have hx1 : (T.mk { x.info with key := k } [] : T Nat) ∈ h1.roots := p1.mem_iff.2 (by simp)
  rw [m2.split] at hx1
  have hx2 := mem_rest hx1 (fun h => hyx h.symm) []
  rw [List.append_nil] at hx2
  have hx3 : (T.mk { x.info with key := k } [] : T Nat) ∈ h2.roots := p2.mem_iff.2 (List.mem_cons_of_mem _ hx2)
  rw [m3.split] at hx3
  have hx4 := mem_rest hx3 (fun h => hzx h.symm) z.kids
  have hy3 : (T.mk { y.info with key := k1 } [] : T Nat) ∈ h2.roots := p2.mem_iff.2 (by simp)
  rw [m3.split] at hy3
  have hy4 := mem_rest hy3 (fun h => hzy h.symm) z.kids
  have := List.inj_on_of_nodup_map n3 hx4 hy4 hdeg
  exact hyx (congrArg T.id this).symm

theorem no_endless {keys : Nat → Nat} {H : Nat → Heap Nat} {n : Nat} (e : Endless keys H n) : False := by
  have all := endless_all e
  have hn := e.many
  have hstep : ∀ s, (degL (H s).roots).sum ≤ (degL (H (s + 1)).roots).sum := by
    intro s
    obtain ⟨-, -, -, tm, a, b, m⟩ := all s
    exact m.sum
  have hmono : ∀ s j, (degL (H s).roots).sum ≤ (degL (H (s + j)).roots).sum := by
    intro s j
    induction j with
    | zero => exact le_refl _
    | succ j ih => exact ih.trans (hstep (s + j))
  -- a bound
  have hbound : ∃ B, ∀ s, (degL (H s).roots).sum ≤ B := by
    have htop : ∀ s, ∀ d ∈ degL (H s).roots, d ≤ 64 + (degL (H 0).roots).sum := by
      intro s
      induction s with
      | zero => intro d hd; have := mem_le_sum hd; omega
      | succ s ih =>
        obtain ⟨-, -, -, tm, a, b, m⟩ := all s
        exact m.top _ (by omega) ih
    refine ⟨n * (64 + (degL (H 0).roots).sum), fun s => ?_⟩
    have := sum_le _ _ (htop s)
    rw [deg_lenL, (all s).2.2.1] at this
    exact this
  -- a window without links
  have hwin : ∃ s, (degL (H (s + (n + 3))).roots).sum = (degL (H s).roots).sum := by
    obtain ⟨B, hB⟩ := hbound
    by_contra hc
    have hgrow : ∀ j, j ≤ (degL (H (j * (n + 3))).roots).sum := by
      intro j
      induction j with
      | zero => omega
      | succ j ih =>
        have h1 := hmono (j * (n + 3)) (n + 3)
        have h2 : (degL (H (j * (n + 3) + (n + 3))).roots).sum ≠ (degL (H (j * (n + 3))).roots).sum := fun h => hc ⟨_, h⟩
        rw [Nat.succ_mul]
        omega
    have := hgrow (B + 1)
    have := hB ((B + 1) * (n + 3))
    omega
  obtain ⟨s, hs⟩ := hwin
  have hflat : ∀ j, j ≤ n + 2 → (degL (H (s + j + 1)).roots).sum = (degL (H (s + j)).roots).sum := by
    intro j hj
    have h1 := hmono s j
    have h2 := hstep (s + j)
    have h3 := hmono (s + j + 1) (n + 2 - j)
    rw [show s + j + 1 + (n + 2 - j) = s + (n + 3) by omega] at h3
    omega
  -- children are old nodes, and old nodes run out
  have hold : ∀ j, j ≤ n → (∀ t ∈ (H (s + j)).roots, ∀ p ∈ itemsL t.kids, p.2 < keys s) ∧ (itemsL (H (s + j)).roots).countP (fun p => decide (p.2 < keys s)) ≤ n - j ∧ keys s ≤ keys (s + j) := by
    intro j
    induction j with
    | zero =>
      intro _
      obtain ⟨-, h2, h3, -⟩ := all s
      refine ⟨?_, by rw [Nat.sub_zero]; exact h3 ▸ List.countP_le_length, le_refl _⟩
      intro t ht p hp
      exact h2 p (items_kid ht (by rw [itemsT_eq]; exact List.mem_cons_of_mem _ hp))
    | succ j ih =>
      intro hj
      obtain ⟨h1, h2, hkj⟩ := ih (by omega)
      obtain ⟨-, -, -, tm, a, b, m⟩ := all (s + j)
      obtain ⟨p1, -, -⟩ := m.still (hflat j (by omega))
      refine ⟨?_, ?_, hkj.trans (e.mono (s + j)).le⟩
      · intro t ht p hp
        have ht2 : t ∈ (H (s + j + 1)).roots := ht
        rcases List.mem_cons.1 (p1.mem_iff.1 ht2) with rfl | ht3
        · simp [T.kids, itemsL] at hp
        · rcases List.mem_append.1 ht3 with ht3 | ht3
          · exact h1 t (by rw [m.split]; simp [ht3]) p hp
          · rcases List.mem_append.1 ht3 with ht3 | ht3
            · exact h1 t (by rw [m.split]; simp [ht3]) p hp
            · exact h1 tm (by rw [m.split]; simp) p (items_kid ht3 (by rw [itemsT_eq]; exact List.mem_cons_of_mem _ hp))
      · show (itemsL (H (s + j + 1)).roots).countP (fun p => decide (p.2 < keys s)) ≤ n - (j + 1)
        rw [m.after.countP_eq, List.countP_cons_of_neg (by simp; exact hkj)]
        rw [m.before.countP_eq] at h2
        by_cases hx : tm.key < keys s
        · rw [List.countP_cons_of_pos (by simpa using hx)] at h2
          omega
        · have h0 : (itemsL (a ++ (b ++ tm.kids))).countP (fun p => decide (p.2 < keys s)) = 0 := by
            rw [List.countP_eq_zero]
            intro p hp
            have := m.least p (m.before.mem_iff.2 (List.mem_cons_of_mem _ hp))
            simp; omega
          omega
  obtain ⟨g1, g2, -⟩ := hold n (le_refl _)
  have leaf : ∀ t ∈ (H (s + n)).roots, t.kids = [] := by
    intro t ht
    by_contra hc
    obtain ⟨u, hu⟩ := List.exists_mem_of_ne_nil _ hc
    have h1 := g1 t ht _ (mem_items hu)
    have h2 : (itemsL (H (s + n)).roots).countP (fun p => decide (p.2 < keys s)) = 0 := by omega
    rw [List.countP_eq_zero] at h2
    exact h2 _ (items_kid ht (by rw [itemsT_eq]; exact List.mem_cons_of_mem _ (mem_items hu))) (by simpa using h1)
  obtain ⟨-, k1, l1, x, a, b, m1⟩ := all (s + n)
  obtain ⟨-, k2, -, y, c, d, m2⟩ := all (s + n + 1)
  obtain ⟨-, -, -, z, f, g, m3⟩ := all (s + n + 2)
  exact three_steps m1 m2 m3 k1 k2 (by omega) leaf (hflat n (by omega)) (hflat (n + 1) (by omega)) (hflat (n + 2) (by omega))

/-- C98, refuted for every heap of at least 66 nodes: when the timeout that is due next is set again
and again to later and later times, a step writes beside the degree table (`step_cases`: a step from a
sound heap fails in no other way). -/
theorem retime_overflow (h : Heap Nat) (hi : AInv h) (hn : 66 ≤ (itemsL h.roots).length) (keys : Nat → Nat) (mono : ∀ s, keys s < keys (s + 1)) (low : ∀ p ∈ itemsL h.roots, p.2 < keys 0) :
    ∃ s, serve keys h s = none := by
  by_contra hc
  have hsome : ∀ s, ∃ h', serve keys h s = some h' := by
    intro s
    cases hs : serve keys h s with
    | none => exact absurd ⟨s, hs⟩ hc
    | some h' => exact ⟨h', rfl⟩
  choose H hH using hsome
  have h0 : H 0 = h := by have := hH 0; rw [serve] at this; simpa using this.symm
  refine no_endless (keys := keys) (H := H) (n := (itemsL h.roots).length) ⟨mono, by rw [h0]; exact hi, by rw [h0]; exact low, by rw [h0], hn, ?_⟩
  intro s
  have := hH (s + 1)
  rw [serve, hH s, bsome] at this
  exact this

/-- ... in particular for every heap made by any legal history with at least 66 nodes in it. -/
theorem retime_overflow_history {h : Heap Nat} {S : List (Nat × Nat)} (r : Rep natLt h S) (hn : 66 ≤ S.length) (keys : Nat → Nat) (mono : ∀ s, keys s < keys (s + 1)) (low : ∀ p ∈ S, p.2 < keys 0) :
    ∃ s, serve keys h s = none := by
  refine retime_overflow h ⟨fun t ht => ord_of_okT t (r.inv.ok t ht), r.inv.ids, ?_⟩ (by rw [r.bag.length_eq]; exact hn) keys mono (fun p hp => low p (r.bag.mem_iff.1 hp))
  obtain ⟨m, hm, he⟩ := r.inv.min
  cases m with
  | none =>
    have hb := r.bag.length_eq
    rw [show h.roots = [] from hm, itemsL] at hb
    simp at hb
    omega
  | some m => exact ⟨m, hm, he⟩

/-! ## Few nodes -/

/-- C98, partial: with at most 65 nodes, degrees below `Park` (all 0 to begin with, say), the table is
never left, however often timeouts are set again.  Missing: 66 nodes and more, see `retime_overflow`. -/
theorem retime_safe_partial (h : Heap Nat) (hi : AInv h) (h2 : 2 ≤ (itemsL h.roots).length) (hn : (itemsL h.roots).length ≤ 65) (hp : Park (itemsL h.roots).length (degL h.roots))
    (keys : Nat → Nat) (mono : ∀ s, keys s < keys (s + 1)) (low : ∀ p ∈ itemsL h.roots, p.2 < keys 0) (s : Nat) :
    ∃ h', serve keys h s = some h' ∧ AInv h' ∧ (itemsL h'.roots).length = (itemsL h.roots).length ∧ Park (itemsL h.roots).length (degL h'.roots) ∧ ∀ p ∈ itemsL h'.roots, p.2 < keys s := by
  induction s with
  | zero => exact ⟨h, rfl, hi, rfl, hp, low⟩
  | succ s ih =>
    obtain ⟨h1, e1, i1, l1, p1, k1⟩ := ih
    have hm := mono s
    obtain ⟨tm, a, b, hab, hmin, hcase⟩ := step_cases h1 i1 (keys s) k1 (by omega)
    have hdh : (degL h1.roots).Perm ([tm.degree] ++ degL (a ++ (b ++ tm.kids))) := by
      rw [hab]
      refine (degL_perm List.perm_middle).trans ?_
      rw [degL, degT_eq, List.cons_append, List.singleton_append]
      refine List.Perm.cons _ ?_
      rw [← List.append_assoc, degL_append (a ++ b)]
      exact List.perm_append_comm
    have hbef : (itemsL h1.roots).Perm ((tm.id, tm.key) :: itemsL (a ++ (b ++ tm.kids))) := by
      rw [hab]
      refine (itemsL_perm List.perm_middle).trans ?_
      rw [itemsL, itemsT_eq, List.cons_append]
      refine List.Perm.cons _ ?_
      rw [← List.append_assoc, itemsL_append (a ++ b)]
      exact List.perm_append_comm
    have hpark := park_perm p1 hdh
    rcases hcase with ⟨e, r', t, o1, o2, -, -, o5⟩ | ⟨h', new, vis, e, g1, g2, g3, g4, g5, g6, g7⟩
    · exfalso
      have h3 := park_top (o5 _ _ hpark) t.degree (by
        apply List.mem_append_right
        obtain ⟨u, v, rfl⟩ := List.append_of_mem o1
        rw [degL_append, degL, degT_eq]
        simp)
      omega
    · have hitems : (itemsL h'.roots).Perm ((tm.id, keys s) :: itemsL (a ++ (b ++ tm.kids))) := by
        rw [g2, itemsL_append, itemsL_single, itemsT, itemsL]
        exact List.perm_append_comm.trans (List.Perm.cons _ g3)
      refine ⟨h', by rw [serve, e1, bsome, e], g1, ?_, ?_, ?_⟩
      · rw [← l1, hitems.length_eq, hbef.length_eq, List.length_cons, List.length_cons]
      · refine park_perm (g7.park _ _ hpark) ?_
        rw [g2, degL_append, degL_single, degT, degL]
        exact (List.Perm.append_left _ (degL_perm g6.symm)).trans List.perm_append_comm
      · intro p hp
        rcases List.mem_cons.1 (hitems.mem_iff.1 hp) with rfl | hp
        · exact hm
        · exact (k1 p (hbef.mem_iff.2 (List.mem_cons_of_mem _ hp))).trans hm

/-- Nodes that were only inserted. -/
def fresh (n : Nat) : Option (Heap Nat) := (List.range n).foldlM (fun h i => insert natLt h (node i (i + 1))) new

/-- Six nodes, forty steps: node 3 has degree 5 and no child. -/
example : ((fresh 6).bind (fun h => serve (· + 7) h 40)).map (fun h => h.roots.map (fun t => (t.id, t.degree, t.kids.length))) =
    some [(2, 0, 0), (0, 1, 0), (1, 2, 0), (5, 3, 0), (4, 4, 0), (3, 5, 0)] := by decide +kernel

end Verif.Fheap
