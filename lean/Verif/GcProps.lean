import Verif.Gc
import Mathlib.Tactic.Common
import Mathlib.Data.List.Nodup
import Mathlib.Data.List.Perm.Subperm

/-
C53, C89: the garbage collector.
-/
namespace Verif.Gc

/-! ### Specification -/

/-- What is in use: the roots, the items of the collector nobody suspects, and the members of what is in use. -/
inductive Reach (mem : Item → List Item) (roots : List Item) (own : Item → Prop) (susp : Item → Bool) : Item → Prop where
  | root {x : Item} (h : x ∈ roots) : Reach mem roots own susp x
  | sure {x : Item} (h : own x) (h2 : susp x = false) : Reach mem roots own susp x
  | mem {x y : Item} (h : Reach mem roots own susp x) (h2 : y ∈ mem x) : Reach mem roots own susp y

/-- A collector between collections. -/
structure Ready (s : St) : Prop where
  nodup : s.items.Nodup
  idle : s.proc = []
  zero : ∀ x, s.credit x = false ∧ s.inc x = false ∧ s.vis x = false

/-! ### Marking -/

def Sat (s : St) (y : Item) : Prop := (y ∈ s.items → s.credit y = true) ∧ (y ∉ s.items → y ∈ s.proc)

section
variable {mem : Item → List Item} {roots : List Item} {U : List Item} {s0 : St}

structure Inv (mem : Item → List Item) (roots : List Item) (U : List Item) (s0 : St) (D : Item → Prop) (s : St) : Prop where
  items : s.items = s0.items
  susp : s.susp = s0.susp
  nodup : s.proc.Nodup
  sub : ∀ x ∈ s.proc, x ∈ U
  own : ∀ x ∈ s0.items, x ∈ s.proc
  credit : ∀ x, s.credit x = true → x ∈ s.proc ∧ Reach mem roots (· ∈ s0.items) s0.susp x
  foreign : ∀ x ∈ s.proc, x ∉ s0.items → s.inc x = true ∧ Reach mem roots (· ∈ s0.items) s0.susp x
  inc : ∀ x, s.inc x = true → x ∈ s.proc ∧ x ∉ s0.items
  vis : ∀ x, s.vis x = true → x ∈ s.proc ∧ (s0.susp x = false ∨ s.credit x = true) ∧ ∀ y ∈ mem x, Sat s y
  sat : ∀ y, D y → Sat s y

theorem Inv.weaken {D D' : Item → Prop} {s : St} (h : Inv mem roots U s0 D s) (hd : ∀ y, D' y → D y) : Inv mem roots U s0 D' s :=
  { h with sat := fun y hy => h.sat y (hd y hy) }

theorem upd_true {f : Item → Bool} {i x : Item} : upd f i true x = true ↔ x = i ∨ f x = true := by
  unfold upd; split <;> simp_all

theorem collectAdd_inv {D : Item → Prop} {s : St} (h : Inv mem roots U s0 D s) (y : Item) (hy : Reach mem roots (· ∈ s0.items) s0.susp y)
    (hu : y ∈ U) : Inv mem roots U s0 (fun z => D z ∨ z = y) (collectAdd s y) := by
  unfold collectAdd
  have mono : ∀ s', s'.items = s.items → (∀ x, s.credit x = true → s'.credit x = true) → (∀ x ∈ s.proc, x ∈ s'.proc) → ∀ z, Sat s z → Sat s' z :=
    fun s' hi hc hp z hz => ⟨fun hh => hc z (hz.1 (hi ▸ hh)), fun hh => hp z (hz.2 (hi ▸ hh))⟩
  split
  · rename_i hin
    refine ⟨h.items, h.susp, h.nodup, h.sub, h.own, ?_, h.foreign, h.inc, ?_, ?_⟩
    · intro x hx
      rcases upd_true.1 hx with rfl | hx
      · exact ⟨hin, hy⟩
      · exact h.credit x hx
    · intro x hx
      obtain ⟨a, b, c⟩ := h.vis x hx
      refine ⟨a, ?_, fun z hz => mono { s with credit := upd s.credit y true } rfl (fun x hx => upd_true.2 (.inr hx)) (fun x hx => hx) z (c z hz)⟩
      rcases b with b | b
      · exact .inl b
      · exact .inr (upd_true.2 (.inr b))
    · rintro z (hz | rfl)
      · exact mono { s with credit := upd s.credit y true } rfl (fun x hx => upd_true.2 (.inr hx)) (fun x hx => hx) z (h.sat z hz)
      · exact ⟨fun _ => upd_true.2 (.inl rfl), fun _ => hin⟩
  · rename_i hin
    have hf : y ∉ s0.items := fun hc => hin (h.own y hc)
    have up : ∀ x ∈ s.proc, x ∈ s.proc ++ [y] := fun x hx => by simp [hx]
    refine ⟨h.items, h.susp, ?_, ?_, fun x hx => up x (h.own x hx), ?_, ?_, ?_, ?_, ?_⟩
    · refine List.nodup_append'.2 ⟨h.nodup, by simp, ?_⟩
      intro a ha hb
      rw [List.mem_singleton] at hb
      subst hb; exact hin ha
    · intro x hx
      rcases List.mem_append.1 hx with hx | hx
      · exact h.sub x hx
      · rw [List.mem_singleton] at hx; subst hx; exact hu
    · intro x hx; exact ⟨up x (h.credit x hx).1, (h.credit x hx).2⟩
    · intro x hx hxi
      rcases List.mem_append.1 hx with hx | hx
      · exact ⟨upd_true.2 (.inr (h.foreign x hx hxi).1), (h.foreign x hx hxi).2⟩
      · rw [List.mem_singleton] at hx; subst hx; exact ⟨upd_true.2 (.inl rfl), hy⟩
    · intro x hx
      rcases upd_true.1 hx with rfl | hx
      · exact ⟨by simp, hf⟩
      · exact ⟨up x (h.inc x hx).1, (h.inc x hx).2⟩
    · intro x hx
      obtain ⟨a, b, c⟩ := h.vis x hx
      exact ⟨up x a, b, fun z hz => mono { s with proc := s.proc ++ [y], inc := upd s.inc y true } rfl (fun x hx => hx) up z (c z hz)⟩
    · rintro z (hz | rfl)
      · exact mono { s with proc := s.proc ++ [y], inc := upd s.inc y true } rfl (fun x hx => hx) up z (h.sat z hz)
      · exact ⟨fun hc => absurd (h.items ▸ hc) hf, fun _ => by simp⟩

theorem foldl_inv : ∀ (l : List Item) (D : Item → Prop) (s : St), Inv mem roots U s0 D s →
    (∀ y ∈ l, Reach mem roots (· ∈ s0.items) s0.susp y ∧ y ∈ U) → Inv mem roots U s0 (fun z => D z ∨ z ∈ l) (l.foldl collectAdd s)
  | [], D, s, h, _ => h.weaken (fun y hy => by simpa using hy)
  | y :: l, D, s, h, hl => by
    rw [List.foldl_cons]
    refine (foldl_inv l _ _ (collectAdd_inv h y (hl y (by simp)).1 (hl y (by simp)).2) (fun z hz => hl z (by simp [hz]))).weaken ?_
    intro z hz
    rcases hz with hz | hz
    · exact .inl (.inl hz)
    · rcases List.mem_cons.1 hz with rfl | hz
      · exact .inl (.inr rfl)
      · exact .inr hz

theorem collectAdd_vis (s : St) (y : Item) : (collectAdd s y).vis = s.vis := by unfold collectAdd; split <;> rfl

theorem foldl_vis : ∀ (l : List Item) (s : St), (l.foldl collectAdd s).vis = s.vis
  | [], s => rfl
  | y :: l, s => by rw [List.foldl_cons, foldl_vis l, collectAdd_vis]

theorem foldl_credit : ∀ (l : List Item) (s : St) (x : Item), s.credit x = true → (l.foldl collectAdd s).credit x = true
  | [], s, x, h => h
  | y :: l, s, x, h => by
    rw [List.foldl_cons]
    refine foldl_credit l _ x ?_
    unfold collectAdd; split
    · exact upd_true.2 (.inr h)
    · exact h

theorem visit_inv {D : Item → Prop} {s : St} (h : Inv mem roots U s0 D s) (hU : ∀ x ∈ U, ∀ y ∈ mem x, y ∈ U) {x : Item} (hx : x ∈ s.proc)
    (hn : ¬ (s.susp x && !s.credit x || s.vis x) = true) :
    Inv mem roots U s0 D { (mem x).foldl collectAdd s with vis := upd ((mem x).foldl collectAdd s).vis x true } := by
  have hs : s0.susp x = false ∨ s.credit x = true := by
    rw [← h.susp]
    cases h1 : s.susp x <;> cases h2 : s.credit x <;> simp_all
  have hr : Reach mem roots (· ∈ s0.items) s0.susp x := by
    by_cases ho : x ∈ s0.items
    · rcases hs with hs | hs
      · exact .sure ho hs
      · exact (h.credit x hs).2
    · exact (h.foreign x hx ho).2
  have h' := foldl_inv (mem x) D s h (fun y hy => ⟨.mem hr hy, hU x (h.sub x hx) y hy⟩)
  have hc := foldl_credit (mem x) s x
  have hxp : x ∈ ((mem x).foldl collectAdd s).proc := by
    by_cases ho : x ∈ s0.items
    · exact h'.own x ho
    · exact (h'.inc x (by
        have : ∀ (l : List Item) (s : St), s.inc x = true → (l.foldl collectAdd s).inc x = true := by
          intro l
          induction l with
          | nil => exact fun s h => h
          | cons y l ih =>
            intro s hi
            rw [List.foldl_cons]
            refine ih _ ?_
            unfold collectAdd; split
            · exact hi
            · exact upd_true.2 (.inr hi)
        exact this _ _ (h.foreign x hx ho).1)).1
  refine ⟨h'.items, h'.susp, h'.nodup, h'.sub, h'.own, h'.credit, h'.foreign, h'.inc, ?_, fun y hy => h'.sat y (.inl hy)⟩
  intro z hz
  rcases upd_true.1 hz with rfl | hz
  · refine ⟨hxp, ?_, fun y hy => h'.sat y (.inr hy)⟩
    rcases hs with hs | hs
    · exact .inl hs
    · exact .inr (hc hs)
  · exact h'.vis z hz

/-- The number of items not visited. -/
def todo (U : List Item) (s : St) : Nat := (U.filter fun x => !s.vis x).length

theorem todo_upd (s : St) (x : Item) (hx : x ∈ U) (hv : s.vis x = false) (s' : St) (hs : s'.vis = upd s.vis x true) : todo U s' < todo U s := by
  unfold todo
  induction U with
  | nil => simp at hx
  | cons u U ih =>
    have mono : ∀ V : List Item, (V.filter fun x => !s'.vis x).length ≤ (V.filter fun x => !s.vis x).length := by
      intro V
      induction V with
      | nil => simp
      | cons v V ihV =>
        rw [List.filter_cons, List.filter_cons, hs]
        unfold upd
        by_cases e : v = x
        · simp only [e, if_true]; rw [hs] at ihV; simp [hv]; unfold upd at ihV; simpa using Nat.le_succ_of_le ihV
        · simp only [e, if_false]; rw [hs] at ihV; unfold upd at ihV; split
          · simpa using ihV
          · exact ihV
    rw [List.filter_cons, List.filter_cons, hs]
    by_cases e : u = x
    · subst e
      have : upd s.vis u true u = true := by simp [upd]
      rw [this]; simp only [hv, Bool.not_true, Bool.false_eq_true, if_false, Bool.not_false, if_true, List.length_cons]
      have := mono U
      rw [hs] at this; omega
    · have hxU : x ∈ U := by
        rcases List.mem_cons.1 hx with h | h
        · exact absurd h.symm e
        · exact h
      have e2 : upd s.vis x true u = s.vis u := by simp [upd, e]
      rw [e2]
      have := ih hxU
      rw [hs] at this
      split
      · simpa using this
      · exact this

theorem mark_ok (hU : ∀ x ∈ U, ∀ y ∈ mem x, y ∈ U) {D : Item → Prop} : ∀ (fuel i : Nat) (done : Bool) (s : St), Inv mem roots U s0 D s →
    (done = true → ∀ k x, k < i → s.proc[k]? = some x → (s.susp x = true ∧ s.credit x = false) ∨ s.vis x = true) →
    (2 * todo U s + if done then 0 else 1) * (U.length + 1) + (U.length - i) + 1 ≤ fuel →
    ∃ s', mark mem fuel i done s = some s' ∧ Inv mem roots U s0 D s' ∧
      ∀ x ∈ s'.proc, (s'.susp x = true ∧ s'.credit x = false) ∨ s'.vis x = true
  | 0, i, done, s, _, _, hf => by omega
  | fuel + 1, i, done, s, h, hd, hf => by
    have hlen : s.proc.length ≤ U.length := (List.subperm_of_subset h.nodup h.sub).length_le
    cases hi : s.proc[i]? with
    | none =>
      have hil := List.getElem?_eq_none_iff.1 hi
      cases done with
      | true =>
        refine ⟨s, by rw [mark]; simp [hi], h, fun x hx => ?_⟩
        obtain ⟨k, hk⟩ := List.mem_iff_getElem?.1 hx
        exact hd rfl k x (by have := (List.getElem?_eq_some_iff.1 hk).1; omega) hk
      | false =>
        obtain ⟨s', h1, h2⟩ := mark_ok hU fuel 0 true s h (fun _ k x hk _ => by omega) (by
          simp only [Bool.false_eq_true, if_false, if_true, Nat.add_zero, Nat.sub_zero] at hf ⊢
          rw [Nat.add_mul] at hf; omega)
        exact ⟨s', by rw [mark]; simp only [hi, Bool.false_eq_true, if_false]; exact h1, h2⟩
    | some x =>
      have hil := (List.getElem?_eq_some_iff.1 hi).1
      have hx := List.mem_of_getElem? hi
      by_cases c : (s.susp x && !s.credit x || s.vis x) = true
      · obtain ⟨s', h1, h2⟩ := mark_ok hU fuel (i + 1) done s h (fun hdn k z hk hz => by
          by_cases e : k = i
          · subst e
            rw [hi] at hz; cases hz
            simpa using c
          · exact hd hdn k z (by omega) hz) (by omega)
        exact ⟨s', by rw [mark]; simp only [hi, c, if_true]; exact h1, h2⟩
      · have hv : s.vis x = false := by simp at c; exact c.2
        have ht := todo_upd (U := U) s x (h.sub x hx) hv { (mem x).foldl collectAdd s with vis := upd ((mem x).foldl collectAdd s).vis x true }
          (by simp only [foldl_vis])
        have hv' := visit_inv h hU hx c
        generalize hS : ({ (mem x).foldl collectAdd s with vis := upd ((mem x).foldl collectAdd s).vis x true } : St) = S at ht hv'
        obtain ⟨s', h1, h2⟩ := mark_ok hU fuel (i + 1) false S hv' (fun hc => by cases hc) (by
          have : (2 * todo U S + 1 + 1) * (U.length + 1)
              ≤ (2 * todo U s + if done then 0 else 1) * (U.length + 1) := Nat.mul_le_mul_right _ (by omega)
          rw [Nat.add_mul _ 1] at this
          simp only [Bool.false_eq_true, if_false]
          omega)
        exact ⟨s', by rw [mark]; simp only [hi, c]; rw [← h1, ← hS]; rfl, h2⟩

theorem marked (hF : ∀ x, Reach mem roots (· ∈ s0.items) s0.susp x → x ∉ s0.items → s0.susp x = false) {s : St}
    (h : Inv mem roots U s0 (· ∈ roots) s) (hd : ∀ x ∈ s.proc, (s.susp x = true ∧ s.credit x = false) ∨ s.vis x = true) (x : Item) (hx : x ∈ s0.items) :
    Reach mem roots (· ∈ s0.items) s0.susp x ↔ s.credit x = true ∨ s0.susp x = false := by
  constructor
  · intro hr
    have key : ∀ x, Reach mem roots (· ∈ s0.items) s0.susp x → (x ∈ s0.items → s.credit x = true ∨ s0.susp x = false) ∧ (x ∉ s0.items → x ∈ s.proc) := by
      have satw : ∀ y, Sat s y → (y ∈ s0.items → s.credit y = true ∨ s0.susp y = false) ∧ (y ∉ s0.items → y ∈ s.proc) :=
        fun y hy => ⟨fun ho => .inl (hy.1 (h.items ▸ ho)), fun ho => hy.2 (h.items ▸ ho)⟩
      intro x hr
      induction hr with
      | root hx => exact satw _ (h.sat _ hx)
      | sure h1 h2 => exact ⟨fun _ => .inr h2, fun hc => absurd h1 hc⟩
      | @mem x y hr hy ih =>
        have hv : s.vis x = true := by
          by_cases ho : x ∈ s0.items
          · have := hd x (h.own x ho)
            rw [h.susp] at this
            rcases this with ⟨a, b⟩ | a
            · rcases ih.1 ho with c | c
              · rw [b] at c; cases c
              · rw [a] at c; cases c
            · exact a
          · have := hd x (ih.2 ho)
            rw [h.susp, hF x hr ho] at this
            simpa using this
        exact satw y ((h.vis x hv).2.2 y hy)
    exact (key x hr).1 hx
  · rintro (hc | hc)
    · exact (h.credit x hc).2
    · exact .sure hx hc

theorem enlist_ok : ∀ (l : List Item) (s : St), (s.proc ++ l).Nodup → enlist s l = { s with proc := s.proc ++ l }
  | [], s, _ => by simp [enlist]
  | x :: l, s, h => by
    have hx : x ∉ s.proc := fun hc => by
      rw [List.nodup_append'] at h
      exact h.2.2 hc (by simp)
    rw [enlist, if_neg hx, enlist_ok l _ (by simpa using h)]
    simp

theorem pick_ok : ∀ (l : List Item) (s : St), l.Nodup →
    (pick s l).2 = l.filter (fun x => !s.inc x && !s.credit x && s.susp x) ∧
    (pick s l).1.items = s.items ∧ (pick s l).1.susp = s.susp ∧
    ∀ x, (x ∉ l → (pick s l).1.inc x = s.inc x ∧ (pick s l).1.credit x = s.credit x ∧ (pick s l).1.vis x = s.vis x) ∧
      (x ∈ l → (pick s l).1.inc x = false ∧ (pick s l).1.credit x = false ∧ ((pick s l).1.vis x = false ∨
        (pick s l).1.vis x = s.vis x ∧ s.inc x = false ∧ s.credit x = false ∧ s.susp x = true))
  | [], s, _ => ⟨rfl, rfl, rfl, fun x => ⟨fun _ => ⟨rfl, rfl, rfl⟩, fun h => by simp at h⟩⟩
  | a :: l, s, h => by
    have hn := List.nodup_cons.1 h
    -- an item that is not picked: the flags of `a` are cleared, the others unchanged
    have skip : ∀ s' : St, s'.items = s.items → s'.susp = s.susp → (∀ x, x ≠ a → s'.inc x = s.inc x ∧ s'.credit x = s.credit x ∧ s'.vis x = s.vis x) →
        (s'.inc a = false ∧ s'.credit a = false ∧ s'.vis a = false) → (!s.inc a && !s.credit a && s.susp a) = false → pick s (a :: l) = pick s' l →
        (pick s (a :: l)).2 = (a :: l).filter (fun x => !s.inc x && !s.credit x && s.susp x) ∧
        (pick s (a :: l)).1.items = s.items ∧ (pick s (a :: l)).1.susp = s.susp ∧
        ∀ x, (x ∉ a :: l → (pick s (a :: l)).1.inc x = s.inc x ∧ (pick s (a :: l)).1.credit x = s.credit x ∧ (pick s (a :: l)).1.vis x = s.vis x) ∧
          (x ∈ a :: l → (pick s (a :: l)).1.inc x = false ∧ (pick s (a :: l)).1.credit x = false ∧ ((pick s (a :: l)).1.vis x = false ∨
            (pick s (a :: l)).1.vis x = s.vis x ∧ s.inc x = false ∧ s.credit x = false ∧ s.susp x = true)) := by
      intro s' hi hs ho ha hc e
      obtain ⟨p1, p2, p3, p4⟩ := pick_ok l s' hn.2
      rw [e]
      refine ⟨?_, p2.trans hi, p3.trans hs, fun x => ⟨fun hx => ?_, fun hx => ?_⟩⟩
      · rw [p1, List.filter_cons, hc, hs]
        simp only [Bool.false_eq_true, if_false]
        apply List.filter_congr
        intro x hx
        have := ho x (fun e => hn.1 (e ▸ hx))
        rw [this.1, this.2.1]
      · have hxa : x ≠ a := fun e => hx (by simp [e])
        have hxl : x ∉ l := fun e => hx (by simp [e])
        have h1 := (p4 x).1 hxl
        have h2 := ho x hxa
        exact ⟨h1.1.trans h2.1, h1.2.1.trans h2.2.1, h1.2.2.trans h2.2.2⟩
      · by_cases hxa : x = a
        · subst hxa
          have h1 := (p4 x).1 hn.1
          exact ⟨h1.1.trans ha.1, h1.2.1.trans ha.2.1, .inl (h1.2.2.trans ha.2.2)⟩
        · have hxl : x ∈ l := by
            rcases List.mem_cons.1 hx with h | h
            · exact absurd h hxa
            · exact h
          have h2 := ho x hxa
          have h1 := (p4 x).2 hxl
          rw [h2.1, h2.2.1, h2.2.2, hs] at h1
          exact h1
    have u1 : ∀ (f : Item → Bool) x, x ≠ a → upd f a false x = f x := fun f x hx => by simp [upd, hx]
    have u2 : ∀ (f : Item → Bool), upd f a false a = false := fun f => by simp [upd]
    by_cases c1 : s.inc a = true
    · exact skip { s with inc := upd s.inc a false, vis := upd s.vis a false, credit := upd s.credit a false } rfl rfl (fun x hx => ⟨u1 _ _ hx, u1 _ _ hx, u1 _ _ hx⟩) ⟨u2 _, u2 _, u2 _⟩ (by simp [c1]) (by rw [pick, if_pos c1])
    · by_cases c2 : s.credit a = true
      · exact skip { s with credit := upd s.credit a false, vis := upd s.vis a false } rfl rfl (fun x hx => ⟨rfl, u1 _ _ hx, u1 _ _ hx⟩)
          ⟨by simpa using c1, u2 _, u2 _⟩ (by simp [c2]) (by rw [pick, if_neg c1, if_pos c2])
      · by_cases c3 : s.susp a = true
        · have e : pick s (a :: l) = ((pick s l).1, a :: (pick s l).2) := by
            rw [pick, if_neg c1, if_neg c2, if_neg (by simp [c3])]
          obtain ⟨p1, p2, p3, p4⟩ := pick_ok l s hn.2
          rw [e]
          refine ⟨?_, p2, p3, fun x => ⟨fun hx => (p4 x).1 (fun e => hx (by simp [e])), fun hx => ?_⟩⟩
          · rw [p1, List.filter_cons]; simp at c1 c2; simp [c1, c2, c3]
          · by_cases hxa : x = a
            · subst hxa
              have h1 := (p4 x).1 hn.1
              simp at c1 c2
              exact ⟨h1.1.trans c1, h1.2.1.trans c2, .inr ⟨h1.2.2, c1, c2, c3⟩⟩
            · rcases List.mem_cons.1 hx with h | h
              · exact absurd h hxa
              · exact (p4 x).2 h
        · exact skip { s with vis := upd s.vis a false, credit := upd s.credit a false } rfl rfl (fun x hx => ⟨rfl, u1 _ _ hx, u1 _ _ hx⟩)
            ⟨by simpa using c1, u2 _, u2 _⟩ (by simp [c3]) (by rw [pick, if_neg c1, if_neg c2, if_pos (by simpa using c3)])

/-! ### Cleaning -/

theorem cleanFold (x : Item) : ∀ (l : List Item) (s : St) (cut : List (Item × Item)), s.proc.Nodup →
    ∃ (s' : St) (cut' : List (Item × Item)) (E : List Item), l.foldl (cleanAdd x) (s, cut) = (s', cut') ∧ s'.proc = s.proc ++ E ∧ s'.proc.Nodup ∧
      (∀ y ∈ E, y ∈ l) ∧ (∀ y, s'.inc y = true ↔ s.inc y = true ∨ y ∈ E) ∧ s'.items = s.items ∧ s'.susp = s.susp ∧ s'.credit = s.credit ∧ s'.vis = s.vis ∧
      (∀ y ∈ l, y ∈ s'.proc ∧ (y ∈ s.proc → (x, y) ∈ cut')) ∧ (∀ c ∈ cut, c ∈ cut') ∧ (∀ c ∈ cut', c ∈ cut ∨ c.1 = x ∧ c.2 ∈ l)
  | [], s, cut, hn => ⟨s, cut, [], rfl, by simp, hn, by simp, by simp, rfl, rfl, rfl, rfl, by simp, fun c h => h, fun c h => .inl h⟩
  | y :: l, s, cut, hn => by
    rw [List.foldl_cons]
    by_cases hy : y ∈ s.proc
    · have e : cleanAdd x (s, cut) y = (s, cut ++ [(x, y)]) := by unfold cleanAdd; rw [if_pos hy]
      rw [e]
      obtain ⟨s', cut', E, h1, h2, h3, h4, h5, h6, h7, h8, h9, h10, h11, h12⟩ := cleanFold x l s (cut ++ [(x, y)]) hn
      refine ⟨s', cut', E, h1, h2, h3, fun z hz => by simp [h4 z hz], h5, h6, h7, h8, h9, ?_, fun c hc => h11 c (by simp [hc]), ?_⟩
      · intro z hz
        rcases List.mem_cons.1 hz with rfl | hz
        · exact ⟨by rw [h2]; simp [hy], fun _ => h11 _ (by simp)⟩
        · exact h10 z hz
      · intro c hc
        rcases h12 c hc with h | ⟨h, h'⟩
        · rcases List.mem_append.1 h with h | h
          · exact .inl h
          · rw [List.mem_singleton] at h; subst h; exact .inr ⟨rfl, by simp⟩
        · exact .inr ⟨h, by simp [h']⟩
    · have e : cleanAdd x (s, cut) y = ({ s with proc := s.proc ++ [y], inc := upd s.inc y true }, cut) := by unfold cleanAdd; rw [if_neg hy]
      rw [e]
      have hn' : (s.proc ++ [y]).Nodup := by
        refine List.nodup_append'.2 ⟨hn, by simp, ?_⟩
        intro a ha hb
        rw [List.mem_singleton] at hb
        subst hb; exact hy ha
      obtain ⟨s', cut', E, h1, h2, h3, h4, h5, h6, h7, h8, h9, h10, h11, h12⟩ := cleanFold x l { s with proc := s.proc ++ [y], inc := upd s.inc y true } cut hn'
      simp only at h2 h5
      refine ⟨s', cut', y :: E, h1, by rw [h2]; simp, h3, ?_, ?_, h6, h7, h8, h9, ?_, h11, ?_⟩
      · intro z hz
        rcases List.mem_cons.1 hz with rfl | hz
        · simp
        · simp [h4 z hz]
      · intro z; rw [h5, upd_true]; simp only [List.mem_cons]; tauto
      · intro z hz
        rcases List.mem_cons.1 hz with rfl | hz
        · exact ⟨by rw [h2]; simp, fun hc => absurd hc hy⟩
        · exact ⟨(h10 z hz).1, fun hc => (h10 z hz).2 (by simp [hc])⟩
      · intro c hc
        rcases h12 c hc with h | ⟨h, h'⟩
        · exact .inl h
        · exact .inr ⟨h, by simp [h']⟩

structure CInv (mem : Item → List Item) (U P0 : List Item) (s1 : St) (i : Nat) (s : St) (cut : List (Item × Item)) : Prop where
  items : s.items = s1.items
  susp : s.susp = s1.susp
  credit : s.credit = s1.credit
  nodup : s.proc.Nodup
  sub : ∀ x ∈ s.proc, x ∈ U
  pre : ∃ E, s.proc = P0 ++ E
  inc : ∀ y, s.inc y = true ↔ y ∈ s.proc ∧ y ∉ P0
  vis : ∀ y, s.vis y = true ↔ ∃ k < i, s.proc[k]? = some y
  seen : ∀ k x, k < i → s.proc[k]? = some x → ∀ y ∈ mem x, y ∈ s.proc ∧ ((y ∈ P0 ∨ ∃ k' ≤ k, s.proc[k']? = some y) → (x, y) ∈ cut)
  cut : ∀ c ∈ cut, c.1 ∈ s.proc ∧ c.2 ∈ mem c.1 ∧ c.2 ∈ s.proc
  clos : ∀ Q : Item → Prop, (∀ x ∈ P0, Q x) → (∀ x y, Q x → y ∈ mem x → Q y) → ∀ x ∈ s.proc, Q x

theorem clean_ok {P0 : List Item} {s1 : St} (hU : ∀ x ∈ U, ∀ y ∈ mem x, y ∈ U) : ∀ (fuel i : Nat) (s : St) (cut : List (Item × Item)),
    CInv mem U P0 s1 i s cut → U.length - i + 1 ≤ fuel →
    ∃ s' cut' i', clean mem fuel i s cut = some (s', cut') ∧ CInv mem U P0 s1 i' s' cut' ∧ s'.proc.length ≤ i'
  | 0, i, s, cut, _, hf => by omega
  | fuel + 1, i, s, cut, h, hf => by
    have hlen : s.proc.length ≤ U.length := (List.subperm_of_subset h.nodup h.sub).length_le
    cases hi : s.proc[i]? with
    | none => exact ⟨s, cut, i, by rw [clean]; simp only [hi], h, List.getElem?_eq_none_iff.1 hi⟩
    | some x =>
      have hil := (List.getElem?_eq_some_iff.1 hi).1
      have hx := List.mem_of_getElem? hi
      have hinj : ∀ {k k' : Nat} {z : Item} {p : List Item}, p.Nodup → p[k]? = some z → p[k']? = some z → k = k' := by
        intro k k' z p hp h1 h2
        obtain ⟨a, b⟩ := List.getElem?_eq_some_iff.1 h1
        obtain ⟨c, d⟩ := List.getElem?_eq_some_iff.1 h2
        exact (List.Nodup.getElem_inj_iff hp).1 (b.trans d.symm)
      have hv : s.vis x = false := by
        by_contra hc
        obtain ⟨k, hk, hkx⟩ := (h.vis x).1 (by simpa using hc)
        have := hinj h.nodup hkx hi
        omega
      obtain ⟨s', cut', E, h1, h2, h3, h4, h5, h6, h7, h8, h9, h10, h11, h12⟩ := cleanFold x (mem x) s cut h.nodup
      have hget : ∀ k, k < s.proc.length → s'.proc[k]? = s.proc[k]? := fun k hk => by rw [h2, List.getElem?_append_left hk]
      have hsub : ∀ y ∈ s'.proc, y ∈ U := by
        intro y hy
        rw [h2] at hy
        rcases List.mem_append.1 hy with hy | hy
        · exact h.sub y hy
        · exact hU x (h.sub x hx) y (h4 y hy)
      have hup : ∀ y ∈ s.proc, y ∈ s'.proc := fun y hy => by rw [h2]; simp [hy]
      obtain ⟨E0, hE0⟩ := h.pre
      have hnE : ∀ y ∈ E, y ∉ s.proc := fun y hy hc => by
        rw [h2, List.nodup_append'] at h3
        exact h3.2.2 hc hy
      have inv : CInv mem U P0 s1 (i + 1) { s' with vis := upd s'.vis x true } cut' := by
        refine ⟨h6.trans h.items, h7.trans h.susp, h8.trans h.credit, h3, hsub, ⟨E0 ++ E, by show s'.proc = _; rw [h2, hE0, List.append_assoc]⟩, ?_, ?_, ?_, ?_, ?_⟩
        · intro y
          show s'.inc y = true ↔ y ∈ s'.proc ∧ y ∉ P0
          rw [h5, h.inc, h2, List.mem_append]
          constructor
          · rintro (⟨a, b⟩ | a)
            · exact ⟨.inl a, b⟩
            · exact ⟨.inr a, fun hc => hnE y a (by rw [hE0]; simp [hc])⟩
          · rintro ⟨a | a, b⟩
            · exact .inl ⟨a, b⟩
            · exact .inr a
        · intro y
          show upd s'.vis x true y = true ↔ ∃ k < i + 1, s'.proc[k]? = some y
          rw [upd_true, h9, h.vis]
          constructor
          · rintro (rfl | ⟨k, hk, hky⟩)
            · exact ⟨i, by omega, by rw [hget i hil]; exact hi⟩
            · exact ⟨k, by omega, by rw [hget k (by omega)]; exact hky⟩
          · rintro ⟨k, hk, hky⟩
            rw [hget k (by omega)] at hky
            by_cases e : k = i
            · subst e; rw [hi] at hky; cases hky; exact .inl rfl
            · exact .inr ⟨k, by omega, hky⟩
        · intro k z hk hkz y hy
          have hkz : s'.proc[k]? = some z := hkz
          show y ∈ s'.proc ∧ ((y ∈ P0 ∨ ∃ k' ≤ k, s'.proc[k']? = some y) → (z, y) ∈ cut')
          rw [hget k (by omega)] at hkz
          have hex : ∀ k' ≤ k, s'.proc[k']? = some y → s.proc[k']? = some y := fun k' hk' h' => by rw [← hget k' (by omega)]; exact h'
          by_cases e : k = i
          · subst e; rw [hi] at hkz; cases hkz
            refine ⟨(h10 y hy).1, fun hc => (h10 y hy).2 ?_⟩
            rcases hc with hc | ⟨k', hk', h'⟩
            · rw [hE0]; simp [hc]
            · exact List.mem_of_getElem? (hex k' hk' h')
          · have := h.seen k z (by omega) hkz y hy
            refine ⟨hup y this.1, fun hc => h11 _ (this.2 ?_)⟩
            rcases hc with hc | ⟨k', hk', h'⟩
            · exact .inl hc
            · exact .inr ⟨k', hk', hex k' hk' h'⟩
        · intro c hc
          show c.1 ∈ s'.proc ∧ c.2 ∈ mem c.1 ∧ c.2 ∈ s'.proc
          rcases h12 c hc with hc | ⟨ha, hb⟩
          · have := h.cut c hc
            exact ⟨hup _ this.1, this.2.1, hup _ this.2.2⟩
          · rw [ha]; exact ⟨hup x hx, hb, (h10 _ hb).1⟩
        · intro Q q1 q2 y hy
          have hy : y ∈ s'.proc := hy
          rw [h2] at hy
          rcases List.mem_append.1 hy with hy | hy
          · exact h.clos Q q1 q2 y hy
          · exact q2 x y (h.clos Q q1 q2 x hx) (h4 y hy)
      obtain ⟨s'', cut'', i', g1, g2, g3⟩ := clean_ok hU fuel (i + 1) _ cut' inv (by omega)
      refine ⟨s'', cut'', i', ?_, g2, g3⟩
      rw [clean]; simp only [hi, hv, Bool.false_eq_true, if_false, h1]
      exact g1

theorem sweep_ok : ∀ (l : List Item) (s : St), l.Nodup →
    (sweep s l).2 = l.filter (fun x => !s.inc x) ∧ (sweep s l).1.susp = s.susp ∧ (sweep s l).1.credit = s.credit ∧
    (∀ x, (x ∈ l → (sweep s l).1.inc x = false ∧ (sweep s l).1.vis x = false) ∧ (x ∉ l → (sweep s l).1.inc x = s.inc x ∧ (sweep s l).1.vis x = s.vis x)) ∧
    (sweep s l).1.items = (sweep s l).2.foldl List.erase s.items
  | [], s, _ => ⟨rfl, rfl, rfl, fun x => ⟨fun h => by simp at h, fun _ => ⟨rfl, rfl⟩⟩, rfl⟩
  | a :: l, s, h => by
    have hn := List.nodup_cons.1 h
    by_cases c : s.inc a = true
    · obtain ⟨p1, p2, p3, p4, p5⟩ := sweep_ok l { s with inc := upd s.inc a false, vis := upd s.vis a false } hn.2
      rw [sweep, if_pos c]
      refine ⟨?_, p2, p3, fun x => ⟨fun hx => ?_, fun hx => ?_⟩, p5⟩
      · rw [p1, List.filter_cons]
        simp only [c, Bool.not_true, Bool.false_eq_true, if_false]
        apply List.filter_congr
        intro x hx
        have : x ≠ a := fun e => hn.1 (e ▸ hx)
        simp [upd, this]
      · by_cases e : x = a
        · subst e
          have := (p4 x).2 hn.1
          exact ⟨this.1.trans (by simp [upd]), this.2.trans (by simp [upd])⟩
        · rcases List.mem_cons.1 hx with h | h
          · exact absurd h e
          · exact (p4 x).1 h
      · have e : x ≠ a := fun e => hx (by simp [e])
        have := (p4 x).2 (fun hc => hx (by simp [hc]))
        exact ⟨this.1.trans (by simp [upd, e]), this.2.trans (by simp [upd, e])⟩
    · obtain ⟨p1, p2, p3, p4, p5⟩ := sweep_ok l { s with items := s.items.erase a, vis := upd s.vis a false } hn.2
      have e0 : sweep s (a :: l) = ((sweep { s with items := s.items.erase a, vis := upd s.vis a false } l).1,
          a :: (sweep { s with items := s.items.erase a, vis := upd s.vis a false } l).2) := by
        rw [sweep, if_neg c]
      rw [e0]
      refine ⟨?_, p2, p3, fun x => ⟨fun hx => ?_, fun hx => ?_⟩, ?_⟩
      · rw [p1, List.filter_cons]; simp only [Bool.not_eq_true] at c; simp [c]
      · by_cases e : x = a
        · subst e
          have := (p4 x).2 hn.1
          exact ⟨this.1.trans (by simpa using c), this.2.trans (by simp [upd])⟩
        · rcases List.mem_cons.1 hx with h | h
          · exact absurd h e
          · exact (p4 x).1 h
      · have e : x ≠ a := fun e => hx (by simp [e])
        have := (p4 x).2 (fun hc => hx (by simp [hc]))
        exact ⟨this.1, this.2.trans (by simp [upd, e])⟩
      · rw [List.foldl_cons]; exact p5

theorem foldl_erase : ∀ (l m : List Item), m.Nodup → l.foldl List.erase m = m.filter (fun x => !decide (x ∈ l))
  | [], m, _ => by simp
  | a :: l, m, h => by
    rw [List.foldl_cons, foldl_erase l _ (h.erase a), h.erase_eq_filter, List.filter_filter]
    apply List.filter_congr
    intro x _
    by_cases e : x = a <;> simp [e]

theorem collect_full (s : St) (hs : Ready s) (hU : ∀ x ∈ U, ∀ y ∈ mem x, y ∈ U) (hi : ∀ x ∈ s.items, x ∈ U) (hr : ∀ x ∈ roots, x ∈ U)
    (hF : ∀ x, Reach mem roots (· ∈ s.items) s.susp x → x ∉ s.items → s.susp x = false) :
    ∃ F, ∀ fuel ≥ F, ∃ r, collect mem roots fuel s = some r ∧ r.freed.Nodup ∧
      (∀ x, x ∈ r.freed ↔ x ∈ s.items ∧ s.susp x = true ∧ ¬ Reach mem roots (· ∈ s.items) s.susp x) ∧
      Ready r.st ∧ r.st.items = s.items.filter (fun x => !decide (x ∈ r.freed)) ∧ r.st.susp = s.susp ∧
      (∀ x ∈ r.freed, ∀ y ∈ mem x, y ∈ r.freed → (x, y) ∈ r.cut) ∧
      (∀ x ∈ r.freed, ∀ y ∈ mem x, y ∈ mem y → (y, y) ∈ r.cut) ∧
      (∀ Q : Item → Prop, (∀ x ∈ r.freed, Q x) → (∀ x y, Q x → y ∈ mem x → Q y) → ∀ c ∈ r.cut, Q c.1) := by
  refine ⟨(2 * U.length + 1) * (U.length + 1) + U.length + 1, fun fuel hfuel => ?_⟩
  have he := enlist_ok s.items s (by rw [hs.idle]; exact hs.nodup)
  rw [hs.idle, List.nil_append] at he
  have inv0 : Inv mem roots U s (fun _ => False) (enlist s s.items) := by
    rw [he]
    exact ⟨rfl, rfl, hs.nodup, hi, fun x hx => hx, fun x hx => by have := (hs.zero x).1; simp_all, fun x hx hx' => absurd hx hx',
      fun x hx => by have := (hs.zero x).2.1; simp_all, fun x hx => by have := (hs.zero x).2.2; simp_all, fun y hy => hy.elim⟩
  have inv1 := (foldl_inv roots _ _ inv0 (fun y hy => ⟨.root hy, hr y hy⟩)).weaken (D' := (· ∈ roots)) (fun y hy => .inr hy)
  have htodo : todo U (roots.foldl collectAdd (enlist s s.items)) ≤ U.length := List.length_filter_le _ _
  obtain ⟨s2, m1, m2, m3⟩ := mark_ok hU fuel 0 true _ inv1 (fun _ k x hk => by omega) (by
    simp only [if_true, Nat.add_zero, Nat.sub_zero]
    have : 2 * todo U (roots.foldl collectAdd (enlist s s.items)) * (U.length + 1) ≤ (2 * U.length + 1) * (U.length + 1) := Nat.mul_le_mul_right _ (by omega)
    omega)
  obtain ⟨p1, p2, p3, p4⟩ := pick_ok s2.proc s2 m2.nodup
  generalize hP : (pick s2 s2.proc).2 = P0 at p1
  have hP0 : ∀ x, x ∈ P0 ↔ x ∈ s.items ∧ s.susp x = true ∧ ¬ Reach mem roots (· ∈ s.items) s.susp x := by
    intro x
    rw [p1, List.mem_filter, m2.susp]
    simp only [Bool.and_eq_true, Bool.not_eq_true']
    constructor
    · rintro ⟨a, ⟨b, c⟩, d⟩
      have ho : x ∈ s.items := by
        by_contra hc
        have := (m2.foreign x a hc).1
        rw [b] at this; cases this
      refine ⟨ho, d, fun hR => ?_⟩
      rcases (marked hF m2 m3 x ho).1 hR with h | h
      · rw [c] at h; cases h
      · rw [d] at h; cases h
    · rintro ⟨a, b, c⟩
      have := mt (marked hF m2 m3 x a).2 c
      push Not at this
      refine ⟨m2.own x a, ⟨?_, by simpa using this.1⟩, b⟩
      by_contra hc
      exact (m2.inc x (by simpa using hc)).2 a
  have hzero : ∀ x, (pick s2 s2.proc).1.inc x = false ∧ (pick s2 s2.proc).1.credit x = false ∧ (pick s2 s2.proc).1.vis x = false := by
    intro x
    by_cases hx : x ∈ s2.proc
    · obtain ⟨a, b, c⟩ := (p4 x).2 hx
      refine ⟨a, b, ?_⟩
      rcases c with c | ⟨c, d, e, f⟩
      · exact c
      · rw [c]
        by_contra hc
        have := (m2.vis x (by simpa using hc)).2.1
        rw [m2.susp] at f
        rw [f, e] at this
        simp at this
    · obtain ⟨a, b, c⟩ := (p4 x).1 hx
      rw [a, b, c]
      refine ⟨?_, ?_, ?_⟩
      · by_contra hc; exact hx (m2.inc x (by simpa using hc)).1
      · by_contra hc; exact hx (m2.credit x (by simpa using hc)).1
      · by_contra hc; exact hx (m2.vis x (by simpa using hc)).1
  have hPU : ∀ x ∈ P0, x ∈ U := fun x hx => hi x ((hP0 x).1 hx).1
  have hPn : P0.Nodup := by rw [p1]; exact m2.nodup.filter _
  have cinv : CInv mem U P0 (pick s2 s2.proc).1 0 { (pick s2 s2.proc).1 with proc := P0 } [] := by
    refine ⟨rfl, rfl, rfl, hPn, hPU, ⟨[], by simp⟩, fun y => ?_, fun y => ?_, fun k x hk => by omega, fun c hc => by simp at hc, fun Q q1 _ => q1⟩
    · simp only [(hzero y).1]; simp
    · simp only [(hzero y).2.2]; simp
  obtain ⟨s3, cut, i', c1, c2, c3⟩ := clean_ok hU fuel 0 _ [] cinv (by omega)
  obtain ⟨w1, w2, w3, w4, w5⟩ := sweep_ok s3.proc s3 c2.nodup
  obtain ⟨E, hE⟩ := c2.pre
  have hfreed : (sweep s3 s3.proc).2 = P0 := by
    rw [w1, hE, List.filter_append]
    have h1 : P0.filter (fun x => !s3.inc x) = P0 := List.filter_eq_self.2 (fun x hx => by
      have : ¬ s3.inc x = true := fun hc => ((c2.inc x).1 hc).2 hx
      simpa using this)
    have h2 : E.filter (fun x => !s3.inc x) = [] := List.filter_eq_nil_iff.2 (fun x hx => by
      have := (c2.inc x).2 ⟨by rw [hE]; simp [hx], fun hc => by
        have hn := c2.nodup
        rw [hE, List.nodup_append'] at hn
        exact hn.2.2 hc hx⟩
      simp [this])
    rw [h1, h2, List.append_nil]
  refine ⟨{ st := { (sweep s3 s3.proc).1 with proc := [] }, freed := (sweep s3 s3.proc).2, cut := cut }, by unfold collect; simp only [m1, hP, c1], ?_⟩
  simp only [hfreed]
  have hitems : s3.items = s.items := by rw [c2.items, p2, m2.items]
  have hidx : ∀ x ∈ s3.proc, ∃ k < i', s3.proc[k]? = some x := fun x hx => by
    obtain ⟨k, hk⟩ := List.mem_iff_getElem?.1 hx
    exact ⟨k, by have := (List.getElem?_eq_some_iff.1 hk).1; omega, hk⟩
  have hPsub : ∀ x ∈ P0, x ∈ s3.proc := fun x hx => by rw [hE]; simp [hx]
  have hit : (sweep s3 s3.proc).1.items = s.items.filter (fun x => !decide (x ∈ P0)) := by
    rw [w5, hfreed, hitems, foldl_erase _ _ hs.nodup]
  refine ⟨hPn, hP0, ⟨?_, rfl, fun x => ?_⟩, hit, ?_, ?_, ?_, fun Q q1 q2 c hc => c2.clos Q q1 q2 _ (c2.cut c hc).1⟩
  · show (sweep s3 s3.proc).1.items.Nodup
    rw [hit]; exact hs.nodup.filter _
  · show (sweep s3 s3.proc).1.credit x = false ∧ (sweep s3 s3.proc).1.inc x = false ∧ (sweep s3 s3.proc).1.vis x = false
    refine ⟨by rw [w3, c2.credit]; exact (hzero x).2.1, ?_⟩
    by_cases hx : x ∈ s3.proc
    · exact (w4 x).1 hx
    · obtain ⟨a, b⟩ := (w4 x).2 hx
      rw [a, b]
      refine ⟨?_, ?_⟩
      · by_contra hc; exact hx ((c2.inc x).1 (by simpa using hc)).1
      · by_contra hc
        obtain ⟨k, _, hk⟩ := (c2.vis x).1 (by simpa using hc)
        exact hx (List.mem_of_getElem? hk)
  · show (sweep s3 s3.proc).1.susp = s.susp
    rw [w2, c2.susp]; exact p3.trans m2.susp
  · intro x hx y hy hyf
    obtain ⟨k, hk, hkx⟩ := hidx x (hPsub x hx)
    exact (c2.seen k x hk hkx y hy).2 (.inl hyf)
  · intro x hx y hy hyy
    obtain ⟨k, hk, hkx⟩ := hidx x (hPsub x hx)
    obtain ⟨k', hk', hky⟩ := hidx y (c2.seen k x hk hkx y hy).1
    exact (c2.seen k' y hk' hky y hyy).2 (.inr ⟨k', Nat.le_refl _, hky⟩)

/-! ### C53 -/

/-- mln_gc_collect, for every graph of items `mem` (with cycles or not), roots and suspects.  `U` lists the items
there are.  The collector's own items may have members that belong to other collectors; those that are
reachable must not be suspected (see `foreign_lost`).  The collection ends, frees each suspected item of the
collector that is not reachable, once, and nothing else, and leaves the collector ready with the rest in
order.  Every reference from a freed item to a freed item was cut before. -/
theorem collect_exact (s : St) (hs : Ready s) (hU : ∀ x ∈ U, ∀ y ∈ mem x, y ∈ U) (hi : ∀ x ∈ s.items, x ∈ U) (hr : ∀ x ∈ roots, x ∈ U)
    (hF : ∀ x, Reach mem roots (· ∈ s.items) s.susp x → x ∉ s.items → s.susp x = false) :
    ∃ F, ∀ fuel ≥ F, ∃ r, collect mem roots fuel s = some r ∧ r.freed.Nodup ∧
      (∀ x, x ∈ r.freed ↔ x ∈ s.items ∧ s.susp x = true ∧ ¬ Reach mem roots (· ∈ s.items) s.susp x) ∧
      Ready r.st ∧ r.st.items = s.items.filter (fun x => !decide (x ∈ r.freed)) ∧ r.st.susp = s.susp ∧
      (∀ x ∈ r.freed, ∀ y ∈ mem x, y ∈ r.freed → (x, y) ∈ r.cut) := by
  obtain ⟨F, h⟩ := collect_full s hs hU hi hr hF
  refine ⟨F, fun fuel hf => ?_⟩
  obtain ⟨r, h1, h2, h3, h4, h5, h6, h7, _⟩ := h fuel hf
  exact ⟨r, h1, h2, h3, h4, h5, h6, h7⟩

/-- The collector stays ready between collections: so `collect_exact` applies after every history. -/
theorem new_ready (susp : Item → Bool) : Ready (new susp) := ⟨by simp [new], rfl, fun x => ⟨rfl, rfl, rfl⟩⟩

theorem add_ready {s : St} (h : Ready s) (x : Item) (hx : x ∉ s.items) : Ready (add s x) := by
  refine ⟨?_, h.idle, fun y => ?_⟩
  · refine List.nodup_append'.2 ⟨h.nodup, by simp, ?_⟩
    intro a ha hb
    rw [List.mem_singleton] at hb
    subst hb; exact hx ha
  · have := h.zero y
    simp only [add, upd]
    by_cases e : y = x <;> simp [e, this]

theorem suspect_ready {s : St} (h : Ready s) (x : Item) : Ready (suspect s x) := ⟨h.nodup, h.idle, h.zero⟩

theorem remove_ready {s : St} (h : Ready s) (x : Item) : Ready (remove s x) := ⟨h.nodup.erase x, h.idle, h.zero⟩

theorem merge_eq : ∀ (l : List Item) (s : St), merge s l = { s with items := s.items ++ l }
  | [], s => by simp [merge]
  | x :: l, s => by rw [merge, merge_eq l]; simp

theorem merge_ready {s : St} (h : Ready s) (l : List Item) (hl : l.Nodup) (hd : ∀ x ∈ l, x ∉ s.items) : Ready (merge s l) := by
  rw [merge_eq]
  exact ⟨List.nodup_append'.2 ⟨h.nodup, hl, fun a ha hb => hd a hb ha⟩, h.idle, h.zero⟩

/-! ### C89 -/

/-- If no freed item refers to an item that stays, only references of freed items are cut. -/
theorem clean_garbage_partial (s : St) (hs : Ready s) (hU : ∀ x ∈ U, ∀ y ∈ mem x, y ∈ U) (hi : ∀ x ∈ s.items, x ∈ U) (hr : ∀ x ∈ roots, x ∈ U)
    (hF : ∀ x, Reach mem roots (· ∈ s.items) s.susp x → x ∉ s.items → s.susp x = false)
    (hG : ∀ x y, x ∈ s.items → s.susp x = true → ¬ Reach mem roots (· ∈ s.items) s.susp x → y ∈ mem x →
      y ∈ s.items ∧ s.susp y = true ∧ ¬ Reach mem roots (· ∈ s.items) s.susp y) :
    ∃ F, ∀ fuel ≥ F, ∃ r, collect mem roots fuel s = some r ∧ ∀ c ∈ r.cut, c.1 ∈ r.freed := by
  obtain ⟨F, h⟩ := collect_full s hs hU hi hr hF
  refine ⟨F, fun fuel hf => ?_⟩
  obtain ⟨r, h1, h2, h3, h4, h5, h6, h7, h8, h9⟩ := h fuel hf
  refine ⟨r, h1, h9 (· ∈ r.freed) (fun x hx => hx) (fun x y hx hy => ?_)⟩
  obtain ⟨a, b, c⟩ := (h3 x).1 hx
  exact (h3 y).2 (hG x y a b c hy)

/-- While the garbage is cleaned, references of items in use are cut: every item that is referred to by a freed
item and refers to itself loses that reference, even if it is in use. -/
theorem live_cut (s : St) (hs : Ready s) (hU : ∀ x ∈ U, ∀ y ∈ mem x, y ∈ U) (hi : ∀ x ∈ s.items, x ∈ U) (hr : ∀ x ∈ roots, x ∈ U)
    (hF : ∀ x, Reach mem roots (· ∈ s.items) s.susp x → x ∉ s.items → s.susp x = false) (x y : Item)
    (hx : x ∈ s.items) (hsx : s.susp x = true) (hnx : ¬ Reach mem roots (· ∈ s.items) s.susp x) (hy : y ∈ mem x) (hyy : y ∈ mem y)
    (_live : Reach mem roots (· ∈ s.items) s.susp y) :
    ∃ F, ∀ fuel ≥ F, ∃ r, collect mem roots fuel s = some r ∧ y ∉ r.freed ∧ (y, y) ∈ r.cut := by
  obtain ⟨F, h⟩ := collect_full s hs hU hi hr hF
  refine ⟨F, fun fuel hf => ?_⟩
  obtain ⟨r, h1, h2, h3, h4, h5, h6, h7, h8, _⟩ := h fuel hf
  exact ⟨r, h1, fun hc => ((h3 y).1 hc).2.2 _live, h8 x ((h3 x).2 ⟨hx, hsx, hnx⟩) y hy hyy⟩
end

/-! ### Concrete cases -/

/-- 1 is in use and refers to 2; 3 and 4 refer to each other, 5 to 1; 2, 3, 4, 5 are suspected. -/
def exMem : Item → List Item
  | 1 => [2]
  | 3 => [4]
  | 4 => [3]
  | 5 => [1]
  | _ => []

def ex : St := [2, 3, 4, 5].foldl suspect ([1, 2, 3, 4, 5].foldl add (new fun _ => false))

example : (collect exMem [] 200 ex).map (fun r => (r.freed, r.st.items, r.cut)) = some ([3, 4, 5], [1, 2], [(3, 4), (4, 3)]) := by decide +kernel
/-- 5 is a root. -/
example : (collect exMem [5] 200 ex).map (fun r => (r.freed, r.st.items)) = some ([3, 4], [1, 2, 5]) := by decide +kernel

theorem ex_ready : Ready ex :=
  suspect_ready (suspect_ready (suspect_ready (suspect_ready (add_ready (add_ready (add_ready (add_ready (add_ready (new_ready _) 1 (by decide)) 2 (by decide)) 3 (by decide)) 4
    (by decide)) 5 (by decide)) 2) 3) 4) 5

/-- The item 4 of another collector, itself suspected there, is a root and refers to 1: 1 is reachable and
freed. -/
def exForeign : Item → List Item
  | 4 => [1]
  | _ => []

theorem foreign_lost : ∃ (mem : Item → List Item) (roots : List Item) (s : St) (x : Item), Ready s ∧ x ∈ s.items ∧
    Reach mem roots (· ∈ s.items) s.susp x ∧ (collect mem roots 100 s).map (·.freed) = some [x] :=
  ⟨exForeign, [4], suspect (add (new (fun x => x == 4)) 1) 1, 1, suspect_ready (add_ready (new_ready _) 1 (by decide)) 1, by decide,
    .mem (x := 4) (.root (by simp)) (by decide), by decide +kernel⟩

/-- 1 is in use and refers to itself; the garbage 2 refers to it: 1 stays but loses its reference. -/
def exLive : Item → List Item
  | 1 => [1]
  | 2 => [1]
  | _ => []

example : (collect exLive [] 100 (suspect (add (add (new fun _ => false) 1) 2) 2)).map (fun r => (r.freed, r.cut)) = some ([2], [(1, 1)]) := by decide +kernel

end Verif.Gc
