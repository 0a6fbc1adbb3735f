import Verif.LangGc
import Verif.GcProps
import Mathlib.Logic.Relation
/-!
# Which arrays and objects of a script are collected
-/
namespace Verif.LangGc
open Verif.Gc

/-! ## Specification -/

/-- The array or object `x` is in the value: it is the value, or a function captured a value it is in. -/
inductive Inside : Val → Item → Prop
  | box (x : Item) : Inside (.box x) x
  | cap {v : Val} {cs : List Val} {x : Item} : v ∈ cs → Inside v x → Inside (.func cs) x

/-- The values in an object or array. -/
def vals : Cell → List Val
  | .obj ms => ms
  | .array es => es.flatMap fun e => e.1.toList ++ e.2.toList

/-- What a script can still use: what is in a value it holds, and what is in a member or an element of
what it can use. -/
inductive Usable (h : Item → Cell) (held : List Val) : Item → Prop
  | held {v : Val} {x : Item} : v ∈ held → Inside v x → Usable h held x
  | member {v : Val} {x y : Item} : Usable h held x → v ∈ vals (h x) → Inside v y → Usable h held y

/-- The same without functions, from the variables and from what nobody suspects. -/
inductive Plain (h : Item → Cell) (syms : List Val) (s : St) : Item → Prop
  | sym {x : Item} : .box x ∈ syms → Plain h syms s x
  | sure {x : Item} : x ∈ s.items → s.susp x = false → Plain h syms s x
  | member {x y : Item} : Plain h syms s x → .box y ∈ vals (h x) → Plain h syms s y

/-- The arrays and objects of a job are in its collector. -/
structure Closed (h : Item → Cell) (syms : List Val) (s : St) : Prop where
  syms : ∀ x, .box x ∈ syms → x ∈ s.items
  mems : ∀ x ∈ s.items, ∀ y, .box y ∈ vals (h x) → y ∈ s.items

/-! ## The handlers -/

theorem item_some {v : Val} {x : Item} : v.item = some x ↔ v = .box x := by
  cases v <;> simp [Val.item]

theorem mem_kids {c : Cell} {y : Item} : y ∈ kids c ↔ .box y ∈ vals c := by
  cases c with
  | obj ms => simp [kids, vals, item_some]
  | array es =>
    simp only [kids, vals, List.mem_flatMap, List.mem_append, Option.mem_toList, Option.bind_eq_some_iff, item_some]
    constructor
    · rintro ⟨e, he, ⟨v, h1, rfl⟩ | ⟨v, h1, rfl⟩⟩
      · exact ⟨e, he, .inl h1⟩
      · exact ⟨e, he, .inr h1⟩
    · rintro ⟨e, he, h1 | h1⟩
      · exact ⟨e, he, .inl ⟨_, h1, rfl⟩⟩
      · exact ⟨e, he, .inr ⟨_, h1, rfl⟩⟩

theorem mem_roots {syms : List Val} {x : Item} : x ∈ roots syms ↔ .box x ∈ syms := by
  simp [roots, item_some]

section
variable {h : Item → Cell} {U : List Item}

/-- Behind `x` on the way through members and elements. -/
abbrev Behind (h : Item → Cell) : Item → Item → Prop := Relation.TransGen fun x y => y ∈ kids (h x)

/-- The state of the walk from `(c, seen)` to `(c', seen')`, begun at `x`. -/
structure Walk (h : Item → Cell) (U : List Item) (x : Item) (c seen c' seen' : List Item) : Prop where
  sub : seen ⊆ seen'
  inU : seen' ⊆ U
  nodup : seen'.Nodup
  calls : c ⊆ c'
  sound : ∀ z ∈ c', z ∈ c ∨ Behind h x z
  full : ∀ z ∈ seen', z ∉ seen → ∀ k ∈ kids (h z), k ∈ seen' ∧ k ∈ c'

theorem visit_ok (hU : ∀ x ∈ U, ∀ y ∈ kids (h x), y ∈ U) : ∀ (fuel : Nat) (c seen : List Item) (x : Item), x ∈ U → seen ⊆ U → seen.Nodup → U.length + 1 ≤ fuel + seen.length →
    ∃ c' seen', visit h fuel (c, seen) x = some (c', seen') ∧ Walk h U x c seen c' seen' ∧ x ∈ seen' := by
  intro fuel
  induction fuel with
  | zero =>
    intro c seen x _ h2 h3 h4
    have := (List.subperm_of_subset h3 h2).length_le
    omega
  | succ fuel ih =>
    intro c seen x hx h2 h3 h4
    rw [visit]
    dsimp only
    by_cases hs : x ∈ seen
    · rw [if_pos hs]
      exact ⟨c, seen, rfl, ⟨fun _ h => h, h2, h3, fun _ h => h, fun z hz => .inl hz, fun z hz hn => absurd hz hn⟩, hs⟩
    · rw [if_neg hs]
      -- the loop over the members
      have loop : ∀ (l done : List Item), done ++ l = kids (h x) → ∀ (c1 s1 : List Item), x ∈ s1 → seen ⊆ s1 → s1 ⊆ U → s1.Nodup → seen.length + 1 ≤ s1.length → c ⊆ c1 →
          (∀ z ∈ c1, z ∈ c ∨ Behind h x z) → (∀ z ∈ s1, z ∉ seen → z ≠ x → ∀ k ∈ kids (h z), k ∈ s1 ∧ k ∈ c1) → (∀ k ∈ done, k ∈ s1 ∧ k ∈ c1) →
          ∃ c' s', l.foldlM (fun st y => visit h fuel (st.1 ++ [y], st.2) y) (c1, s1) = some (c', s') ∧ Walk h U x c seen c' s' ∧ x ∈ s' := by
        intro l
        induction l with
        | nil =>
          intro done hd c1 s1 a1 a2 a3 a4 a5 a6 a7 a8 a9
          refine ⟨c1, s1, rfl, ⟨a2, a3, a4, a6, a7, fun z hz hn k hk => ?_⟩, a1⟩
          by_cases hzx : z = x
          · subst hzx; rw [List.append_nil] at hd; rw [← hd] at hk; exact a9 k hk
          · exact a8 z hz hn hzx k hk
        | cons y l il =>
          intro done hd c1 s1 a1 a2 a3 a4 a5 a6 a7 a8 a9
          have hy : y ∈ kids (h x) := by rw [← hd]; simp
          obtain ⟨c2, s2, e, w, hys⟩ := ih (c1 ++ [y]) s1 y (hU x hx y hy) a3 a4 (by omega)
          rw [List.foldlM_cons]
          dsimp only
          rw [e]
          refine il (done ++ [y]) (by simpa using hd) c2 s2 (w.sub a1) (fun z hz => w.sub (a2 hz)) w.inU w.nodup ?_ (fun z hz => w.calls (by simp [a6 hz])) ?_ ?_ ?_
          · have := (List.subperm_of_subset a4 w.sub).length_le; omega
          · intro z hz
            rcases w.sound z hz with h1 | h1
            · rcases List.mem_append.1 h1 with h1 | h1
              · exact a7 z h1
              · rw [List.mem_singleton.1 h1]; exact .inr (.single hy)
            · exact .inr (.head hy h1)
          · intro z hz hn hzx k hk
            by_cases hz1 : z ∈ s1
            · obtain ⟨b1, b2⟩ := a8 z hz1 hn hzx k hk
              exact ⟨w.sub b1, w.calls (by simp [b2])⟩
            · exact w.full z hz hz1 k hk
          · intro k hk
            rcases List.mem_append.1 hk with hk | hk
            · obtain ⟨b1, b2⟩ := a9 k hk
              exact ⟨w.sub b1, w.calls (by simp [b2])⟩
            · rw [List.mem_singleton.1 hk]
              exact ⟨hys, w.calls (by simp)⟩
      exact loop _ [] rfl c (x :: seen) (by simp) (fun z hz => by simp [hz]) (by simpa using ⟨hx, h2⟩) (by simp [hs, h3]) (by simp) (fun _ h => h) (fun z hz => .inl hz)
        (fun z hz hn hzx => by rcases List.mem_cons.1 hz with h | h <;> contradiction) (by simp)

/-- The handler for members goes through everything behind the item, and through nothing else. -/
theorem mem_members (hU : ∀ x ∈ U, ∀ y ∈ kids (h x), y ∈ U) {fuel : Nat} (hf : U.length + 1 ≤ fuel) {x : Item} (hx : x ∈ U) :
    (visit h fuel ([], []) x).isSome ∧ ∀ z, z ∈ members h fuel x ↔ Behind h x z := by
  obtain ⟨c, seen, e, w, hxs⟩ := visit_ok hU fuel [] [] x hx (by simp) (by simp) (by simpa using hf)
  refine ⟨by rw [e]; rfl, fun z => ?_⟩
  rw [members, e]
  simp only [Option.map_some, Option.getD_some]
  constructor
  · intro hz
    rcases w.sound z hz with h1 | h1
    · simp at h1
    · exact h1
  · intro hz
    have : z ∈ seen ∧ z ∈ c := by
      induction hz with
      | single hk => exact w.full x hxs (by simp) _ hk
      | tail _ hk ih => exact w.full _ ih.1 (by simp) _ hk
    exact this.2

end

theorem behind_mem {U : List Item} {h : Item → Cell} (hK : ∀ x ∈ U, ∀ y ∈ kids (h x), y ∈ U) {x : Item} (hx : x ∈ U) {y : Item} (hb : Behind h x y) : y ∈ U := by
  induction hb with
  | single hk => exact hK _ hx _ hk
  | tail _ hk ih => exact hK _ ih _ hk

theorem reach_items {mem : Item → List Item} {rs : List Item} {s : St} (hM : ∀ x ∈ s.items, ∀ y ∈ mem x, y ∈ s.items) (hr : ∀ x ∈ rs, x ∈ s.items) {x : Item}
    (hx : Reach mem rs (· ∈ s.items) s.susp x) : x ∈ s.items := by
  induction hx with
  | root h => exact hr _ h
  | sure h _ => exact h
  | mem _ h2 ih => exact hM _ ih _ h2

theorem plain_items {h : Item → Cell} {syms : List Val} {s : St} (hc : Closed h syms s) {x : Item} (hx : Plain h syms s x) : x ∈ s.items := by
  induction hx with
  | sym h => exact hc.syms _ h
  | sure h _ => exact h
  | member _ h2 ih => exact hc.mems _ ih _ h2

theorem reach_plain {h : Item → Cell} {syms : List Val} {s : St} {fuel : Nat} (hc : Closed h syms s)
    (hV : ∀ x ∈ s.items, (visit h fuel ([], []) x).isSome ∧ ∀ z, z ∈ members h fuel x ↔ Behind h x z) (x : Item) :
    Reach (members h fuel) (roots syms) (· ∈ s.items) s.susp x ↔ Plain h syms s x := by
  constructor
  · intro hx
    induction hx with
    | root h => exact .sym (mem_roots.1 h)
    | sure h h2 => exact .sure h h2
    | mem _ h2 ih =>
      have hb := ((hV _ (plain_items hc ih)).2 _).1 h2
      clear h2
      induction hb with
      | single hk => exact .member ih (mem_kids.1 hk)
      | tail _ hk ih2 => exact .member ih2 (mem_kids.1 hk)
  · intro hx
    induction hx with
    | sym h => exact .root (mem_roots.2 h)
    | sure h h2 => exact .sure h h2
    | member hp h2 ih => exact .mem ih (((hV _ (plain_items hc hp)).2 _).2 (.single (mem_kids.2 h2)))

/-! ## The collection -/

/-- A collection ends.  It frees, each once, exactly the suspected arrays and objects that are not reached
from variables and from what nobody suspects through members and elements; and the collector is ready again
with the rest. -/
theorem collected {h : Item → Cell} {syms : List Val} {s : St} (hs : Ready s) (hc : Closed h syms s) :
    ∃ F, ∀ fuel ≥ F, ∃ r, collect h syms fuel s = some r ∧ r.freed.Nodup ∧
      (∀ x, x ∈ r.freed ↔ x ∈ s.items ∧ s.susp x = true ∧ ¬ Plain h syms s x) ∧
      Ready r.st ∧ r.st.items = s.items.filter (fun x => !decide (x ∈ r.freed)) ∧ r.st.susp = s.susp ∧
      (∀ x ∈ r.freed, ∀ y ∈ kids (h x), y ∈ r.freed → (x, y) ∈ r.cut) := by
  refine ⟨(2 * s.items.length + 1) * (s.items.length + 1) + s.items.length + 1, fun fuel hfuel => ?_⟩
  have hK : ∀ x ∈ s.items, ∀ y ∈ kids (h x), y ∈ s.items := fun x hx y hy => hc.mems x hx y (mem_kids.1 hy)
  have hV : ∀ x ∈ s.items, _ := fun x hx => mem_members (h := h) hK (fuel := fuel) (by
    have : 0 ≤ (2 * s.items.length + 1) * (s.items.length + 1) := Nat.zero_le _
    omega) hx
  have hM : ∀ x ∈ s.items, ∀ y ∈ members h fuel x, y ∈ s.items := fun x hx y hy => behind_mem hK hx (((hV x hx).2 y).1 hy)
  have hr : ∀ x ∈ roots syms, x ∈ s.items := fun x hx => hc.syms x (mem_roots.1 hx)
  have hany : ¬ (s.items.any fun x => (visit h fuel ([], []) x).isNone) = true := by
    intro hn
    obtain ⟨x, hx, hn⟩ := List.any_eq_true.1 hn
    have := (hV x hx).1
    rw [Option.isNone_iff_eq_none.1 hn] at this
    cases this
  have hF : ∀ x, Reach (members h fuel) (roots syms) (· ∈ s.items) s.susp x → x ∉ s.items → s.susp x = false := by
    intro x hx hn
    exact absurd (reach_items hM hr hx) hn
  have hplain : ∀ x, Reach (members h fuel) (roots syms) (· ∈ s.items) s.susp x ↔ Plain h syms s x := reach_plain hc hV
  have he := enlist_ok s.items s (by rw [hs.idle]; exact hs.nodup)
  rw [hs.idle, List.nil_append] at he
  have inv0 : Inv (members h fuel) (roots syms) s.items s (fun _ => False) (enlist s s.items) := by
    rw [he]
    exact ⟨rfl, rfl, hs.nodup, fun x hx => hx, fun x hx => hx, fun x hx => by have := (hs.zero x).1; simp_all, fun x hx hx' => absurd hx hx',
      fun x hx => by have := (hs.zero x).2.1; simp_all, fun x hx => by have := (hs.zero x).2.2; simp_all, fun y hy => hy.elim⟩
  have inv1 := (foldl_inv (roots syms) _ _ inv0 (fun y hy => ⟨.root hy, hr y hy⟩)).weaken (D' := (· ∈ roots syms)) (fun y hy => .inr hy)
  have htodo : todo s.items ((roots syms).foldl collectAdd (enlist s s.items)) ≤ s.items.length := List.length_filter_le _ _
  obtain ⟨s2, m1, m2, m3⟩ := mark_ok hM fuel 0 true _ inv1 (fun _ k x hk => by omega) (by
    simp only [if_true, Nat.add_zero, Nat.sub_zero]
    have : 2 * todo s.items ((roots syms).foldl collectAdd (enlist s s.items)) * (s.items.length + 1) ≤ (2 * s.items.length + 1) * (s.items.length + 1) := Nat.mul_le_mul_right _ (by omega)
    omega)
  obtain ⟨p1, p2, p3, p4⟩ := pick_ok s2.proc s2 m2.nodup
  generalize hP : (pick s2 s2.proc).2 = P0 at p1
  have hP0 : ∀ x, x ∈ P0 ↔ x ∈ s.items ∧ s.susp x = true ∧ ¬ Reach (members h fuel) (roots syms) (· ∈ s.items) s.susp x := by
    intro x
    rw [p1, List.mem_filter, m2.susp]
    simp only [Bool.and_eq_true, Bool.not_eq_true']
    constructor
    · rintro ⟨a, ⟨b, c⟩, d⟩
      have ho : x ∈ s.items := by
        by_contra hc
        have := (m2.foreign x a hc).1
        rw [b] at this; cases this
      refine ⟨ho, d, fun hR => ?_⟩
      rcases (marked hF m2 m3 x ho).1 hR with h | h
      · rw [c] at h; cases h
      · rw [d] at h; cases h
    · rintro ⟨a, b, c⟩
      have := mt (marked hF m2 m3 x a).2 c
      push Not at this
      refine ⟨m2.own x a, ⟨?_, by simpa using this.1⟩, b⟩
      by_contra hc
      exact (m2.inc x (by simpa using hc)).2 a
  have hzero : ∀ x, (pick s2 s2.proc).1.inc x = false ∧ (pick s2 s2.proc).1.credit x = false ∧ (pick s2 s2.proc).1.vis x = false := by
    intro x
    by_cases hx : x ∈ s2.proc
    · obtain ⟨a, b, c⟩ := (p4 x).2 hx
      refine ⟨a, b, ?_⟩
      rcases c with c | ⟨c, d, e, f⟩
      · exact c
      · rw [c]
        by_contra hc
        have := (m2.vis x (by simpa using hc)).2.1
        rw [m2.susp] at f
        rw [f, e] at this
        simp at this
    · obtain ⟨a, b, c⟩ := (p4 x).1 hx
      rw [a, b, c]
      refine ⟨?_, ?_, ?_⟩
      · by_contra hc; exact hx (m2.inc x (by simpa using hc)).1
      · by_contra hc; exact hx (m2.credit x (by simpa using hc)).1
      · by_contra hc; exact hx (m2.vis x (by simpa using hc)).1
  have hPU : ∀ x ∈ P0, x ∈ s.items := fun x hx => ((hP0 x).1 hx).1
  have hPn : P0.Nodup := by rw [p1]; exact m2.nodup.filter _
  have cinv : CInv (fun x => kids (h x)) s.items P0 (pick s2 s2.proc).1 0 { (pick s2 s2.proc).1 with proc := P0 } [] := by
    refine ⟨rfl, rfl, rfl, hPn, hPU, ⟨[], by simp⟩, fun y => ?_, fun y => ?_, fun k x hk => by omega, fun c hc => by simp at hc, fun Q q1 _ => q1⟩
    · simp only [(hzero y).1]; simp
    · simp only [(hzero y).2.2]; simp
  obtain ⟨s3, cut, i', c1, c2, c3⟩ := clean_ok hK fuel 0 _ [] cinv (by omega)
  obtain ⟨w1, w2, w3, w4, w5⟩ := sweep_ok s3.proc s3 c2.nodup
  obtain ⟨E, hE⟩ := c2.pre
  have hfreed : (sweep s3 s3.proc).2 = P0 := by
    rw [w1, hE, List.filter_append]
    have h1 : P0.filter (fun x => !s3.inc x) = P0 := List.filter_eq_self.2 (fun x hx => by
      have : ¬ s3.inc x = true := fun hc => ((c2.inc x).1 hc).2 hx
      simpa using this)
    have h2 : E.filter (fun x => !s3.inc x) = [] := List.filter_eq_nil_iff.2 (fun x hx => by
      have := (c2.inc x).2 ⟨by rw [hE]; simp [hx], fun hc => by
        have hn := c2.nodup
        rw [hE, List.nodup_append'] at hn
        exact hn.2.2 hc hx⟩
      simp [this])
    rw [h1, h2, List.append_nil]
  refine ⟨{ st := { (sweep s3 s3.proc).1 with proc := [] }, freed := (sweep s3 s3.proc).2, cut := cut }, by unfold collect; rw [if_neg hany]; simp only [m1, hP, c1], ?_⟩
  simp only [hfreed]
  have hitems : s3.items = s.items := by rw [c2.items, p2, m2.items]
  have hidx : ∀ x ∈ s3.proc, ∃ k < i', s3.proc[k]? = some x := fun x hx => by
    obtain ⟨k, hk⟩ := List.mem_iff_getElem?.1 hx
    exact ⟨k, by have := (List.getElem?_eq_some_iff.1 hk).1; omega, hk⟩
  have hPsub : ∀ x ∈ P0, x ∈ s3.proc := fun x hx => by rw [hE]; simp [hx]
  have hit : (sweep s3 s3.proc).1.items = s.items.filter (fun x => !decide (x ∈ P0)) := by
    rw [w5, hfreed, hitems, foldl_erase _ _ hs.nodup]
  refine ⟨hPn, fun x => by rw [hP0 x, hplain x], ⟨?_, rfl, fun x => ?_⟩, hit, ?_, ?_⟩
  · show (sweep s3 s3.proc).1.items.Nodup
    rw [hit]; exact hs.nodup.filter _
  · show (sweep s3 s3.proc).1.credit x = false ∧ (sweep s3 s3.proc).1.inc x = false ∧ (sweep s3 s3.proc).1.vis x = false
    refine ⟨by rw [w3, c2.credit]; exact (hzero x).2.1, ?_⟩
    by_cases hx : x ∈ s3.proc
    · exact (w4 x).1 hx
    · obtain ⟨a, b⟩ := (w4 x).2 hx
      rw [a, b]
      refine ⟨?_, ?_⟩
      · by_contra hc; exact hx ((c2.inc x).1 (by simpa using hc)).1
      · by_contra hc
        obtain ⟨k, _, hk⟩ := (c2.vis x).1 (by simpa using hc)
        exact hx (List.mem_of_getElem? hk)
  · show (sweep s3 s3.proc).1.susp = s.susp
    rw [w2, c2.susp]; exact p3.trans m2.susp
  · intro x hx y hy hyf
    obtain ⟨k, hk, hkx⟩ := hidx x (hPsub x hx)
    exact (c2.seen k x hk hkx y hy).2 (.inl hyf)

/-- Nothing that stays refers to what was freed, and the variables do not. -/
theorem kept_closed {h : Item → Cell} {syms : List Val} {s : St} (hs : Ready s) (hc : Closed h syms s) :
    ∃ F, ∀ fuel ≥ F, ∃ r, collect h syms fuel s = some r ∧ Closed h syms r.st := by
  obtain ⟨F, hF⟩ := collected hs hc
  refine ⟨F, fun fuel hf => ?_⟩
  obtain ⟨r, e, _, h2, _, h4, _, _⟩ := hF fuel hf
  have stays : ∀ x, x ∈ r.st.items ↔ Plain h syms s x := by
    intro x
    rw [h4, List.mem_filter]
    simp only [h2, Bool.not_eq_true', decide_eq_false_iff_not, not_and, not_not]
    constructor
    · rintro ⟨a, b⟩
      cases hx : s.susp x with
      | false => exact .sure a hx
      | true => exact b a hx
    · exact fun hp => ⟨plain_items hc hp, fun _ _ => hp⟩
  exact ⟨r, e, fun x hx => (stays x).2 (.sym hx), fun x hx y hy => (stays y).2 (.member ((stays x).1 hx) hy)⟩

/-- **Partial.** If functions captured no arrays and objects and nothing is held beside the variables, then
what a script can use is not freed, and of the suspected ones everything is freed that cannot be reached from
the variables or from what nobody suspects. -/
theorem usable_kept_partial {h : Item → Cell} {syms : List Val} {s : St} (hs : Ready s) (hc : Closed h syms s)
    (h1 : ∀ cs, .func cs ∈ syms → ∀ x, ¬ Inside (.func cs) x) (h2 : ∀ y ∈ s.items, ∀ cs, .func cs ∈ vals (h y) → ∀ x, ¬ Inside (.func cs) x) :
    ∃ F, ∀ fuel ≥ F, ∃ r, collect h syms fuel s = some r ∧ (∀ x, Usable h syms x → x ∉ r.freed) ∧
      ∀ x ∈ s.items, s.susp x = true → ¬ Usable h (syms ++ (s.items.filter fun y => !s.susp y).map .box) x → x ∈ r.freed := by
  obtain ⟨F, hF⟩ := collected hs hc
  refine ⟨F, fun fuel hf => ?_⟩
  obtain ⟨r, e, _, h3, _⟩ := hF fuel hf
  refine ⟨r, e, fun x hx hn => ((h3 x).1 hn).2.2 ?_, fun x hx hsu hn => (h3 x).2 ⟨hx, hsu, fun hp => hn ?_⟩⟩
  · clear hn
    induction hx with
    | held hv hi =>
      cases hi with
      | box => exact .sym hv
      | cap ha hb => exact absurd (.cap ha hb) (h1 _ hv _)
    | member _ hv hi ih =>
      cases hi with
      | box => exact .member ih hv
      | cap ha hb => exact absurd (.cap ha hb) (h2 _ (plain_items hc ih) _ hv _)
  · clear hn hx hsu
    induction hp with
    | sym hv => exact .held (by simp [hv]) (.box _)
    | sure ha hb => exact .held (v := .box _) (List.mem_append_right _ (List.mem_map.2 ⟨_, by simp [ha, hb], rfl⟩)) (.box _)
    | member _ hv ih => exact .member ih hv (.box _)

/-- Whoever else holds an array or object: if it is suspected and the collector does not come to it, it is
freed. -/
theorem lost {h : Item → Cell} {syms : List Val} {s : St} (hs : Ready s) (hc : Closed h syms s) {x : Item} (hi : x ∈ s.items) (hx : s.susp x = true)
    (hsym : .box x ∉ syms) (hmem : ∀ y ∈ s.items, .box x ∉ vals (h y)) :
    ∃ F, ∀ fuel ≥ F, ∃ r, collect h syms fuel s = some r ∧ x ∈ r.freed := by
  obtain ⟨F, hF⟩ := collected hs hc
  refine ⟨F, fun fuel hf => ?_⟩
  obtain ⟨r, e, _, h3, _⟩ := hF fuel hf
  refine ⟨r, e, (h3 x).2 ⟨hi, hx, fun hp => ?_⟩⟩
  cases hp with
  | sym h => exact hsym h
  | sure _ h => rw [hx] at h; cases h
  | member hp h => exact hmem _ (plain_items hc hp) h

/-- What a function captured is freed although the function is in a variable: for every array and object that
only functions hold and that is suspected. -/
theorem captured_refuted {h : Item → Cell} {syms : List Val} {s : St} (hs : Ready s) (hc : Closed h syms s) {x : Item} (hi : x ∈ s.items) (hx : s.susp x = true)
    {cs : List Val} (hf : .func cs ∈ syms) (hcap : .box x ∈ cs) (hsym : .box x ∉ syms) (hmem : ∀ y ∈ s.items, .box x ∉ vals (h y)) :
    Usable h syms x ∧ ∃ F, ∀ fuel ≥ F, ∃ r, collect h syms fuel s = some r ∧ x ∈ r.freed :=
  ⟨.held hf (.cap hcap (.box x)), lost hs hc hi hx hsym hmem⟩

/-- A value that is held by the run stack or is the one just returned is freed. -/
theorem temporary_refuted {h : Item → Cell} {syms temps : List Val} {s : St} (hs : Ready s) (hc : Closed h syms s) {x : Item} (hi : x ∈ s.items) (hx : s.susp x = true)
    (ht : .box x ∈ temps) (hsym : .box x ∉ syms) (hmem : ∀ y ∈ s.items, .box x ∉ vals (h y)) :
    Usable h (syms ++ temps) x ∧ ∃ F, ∀ fuel ≥ F, ∃ r, collect h syms fuel s = some r ∧ x ∈ r.freed :=
  ⟨.held (v := .box x) (by simp [ht]) (.box x), lost hs hc hi hx hsym hmem⟩

/-! ## Examples -/

/-- Two arrays that hold each other, an object in a variable that holds a third, one in the key of the third,
and an array that only a function captured. -/
def exH : Item → Cell
  | 1 => .array [(none, some (.box 2))]
  | 2 => .array [(none, some .other), (none, some (.box 1))]
  | 3 => .obj [.other, .box 4]
  | 4 => .array [(some (.box 5), some .other)]
  | _ => .array []

def exS : St := [1, 2, 3, 4, 5, 6].foldl (fun s x => suspect (add s x) x) (new fun _ => false)
def exSyms : List Val := [.other, .box 3, .func [.other, .box 6]]

example : (collect exH exSyms 200 exS).map (fun r => (r.freed, r.st.items)) = some ([1, 2, 6], [3, 4, 5]) := by decide +kernel
example : Usable exH exSyms 5 := .member (x := 4) (v := .box 5) (.member (x := 3) (v := .box 4) (.held (v := .box 3) (by simp [exSyms]) (.box 3)) (by simp [vals, exH]) (.box 4)) (by simp [vals, exH]) (.box 5)
example : (visit exH 5 ([], []) 1) = some ([2, 1], [2, 1]) := by decide +kernel
theorem ex_ready : Ready exS := by
  unfold exS
  simp only [List.foldl_cons, List.foldl_nil]
  refine suspect_ready (add_ready (suspect_ready (add_ready (suspect_ready (add_ready (suspect_ready (add_ready (suspect_ready (add_ready (suspect_ready (add_ready (new_ready _) _ ?_) _) _ ?_) _) _ ?_) _) _ ?_) _) _ ?_) _) _ ?_) _ <;>
    simp [new, add, suspect]
theorem ex_closed : Closed exH exSyms exS := by
  have hi : exS.items = [1, 2, 3, 4, 5, 6] := rfl
  constructor
  · intro x hx; simp [exSyms] at hx; subst hx; simp [hi]
  · intro x hx y hy
    rw [hi] at hx ⊢
    simp only [List.mem_cons, List.not_mem_nil, or_false] at hx
    rcases hx with rfl | rfl | rfl | rfl | rfl | rfl <;> simp [exH, vals] at hy <;> subst hy <;> simp
/-- The function in the variable captured 6, and 6 is freed. -/
example : Usable exH exSyms 6 ∧ ∃ F, ∀ fuel ≥ F, ∃ r, collect exH exSyms fuel exS = some r ∧ 6 ∈ r.freed :=
  captured_refuted (cs := [.other, .box 6]) ex_ready ex_closed (by decide) (by decide) (by simp [exSyms]) (by simp) (by simp [exSyms]) (by
    intro y hy
    have hi : exS.items = [1, 2, 3, 4, 5, 6] := rfl
    rw [hi] at hy
    simp only [List.mem_cons, List.not_mem_nil, or_false] at hy
    rcases hy with rfl | rfl | rfl | rfl | rfl | rfl <;> simp [exH, vals])

end Verif.LangGc
