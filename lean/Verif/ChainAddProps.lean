import Verif.ChainAdd
import Mathlib.Data.List.Nodup
/-!
# Nodes are kept in the order they were added
-/
namespace Verif.ChainAdd

/-! ## Specification -/

/-- From `p` the nodes `l` are reached one after the other, and then NULL. -/
inductive Path (next : Nat → Option Nat) : Option Nat → List Nat → Prop
  | nil : Path next none []
  | cons {c : Nat} {cs : List Nat} : Path next (next c) cs → Path next (some c) (c :: cs)

/-- The variables hold the chain `l`. -/
def Holds (s : S) (l : List Nat) : Prop := Path s.next s.head l ∧ (l ≠ [] → s.tail = l.getLast?)

/-! ## Proof -/

/-- From a node there is one path. -/
theorem Path.unique {next : Nat → Option Nat} {p : Option Nat} {l l' : List Nat} (h : Path next p l) (h' : Path next p l') : l = l' := by
  induction h generalizing l' with
  | nil => cases h'; rfl
  | cons _ ih => cases h' with | cons h2 => rw [ih h2]

theorem path_append {next : Nat → Option Nat} {c : Nat} {l : List Nat} (hn : l.Nodup) (hc : c ∉ l) (h0 : next c = none) :
    ∀ {p : Option Nat} {t : Nat}, Path next p l → l.getLast? = some t →
      Path (fun x => if x = t then some c else next x) p (l ++ [c]) := by
  induction l with
  | nil => intro p t _ h; simp at h
  | cons a l ih =>
    intro p t hp ht
    cases hp with
    | cons hp =>
      rw [List.nodup_cons] at hn
      rw [List.mem_cons, not_or] at hc
      cases l with
      | nil =>
        have : a = t := by simpa using ht
        subst this
        refine .cons ?_
        simp only [if_true]
        refine .cons ?_
        rw [if_neg hc.1, h0]
        exact .nil
      | cons b l =>
        have ht' : (b :: l).getLast? = some t := by simpa using ht
        have hm : t ∈ b :: l := List.mem_of_getLast? ht'
        have hat : a ≠ t := fun he => hn.1 (he ▸ hm)
        refine .cons ?_
        rw [if_neg hat]
        exact ih hn.2 hc.2 hp ht'

/-! ## Properties -/

/-- C332: a node that is alone and not in the chain is added at its end. -/
theorem add_ok {s : S} {l : List Nat} {c : Nat} (h : Holds s l) (hn : l.Nodup) (hc : c ∉ l) (h0 : s.next c = none) :
    ∃ s', add s c = some s' ∧ Holds s' (l ++ [c]) ∧ ∀ x, x ∉ l → s'.next x = s.next x := by
  obtain ⟨hp, ht⟩ := h
  cases l with
  | nil =>
    generalize hh : s.head = p at hp
    cases hp
    refine ⟨{ s with head := some c, tail := some c }, by rw [add, hh], ⟨?_, fun _ => rfl⟩, fun _ _ => rfl⟩
    refine .cons ?_
    show Path s.next (s.next c) []
    rw [h0]; exact .nil
  | cons a l =>
    have ht := ht (by simp)
    obtain ⟨t, hlast⟩ : ∃ t, (a :: l).getLast? = some t := ⟨_, List.getLast?_eq_some_getLast (by simp)⟩
    rw [hlast] at ht
    have hhead : s.head = some a := by
      generalize hh : s.head = p at hp
      cases hp; rfl
    refine ⟨{ s with next := fun x => if x = t then some c else s.next x, tail := some c }, by simp only [add, hhead, ht], ⟨?_, ?_⟩, ?_⟩
    · exact path_append hn hc h0 hp hlast
    · intro _; exact (List.getLast?_concat (l := a :: l) (a := c)).symm
    · intro x hx
      have : x ≠ t := fun he => hx (he ▸ List.mem_of_getLast? hlast)
      exact if_neg this

/-- Nodes that are alone are in the chain in the order they were added in, behind those that were there. -/
theorem all_partial (cs : List Nat) : ∀ {s : S} {l : List Nat}, Holds s l → (l ++ cs).Nodup → (∀ c ∈ cs, s.next c = none) →
    ∃ s', addAll s cs = some s' ∧ Holds s' (l ++ cs) := by
  induction cs with
  | nil => intro s l h _ _; exact ⟨s, rfl, by simpa using h⟩
  | cons c cs ih =>
    intro s l h hn h0
    have hd := List.nodup_append.1 hn
    have hc : c ∉ l := fun hm => hd.2.2 c hm c (by simp) rfl
    obtain ⟨s1, e1, p1, q1⟩ := add_ok h hd.1 hc (h0 c (by simp))
    obtain ⟨s2, e2, p2⟩ := ih p1 (by simpa using hn) (fun x hx => by
      rw [q1 x (fun hm => hd.2.2 x hm x (by simp [hx]) rfl)]
      exact h0 x (by simp [hx]))
    exact ⟨s2, by simp [addAll, e1, e2], by simpa using p2⟩

/-- A node with another behind it: the next node that is added takes the place of the other, which is lost. -/
theorem longer_refuted (s : S) (c d e : Nat) (hh : s.head = none) (hd : s.next c = some d) (he : s.next e = none) (hce : c ≠ e) (hde : d ≠ e) (hdc : d ≠ c) :
    (∃ s', add s c = some s' ∧ s'.head = some c ∧ s'.next c = some d) ∧
    ∃ s', addAll s [c, e] = some s' ∧ Path s'.next s'.head [c, e] ∧ ¬∃ l, Path s'.next s'.head l ∧ d ∈ l := by
  have hp : Path (fun x => if x = c then some e else s.next x) (some c) [c, e] := by
    refine .cons ?_
    rw [if_pos rfl]
    refine .cons ?_
    rw [if_neg hce.symm, he]
    exact .nil
  refine ⟨⟨{ s with head := some c, tail := some c }, by simp [add, hh], rfl, hd⟩, ?_⟩
  refine ⟨{ next := fun x => if x = c then some e else s.next x, head := some c, tail := some e }, by simp [addAll, add, hh], hp, ?_⟩
  rintro ⟨l, hl, hm⟩
  rw [← hp.unique hl] at hm
  simp only [List.mem_cons, List.not_mem_nil, or_false] at hm
  exact hm.elim hdc hde

/-- Adding the last node again closes the chain: there is no end any more. -/
theorem twice_refuted (s : S) (c : Nat) (hh : s.head = none) : ∃ s', addAll s [c, c] = some s' ∧ ¬∃ l, Path s'.next s'.head l := by
  refine ⟨{ next := fun x => if x = c then some c else s.next x, head := some c, tail := some c }, by simp [addAll, add, hh], ?_⟩
  rintro ⟨l, hl⟩
  have key : ∀ (l : List Nat), ¬Path (fun x => if x = c then some c else s.next x) (some c) l := by
    intro l
    induction l with
    | nil => intro h; cases h
    | cons a l ih =>
      intro h
      cases h with
      | cons h => rw [if_pos rfl] at h; exact ih h
  exact key l hl

/-- What was consumed (from `left_pos` to `pos`) and what is to come make up the size that is left to release. -/
theorem sizes (b : Buf) : leftSize (some b) - size (some b) = (if b.inFile then b.filePos - b.fileLeftPos else b.pos - b.leftPos) ∧
    leftSize none = 0 ∧ size none = 0 := by
  refine ⟨?_, rfl, rfl⟩
  cases h : b.inFile <;> simp [leftSize, size, h] <;> omega

/-- The size is 0 exactly when all was consumed. -/
theorem size_zero (b : Buf) : size (some b) = 0 ↔ if b.inFile then b.filePos = b.fileLast else b.pos = b.last := by
  cases h : b.inFile <;> simp [size, h] <;> omega

/-! ## Examples -/

example : (addAll ⟨fun _ => none, none, none⟩ [4, 9, 2]).map (fun s => (s.head, s.next 4, s.next 9, s.next 2, s.tail)) =
    some (some 4, some 9, some 2, none, some 2) := by decide

example : size (some ⟨false, 10, 12, 20, 0, 0, 7⟩) = 8 ∧ leftSize (some ⟨true, 10, 12, 20, 3, 5, 7⟩) = 4 := by decide

end Verif.ChainAdd
