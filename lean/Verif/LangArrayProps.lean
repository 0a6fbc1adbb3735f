import Verif.LangArray
import Verif.RbTree

/-!
# Properties of the arrays of scripts
-/
namespace Verif.LangArray

/-! ## Spec: a dictionary with numbered places -/

/-- Places by number and by key, the number of the next place, and how many variables exist. -/
structure Dict where
  num : Nat → Option Nat
  key : K → Option Nat
  len : Nat
  made : Nat

def Dict.empty : Dict := ⟨fun _ => none, fun _ => none, 0, 0⟩

/-- The place with number `n`, made if missing. -/
def Dict.atNum (d : Dict) (n : Nat) : Dict × Nat :=
  match d.num n with
  | some c => (d, c)
  | none => ({ d with num := fun m => if m = n then some d.made else d.num m, len := max d.len (n + 1), made := d.made + 1 }, d.made)

/-- A new place at the end. -/
def Dict.append (d : Dict) : Dict × Nat :=
  ({ d with num := fun m => if m = d.len then some d.made else d.num m, len := d.len + 1, made := d.made + 1 }, d.made)

/-- The place with key `k`, made at the end if missing. -/
def Dict.atKey (d : Dict) (k : K) : Dict × Nat :=
  match d.key k with
  | some c => (d, c)
  | none => ({ d.append.1 with key := fun j => if j = k then some d.made else d.key j }, d.made)

/-- `a[v]`: negative numbers count from the end. -/
def Dict.at (d : Dict) : Arg → Dict × Option Nat
  | .nil => (d.append.1, some d.append.2)
  | .key k => ((d.atKey k).1, some (d.atKey k).2)
  | .int i =>
    if i.toInt < 0 then
      (if (d.len : Int) + i.toInt < 0 then (d, none)
       else ((d.atNum ((d.len : Int) + i.toInt).toNat).1, some (d.atNum ((d.len : Int) + i.toInt).toNat).2))
    else ((d.atNum i.toNat).1, some (d.atNum i.toNat).2)

def Dict.run (d : Dict) : List Arg → Dict × List (Option Nat)
  | [] => (d, [])
  | v :: vs => (((d.at v).1.run vs).1, (d.at v).2 :: ((d.at v).1.run vs).2)

/-- The index or key of an operation. -/
def Op.arg : Op → Arg
  | .idx v => v
  | .lit v => v

/-- Operations covered: numbers below 2^62, and no negative number as a key in a literal. -/
def Fine : Op → Prop
  | .idx (.int i) => i.toInt < 2 ^ 62
  | .lit (.int i) => 0 ≤ i.toInt ∧ i.toInt < 2 ^ 62
  | _ => True

/-! ## The refinement (C260) -/

/-- The array represents the dictionary. -/
structure Rep (a : Arr) (d : Dict) : Prop where
  num : ∀ n c, d.num n = some c ↔ ∃ e ∈ a.elems, e.idx = n ∧ e.cell = c
  key : ∀ k c, d.key k = some c ↔ ∃ e ∈ a.elems, e.key = some k ∧ e.cell = c
  len : d.len = a.index
  made : d.made = a.next
  below : ∀ e ∈ a.elems, e.idx < a.index

theorem pick_mem {pick : Nat} {l : List Elem} {e : Elem} (h : pickOf pick l = some e) : e ∈ l := List.mem_of_getElem? h

theorem pick_none {pick : Nat} {l : List Elem} (h : pickOf pick l = none) : l = [] := by
  rw [pickOf, List.getElem?_eq_none_iff] at h
  by_cases hl : l.length = 0
  · exact List.length_eq_zero_iff.1 hl
  · have := Nat.mod_lt pick (Nat.pos_of_ne_zero hl)
    omega

theorem append_rep {a : Arr} {d : Dict} (h : Rep a d) (hb : a.index + 1 < 2 ^ 64) :
    ∃ a', getNil a = some (a', d.append.2) ∧ Rep a' d.append.1 ∧ a'.index = a.index + 1 := by
  have hi : inc a.index = a.index + 1 := Nat.mod_eq_of_lt hb
  refine ⟨{ a with elems := a.elems ++ [⟨a.index, none, a.next⟩], index := inc a.index, next := a.next + 1 }, by simp [getNil, Dict.append, h.made], ⟨?_, ?_, ?_, ?_, ?_⟩, hi⟩
  · intro n c
    simp only [Dict.append, List.mem_append, List.mem_singleton]
    by_cases hn : n = d.len
    · subst hn
      simp only [if_true, Option.some.injEq]
      constructor
      · intro e; exact ⟨_, Or.inr rfl, h.len.symm, by rw [← e, h.made]⟩
      · rintro ⟨e, he | he, h1, h2⟩
        · have := h.below e he; rw [h1, h.len] at this; omega
        · subst he; rw [h.made]; exact h2
    · simp only [if_neg hn]
      rw [h.num]
      constructor
      · rintro ⟨e, he, h1, h2⟩; exact ⟨e, Or.inl he, h1, h2⟩
      · rintro ⟨e, he | he, h1, h2⟩
        · exact ⟨e, he, h1, h2⟩
        · subst he; rw [h.len] at hn; exact absurd h1.symm hn
  · intro k c
    simp only [Dict.append, List.mem_append, List.mem_singleton]
    rw [h.key]
    constructor
    · rintro ⟨e, he, h1, h2⟩; exact ⟨e, Or.inl he, h1, h2⟩
    · rintro ⟨e, he | he, h1, h2⟩
      · exact ⟨e, he, h1, h2⟩
      · subst he; cases h1
  · simp [Dict.append, hi, h.len]
  · simp [Dict.append, h.made]
  · intro e he
    simp only [List.mem_append, List.mem_singleton] at he
    simp only [hi]
    rcases he with he | he
    · have := h.below e he; omega
    · subst he; simp

theorem key_rep {a : Arr} {d : Dict} (h : Rep a d) (pick : Nat) (k : K) (hb : a.index + 1 < 2 ^ 64) :
    ∃ a', getKey pick a k = some (a', (d.atKey k).2) ∧ Rep a' (d.atKey k).1 ∧ a.index ≤ a'.index ∧ a'.index ≤ a.index + 1 := by
  have hi : inc a.index = a.index + 1 := Nat.mod_eq_of_lt hb
  unfold getKey Dict.atKey
  cases hp : pickOf pick (a.elems.filter fun e => e.key = some k) with
  | some e =>
    have he := pick_mem hp
    simp only [List.mem_filter, decide_eq_true_eq] at he
    have hk : d.key k = some e.cell := (h.key k e.cell).2 ⟨e, he.1, he.2, rfl⟩
    simp only [hk]
    exact ⟨a, rfl, h, by omega, by omega⟩
  | none =>
    have hn := pick_none hp
    rw [List.filter_eq_nil_iff] at hn
    have hk : d.key k = none := by
      cases hd : d.key k with
      | none => rfl
      | some c =>
        obtain ⟨e, he, h1, _⟩ := (h.key k c).1 hd
        exact absurd (by simpa using h1) (hn e he)
    simp only [hk]
    refine ⟨_, by rw [h.made], ⟨?_, ?_, ?_, ?_, ?_⟩, by simp [hi], by simp [hi]⟩
    · intro n c
      simp only [Dict.append, List.mem_append, List.mem_singleton]
      by_cases hn : n = d.len
      · subst hn
        simp only [if_true, Option.some.injEq]
        constructor
        · intro e; exact ⟨_, Or.inr rfl, h.len.symm, by rw [← e, h.made]⟩
        · rintro ⟨e, he | he, h1, h2⟩
          · have := h.below e he; rw [h1, h.len] at this; omega
          · subst he; rw [h.made]; exact h2
      · simp only [if_neg hn]
        rw [h.num]
        constructor
        · rintro ⟨e, he, h1, h2⟩; exact ⟨e, Or.inl he, h1, h2⟩
        · rintro ⟨e, he | he, h1, h2⟩
          · exact ⟨e, he, h1, h2⟩
          · subst he; rw [h.len] at hn; exact absurd h1.symm hn
    · intro j c
      simp only [List.mem_append, List.mem_singleton]
      by_cases hj : j = k
      · subst hj
        simp only [if_true, Option.some.injEq]
        constructor
        · intro e; exact ⟨_, Or.inr rfl, rfl, by rw [← e, h.made]⟩
        · rintro ⟨e, he | he, h1, h2⟩
          · exact absurd (by simpa using h1) (hn e he)
          · subst he; rw [h.made]; exact h2
      · simp only [if_neg hj]
        rw [h.key]
        constructor
        · rintro ⟨e, he, h1, h2⟩; exact ⟨e, Or.inl he, h1, h2⟩
        · rintro ⟨e, he | he, h1, h2⟩
          · exact ⟨e, he, h1, h2⟩
          · subst he; exact absurd (Option.some.inj h1).symm hj
    · simp [Dict.append, hi, h.len]
    · simp [Dict.append, h.made]
    · intro e he
      simp only [List.mem_append, List.mem_singleton] at he
      simp only [hi]
      rcases he with he | he
      · have := h.below e he; omega
      · subst he; simp

theorem int_rep {a : Arr} {d : Dict} (h : Rep a d) (pick : Nat) (i : BitVec 64) (hb : i.toNat < 2 ^ 63) (hi : i.toNat = 2 ^ 63 - 1 → i.toNat < a.index) :
    ∃ a', getInt pick a i = some (a', (d.atNum i.toNat).2) ∧ Rep a' (d.atNum i.toNat).1 ∧ a'.index = max a.index (if d.num i.toNat = none then i.toNat + 1 else 0) := by
  unfold getInt Dict.atNum
  cases hp : pickOf pick (a.elems.filter fun e => e.idx = i.toNat) with
  | some e =>
    have he := pick_mem hp
    simp only [List.mem_filter, decide_eq_true_eq] at he
    have hk : d.num i.toNat = some e.cell := (h.num _ e.cell).2 ⟨e, he.1, he.2, rfl⟩
    simp only [hk]
    exact ⟨a, rfl, h, by simp⟩
  | none =>
    have hn := pick_none hp
    rw [List.filter_eq_nil_iff] at hn
    have hk : d.num i.toNat = none := by
      cases hd : d.num i.toNat with
      | none => rfl
      | some c =>
        obtain ⟨e, he, h1, _⟩ := (h.num _ c).1 hd
        exact absurd (by simpa using h1) (hn e he)
    simp only [hk, if_true]
    have hint : i.toInt = i.toNat := by rw [BitVec.toInt_eq_toNat_cond]; rw [if_pos (by omega)]
    have key : ∀ x, x = max a.index (i.toNat + 1) → Rep { elems := a.elems ++ [⟨i.toNat, none, a.next⟩], index := x, next := a.next + 1 }
        { d with num := fun m => if m = i.toNat then some d.made else d.num m, len := max d.len (i.toNat + 1), made := d.made + 1 } := by
      intro x hx
      refine ⟨?_, ?_, ?_, ?_, ?_⟩
      · intro n c
        simp only [List.mem_append, List.mem_singleton]
        by_cases hj : n = i.toNat
        · subst hj
          simp only [if_true, Option.some.injEq]
          constructor
          · intro e; exact ⟨_, Or.inr rfl, rfl, by rw [← e, h.made]⟩
          · rintro ⟨e, he | he, h1, h2⟩
            · exact absurd (by simpa using h1) (hn e he)
            · subst he; rw [h.made]; exact h2
        · simp only [if_neg hj]
          rw [h.num]
          constructor
          · rintro ⟨e, he, h1, h2⟩; exact ⟨e, Or.inl he, h1, h2⟩
          · rintro ⟨e, he | he, h1, h2⟩
            · exact ⟨e, he, h1, h2⟩
            · subst he; exact absurd h1.symm hj
      · intro k c
        simp only [List.mem_append, List.mem_singleton]
        rw [h.key]
        constructor
        · rintro ⟨e, he, h1, h2⟩; exact ⟨e, Or.inl he, h1, h2⟩
        · rintro ⟨e, he | he, h1, h2⟩
          · exact ⟨e, he, h1, h2⟩
          · subst he; cases h1
      · simp [hx, h.len]
      · simp [h.made]
      · intro e he
        simp only [List.mem_append, List.mem_singleton] at he
        rcases he with he | he
        · have := h.below e he; simp only [hx]; omega
        · subst he; simp only [hx]; omega
    by_cases hc : a.index ≤ i.toNat
    · rw [if_pos hc, if_neg (by omega)]
      have e1 : (i + 1).toNat = i.toNat + 1 := by
        rw [BitVec.toNat_add, show (1 : BitVec 64).toNat = 1 from rfl, Nat.mod_eq_of_lt (by omega)]
      rw [h.made]
      refine ⟨_, rfl, ?_, by simp only [e1]; omega⟩
      have := key (i + 1).toNat (by omega)
      rw [h.made] at this
      exact this
    · rw [if_neg hc, h.made]
      refine ⟨_, rfl, ?_, by simp only; omega⟩
      have := key a.index (by omega)
      rw [h.made] at this
      exact this

/-- One operation; `n` bounds the numbers given out so far. -/
theorem step_rep {a : Arr} {d : Dict} (h : Rep a d) (o : Op) (pick n : Nat) (hf : Fine o) (hn : a.index ≤ 2 ^ 62 + n) (hn2 : n < 2 ^ 62) :
    ∃ a', step a (o, pick) = some (a', (d.at o.arg).2) ∧ Rep a' (d.at o.arg).1 ∧ a'.index ≤ 2 ^ 62 + (n + 1) := by
  have hnil : ∃ a', getNil a = some (a', d.append.2) ∧ Rep a' d.append.1 ∧ a'.index ≤ 2 ^ 62 + (n + 1) := by
    obtain ⟨a', e1, e2, e3⟩ := append_rep h (by omega)
    exact ⟨a', e1, e2, by omega⟩
  have hkey : ∀ k, ∃ a', getKey pick a k = some (a', (d.atKey k).2) ∧ Rep a' (d.atKey k).1 ∧ a'.index ≤ 2 ^ 62 + (n + 1) := by
    intro k
    obtain ⟨a', e1, e2, _, e3⟩ := key_rep h pick k (by omega)
    exact ⟨a', e1, e2, by omega⟩
  have hint : ∀ i : BitVec 64, i.toNat < 2 ^ 62 ∨ i.toNat < a.index → i.toNat < 2 ^ 63 → ∃ a', getInt pick a i = some (a', (d.atNum i.toNat).2) ∧ Rep a' (d.atNum i.toNat).1 ∧ a'.index ≤ 2 ^ 62 + (n + 1) := by
    intro i hi hi2
    obtain ⟨a', e1, e2, e3⟩ := int_rep h pick i hi2 (by omega)
    refine ⟨a', e1, e2, ?_⟩
    rw [e3]
    split <;> omega
  have nonneg : ∀ i : BitVec 64, 0 ≤ i.toInt → i.toInt < 2 ^ 62 → i.toNat < 2 ^ 62 := by
    intro i h1 h2
    rw [BitVec.toInt_eq_toNat_cond] at h1 h2
    have := i.isLt
    split at h1 <;> omega
  cases o with
  | lit v =>
    cases v with
    | nil => obtain ⟨a', e1, e2, e3⟩ := hnil; exact ⟨a', by simp [step, get, e1, Op.arg, Dict.at], e2, e3⟩
    | key k => obtain ⟨a', e1, e2, e3⟩ := hkey k; exact ⟨a', by simp [step, get, e1, Op.arg, Dict.at], e2, e3⟩
    | int i =>
      obtain ⟨f1, f2⟩ := hf
      have hb := nonneg i f1 f2
      obtain ⟨a', e1, e2, e3⟩ := hint i (Or.inl hb) (by omega)
      refine ⟨a', ?_, ?_, e3⟩
      · simp only [step, get, e1, Op.arg, Dict.at]; rw [if_neg (by omega)]
      · simp only [Op.arg, Dict.at]; rw [if_neg (by omega)]; exact e2
  | idx v =>
    cases v with
    | nil => obtain ⟨a', e1, e2, e3⟩ := hnil; exact ⟨a', by simp [step, indexOp, get, e1, Op.arg, Dict.at], e2, e3⟩
    | key k => obtain ⟨a', e1, e2, e3⟩ := hkey k; exact ⟨a', by simp [step, indexOp, get, e1, Op.arg, Dict.at], e2, e3⟩
    | int i =>
      have f2 : i.toInt < 2 ^ 62 := hf
      by_cases h0 : i.toInt < 0
      · have hj : (i + BitVec.ofNat 64 a.index).toInt = (a.index : Int) + i.toInt := by
          have hi := i.isLt
          rw [BitVec.toInt_eq_toNat_cond] at h0 ⊢
          rw [BitVec.toInt_eq_toNat_cond]
          rw [BitVec.toNat_add, BitVec.toNat_ofNat, Nat.mod_eq_of_lt (show a.index < 2 ^ 64 by omega)]
          split at h0
          · omega
          · rename_i h1
            rw [if_neg h1]
            by_cases hs : i.toNat + a.index < 2 ^ 64
            · rw [Nat.mod_eq_of_lt hs, if_neg (by omega)]; omega
            · have : (i.toNat + a.index) % 2 ^ 64 = i.toNat + a.index - 2 ^ 64 := by omega
              rw [this, if_pos (by omega)]; omega
        by_cases hneg : (a.index : Int) + i.toInt < 0
        · refine ⟨a, ?_, ?_, by omega⟩
          · simp only [step, indexOp, Op.arg, Dict.at]
            rw [if_pos h0, if_pos (by omega), if_pos h0, if_pos (by rw [h.len]; exact hneg)]
          · simp only [Op.arg, Dict.at]
            rw [if_pos h0, if_pos (by rw [h.len]; exact hneg)]
            exact h
        · have hjn : (i + BitVec.ofNat 64 a.index).toNat = ((d.len : Int) + i.toInt).toNat := by
            have e : ((i + BitVec.ofNat 64 a.index).toNat : Int) = (i + BitVec.ofNat 64 a.index).toInt := by
              have := (i + BitVec.ofNat 64 a.index).isLt
              rw [BitVec.toInt_eq_toNat_cond] at hj ⊢
              split at hj
              · rename_i h1; rw [if_pos h1]
              · omega
            rw [h.len]; omega
          have hlen := h.len
          obtain ⟨a', e1, e2, e3⟩ := hint (i + BitVec.ofNat 64 a.index) (Or.inr (by omega)) (by omega)
          rw [hjn] at e1 e2
          refine ⟨a', ?_, ?_, e3⟩
          · simp only [step, indexOp, get, Op.arg, Dict.at]
            rw [if_pos h0, if_neg (show ¬ (i + BitVec.ofNat 64 a.index).toInt < 0 by omega), if_pos h0, if_neg (show ¬ (d.len : Int) + i.toInt < 0 by omega), e1]
          · simp only [Op.arg, Dict.at]
            rw [if_pos h0, if_neg (by omega)]
            exact e2
      · have hb := nonneg i (by omega) f2
        obtain ⟨a', e1, e2, e3⟩ := hint i (Or.inl hb) (by omega)
        refine ⟨a', ?_, ?_, e3⟩
        · simp only [step, indexOp, get, Op.arg, Dict.at]; rw [if_neg h0, if_neg h0, e1]
        · simp only [Op.arg, Dict.at]; rw [if_neg h0]; exact e2

theorem run_rep : ∀ (os : List (Op × Nat)) {a : Arr} {d : Dict} (n : Nat), Rep a d → (∀ o ∈ os, Fine o.1) → a.index ≤ 2 ^ 62 + n → n + os.length ≤ 2 ^ 62 →
    ∃ a', run a os = some (a', (d.run (os.map fun o => o.1.arg)).2) ∧ Rep a' (d.run (os.map fun o => o.1.arg)).1
  | [], a, d, n, h, _, _, _ => ⟨a, rfl, h⟩
  | (o, pick) :: os, a, d, n, h, hf, hn, hl => by
    simp only [List.length_cons] at hl
    obtain ⟨a1, e1, h1, b1⟩ := step_rep h o pick n (hf (o, pick) (by simp)) hn (by omega)
    obtain ⟨a2, e2, h2⟩ := run_rep os (n + 1) h1 (fun o ho => hf o (by simp [ho])) b1 (by omega)
    refine ⟨a2, ?_, h2⟩
    simp [run, e1, e2, Dict.run]

theorem empty_rep : Rep {} Dict.empty := by
  constructor <;> simp [Dict.empty]

/-- C260: every history of index expressions and literal elements finds the variables that the dictionary gives: a
number or key finds the same variable each time, new numbers, keys and `a[]` get new ones, negative numbers count
from the end; nothing is undefined, whatever the search picks. -/
theorem array_refines_partial (os : List (Op × Nat)) (hf : ∀ o ∈ os, Fine o.1) (hl : os.length ≤ 2 ^ 62) :
    ∃ a, run {} os = some (a, (Dict.empty.run (os.map fun o => o.1.arg)).2) ∧
      ∀ v, exist a v = match v with
        | .nil => false
        | .int i => ((Dict.empty.run (os.map fun o => o.1.arg)).1.num i.toNat).isSome
        | .key k => ((Dict.empty.run (os.map fun o => o.1.arg)).1.key k).isSome := by
  obtain ⟨a, e, h⟩ := run_rep os 0 empty_rep hf (by simp) (by omega)
  refine ⟨a, e, ?_⟩
  intro v
  cases v with
  | nil => rfl
  | int i =>
    simp only [exist]
    rw [Bool.eq_iff_iff, List.any_eq_true, Option.isSome_iff_exists]
    constructor
    · rintro ⟨x, hx, hi⟩
      exact ⟨x.cell, (h.num _ _).2 ⟨x, hx, by simpa using hi, rfl⟩⟩
    · rintro ⟨c, hc⟩
      obtain ⟨x, hx, hi, _⟩ := (h.num _ _).1 hc
      exact ⟨x, hx, by simpa using hi⟩
  | key k =>
    simp only [exist]
    rw [Bool.eq_iff_iff, List.any_eq_true, Option.isSome_iff_exists]
    constructor
    · rintro ⟨x, hx, hi⟩
      exact ⟨x.cell, (h.key _ _).2 ⟨x, hx, by simpa using hi, rfl⟩⟩
    · rintro ⟨c, hc⟩
      obtain ⟨x, hx, hi, _⟩ := (h.key _ _).1 hc
      exact ⟨x, hx, by simpa using hi⟩

example : run {} [(.lit (.key (.str [120])), 0), (.lit .nil, 0), (.idx (.int 0), 0), (.idx (.int (-1)), 5), (.idx (.int 7), 0), (.idx .nil, 0), (.idx (.int (-9)), 0),
    (.idx (.int (-10)), 0)] = some (⟨[⟨0, some (.str [120]), 0⟩, ⟨1, none, 1⟩, ⟨7, none, 2⟩, ⟨8, none, 3⟩], 9, 4⟩,
      [some 0, some 1, some 0, some 1, some 2, some 3, some 0, none]) := by decide +kernel

/-! ## The index variable (C261) -/

/-- C261, partial: an index expression leaves the index variable as it is unless its value is -1. -/
theorem index_kept_partial (pick : Nat) (a a' : Arr) (v v' : Arg) (c : Nat) (hv : v ≠ .int (-1)) (h : indexOp pick a v = .ok a' c v') : v' = v := by
  unfold indexOp at h
  split at h
  · rename_i i
    by_cases h0 : i.toInt < 0
    · simp only [if_pos h0] at h
      split at h
      · cases h
      · split at h
        · cases h
        · injection h with _ _ h3
          rw [if_pos (fun e => hv (by rw [e]))] at h3
          exact h3.symm
    · simp only [if_neg h0] at h
      split at h
      · cases h
      · injection h with _ _ h3; exact h3.symm
  · split at h
    · cases h
    · injection h with _ _ h3; exact h3.symm

/-- Refutation of C261: `a[i]` with `i` = -1 on any array that is not empty sets `i` to the number of the last place. -/
theorem minus_one_changed (pick : Nat) (a : Arr) (h0 : 0 < a.index) (h1 : a.index ≤ 2 ^ 63) :
    (∃ a' c, indexOp pick a (.int (-1)) = .ok a' c (.int (BitVec.ofNat 64 (a.index - 1)))) := by
  have e : (-1 : BitVec 64) + BitVec.ofNat 64 a.index = BitVec.ofNat 64 (a.index - 1) := by
    apply BitVec.eq_of_toNat_eq
    rw [BitVec.toNat_add, BitVec.toNat_ofNat, BitVec.toNat_ofNat, show (-1 : BitVec 64).toNat = 2 ^ 64 - 1 from rfl]
    omega
  have hn : (BitVec.ofNat 64 (a.index - 1)).toNat = a.index - 1 := by rw [BitVec.toNat_ofNat]; omega
  have hi : ¬ (BitVec.ofNat 64 (a.index - 1)).toInt < 0 := by
    rw [BitVec.toInt_eq_toNat_cond, hn]; split <;> omega
  have hg : ∃ a' c, get pick a (.int (BitVec.ofNat 64 (a.index - 1))) = some (a', c) := by
    simp only [get, getInt]
    split
    · exact ⟨_, _, rfl⟩
    · rw [if_neg (by omega)]; exact ⟨_, _, rfl⟩
  obtain ⟨a', c, hg⟩ := hg
  refine ⟨a', c, ?_⟩
  simp only [indexOp, e]
  rw [if_pos (by decide), if_neg hi, hg]
  simp

example : indexOp 0 ⟨[⟨0, none, 0⟩, ⟨1, none, 1⟩, ⟨2, none, 2⟩], 3, 3⟩ (.int (-1)) = .ok ⟨[⟨0, none, 0⟩, ⟨1, none, 1⟩, ⟨2, none, 2⟩], 3, 3⟩ 2 (.int 2) ∧
    indexOp 0 ⟨[⟨0, none, 0⟩, ⟨1, none, 1⟩, ⟨2, none, 2⟩], 3, 3⟩ (.int (-2)) = .ok ⟨[⟨0, none, 0⟩, ⟨1, none, 1⟩, ⟨2, none, 2⟩], 3, 3⟩ 1 (.int (-2)) := by decide +kernel

/-! ## Literals with a negative key (C262) -/

/-- Refutation of C260 for literals with the key -1: the next element gets the number 0 again, also if there is an
element with this number; the two have different variables. -/
theorem literal_minus_one (a : Arr) (e : Elem) (he : e ∈ a.elems) (h0 : e.idx = 0) (hc : e.cell < a.next) (hidx : ∀ x ∈ a.elems, x.idx ≠ 2 ^ 64 - 1) (hb : a.index < 2 ^ 64) (p q : Nat) :
    ∃ a' x, run a [(.lit (.int (-1)), p), (.lit .nil, q)] = some (a', [some a.next, some (a.next + 1)]) ∧
      e ∈ a'.elems ∧ x ∈ a'.elems ∧ x.idx = e.idx ∧ x.cell = a.next + 1 ∧ x.cell ≠ e.cell := by
  have hf : a.elems.filter (fun x => x.idx = (-1 : BitVec 64).toNat) = [] := by
    rw [List.filter_eq_nil_iff]
    intro x hx
    simpa using hidx x hx
  have hg : get p a (.int (-1)) = some (⟨a.elems ++ [⟨2 ^ 64 - 1, none, a.next⟩], 0, a.next + 1⟩, a.next) := by
    simp only [get, getInt, hf]
    rw [show pickOf p [] = none from rfl]
    simp only
    rw [if_pos (show a.index ≤ (-1 : BitVec 64).toNat by rw [show (-1 : BitVec 64).toNat = 2 ^ 64 - 1 from rfl]; omega), if_neg (by decide)]
    rfl
  refine ⟨⟨(a.elems ++ [⟨2 ^ 64 - 1, none, a.next⟩]) ++ [⟨0, none, a.next + 1⟩], 1, a.next + 1 + 1⟩, ⟨0, none, a.next + 1⟩, ?_, ?_, ?_, h0.symm, rfl, ?_⟩
  · have hs : step a (.lit (.int (-1)), p) = some (⟨a.elems ++ [⟨2 ^ 64 - 1, none, a.next⟩], 0, a.next + 1⟩, some a.next) := by
      simp only [step, hg]
    simp only [run, hs]
    rfl
  · simp [he]
  · simp
  · simp only; omega

/-- Refutation of C260: the number 2^63 - 1 overflows. -/
theorem largest_undefined (pick : Nat) (a : Arr) (h : ∀ x ∈ a.elems, x.idx ≠ 2 ^ 63 - 1) (hb : a.index ≤ 2 ^ 63 - 1) :
    indexOp pick a (.int (BitVec.ofNat 64 (2 ^ 63 - 1))) = .ub := by
  have hf : a.elems.filter (fun x => x.idx = (BitVec.ofNat 64 (2 ^ 63 - 1)).toNat) = [] := by
    rw [List.filter_eq_nil_iff]
    intro x hx
    simpa using h x hx
  simp only [indexOp]
  rw [if_neg (by decide)]
  simp only [get, getInt, hf]
  rw [show pickOf pick [] = none from rfl]
  simp only
  rw [if_pos (show a.index ≤ (BitVec.ofNat 64 (2 ^ 63 - 1)).toNat by rw [BitVec.toNat_ofNat]; omega), if_pos (by decide)]

example : run {} [(.lit (.key (.str [120])), 0), (.lit (.int (-1)), 0), (.lit .nil, 0)] =
    some (⟨[⟨0, some (.str [120]), 0⟩, ⟨2 ^ 64 - 1, none, 1⟩, ⟨0, none, 2⟩], 1, 3⟩, [some 0, some 1, some 2]) := by decide +kernel

end Verif.LangArray
