import Verif.Bn
import Mathlib.Tactic.Ring
import Mathlib.Tactic.Linarith
import Mathlib.Algebra.Order.Ring.Nat

/-
What a bignum denotes, and lemmas about limb lists.
-/
namespace Verif.Bn

/-! ## Specification -/

/-- The number written by limbs, lowest first. -/
def nat : List Nat → Nat
  | [] => 0
  | a :: l => a + B * nat l

/-- The magnitude. -/
def mag (b : Bn) : Nat := nat b.data

/-- The integer denoted. -/
def value (b : Bn) : Int := if b.neg then -(mag b : Int) else (mag b : Int)

/-- Canonical form: 257 limbs of 32 bits and `length` is the number of limbs without leading
zeros (zero may carry either sign). -/
structure Wf (b : Bn) : Prop where
  size : b.data.length = 257
  limbs : ∀ x ∈ b.data, x < 4294967296
  below : mag b < 4294967296 ^ b.length
  top : b.length = 0 ∨ 4294967296 ^ (b.length - 1) ≤ mag b

/-! ## Limb lists -/

theorem nat_nil : nat [] = 0 := rfl
theorem nat_cons (a : Nat) (l : List Nat) : nat (a :: l) = a + B * nat l := rfl

theorem nat_append (l m : List Nat) : nat (l ++ m) = nat l + B ^ l.length * nat m := by
  induction l with
  | nil => simp [nat]
  | cons a l ih => simp only [List.cons_append, nat_cons, ih, List.length_cons, pow_succ]; ring

theorem nat_replicate (n : Nat) : nat (List.replicate n 0) = 0 := by
  induction n with
  | zero => rfl
  | succ n ih => rw [List.replicate_succ, nat_cons, ih]

theorem nat_lt (l : List Nat) (h : ∀ x ∈ l, x < B) : nat l < B ^ l.length := by
  induction l with
  | nil => simp [nat]
  | cons a l ih =>
    have h1 := ih (fun x hx => h x (by simp [hx]))
    have h2 := h a (by simp)
    simp only [nat_cons, List.length_cons, pow_succ]
    have : nat l + 1 ≤ B ^ l.length := h1
    calc a + B * nat l < B + B * nat l := by omega
      _ = B * (nat l + 1) := by ring
      _ ≤ B * B ^ l.length := Nat.mul_le_mul_left _ this
      _ = _ := by ring

theorem Bpos (n : Nat) : 0 < B ^ n := Nat.pow_pos (by decide)

theorem nat_take_drop (l : List Nat) (n : Nat) (h : n ≤ l.length) : nat l = nat (l.take n) + B ^ n * nat (l.drop n) := by
  conv_lhs => rw [← List.take_append_drop n l]
  rw [nat_append, List.length_take, Nat.min_eq_left h]

theorem limbs_take {l : List Nat} {n : Nat} (h : ∀ x ∈ l, x < B) : ∀ x ∈ l.take n, x < B :=
  fun x hx => h x (List.mem_of_mem_take hx)

theorem limbs_drop {l : List Nat} {n : Nat} (h : ∀ x ∈ l, x < B) : ∀ x ∈ l.drop n, x < B :=
  fun x hx => h x (List.mem_of_mem_drop hx)

theorem limbs_append {l m : List Nat} (h : ∀ x ∈ l, x < B) (h' : ∀ x ∈ m, x < B) : ∀ x ∈ l ++ m, x < B := by
  intro x hx
  rcases List.mem_append.1 hx with hx | hx
  · exact h x hx
  · exact h' x hx

theorem limbs_replicate (n : Nat) : ∀ x ∈ List.replicate n 0, x < B := by
  intro x hx
  rw [(List.mem_replicate.1 hx).2]; decide

theorem nat_zero_iff (l : List Nat) : nat l = 0 ↔ ∀ x ∈ l, x = 0 := by
  induction l with
  | nil => simp [nat]
  | cons a l ih =>
    rw [nat_cons, Nat.add_eq_zero_iff, Nat.mul_eq_zero, ih]
    simp

theorem nat_inj : ∀ (l m : List Nat), l.length = m.length → (∀ x ∈ l, x < B) → (∀ x ∈ m, x < B) → nat l = nat m → l = m := by
  intro l
  induction l with
  | nil =>
    intro m hl _ _ _
    cases m with
    | nil => rfl
    | cons b m => simp at hl
  | cons a l ih =>
    intro m hl h1 h2 he
    cases m with
    | nil => simp at hl
    | cons b m =>
      have ha := h1 a (by simp)
      have hb := h2 b (by simp)
      rw [nat_cons, nat_cons] at he
      have e1 : a = b := by
        have := congrArg (· % B) he
        simp only [Nat.add_mul_mod_self_left] at this
        rwa [Nat.mod_eq_of_lt ha, Nat.mod_eq_of_lt hb] at this
      subst e1
      have e2 : nat l = nat m := by
        have : B * nat l = B * nat m := by omega
        exact Nat.eq_of_mul_eq_mul_left (by decide) this
      rw [ih m (by simpa using hl) (fun x hx => h1 x (by simp [hx])) (fun x hx => h2 x (by simp [hx])) e2]

/-- High limbs vanish when the number is small. -/
theorem nat_drop_zero (l : List Nat) (n : Nat) (h : nat l < B ^ n) : nat (l.drop n) = 0 := by
  by_cases hn : n ≤ l.length
  · rw [nat_take_drop l n hn] at h
    by_contra hc
    have : 1 ≤ nat (l.drop n) := Nat.one_le_iff_ne_zero.2 hc
    have := Nat.mul_le_mul_left (B ^ n) this
    omega
  · rw [List.drop_eq_nil_of_le (by omega)]; rfl

theorem nat_drop_replicate (l : List Nat) (n : Nat) (h : nat l < B ^ n) : l.drop n = List.replicate (l.length - n) 0 := by
  rw [List.eq_replicate_iff]
  exact ⟨by simp, (nat_zero_iff _).1 (nat_drop_zero l n h)⟩

theorem nat_take_of_lt (l : List Nat) (n : Nat) (h : nat l < B ^ n) : nat (l.take n) = nat l := by
  by_cases hn : n ≤ l.length
  · rw [nat_take_drop l n hn, nat_drop_zero l n h]; simp
  · rw [List.take_of_length_le (by omega)]

theorem w_of_lt {x : Nat} (h : x < 18446744073709551616) : w x = x := Nat.mod_eq_of_lt h

theorem wf_length_le {b : Bn} (h : Wf b) : b.length ≤ 257 := by
  rcases h.top with h0 | h0
  · omega
  · by_contra hc
    have h1 := nat_lt b.data h.limbs
    rw [h.size] at h1
    have h2 : B ^ 257 ≤ B ^ (b.length - 1) := Nat.pow_le_pow_right (by decide) (by omega)
    have : mag b < B ^ 257 := h1
    have : B ^ (b.length - 1) ≤ mag b := h0
    omega

theorem wf_mag_lt {b : Bn} (h : Wf b) : mag b < B ^ 257 := by
  have h1 := nat_lt b.data h.limbs
  rwa [h.size] at h1

theorem wf_zero_iff {b : Bn} (h : Wf b) : b.length = 0 ↔ mag b = 0 := by
  constructor
  · intro h0
    have := h.below
    rw [h0] at this
    simpa using this
  · intro h0
    rcases h.top with h1 | h1
    · exact h1
    · rw [h0] at h1
      have := Bpos (b.length - 1)
      have : B ^ (b.length - 1) ≤ 0 := h1
      omega

theorem wf_len_lt {a b : Bn} (ha : Wf a) (hb : Wf b) (h : a.length < b.length) : mag a < mag b := by
  have h1 := ha.below
  rcases hb.top with h2 | h2
  · omega
  · have h3 : B ^ a.length ≤ B ^ (b.length - 1) := Nat.pow_le_pow_right (by decide) (by omega)
    have h1 : mag a < B ^ a.length := h1
    have h2 : B ^ (b.length - 1) ≤ mag b := h2
    omega

/-- The length is determined by the magnitude. -/
theorem len_unique {m k l : Nat} (h1 : m < B ^ k) (h2 : k = 0 ∨ B ^ (k - 1) ≤ m) (h3 : m < B ^ l) (h4 : l = 0 ∨ B ^ (l - 1) ≤ m) : k = l := by
  have key : ∀ k l, m < B ^ k → (l = 0 ∨ B ^ (l - 1) ≤ m) → l ≤ k := by
    intro k l h h'
    by_contra hc
    rcases h' with h' | h'
    · omega
    · have : B ^ k ≤ B ^ (l - 1) := Nat.pow_le_pow_right (by decide) (by omega)
      omega
  exact Nat.le_antisymm (key l k h3 h2) (key k l h1 h4)

/-- Canonical numbers with equal sign and magnitude are equal. -/
theorem wf_ext {a b : Bn} (ha : Wf a) (hb : Wf b) (hn : a.neg = b.neg) (hm : mag a = mag b) : a = b := by
  obtain ⟨an, al, ad⟩ := a
  obtain ⟨bn, bl, bd⟩ := b
  have e1 : ad = bd := nat_inj ad bd (by rw [show ad.length = 257 from ha.size, show bd.length = 257 from hb.size]) ha.limbs hb.limbs hm
  subst e1
  have e2 : al = bl := len_unique ha.below ha.top hb.below hb.top
  subst e2
  simp at hn
  rw [hn]

/-- A number is canonical whatever its sign. -/
theorem wf_neg {b : Bn} (h : Wf b) (n : Bool) : Wf { b with neg := n } := ⟨h.size, h.limbs, h.below, h.top⟩

theorem wf_zero : Wf zero := by
  have hm : mag zero = 0 := nat_replicate size
  refine ⟨?_, ?_, ?_, Or.inl rfl⟩
  · exact List.length_replicate
  · exact limbs_replicate size
  · rw [hm]; exact Bpos 0

theorem mag_zero : mag zero = 0 := nat_replicate size
theorem value_zero : value zero = 0 := by unfold value; rw [mag_zero]; rfl

/-- Without the sign of zero, the value determines a canonical number. -/
theorem wf_value_ext {a b : Bn} (ha : Wf a) (hb : Wf b) (hv : value a = value b) (hz : mag a ≠ 0) : a = b := by
  have h1 : mag a = mag b ∧ a.neg = b.neg := by
    unfold value at hv
    cases hA : a.neg <;> cases hB : b.neg <;> simp [hA, hB] at hv ⊢ <;> omega
  exact wf_ext ha hb h1.2 h1.1

theorem wf_word (x : Nat) (h0 : x ≠ 0) (h : x < B) : Wf (word x) ∧ mag (word x) = x := by
  have hm : mag (word x) = x := by
    show nat (x :: List.replicate (size - 1) 0) = x
    rw [nat_cons, nat_replicate]; omega
  refine ⟨⟨?_, ?_, ?_, Or.inr ?_⟩, hm⟩
  · show (x :: List.replicate (size - 1) 0).length = 257
    rw [List.length_cons, List.length_replicate]; rfl
  · intro y hy
    rcases List.mem_cons.1 hy with rfl | hy
    · exact h
    · exact limbs_replicate _ y hy
  · rw [hm]; show x < B ^ 1; omega
  · rw [hm]; show B ^ 0 ≤ x; rw [pow_zero]; omega

theorem scan_spec (data : List Nat) : ∀ n, n ≤ data.length →
    ∃ k, scan data n = some k ∧ k ≤ n ∧ (∀ i, k ≤ i → i < n → data[i]? = some 0) ∧ (k = 0 ∨ ∃ x, data[k - 1]? = some x ∧ x ≠ 0) := by
  intro n
  induction n with
  | zero => intro _; exact ⟨0, rfl, le_refl _, fun i h1 h2 => by omega, Or.inl rfl⟩
  | succ n ih =>
    intro h
    have hn : n < data.length := by omega
    by_cases hx : data[n] = 0
    · obtain ⟨k, e, h1, h2, h3⟩ := ih (by omega)
      refine ⟨k, ?_, by omega, ?_, h3⟩
      · simp only [scan, List.getElem?_eq_getElem hn, Option.bind_eq_bind, Option.bind_some, hx]
        simpa using e
      · intro i hi hi'
        rcases Nat.lt_or_ge i n with hlt | hge
        · exact h2 i hi hlt
        · have : i = n := by omega
          subst this
          rw [List.getElem?_eq_getElem hn, hx]
    · refine ⟨n + 1, ?_, le_refl _, fun i h1 h2 => by omega, Or.inr ⟨data[n], ?_, hx⟩⟩
      · simp only [scan, List.getElem?_eq_getElem hn, Option.bind_eq_bind, Option.bind_some]
        rw [if_pos hx]
      · rw [Nat.add_sub_cancel, List.getElem?_eq_getElem hn]

theorem nat_take_succ_top (l : List Nat) (k : Nat) (x : Nat) (h : l[k]? = some x) : nat (l.take (k + 1)) = nat (l.take k) + B ^ k * x := by
  obtain ⟨hk, he⟩ := List.getElem?_eq_some_iff.1 h
  rw [List.take_succ_eq_append_getElem hk, nat_append, List.length_take, Nat.min_eq_left (by omega), he]
  simp [nat]

/-- A search that starts above all non-zero limbs yields the canonical length. -/
theorem scan_canon (data : List Nat) (n : Nat) (hn : n ≤ data.length) (hl : ∀ x ∈ data, x < B) (hb : nat data < B ^ n) :
    ∃ k, scan data n = some k ∧ k ≤ n ∧ nat data < B ^ k ∧ (k = 0 ∨ B ^ (k - 1) ≤ nat data) := by
  obtain ⟨k, e, h1, h2, h3⟩ := scan_spec data n hn
  refine ⟨k, e, h1, ?_, ?_⟩
  · have hz : nat (data.drop k) = 0 := by
      rw [nat_zero_iff]
      intro x hx
      obtain ⟨i, hi, rfl⟩ := List.mem_iff_getElem.1 hx
      rw [List.length_drop] at hi
      rw [List.getElem_drop]
      rcases Nat.lt_or_ge (k + i) n with hlt | hge
      · have := h2 (k + i) (by omega) hlt
        rw [List.getElem?_eq_getElem (by omega)] at this
        exact Option.some.inj this
      · have h0 := (nat_zero_iff _).1 (nat_drop_zero data n hb)
        have hm : data[k + i]'(by omega) ∈ data.drop n := by
          rw [List.mem_iff_getElem]
          refine ⟨k + i - n, by rw [List.length_drop]; omega, ?_⟩
          rw [List.getElem_drop]
          congr 1; omega
        exact h0 _ hm
    rw [nat_take_drop data k (by omega), hz]
    have := nat_lt (data.take k) (limbs_take hl)
    rw [List.length_take, Nat.min_eq_left (by omega)] at this
    simpa using this
  · rcases h3 with h3 | ⟨x, hx, hx0⟩
    · exact Or.inl h3
    · by_cases hk : k = 0
      · exact Or.inl hk
      · right
        have e1 := nat_take_succ_top data (k - 1) x hx
        rw [show k - 1 + 1 = k by omega] at e1
        rw [nat_take_drop data k (by omega), e1]
        have : B ^ (k - 1) * 1 ≤ B ^ (k - 1) * x := Nat.mul_le_mul_left _ (by omega)
        omega

/-! ## Comparison loops -/

theorem cmpLoop_spec (d1 d2 : List Nat) (h1 : ∀ x ∈ d1, x < B) (h2 : ∀ x ∈ d2, x < B) : ∀ n, n ≤ d1.length → n ≤ d2.length →
    ∃ c, cmpLoop d1 d2 n = some c ∧ (c = 0 ↔ nat (d1.take n) = nat (d2.take n)) ∧ (c < 0 ↔ nat (d1.take n) < nat (d2.take n)) ∧
      (0 < c ↔ nat (d2.take n) < nat (d1.take n)) := by
  intro n
  induction n with
  | zero => intro _ _; exact ⟨0, rfl, by simp [nat]⟩
  | succ n ih =>
    intro hn1 hn2
    have e1 := nat_take_succ_top d1 n _ (List.getElem?_eq_getElem (show n < d1.length by omega))
    have e2 := nat_take_succ_top d2 n _ (List.getElem?_eq_getElem (show n < d2.length by omega))
    have l1 := nat_lt (d1.take n) (limbs_take h1)
    have l2 := nat_lt (d2.take n) (limbs_take h2)
    rw [List.length_take, Nat.min_eq_left (by omega)] at l1 l2
    simp only [cmpLoop, List.getElem?_eq_getElem (show n < d1.length by omega), List.getElem?_eq_getElem (show n < d2.length by omega),
      Option.bind_eq_bind, Option.bind_some]
    rw [e1, e2]
    generalize d1[n] = a
    generalize d2[n] = b
    have mono : ∀ a b : Nat, a < b → ∀ x y : Nat, x < B ^ n → x + B ^ n * a < y + B ^ n * b := by
      intro a b hab x y hx
      have : B ^ n * (a + 1) ≤ B ^ n * b := Nat.mul_le_mul_left _ hab
      rw [Nat.mul_add, Nat.mul_one] at this
      omega
    rcases Nat.lt_trichotomy a b with h | h | h
    · have := mono a b h _ (nat (d2.take n)) l1
      rw [if_neg (by omega), if_pos h]
      exact ⟨-1, rfl, by omega⟩
    · subst h
      rw [if_neg (by omega), if_neg (by omega)]
      obtain ⟨c, e, i1, i2, i3⟩ := ih (by omega) (by omega)
      exact ⟨c, e, by omega⟩
    · have := mono b a h _ (nat (d1.take n)) l2
      rw [if_pos h]
      exact ⟨1, rfl, by omega⟩

theorem cmpLoop_mag {a b : Bn} (ha : Wf a) (hb : Wf b) (hl : a.length = b.length) :
    ∃ c, cmpLoop a.data b.data a.length = some c ∧ (c = 0 ↔ mag a = mag b) ∧ (c < 0 ↔ mag a < mag b) ∧ (0 < c ↔ mag b < mag a) := by
  have h1 := wf_length_le ha
  obtain ⟨c, e, h⟩ := cmpLoop_spec a.data b.data ha.limbs hb.limbs a.length (by rw [ha.size]; exact h1) (by rw [hb.size]; exact h1)
  rw [nat_take_of_lt a.data a.length ha.below, nat_take_of_lt b.data a.length (by rw [hl]; exact hb.below)] at h
  exact ⟨c, e, h⟩

end Verif.Bn
