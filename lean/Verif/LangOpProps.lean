import Verif.LangOp
import Mathlib.Tactic.Linarith
import Mathlib.Tactic.NormNum

/-!
# What the operators of the script language satisfy

Spec: the mathematical integers with truncating division, the order of the rational numbers, and the
usual laws between operators.
-/
namespace Verif.LangOp

open Verif.Lang (BOp AOp UOp IOp)

/-- The opposite answer. -/
def R.no : R V → R V
  | .ok (.bool b) => .ok (.bool (!b))
  | r => r

theorem toInt_fits (i : BitVec 64) : Fits i.toInt := by
  have h1 := BitVec.le_two_mul_toInt (x := i)
  have h2 := BitVec.two_mul_toInt_lt (x := i)
  unfold Fits; constructor <;> omega

theorem ofInt_toInt (n : Int) (h : Fits n) : (BitVec.ofInt 64 n).toInt = n := by
  rw [BitVec.toInt_ofInt]
  unfold Fits at h
  exact Int.bmod_eq_of_le (by omega) (by omega)

/-! ### Comparisons -/

/-- `!=` is the negation of `==`, for all values. -/
theorem ne_negates (a b : V) : bin .ne a b = (bin .eq a b).no := by
  cases a with
  | nil => simp [bin, binNil, R.no]
  | bool x => simp [bin, binBool, R.no]
  | int i =>
    cases b <;> simp [bin, binInt, odd, R.no, ints, toInt]
    split <;> simp
  | real r => cases b <;> simp [bin, binReal, odd, R.no]

/-- `a > b` is `b < a`, for all values. -/
theorem gt_flips (a b : V) : bin .gt a b = bin .lt b a := by
  cases a <;> cases b <;> simp [bin, binInt, binReal, binBool, binNil, odd, isReal, ints, toInt, toReal] <;> rfl

/-- `a >= b` is `b <= a`, for all values. -/
theorem ge_flips (a b : V) : bin .ge a b = bin .le b a := by
  cases a <;> cases b <;> simp [bin, binInt, binReal, binBool, binNil, odd, isReal, ints, toInt, toReal] <;> rfl

/-- `a <= b` is the negation of `a > b`, for all values (errors are the same). -/
theorem le_negates (a b : V) : bin .le a b = (bin .gt a b).no := by
  cases a <;> cases b <;> simp [bin, binInt, binReal, binBool, binNil, odd, isReal, ints, toInt, toReal, R.no] <;>
    (rw [Bool.eq_iff_iff]; simp) <;> exact decide_eq_true_iff

/-- Numbers are ordered as numbers, whichever of the two types they have. -/
theorem lt_exact (a b : V) (ha : odd a = false) (hb : odd b = false) : bin .lt a b = .ok (.bool (toReal a < toReal b)) := by
  cases a <;> cases b <;> simp_all [bin, binInt, binReal, odd, isReal, ints, toInt, toReal]

/-- `a == a` is true for every value. -/
theorem eq_self (a : V) : bin .eq a a = .ok (.bool true) := by
  cases a <;> simp_all [bin, binInt, binReal, binBool, binNil, odd, ints, toInt]

/-- Two values of the same type are equal exactly if they are the same. -/
theorem eq_same_type (a b : V) (h : isReal a = isReal b) : bin .eq a b = .ok (.bool (a = b)) := by
  cases a <;> cases b <;> simp_all [bin, binInt, binReal, binBool, binNil, odd, ints, toInt, toReal, isReal]
  all_goals first
    | exact BitVec.toInt_inj
    | rfl
    | exact eq_comm

/-- An integer on the left of `==` cuts the real on the right. -/
theorem eq_int_real (i : BitVec 64) (r : Rat) (h : Fits (trunc r)) : bin .eq (.int i) (.real r) = .ok (.bool (i.toInt = trunc r)) := by
  simp [bin, binInt, odd, ints, toInt, h]

/-- A real on the left compares exactly. -/
theorem eq_real_int (i : BitVec 64) (r : Rat) : bin .eq (.real r) (.int i) = .ok (.bool (r = i.toInt)) := by
  simp only [bin, binReal, odd, toReal, Bool.false_eq_true, if_false, R.ok.injEq, V.bool.injEq]
  rfl

theorem trunc_int (n : Int) : trunc (n : Rat) = n := by
  unfold trunc
  split
  · exact Int.floor_intCast n
  · rw [← Int.cast_neg, Int.floor_intCast, Int.neg_neg]

/-- `==` is not symmetric: for every real that is no integer (and in range), the integer it is cut to
is equal to it from the left, but not from the right. -/
theorem eq_not_symmetric (r : Rat) (h : Fits (trunc r)) (hr : r ≠ trunc r) :
    bin .eq (.int (BitVec.ofInt 64 (trunc r))) (.real r) = .ok (.bool true) ∧
    bin .eq (.real r) (.int (BitVec.ofInt 64 (trunc r))) = .ok (.bool false) := by
  rw [eq_int_real _ r h, eq_real_int, ofInt_toInt _ h]
  simp [hr]

/-- These are the only cases where `==` is not symmetric. -/
theorem eq_symmetric_partial (a b : V) (h : ∀ r : Rat, (a = .real r ∨ b = .real r) → Fits (trunc r) ∧ r = trunc r) : bin .eq a b = bin .eq b a := by
  have key : ∀ (i : BitVec 64) (r : Rat), Fits (trunc r) → r = trunc r → bin .eq (.int i) (.real r) = bin .eq (.real r) (.int i) := by
    intro i r h1 h2
    rw [eq_int_real i r h1, eq_real_int]
    have : (i.toInt = trunc r) ↔ (r = i.toInt) := by
      constructor
      · intro e; rw [e]; exact h2
      · intro e; rw [e, trunc_int]
    simp [this]
  cases a with
  | nil => cases b <;> simp [bin, binInt, binReal, binBool, binNil, odd]
  | bool x =>
    cases b <;> simp [bin, binInt, binReal, binBool, binNil, odd]
    rw [Bool.eq_iff_iff]; simp; exact eq_comm
  | int i =>
    cases b with
    | nil => simp [bin, binInt, binNil, odd]
    | bool x => simp [bin, binInt, binBool, odd]
    | int j => rw [eq_same_type (.int i) (.int j) rfl, eq_same_type (.int j) (.int i) rfl]; simp [eq_comm]
    | real r => exact key i r (h r (Or.inr rfl)).1 (h r (Or.inr rfl)).2
  | real r =>
    cases b with
    | nil => simp [bin, binReal, binNil, odd]
    | bool x => simp [bin, binReal, binBool, odd]
    | int i => exact (key i r (h r (Or.inl rfl)).1 (h r (Or.inl rfl)).2).symm
    | real s => rw [eq_same_type (.real r) (.real s) rfl, eq_same_type (.real s) (.real r) rfl]; simp [eq_comm]

theorem trunc_lt (r : Rat) (h0 : 0 ≤ r) (hr : r ≠ trunc r) : (trunc r : Rat) < r := by
  have e : trunc r = ⌊r⌋ := by unfold trunc; rw [if_pos h0]
  rw [e] at hr ⊢
  exact lt_of_le_of_ne (Int.floor_le r) (Ne.symm hr)

/-- For a positive real that is no integer, the integer below it is both equal to it and less than
it. -/
theorem eq_and_lt (r : Rat) (h0 : 0 ≤ r) (h : Fits (trunc r)) (hr : r ≠ trunc r) :
    bin .eq (.int (BitVec.ofInt 64 (trunc r))) (.real r) = .ok (.bool true) ∧
    bin .lt (.int (BitVec.ofInt 64 (trunc r))) (.real r) = .ok (.bool true) := by
  refine ⟨(eq_not_symmetric r h hr).1, ?_⟩
  rw [lt_exact _ _ rfl rfl]
  simp only [toReal, ofInt_toInt _ h]
  simp [trunc_lt r h0 hr]

/-- Values of the same number type: exactly one of `<`, `==`, `>` holds. -/
theorem trichotomy_partial (a b : V) (ha : odd a = false) (hb : odd b = false) (h : isReal a = isReal b) :
    ∃ l e g : Bool, bin .lt a b = .ok (.bool l) ∧ bin .eq a b = .ok (.bool e) ∧ bin .gt a b = .ok (.bool g) ∧
      ((l = true ∧ e = false ∧ g = false) ∨ (l = false ∧ e = true ∧ g = false) ∨ (l = false ∧ e = false ∧ g = true)) := by
  have inj : toReal a = toReal b ↔ a = b := by
    cases a <;> cases b <;> simp_all [toReal, isReal, odd, BitVec.toInt_inj]
  refine ⟨_, _, decide (toReal b < toReal a), lt_exact a b ha hb, eq_same_type a b h, ?_, ?_⟩
  · rw [gt_flips, lt_exact b a hb ha]
  · rcases lt_trichotomy (toReal a) (toReal b) with hl | he | hg
    · left
      have : a ≠ b := fun e => by rw [e] at hl; exact lt_irrefl _ hl
      exact ⟨decide_eq_true hl, decide_eq_false this, decide_eq_false (not_lt.2 hl.le)⟩
    · right; left
      exact ⟨decide_eq_false (by rw [he]; exact lt_irrefl _), decide_eq_true (inj.1 he), decide_eq_false (by rw [he]; exact lt_irrefl _)⟩
    · right; right
      have : a ≠ b := fun e => by rw [e] at hg; exact lt_irrefl _ hg
      exact ⟨decide_eq_false (not_lt.2 hg.le), decide_eq_false this, decide_eq_true hg⟩

/-- Comparing an integer with a real out of the range of mln_s64_t by `==` is undefined. -/
theorem eq_large_undefined (i : BitVec 64) (r : Rat) (h : ¬ Fits (trunc r)) : bin .eq (.int i) (.real r) = .ub := by
  simp [bin, binInt, odd, ints, toInt, h]

/-! ### Arithmetic on integers -/

/-- The exact result of an operator on integers. -/
def exact : BOp → Int → Int → Int
  | .add, x, y => x + y
  | .sub, x, y => x - y
  | .mul, x, y => x * y
  | .div, x, y => x.tdiv y
  | .mod, x, y => x.tmod y
  | _, _, _ => 0

/-- `+`, `-`, `*`: the exact result, if it fits; otherwise undefined behaviour. -/
theorem arith_exact (op : BOp) (hop : op = .add ∨ op = .sub ∨ op = .mul) (i j : BitVec 64) :
    (∃ k, bin op (.int i) (.int j) = .ok (.int k) ∧ k.toInt = exact op i.toInt j.toInt ∧ Fits (exact op i.toInt j.toInt)) ∨
    (bin op (.int i) (.int j) = .ub ∧ ¬ Fits (exact op i.toInt j.toInt)) := by
  have e : bin op (.int i) (.int j) = s64 (exact op i.toInt j.toInt) := by
    rcases hop with rfl | rfl | rfl <;> simp [bin, binInt, odd, isReal, ints, toInt, exact]
  rw [e]
  unfold s64
  split
  · rename_i h; left; exact ⟨_, rfl, ofInt_toInt _ h, h⟩
  · rename_i h; right; exact ⟨rfl, h⟩

theorem tdiv_fits (x y : Int) (hx : Fits x) (hy0 : y ≠ 0) (h : ¬ (x = -2 ^ 63 ∧ y = -1)) : Fits (x.tdiv y) := by
  have ha := Int.natAbs_tdiv x y
  have hb : (x.tdiv y).natAbs ≤ x.natAbs := by rw [ha]; exact Nat.div_le_self _ _
  unfold Fits at *
  by_cases hm : x = -2 ^ 63
  · have hy1 : y ≠ -1 := fun e => h ⟨hm, e⟩
    by_cases h1 : y = 1
    · subst h1; rw [Int.tdiv_one]; exact hx
    · have hb2 : (x.tdiv y).natAbs ≤ x.natAbs / 2 := by
        rw [ha]; exact Nat.div_le_div_left (by omega) (by omega)
      omega
  · omega

/-- Division and remainder of integers: the truncated quotient and the remainder belonging to it. -/
theorem div_mod_exact (i j : BitVec 64) (h0 : j ≠ 0) (h : ¬ (i.toInt = -2 ^ 63 ∧ j.toInt = -1)) :
    ∃ q m : BitVec 64, bin .div (.int i) (.int j) = .ok (.int q) ∧ bin .mod (.int i) (.int j) = .ok (.int m) ∧
      q.toInt * j.toInt + m.toInt = i.toInt ∧ m.toInt.natAbs < j.toInt.natAbs ∧ (0 ≤ i.toInt → 0 ≤ m.toInt) ∧ (i.toInt ≤ 0 → m.toInt ≤ 0) := by
  have hj : j.toInt ≠ 0 := by
    intro e; exact h0 (BitVec.toInt_inj.1 (by rw [e]; rfl))
  have hd := tdiv_fits _ _ (toInt_fits i) hj h
  have key := Int.mul_tdiv_add_tmod i.toInt j.toInt
  have habs : (i.toInt.tmod j.toInt).natAbs < j.toInt.natAbs := by
    rw [Int.natAbs_tmod]; exact Nat.mod_lt _ (by omega)
  have hm : Fits (i.toInt.tmod j.toInt) := by
    have := toInt_fits j; unfold Fits at *; omega
  refine ⟨BitVec.ofInt 64 (i.toInt.tdiv j.toInt), BitVec.ofInt 64 (i.toInt.tmod j.toInt), ?_, ?_, ?_, ?_, ?_, ?_⟩
  · simp [bin, binInt, odd, isReal, ints, toInt, divI, hj, s64, hd]
  · simp [bin, binInt, odd, isReal, ints, toInt, modI, hj, s64, hd, hm]
  · rw [ofInt_toInt _ hd, ofInt_toInt _ hm, Int.mul_comm]; exact key
  · rw [ofInt_toInt _ hm]; exact habs
  · rw [ofInt_toInt _ hm]; exact fun hx => Int.tmod_nonneg _ hx
  · rw [ofInt_toInt _ hm]
    intro hx
    have := Int.tmod_nonneg j.toInt (a := -i.toInt) (by omega)
    rw [Int.neg_tmod] at this; omega

/-- Division by zero is an error, for every left operand that is a number. -/
theorem div_zero (a : V) (ha : odd a = false) : bin .div a (.int 0) = .err ∧ bin .mod a (.int 0) = .err ∧ bin .div a (.real 0) = .err := by
  cases a <;> simp_all [bin, binInt, binReal, odd, isReal, ints, toInt, divI, modI, divR, toReal]

/-- The one quotient that is undefined. -/
theorem div_min_undefined : bin .div (.int (BitVec.ofInt 64 (-2 ^ 63))) (.int (BitVec.ofInt 64 (-1))) = .ub ∧
    bin .mod (.int (BitVec.ofInt 64 (-2 ^ 63))) (.int (BitVec.ofInt 64 (-1))) = .ub := by decide +kernel

/-- Every shift by a negative count or by 64 and more is undefined. -/
theorem shift_undefined (i j : BitVec 64) (h : j.toInt < 0 ∨ 64 ≤ j.toInt) : bin .shl (.int i) (.int j) = .ub ∧ bin .shr (.int i) (.int j) = .ub := by
  have : (j.toInt < 0 ∨ 64 ≤ j.toInt ∨ i.toInt < 0) := by omega
  simp [bin, binInt, odd, isReal, ints, toInt, shl, shr, this, h]

/-- In range, `>>` is division by a power of two, rounded down. -/
theorem shr_exact (i j : BitVec 64) (h : 0 ≤ j.toInt ∧ j.toInt < 64) : ∃ k : BitVec 64, bin .shr (.int i) (.int j) = .ok (.int k) ∧ k.toInt = i.toInt / 2 ^ j.toInt.toNat := by
  have hf : Fits (i.toInt / 2 ^ j.toInt.toNat) := by
    have hi := toInt_fits i
    generalize i.toInt = x at *
    have hp : (1 : Int) ≤ 2 ^ j.toInt.toNat := Int.pow_pos (by omega)
    generalize (2 : Int) ^ j.toInt.toNat = p at *
    unfold Fits at *
    constructor
    · rw [Int.le_ediv_iff_mul_le (by omega)]; nlinarith
    · rw [Int.ediv_lt_iff_lt_mul (by omega)]; nlinarith
  refine ⟨_, ?_, ofInt_toInt _ hf⟩
  simp only [bin, binInt, odd, isReal, ints, toInt, shr, Bool.or_self, Bool.false_eq_true, if_false]
  rw [if_neg (by omega)]

/-! ### Compound assignments -/

/-- The binary operator belonging to an assignment. -/
def AOp.bop : AOp → BOp
  | .add => .add | .sub => .sub | .shl => .shl | .shr => .shr | .mul => .mul
  | .div => .div | .or => .cor | .and => .cand | .xor => .cxor | .mod => .mod

/-- `a op= b` is `a = a op b` for two integers and every operator, and for all numbers and `+`, `-`,
`*`, `/`. -/
theorem compound_agrees_partial (op : AOp) (a b : V) (ha : odd a = false) (hb : odd b = false)
    (h : (isReal a = false ∧ isReal b = false) ∨ op = .add ∨ op = .sub ∨ op = .mul ∨ op = .div) : asg op a b = bin (AOp.bop op) a b := by
  cases a <;> cases b <;> cases op <;>
    simp_all [asg, bin, asgInt, asgReal, binInt, binReal, odd, isReal, AOp.bop, ints, toInt, toReal, modI]

/-- `i += b` with a boolean adds 0 or 1, while `i + b` is an error. -/
theorem compound_bool (i : BitVec 64) (b : Bool) (h : Fits (i.toInt + (if b then 1 else 0))) :
    bin .add (.int i) (.bool b) = .err ∧ ∃ k : BitVec 64, asg .add (.int i) (.bool b) = .ok (.int k) ∧ k.toInt = i.toInt + (if b then 1 else 0) := by
  have e : ∀ n : Int, toInt (.bool b) = .ok n → asg .add (.int i) (.bool b) = s64 (i.toInt + n) := by
    intro n hn
    rw [show asg .add (.int i) (.bool b) = ints (.int i) (.bool b) fun x y => s64 (x + y) from rfl]
    unfold ints
    rw [hn]
    rfl
  rw [e _ rfl]
  generalize (i.toInt + if b = true then 1 else 0) = n at h
  refine ⟨rfl, BitVec.ofInt 64 n, ?_, ofInt_toInt _ h⟩
  unfold s64
  rw [if_pos h]

/-- `r %= i`, `r <<= i`, `r |= i` … make an integer of a real, while `r % i`, `r << i`, `r | i` are
errors. -/
theorem compound_real (op : AOp) (hop : op ≠ .add ∧ op ≠ .sub ∧ op ≠ .mul ∧ op ≠ .div) (r : Rat) (i : BitVec 64) (hr : Fits (trunc r)) (h0 : i ≠ 0) :
    bin (AOp.bop op) (.real r) (.int i) = .err ∧
    asg op (.real r) (.int i) = bin (AOp.bop op) (.int (BitVec.ofInt 64 (trunc r))) (.int i) := by
  have hi : i.toInt ≠ 0 := by
    intro e; exact h0 (BitVec.toInt_inj.1 (by rw [e]; rfl))
  have e := ofInt_toInt _ hr
  cases op <;> simp_all [asg, bin, asgInt, binInt, binReal, odd, isReal, AOp.bop, ints, toInt]

/-! ### Negation -/

/-- `!v` is the opposite of the truth of `v` in a condition, except for reals that are almost 0. -/
theorem not_opposite_partial (v : V) (h : ∀ r : Rat, v = .real r → r = 0 ∨ 22204460492503131 / 10 ^ 32 < |r|) : un .not v = .ok (.bool (!truth v)) := by
  cases v with
  | nil => rfl
  | bool b => rfl
  | int i => simp [un, truth]
  | real r =>
    have h' := h r rfl
    simp only [un, truth, R.ok.injEq, V.bool.injEq]
    rw [Bool.eq_iff_iff]
    simp only [decide_eq_true_eq, Bool.not_eq_true', decide_eq_false_iff_not, not_or, not_lt, gt_iff_lt]
    rcases h' with rfl | h'
    · norm_num
    · rw [lt_abs] at h'
      constructor
      · intro e; rw [e] at h'; norm_num at h'
      · intro e; exfalso; rcases h' with h' | h' <;> linarith [e.1, e.2]

/-- For those, both `if (r)` and `if (!r)` take the other branch. -/
theorem not_both (r : Rat) (h0 : r ≠ 0) (h : |r| ≤ 22204460492503131 / 10 ^ 32) : truth (.real r) = false ∧ ∃ v, un .not (.real r) = .ok v ∧ truth v = false := by
  rw [abs_le] at h
  refine ⟨?_, .bool (decide (r = 0)), rfl, ?_⟩
  · simp only [truth, decide_eq_false_iff_not, not_or, not_lt, gt_iff_lt]
    exact h
  · simp [truth, h0]

/-! ### Increment and decrement -/

/-- `x++` followed by `x--` restores the variable, and gives its value. -/
theorem inc_dec (a v w : V) (h : inc .sinc a = .ok (v, w)) : w = a ∧ inc .pdec v = .ok (a, a) := by
  cases a with
  | nil => cases h
  | bool b => cases h
  | real r =>
    simp [inc, step, delta, post] at h
    obtain ⟨rfl, rfl⟩ := h
    refine ⟨rfl, ?_⟩
    simp [inc, step, delta, post]
  | int i =>
    by_cases hf : Fits (i.toInt + 1)
    · simp [inc, step, delta, post, s64, hf] at h
      obtain ⟨rfl, rfl⟩ := h
      refine ⟨rfl, ?_⟩
      have e := ofInt_toInt _ hf
      have e2 : i.toInt + 1 + -1 = i.toInt := by omega
      simp [inc, step, delta, post, e, e2, s64, toInt_fits]
    · simp [inc, step, delta, s64, hf] at h

/-! ### Examples -/

example : bin .eq (.int 1) (.real (3 / 2)) = .ok (.bool true) ∧ bin .eq (.real (3 / 2)) (.int 1) = .ok (.bool false) ∧
    bin .lt (.int 1) (.real (3 / 2)) = .ok (.bool true) := by decide +kernel
example : bin .div (.int (BitVec.ofInt 64 (-7))) (.int 2) = .ok (.int (BitVec.ofInt 64 (-3))) ∧
    bin .mod (.int (BitVec.ofInt 64 (-7))) (.int 2) = .ok (.int (BitVec.ofInt 64 (-1))) := by decide +kernel
example : bin .add (.int (BitVec.ofInt 64 (2 ^ 63 - 1))) (.int 1) = .ub := by decide +kernel
example : asg .add (.int 41) (.bool true) = .ok (.int 42) ∧ bin .add (.int 41) (.bool true) = .err := by decide +kernel
example : asg .shl (.real (5 / 2)) (.int 1) = .ok (.int 4) ∧ bin .shl (.real (5 / 2)) (.int 1) = .err := by decide +kernel
example : truth (.real (1 / 10 ^ 17)) = false ∧ un .not (.real (1 / 10 ^ 17)) = .ok (.bool false) := by decide +kernel
example : bin .shr (.int (BitVec.ofInt 64 (-5))) (.int 1) = .ok (.int (BitVec.ofInt 64 (-3))) := by decide +kernel

end Verif.LangOp
