import Verif.Asn1
import Mathlib.Tactic.Ring
import Mathlib.Data.Nat.Digits.Defs
import Mathlib.Data.Nat.Digits.Lemmas

/-
DER decoding stays in bounds (C45) and inverts encoding (C46).
-/

namespace Verif.Asn1

/-! ### Bounds -/

theorem slice_ok (mem : List Nat) (p n : Nat) (h : p + n ≤ mem.length) : slice mem p n = some ((mem.drop p).take n) := by
  unfold slice; rw [if_pos h]

/-- The header reader never leaves the buffer, and what it accepts lies in it. -/
theorem header_safe (sh : Nat → Nat → Nat) (mem : List Nat) (p codeLen : Nat) (h : p + codeLen ≤ mem.length) :
    ∃ out, header sh mem p codeLen = some out ∧
      ∀ cls struc ident q length, out = .ok (cls, struc, ident, q, length) → p + 2 ≤ q ∧ q + length ≤ p + codeLen := by
  unfold header
  simp only
  by_cases hl : codeLen < 2
  · rw [if_pos hl]; exact ⟨_, rfl, fun _ _ _ _ _ h => by cases h⟩
  · rw [if_neg hl, List.getElem?_eq_getElem (show p < mem.length by omega), List.getElem?_eq_getElem (show p + 1 < mem.length by omega)]
    simp only [Option.bind_eq_bind, Option.bind_some]
    generalize mem[p] = c0
    generalize mem[p + 1] = c1
    by_cases h80 : c1 &&& 0x80 ≠ 0
    · rw [if_pos h80]
      generalize c1 &&& 0x7f = n
      by_cases hn : n > 8
      · rw [if_pos hn]; exact ⟨_, rfl, fun _ _ _ _ _ h => by cases h⟩
      · rw [if_neg hn]
        by_cases he : p + 2 + n ≥ p + codeLen
        · rw [if_pos he]; exact ⟨_, rfl, fun _ _ _ _ _ h => by cases h⟩
        · rw [if_neg he, slice_ok _ _ _ (by omega)]
          simp only [Option.bind_some]
          generalize lenVal sh _ 0 = length
          by_cases hf : p + codeLen - (p + 2 + n) < length
          · rw [if_pos hf]; exact ⟨_, rfl, fun _ _ _ _ _ h => by cases h⟩
          · rw [if_neg hf]
            refine ⟨_, rfl, fun _ _ _ _ _ h => ?_⟩
            cases h
            omega
    · rw [if_neg h80]
      by_cases hf : p + codeLen - (p + 2) < c1
      · rw [if_pos hf]; exact ⟨_, rfl, fun _ _ _ _ _ h => by cases h⟩
      · rw [if_neg hf]
        refine ⟨_, rfl, fun _ _ _ _ _ h => ?_⟩
        cases h
        omega

/-- Spec: the node occupies bytes between `lo` and `hi`, and each child lies inside it. -/
inductive Inside : Nat → Nat → Node → Prop
  | mk (lo hi off len cls : Nat) (struc : Bool) (ident : Nat) (kids : List Node) : lo ≤ off → off + len ≤ hi →
      (∀ k ∈ kids, Inside off (off + len) k) → Inside lo hi (.mk off len cls struc ident kids)

theorem Inside.mono {lo hi lo' hi' : Nat} {n : Node} (h : Inside lo hi n) (h1 : lo' ≤ lo) (h2 : hi ≤ hi') : Inside lo' hi' n := by
  cases h with
  | mk _ _ off len cls struc ident kids a b c => exact .mk _ _ _ _ _ _ _ _ (by omega) (by omega) c

theorem decode_contents_safe (sh : Nat → Nat → Nat) (mem : List Nat) : ∀ fuel : Nat,
    (∀ p codeLen, p + codeLen ≤ mem.length → 2 * codeLen < fuel → ∃ out, decode sh mem fuel p codeLen = some out ∧
      ∀ n p' len', out = .ok (n, p', len') → p + 2 ≤ p' ∧ p' + len' = p + codeLen ∧ Inside p p' n) ∧
    (∀ p length acc, p + length ≤ mem.length → 2 * length + 1 < fuel → ∃ out, contents sh mem fuel p length acc = some out ∧
      ∀ ns p', out = .ok (ns, p') → p' = p + length ∧ ∃ ms, ns = acc ++ ms ∧ ∀ m ∈ ms, Inside p (p + length) m) := by
  intro fuel
  induction fuel with
  | zero => exact ⟨fun _ _ _ h => by omega, fun _ _ _ _ h => by omega⟩
  | succ fuel ih =>
    obtain ⟨ihd, ihc⟩ := ih
    constructor
    · intro p codeLen hb hf
      obtain ⟨out, e, hout⟩ := header_safe sh mem p codeLen hb
      unfold decode
      rw [e]
      simp only [Option.bind_eq_bind, Option.bind_some]
      match out with
      | .error e => exact ⟨_, rfl, fun _ _ _ h => by cases h⟩
      | .ok (cls, struc, ident, q, length) =>
        obtain ⟨h1, h2⟩ := hout cls struc ident q length rfl
        simp only
        cases struc with
        | true =>
          rw [if_pos rfl]
          obtain ⟨out, e, hc⟩ := ihc q length [] (by omega) (by omega)
          rw [e]
          simp only [Option.bind_some]
          match out with
          | .error e => exact ⟨_, rfl, fun _ _ _ h => by cases h⟩
          | .ok (ns, p') =>
            obtain ⟨hp', ms, hms, hin⟩ := hc ns p' rfl
            refine ⟨_, rfl, fun _ _ _ h => ?_⟩
            cases h
            refine ⟨by omega, by omega, .mk _ _ _ _ _ _ _ _ (by omega) (by omega) ?_⟩
            intro k hk
            rw [hms, List.nil_append] at hk
            exact (hin k hk).mono (by omega) (by omega)
        | false =>
          rw [if_neg (by simp)]
          refine ⟨_, rfl, fun _ _ _ h => ?_⟩
          cases h
          refine ⟨by omega, by omega, .mk _ _ _ _ _ _ _ _ (by omega) (by omega) ?_⟩
          intro k hk
          rw [List.mem_singleton] at hk
          rw [hk]
          exact .mk _ _ _ _ _ _ _ _ (by omega) (by omega) (by intro k hk; cases hk)
    · intro p length acc hb hf
      unfold contents
      by_cases hl : length = 0
      · rw [if_pos hl]
        refine ⟨_, rfl, fun _ _ h => ?_⟩
        cases h
        exact ⟨by omega, [], by simp, by intro m hm; cases hm⟩
      · rw [if_neg hl]
        obtain ⟨out, e, hd⟩ := ihd p length hb (by omega)
        rw [e]
        simp only [Option.bind_eq_bind, Option.bind_some]
        match out with
        | .error e => exact ⟨_, rfl, fun _ _ h => by cases h⟩
        | .ok (n, p', len') =>
          obtain ⟨h1, h2, h3⟩ := hd n p' len' rfl
          simp only
          obtain ⟨out, e, hc⟩ := ihc p' len' (acc ++ [n]) (by omega) (by omega)
          refine ⟨out, e, fun ns q h => ?_⟩
          obtain ⟨hq, ms, hms, hin⟩ := hc ns q h
          refine ⟨by omega, n :: ms, by rw [hms]; simp, ?_⟩
          intro m hm
          rcases List.mem_cons.1 hm with hm | hm
          · rw [hm]; exact h3.mono (by omega) (by omega)
          · exact (hin m hm).mono (by omega) (by omega)

/-- **C45.** On every byte string decoding terminates and reads only inside it (the result is
not `none`), whatever the undefined length shifts yield; every node of the result lies inside
its parent's bytes, and the root inside the buffer. -/
theorem decode_safe (sh : Nat → Nat → Nat) (mem : List Nat) : ∃ out, decodeBuf sh mem = some out ∧
    ∀ n p' len', out = .ok (n, p', len') → 2 ≤ p' ∧ p' + len' = mem.length ∧ Inside 0 p' n := by
  obtain ⟨out, e, h⟩ := (decode_contents_safe sh mem (2 * mem.length + 2)).1 0 mem.length (by omega) (by omega)
  refine ⟨out, e, fun n p' len' ho => ?_⟩
  obtain ⟨h1, h2, h3⟩ := h n p' len' ho
  exact ⟨by omega, by omega, h3⟩

/-- The undefined shift is reachable: a header with five length bytes asks for it, so the
accepted length is whatever the compiler makes of it. -/
theorem length_shift_undefined (q0 q1 q2 q3 q4 : Nat) (v : Nat) : ∃ sh, lenVal sh [q0, q1, q2, q3, q4] 0 = lenVal sh [q1, q2, q3, q4] (v % 18446744073709551616) := by
  refine ⟨fun _ _ => v, ?_⟩
  simp [lenVal, shl]

/-! ### The length octets -/

/-- Spec: DER length octets, X.690 8.1.3 and 10.1: short form below 128, else the minimal
big-endian digits with their number. -/
def derLen (n : Nat) : List Nat :=
  if n < 128 then [n] else (128 + (Nat.digits 256 n).length) :: (Nat.digits 256 n).reverse

theorem and_ff (n : Nat) : n &&& 0xff = n % 256 := Nat.and_two_pow_sub_one_eq_mod _ 8

theorem digits_step (n : Nat) (h : 0 < n) : Nat.digits 256 n = (n % 256) :: Nat.digits 256 (n / 256) := Nat.digits_def' (by norm_num) h

set_option maxRecDepth 4000 in
/-- The encoder writes the DER length octets, for every 64-bit length, and calculates their
number right. -/
theorem lengthFill_spec (n : Nat) (h : n < 18446744073709551616) : lengthFill n = derLen n ∧ lengthCalc n = n + 1 + (lengthFill n).length := by
  unfold lengthFill lengthCalc derLen
  simp only [and_ff, Nat.shiftRight_eq_div_pow]
  by_cases h1 : n > 127
  swap
  · rw [if_neg h1, if_pos (show n < 128 by omega), if_neg h1]; exact ⟨rfl, rfl⟩
  rw [if_pos h1, if_neg (show ¬ n < 128 by omega), if_pos h1, digits_step n (by omega)]
  by_cases h2 : n > 0xff
  swap
  · rw [if_neg h2, if_neg h2, Nat.div_eq_of_lt (by omega)]
    rw [Nat.mod_eq_of_lt (show n < 256 by omega)]
    simp
  rw [if_pos h2, if_pos h2, digits_step (n / 256) (by omega)]
  by_cases h3 : n > 0xffff
  swap
  · rw [if_neg h3, if_neg h3, show n / 256 / 256 = 0 by omega]
    simp [Nat.div_div_eq_div_mul]
  rw [if_pos h3, if_pos h3, digits_step (n / 256 / 256) (by omega)]
  by_cases h4 : n > 0xffffff
  swap
  · rw [if_neg h4, if_neg h4, show n / 256 / 256 / 256 = 0 by omega]
    simp [Nat.div_div_eq_div_mul]
  rw [if_pos h4, if_pos h4, digits_step (n / 256 / 256 / 256) (by omega)]
  by_cases h5 : n > 0xffffffff
  swap
  · rw [if_neg h5, if_neg h5, show n / 256 / 256 / 256 / 256 = 0 by omega]
    simp [Nat.div_div_eq_div_mul]
  rw [if_pos h5, if_pos h5, digits_step (n / 256 / 256 / 256 / 256) (by omega)]
  by_cases h6 : n > 0xffffffffff
  swap
  · rw [if_neg h6, if_neg h6, show n / 256 / 256 / 256 / 256 / 256 = 0 by omega]
    simp [Nat.div_div_eq_div_mul]
  rw [if_pos h6, if_pos h6, digits_step (n / 256 / 256 / 256 / 256 / 256) (by omega)]
  by_cases h7 : n > 0xffffffffffff
  swap
  · rw [if_neg h7, if_neg h7, show n / 256 / 256 / 256 / 256 / 256 / 256 = 0 by omega]
    simp [Nat.div_div_eq_div_mul]
  rw [if_pos h7, if_pos h7, digits_step (n / 256 / 256 / 256 / 256 / 256 / 256) (by omega)]
  by_cases h8 : n > 0xffffffffffffff
  swap
  · rw [if_neg h8, if_neg h8, show n / 256 / 256 / 256 / 256 / 256 / 256 / 256 = 0 by omega]
    simp [Nat.div_div_eq_div_mul]
  rw [if_pos h8, if_pos h8, digits_step (n / 256 / 256 / 256 / 256 / 256 / 256 / 256) (by omega)]
  rw [show n / 256 / 256 / 256 / 256 / 256 / 256 / 256 / 256 = 0 by omega]
  simp [Nat.div_div_eq_div_mul]

/-- The length octets of fewer than 2^31 bytes: at most four, the top one below 128. -/
theorem digits_shape (n : Nat) (h : n < 2147483648) (h1 : 0 < n) : ((Nat.digits 256 n).reverse.length ≤ 3 ∨ ((Nat.digits 256 n).reverse.length = 4 ∧ (Nat.digits 256 n).reverse.headD 0 < 128)) ∧
    0 < (Nat.digits 256 n).reverse.length := by
  rw [digits_step n h1]
  by_cases h2 : n / 256 = 0
  · rw [h2]; simp
  rw [digits_step (n / 256) (by omega)]
  by_cases h3 : n / 256 / 256 = 0
  · rw [h3]; simp
  rw [digits_step (n / 256 / 256) (by omega)]
  by_cases h4 : n / 256 / 256 / 256 = 0
  · rw [h4]; simp
  rw [digits_step (n / 256 / 256 / 256) (by omega)]
  rw [show n / 256 / 256 / 256 / 256 = 0 by omega]
  simp
  omega

/-- The decoder's length loop reads a big-endian number, as long as no shift is undefined. -/
theorem lenVal_be (sh : Nat → Nat → Nat) : ∀ (l : List Nat) (a : Nat), (∀ x ∈ l, x < 256) → (l.length ≤ 3 ∨ (l.length = 4 ∧ l.headD 0 < 128)) →
    lenVal sh l (a <<< (8 * l.length)) = l.foldl (fun a q => a * 256 + q) a := by
  intro l
  induction l with
  | nil => intro a _ _; simp [lenVal]
  | cons q qs ih =>
    intro a hb hl
    have hq := hb q (by simp)
    simp only [List.length_cons, List.headD_cons] at hl
    unfold lenVal
    have hs : shl sh q (qs.length * 8) = q <<< (qs.length * 8) := by
      unfold shl
      rw [if_pos (by omega)]
    rw [hs, List.foldl_cons, List.length_cons]
    have e : a <<< (8 * (qs.length + 1)) ||| q <<< (qs.length * 8) = (a * 256 + q) <<< (8 * qs.length) := by
      rw [show 8 * (qs.length + 1) = 8 + 8 * qs.length by ring, Nat.shiftLeft_add, Nat.mul_comm qs.length 8, ← Nat.shiftLeft_or_distrib,
        ← Nat.shiftLeft_add_eq_or_of_lt (show q < 2 ^ 8 by omega), Nat.shiftLeft_eq a 8]
    rw [e]
    exact ih _ (fun x hx => hb x (by simp [hx])) (by omega)

theorem lenVal_digits (sh : Nat → Nat → Nat) (n : Nat) (h : n < 2147483648) (h1 : 0 < n) : lenVal sh (Nat.digits 256 n).reverse 0 = n := by
  have e := lenVal_be sh (Nat.digits 256 n).reverse 0 (by
    intro x hx
    exact Nat.digits_lt_base (by norm_num) (List.mem_reverse.1 hx)) (digits_shape n h h1).1
  rw [Nat.zero_shiftLeft] at e
  rw [e, List.foldl_reverse]
  have h2 := Nat.ofDigits_digits 256 n
  rw [Nat.ofDigits_eq_foldr] at h2
  conv_rhs => rw [← h2]
  congr 1
  funext x y
  simp
  ring

/-! ### Trees -/

/-- Spec: a tree of DER values. -/
inductive Tree where
  | prim (cls id : Nat) (bytes : List Nat)
  | cons (cls id : Nat) (kids : List Tree)

mutual
/-- Spec: the DER bytes of a tree. -/
def der : Tree → List Nat
  | .prim c i b => (64 * c + i) :: (derLen b.length ++ b)
  | .cons c i ks => (64 * c + 32 + i) :: (derLen (ders ks).length ++ ders ks)
def ders : List Tree → List Nat
  | [] => []
  | t :: ts => der t ++ ders ts
end

mutual
/-- Spec: classes and (low) tag numbers in range. -/
def Wf : Tree → Prop
  | .prim c i _ => c < 4 ∧ i < 32
  | .cons c i ks => c < 4 ∧ i < 32 ∧ Wfs ks
def Wfs : List Tree → Prop
  | [] => True
  | t :: ts => Wf t ∧ Wfs ts
end

/-- The content of a primitive node: the bytes its only child refers to. -/
def leafBytes (mem : List Nat) : List Node → List Nat
  | [.mk o l _ _ _ _] => (mem.drop o).take l
  | _ => []

mutual
/-- The tree a decoding result stands for. -/
def toTree (mem : List Nat) : Node → Tree
  | .mk _ _ cls struc ident kids =>
    if struc then .cons cls ident (toTrees mem kids)
    else .prim cls ident (leafBytes mem kids)
def toTrees (mem : List Nat) : List Node → List Tree
  | [] => []
  | n :: ns => toTree mem n :: toTrees mem ns
end

theorem toTrees_append (mem : List Nat) (a b : List Node) : toTrees mem (a ++ b) = toTrees mem a ++ toTrees mem b := by
  induction a with
  | nil => rfl
  | cons x xs ih => simp [toTrees, ih]

/-- The bytes a node refers to. -/
def nodeBytes (mem : List Nat) : Node → List Nat
  | .mk off len _ _ _ _ => (mem.drop off).take len

theorem tag_fields : ∀ c < 4, ∀ i < 32, ∀ s < 2, ((64 * c + 32 * s + i) >>> 6) &&& 0x3 = c ∧ ((64 * c + 32 * s + i) >>> 5) &&& 0x1 = s ∧ (64 * c + 32 * s + i) &&& 0x1f = i := by
  decide +kernel

theorem short_byte : ∀ n < 128, n &&& 0x80 = 0 := by decide +kernel
theorem long_byte : ∀ k < 9, (128 + k) &&& 0x80 ≠ 0 ∧ (128 + k) &&& 0x7f = k := by decide +kernel

theorem drop_take_mid (pre mid post : List Nat) : ((pre ++ mid ++ post).drop pre.length).take mid.length = mid := by
  simp

/-- The header reader on the DER tag and length octets. -/
theorem header_der (sh : Nat → Nat → Nat) (pre body post : List Nat) (c i s n codeLen : Nat) (hc : c < 4) (hi : i < 32) (hs : s < 2) (hn : n < 2147483648) (hb : n ≤ body.length)
    (hl : 1 + (derLen n).length + n ≤ codeLen) :
    header sh (pre ++ ((64 * c + 32 * s + i) :: (derLen n ++ body)) ++ post) pre.length codeLen =
      some (.ok (c, s != 0, i, pre.length + 1 + (derLen n).length, n)) := by
  have hpos : 0 < (derLen n).length := by unfold derLen; split <;> simp
  obtain ⟨f1, f2, f3⟩ := tag_fields c hc i hi s hs
  unfold header
  simp only
  rw [if_neg (by omega)]
  have e0 : (pre ++ ((64 * c + 32 * s + i) :: (derLen n ++ body)) ++ post)[pre.length]? = some (64 * c + 32 * s + i) := by simp
  rw [e0]
  simp only [Option.bind_eq_bind, Option.bind_some]
  rw [f1, f2, f3]
  by_cases h128 : n < 128
  · have ed : derLen n = [n] := by unfold derLen; rw [if_pos h128]
    rw [ed]
    have e1 : (pre ++ ((64 * c + 32 * s + i) :: ([n] ++ body)) ++ post)[pre.length + 1]? = some n := by simp
    rw [e1]
    simp only [Option.bind_some]
    rw [if_neg (by rw [short_byte n h128]; simp)]
    rw [ed, List.length_singleton] at hl
    rw [if_neg (by omega)]
    simp
  · have ed : derLen n = (128 + (Nat.digits 256 n).reverse.length) :: (Nat.digits 256 n).reverse := by unfold derLen; rw [if_neg h128, List.length_reverse]
    obtain ⟨hd1, hd2⟩ := digits_shape n hn (by omega)
    have hv := lenVal_digits sh n hn (by omega)
    rw [ed]
    rw [ed] at hl
    generalize (Nat.digits 256 n).reverse = l at *
    have e1 : (pre ++ ((64 * c + 32 * s + i) :: (((128 + l.length) :: l) ++ body)) ++ post)[pre.length + 1]? = some (128 + l.length) := by simp
    rw [e1]
    simp only [Option.bind_some]
    obtain ⟨l1, l2⟩ := long_byte l.length (by omega)
    rw [if_pos l1, l2, if_neg (by omega)]
    rw [List.length_cons] at hl
    rw [if_neg (by omega), slice_ok _ _ _ (by simp; omega)]
    have e2 : ((pre ++ ((64 * c + 32 * s + i) :: (((128 + l.length) :: l) ++ body)) ++ post).drop (pre.length + 2)).take l.length = l := by
      have := drop_take_mid (pre ++ [64 * c + 32 * s + i, 128 + l.length]) l (body ++ post)
      simp only [List.length_append, List.length_cons, List.length_nil] at this
      simpa using this
    rw [e2, Option.bind_some, hv, if_neg (by omega)]
    simp
    omega

theorem der_length_pos (t : Tree) : 2 ≤ (der t).length := by
  have hpos : ∀ n, 0 < (derLen n).length := by intro n; unfold derLen; split <;> simp
  cases t with
  | prim c i b => simp only [der, List.length_cons, List.length_append]; have := hpos b.length; omega
  | cons c i ks => simp only [der, List.length_cons, List.length_append]; have := hpos (ders ks).length; omega

theorem decode_der_aux (sh : Nat → Nat → Nat) (mem : List Nat) : ∀ fuel : Nat,
    (∀ (t : Tree) (pre post : List Nat) (codeLen : Nat), mem = pre ++ der t ++ post → Wf t → (der t).length ≤ codeLen → (der t).length < 2147483648 → 2 * (der t).length < fuel →
      ∃ n, decode sh mem fuel pre.length codeLen = some (.ok (n, pre.length + (der t).length, codeLen - (der t).length)) ∧ toTree mem n = t ∧ nodeBytes mem n = der t) ∧
    (∀ (ts : List Tree) (pre post : List Nat) (acc : List Node), mem = pre ++ ders ts ++ post → Wfs ts → (ders ts).length < 2147483648 → 2 * (ders ts).length + 1 < fuel →
      ∃ ns, contents sh mem fuel pre.length (ders ts).length acc = some (.ok (acc ++ ns, pre.length + (ders ts).length)) ∧ toTrees mem ns = ts) := by
  intro fuel
  induction fuel with
  | zero => exact ⟨fun _ _ _ _ _ _ _ _ h => by omega, fun _ _ _ _ _ _ _ h => by omega⟩
  | succ fuel ih =>
    obtain ⟨ihd, ihc⟩ := ih
    constructor
    · intro t pre post codeLen hm hw hl hn hf
      unfold decode
      cases t with
      | prim c i b =>
        obtain ⟨hc, hi⟩ := hw
        simp only [der, List.length_cons, List.length_append] at hl hn hf hm ⊢
        have hh := header_der sh pre b post c i 0 b.length codeLen hc hi (by omega) (by omega) (by omega) (by omega)
        rw [Nat.mul_zero, Nat.add_zero, ← hm] at hh
        rw [hh]
        simp only [Option.bind_eq_bind, Option.bind_some]
        rw [if_neg (by simp)]
        refine ⟨_, by congr 3; congr 1 <;> omega, ?_, ?_⟩
        · rw [toTree, if_neg (by simp), leafBytes]
          congr 1
          rw [hm]
          have := drop_take_mid (pre ++ (64 * c + i) :: derLen b.length) b post
          simp only [List.length_append, List.length_cons] at this
          rw [← Nat.add_assoc, Nat.add_right_comm] at this
          simpa using this
        · simp only [nodeBytes]
          rw [hm]
          have := drop_take_mid pre ((64 * c + i) :: (derLen b.length ++ b)) post
          rw [show pre.length + 1 + (derLen b.length).length - pre.length + b.length = ((64 * c + i) :: (derLen b.length ++ b)).length by simp; omega]
          exact this
      | cons c i ks =>
        obtain ⟨hc, hi, hk⟩ := hw
        simp only [der, List.length_cons, List.length_append] at hl hn hf hm ⊢
        have hh := header_der sh pre (ders ks) post c i 1 (ders ks).length codeLen hc hi (by omega) (by omega) (by omega) (by omega)
        rw [Nat.mul_one, ← hm] at hh
        rw [hh]
        simp only [Option.bind_eq_bind, Option.bind_some]
        rw [if_pos (by simp)]
        obtain ⟨ns, e, ht⟩ := ihc ks (pre ++ (64 * c + 32 + i) :: derLen (ders ks).length) post [] (by rw [hm]; simp) hk (by omega) (by omega)
        simp only [List.length_append, List.length_cons] at e
        rw [show pre.length + ((derLen (ders ks).length).length + 1) = pre.length + 1 + (derLen (ders ks).length).length by omega] at e
        rw [e]
        simp only [Option.bind_some, List.nil_append]
        refine ⟨_, by congr 3; congr 1 <;> omega, ?_, ?_⟩
        · rw [toTree, if_pos (by simp), ht]
        · simp only [nodeBytes]
          rw [hm]
          have := drop_take_mid pre ((64 * c + 32 + i) :: (derLen (ders ks).length ++ ders ks)) post
          rw [show pre.length + 1 + (derLen (ders ks).length).length - pre.length + (ders ks).length = ((64 * c + 32 + i) :: (derLen (ders ks).length ++ ders ks)).length by simp; omega]
          exact this
    · intro ts pre post acc hm hw hn hf
      unfold contents
      cases ts with
      | nil => rw [if_pos (by rfl)]; exact ⟨[], by simp [ders], rfl⟩
      | cons t ts =>
        obtain ⟨hw1, hw2⟩ := hw
        have h2 := der_length_pos t
        simp only [ders, List.length_append] at hn hf hm ⊢
        rw [if_neg (by omega)]
        obtain ⟨n, e, ht, _⟩ := ihd t pre (ders ts ++ post) ((der t).length + (ders ts).length) (by rw [hm]; simp) hw1 (by omega) (by omega) (by omega)
        rw [e]
        simp only [Option.bind_eq_bind, Option.bind_some]
        obtain ⟨ns, e, hts⟩ := ihc ts (pre ++ der t) post (acc ++ [n]) (by rw [hm]; simp) hw2 (by omega) (by omega)
        rw [List.length_append] at e
        rw [Nat.add_sub_cancel_left, e]
        refine ⟨n :: ns, by simp; omega, by simp [toTrees, ht, hts]⟩

/-- **C46, decoding.** The DER bytes of any tree with fewer than 2^31 bytes decode to that tree:
the whole input is consumed, and the root refers to all of it. -/
theorem decode_der (sh : Nat → Nat → Nat) (t : Tree) (hw : Wf t) (hn : (der t).length < 2147483648) :
    ∃ n, decodeBuf sh (der t) = some (.ok (n, (der t).length, 0)) ∧ toTree (der t) n = t ∧ nodeBytes (der t) n = der t := by
  obtain ⟨n, e, h1, h2⟩ := (decode_der_aux sh (der t) (2 * (der t).length + 2)).1 t [] [] (der t).length (by simp) hw (le_refl _) hn (by omega)
  refine ⟨n, ?_, h1, h2⟩
  unfold decodeBuf
  rw [List.length_nil] at e
  rw [e]
  simp

/-- A proper prefix of a DER value is reported as incomplete. -/
theorem decode_truncated (sh : Nat → Nat → Nat) (t : Tree) (hn : (der t).length < 2147483648) (k : Nat) (hk : k < (der t).length) :
    decodeBuf sh ((der t).take k) = some (.error .incomplete) := by
  have key : ∀ (T n : Nat) (body : List Nat), n = body.length → der t = T :: (derLen n ++ body) → header sh ((der t).take k) 0 k = some (.error .incomplete) := by
    intro T n body hb hd
    rw [hd] at hn hk ⊢
    simp only [List.length_cons, List.length_append] at hn hk
    unfold header
    simp only
    by_cases hk2 : k < 2
    · rw [if_pos hk2]
    · rw [if_neg hk2]
      have g : ∀ j, j < k → ((T :: (derLen n ++ body)).take k)[0 + j]? = (T :: (derLen n ++ body))[j]? := by
        intro j hj
        rw [List.getElem?_take, Nat.zero_add, if_pos hj]
      have g0 := g 0 (by omega)
      rw [Nat.zero_add] at g0
      rw [g0, g 1 (by omega)]
      rw [List.getElem?_cons_zero, List.getElem?_cons_succ]
      simp only [Option.bind_eq_bind, Option.bind_some]
      by_cases h128 : n < 128
      · have ed : derLen n = [n] := by unfold derLen; rw [if_pos h128]
        rw [ed] at hk ⊢
        rw [show ([n] ++ body)[0]? = some n by simp]
        simp only [Option.bind_some]
        rw [if_neg (by rw [short_byte n h128]; simp)]
        rw [List.length_singleton] at hk
        rw [if_pos (by omega)]
      · have ed : derLen n = (128 + (Nat.digits 256 n).reverse.length) :: (Nat.digits 256 n).reverse := by unfold derLen; rw [if_neg h128, List.length_reverse]
        obtain ⟨hd1, hd2⟩ := digits_shape n (by omega) (by omega)
        have hv := lenVal_digits sh n (by omega) (by omega)
        rw [ed] at hk ⊢
        generalize (Nat.digits 256 n).reverse = l at *
        rw [show (((128 + l.length) :: l) ++ body)[0]? = some (128 + l.length) by simp]
        simp only [Option.bind_some]
        obtain ⟨l1, l2⟩ := long_byte l.length (by omega)
        rw [if_pos l1, l2, if_neg (by omega)]
        rw [List.length_cons] at hk
        by_cases he : 0 + 2 + l.length ≥ 0 + k
        · rw [if_pos he]
        · rw [if_neg he, slice_ok _ _ _ (by simp; omega)]
          have e2 : (((T :: (((128 + l.length) :: l) ++ body)).take k).drop (0 + 2)).take l.length = l := by
            obtain ⟨k', rfl⟩ : ∃ k', k = k' + 2 := ⟨k - 2, by omega⟩
            simp only [List.cons_append, List.take_succ_cons, List.drop_succ_cons, List.drop_zero, Nat.zero_add]
            rw [List.take_take, Nat.min_eq_left (by omega)]
            simp
          rw [e2, Option.bind_some, hv, if_pos (by omega)]
  have hlen : ((der t).take k).length = k := by rw [List.length_take]; omega
  unfold decodeBuf
  rw [hlen]
  unfold decode
  have hh : header sh ((der t).take k) 0 k = some (.error .incomplete) := by
    cases t with
    | prim c i b => exact key (64 * c + i) b.length b rfl (by rw [der])
    | cons c i ks => exact key (64 * c + 32 + i) (ders ks).length (ders ks) rfl (by rw [der])
  rw [hh]
  rfl

end Verif.Asn1
