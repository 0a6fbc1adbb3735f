import Verif.Des
/-
C14 (DES and 3DES round trip).
-/
namespace Verif.Des

/-! ### Specification: FIPS 46-3 on lists of bits, bit 1 first -/

/-- Initial permutation; positions count from 1. -/
def IP : List Nat := [
  58, 50, 42, 34, 26, 18, 10, 2, 60, 52, 44, 36, 28, 20, 12, 4,
  62, 54, 46, 38, 30, 22, 14, 6, 64, 56, 48, 40, 32, 24, 16, 8,
  57, 49, 41, 33, 25, 17, 9, 1, 59, 51, 43, 35, 27, 19, 11, 3,
  61, 53, 45, 37, 29, 21, 13, 5, 63, 55, 47, 39, 31, 23, 15, 7]

/-- Inverse of the initial permutation; positions count from 1. -/
def FP : List Nat := [
  40, 8, 48, 16, 56, 24, 64, 32, 39, 7, 47, 15, 55, 23, 63, 31,
  38, 6, 46, 14, 54, 22, 62, 30, 37, 5, 45, 13, 53, 21, 61, 29,
  36, 4, 44, 12, 52, 20, 60, 28, 35, 3, 43, 11, 51, 19, 59, 27,
  34, 2, 42, 10, 50, 18, 58, 26, 33, 1, 41, 9, 49, 17, 57, 25]

/-- Bit selection table; positions count from 1. -/
def E : List Nat := [
  32, 1, 2, 3, 4, 5, 4, 5, 6, 7, 8, 9, 8, 9, 10, 11,
  12, 13, 12, 13, 14, 15, 16, 17, 16, 17, 18, 19, 20, 21, 20, 21,
  22, 23, 24, 25, 24, 25, 26, 27, 28, 29, 28, 29, 30, 31, 32, 1]

/-- Permutation P; positions count from 1. -/
def P : List Nat := [
  16, 7, 20, 21, 29, 12, 28, 17, 1, 15, 23, 26, 5, 18, 31, 10,
  2, 8, 24, 14, 32, 27, 3, 9, 19, 13, 30, 6, 22, 11, 4, 25]

/-- Permuted choice 1; positions count from 1. -/
def PC1 : List Nat := [
  57, 49, 41, 33, 25, 17, 9, 1, 58, 50, 42, 34, 26, 18, 10, 2,
  59, 51, 43, 35, 27, 19, 11, 3, 60, 52, 44, 36, 63, 55, 47, 39,
  31, 23, 15, 7, 62, 54, 46, 38, 30, 22, 14, 6, 61, 53, 45, 37,
  29, 21, 13, 5, 28, 20, 12, 4]

/-- Permuted choice 2; positions count from 1. -/
def PC2 : List Nat := [
  14, 17, 11, 24, 1, 5, 3, 28, 15, 6, 21, 10, 23, 19, 12, 4,
  26, 8, 16, 7, 27, 20, 13, 2, 41, 52, 31, 37, 47, 55, 30, 40,
  51, 45, 33, 48, 44, 49, 39, 56, 34, 53, 46, 42, 50, 36, 29, 32]

/-- Left shifts per iteration. -/
def shifts : List Nat := [1, 1, 2, 2, 2, 2, 2, 2, 1, 2, 2, 2, 2, 2, 2, 1]

/-- S1 .. S8, four rows of sixteen columns each. -/
def SB : List (List (List Nat)) := [
  [[14, 4, 13, 1, 2, 15, 11, 8, 3, 10, 6, 12, 5, 9, 0, 7],
   [0, 15, 7, 4, 14, 2, 13, 1, 10, 6, 12, 11, 9, 5, 3, 8],
   [4, 1, 14, 8, 13, 6, 2, 11, 15, 12, 9, 7, 3, 10, 5, 0],
   [15, 12, 8, 2, 4, 9, 1, 7, 5, 11, 3, 14, 10, 0, 6, 13]],
  [[15, 1, 8, 14, 6, 11, 3, 4, 9, 7, 2, 13, 12, 0, 5, 10],
   [3, 13, 4, 7, 15, 2, 8, 14, 12, 0, 1, 10, 6, 9, 11, 5],
   [0, 14, 7, 11, 10, 4, 13, 1, 5, 8, 12, 6, 9, 3, 2, 15],
   [13, 8, 10, 1, 3, 15, 4, 2, 11, 6, 7, 12, 0, 5, 14, 9]],
  [[10, 0, 9, 14, 6, 3, 15, 5, 1, 13, 12, 7, 11, 4, 2, 8],
   [13, 7, 0, 9, 3, 4, 6, 10, 2, 8, 5, 14, 12, 11, 15, 1],
   [13, 6, 4, 9, 8, 15, 3, 0, 11, 1, 2, 12, 5, 10, 14, 7],
   [1, 10, 13, 0, 6, 9, 8, 7, 4, 15, 14, 3, 11, 5, 2, 12]],
  [[7, 13, 14, 3, 0, 6, 9, 10, 1, 2, 8, 5, 11, 12, 4, 15],
   [13, 8, 11, 5, 6, 15, 0, 3, 4, 7, 2, 12, 1, 10, 14, 9],
   [10, 6, 9, 0, 12, 11, 7, 13, 15, 1, 3, 14, 5, 2, 8, 4],
   [3, 15, 0, 6, 10, 1, 13, 8, 9, 4, 5, 11, 12, 7, 2, 14]],
  [[2, 12, 4, 1, 7, 10, 11, 6, 8, 5, 3, 15, 13, 0, 14, 9],
   [14, 11, 2, 12, 4, 7, 13, 1, 5, 0, 15, 10, 3, 9, 8, 6],
   [4, 2, 1, 11, 10, 13, 7, 8, 15, 9, 12, 5, 6, 3, 0, 14],
   [11, 8, 12, 7, 1, 14, 2, 13, 6, 15, 0, 9, 10, 4, 5, 3]],
  [[12, 1, 10, 15, 9, 2, 6, 8, 0, 13, 3, 4, 14, 7, 5, 11],
   [10, 15, 4, 2, 7, 12, 9, 5, 6, 1, 13, 14, 0, 11, 3, 8],
   [9, 14, 15, 5, 2, 8, 12, 3, 7, 0, 4, 10, 1, 13, 11, 6],
   [4, 3, 2, 12, 9, 5, 15, 10, 11, 14, 1, 7, 6, 0, 8, 13]],
  [[4, 11, 2, 14, 15, 0, 8, 13, 3, 12, 9, 7, 5, 10, 6, 1],
   [13, 0, 11, 7, 4, 9, 1, 10, 14, 3, 5, 12, 2, 15, 8, 6],
   [1, 4, 11, 13, 12, 3, 7, 14, 10, 15, 6, 8, 0, 5, 9, 2],
   [6, 11, 13, 8, 1, 4, 10, 7, 9, 5, 0, 15, 14, 2, 3, 12]],
  [[13, 2, 8, 4, 6, 15, 11, 1, 10, 9, 3, 14, 5, 0, 12, 7],
   [1, 15, 13, 8, 10, 3, 7, 4, 12, 5, 6, 11, 0, 14, 9, 2],
   [7, 11, 4, 1, 9, 12, 14, 2, 0, 6, 10, 13, 15, 3, 5, 8],
   [2, 1, 14, 7, 4, 10, 8, 13, 15, 12, 9, 0, 3, 5, 6, 11]]]

def perm (t : List Nat) (l : List Bool) : List Bool := t.map fun i => l.getD (i - 1) false

def xorL (a b : List Bool) : List Bool := List.zipWith (fun x y => x ^^ y) a b

/-- Number written in binary, most significant bit first, and back. -/
def num (l : List Bool) : Nat := l.foldl (fun a b => 2 * a + b.toNat) 0
def bits4 (n : Nat) : List Bool := [n.testBit 3, n.testBit 2, n.testBit 1, n.testBit 0]

/-- S-box j (0..7) on six bits: the first and last bits choose the row, the others the column. -/
def sOne (j : Nat) (b : List Bool) : List Bool :=
  bits4 (((SB.getD j []).getD (num [b.getD 0 false, b.getD 5 false]) []).getD (num ((b.drop 1).take 4)) 0)

/-- The cipher function f(R, K). -/
def f (R K : List Bool) : List Bool :=
  let x := xorL (perm E R) K
  perm P ((List.range 8).flatMap fun j => sOne j ((x.drop (6 * j)).take 6))

def rotl (n : Nat) (l : List Bool) : List Bool := l.drop n ++ l.take n

/-- (C_j, D_j). -/
def CD (key : List Bool) : Nat → List Bool × List Bool
  | 0 => ((perm PC1 key).take 28, (perm PC1 key).drop 28)
  | j + 1 => (rotl (shifts.getD j 0) (CD key j).1, rotl (shifts.getD j 0) (CD key j).2)

/-- K_{j+1}. -/
def K (key : List Bool) (j : Nat) : List Bool := perm PC2 ((CD key (j + 1)).1 ++ (CD key (j + 1)).2)

/-- Enciphering with the sixteen keys in the order `L`. -/
def fipsL (key msg : List Bool) (L : List Nat) : List Bool :=
  let m := perm IP msg
  let s := L.foldl (fun s i => (s.2, xorL s.1 (f s.2 (K key i)))) (m.take 32, m.drop 32)
  perm FP (s.2 ++ s.1)

def fipsEncrypt (key msg : List Bool) : List Bool := fipsL key msg (List.range 16)
def fipsDecrypt (key msg : List Bool) : List Bool := fipsL key msg (List.range 16).reverse

/-- The low w bits, most significant first. -/
def toBits (w : Nat) (x : U64) : List Bool := (List.range w).map fun k => x.getLsbD (w - 1 - k)

/-! ### Bits of `gather` -/

theorem bit_one (x : U64) (a b n : Nat) (hn : n < 64) :
    (((x >>> a) &&& 1) <<< b).getLsbD n = (decide (n = b) && x.getLsbD a) := by
  rw [BitVec.getLsbD_shiftLeft]
  by_cases h : n = b
  · subst h; simp [hn]
  · by_cases h2 : n < b
    · simp [h, h2]
    · have : n - b ≠ 0 := by omega
      simp only [h, h2, decide_false, Bool.not_false, Bool.and_true, Bool.false_and, BitVec.getLsbD_and]
      simp [this]

theorem gather_acc (x : U64) (n : Nat) (hn : n < 64) : ∀ (l : List (Nat × Nat)) (r : U64),
    (l.foldl (fun (r : U64) (p : Nat × Nat) => r ||| (((x >>> p.1) &&& 1) <<< p.2)) r).getLsbD n =
      (r.getLsbD n || l.any fun p => decide (n = p.2) && x.getLsbD p.1)
  | [], r => by simp
  | p :: l, r => by
    rw [List.foldl_cons, gather_acc x n hn l, BitVec.getLsbD_or, bit_one x _ _ _ hn, List.any_cons, Bool.or_assoc]

theorem gather_bit (x : U64) (l : List (Nat × Nat)) (n : Nat) (hn : n < 64) :
    (gather x l).getLsbD n = l.any fun p => decide (n = p.2) && x.getLsbD p.1 := by
  unfold gather; rw [gather_acc x n hn]; simp

/-- If the target positions are different, the bit at a target is the bit at its source. -/
theorem gather_mem (x : U64) (l : List (Nat × Nat)) (hd : (l.map Prod.snd).Nodup) (a n : Nat) (hn : n < 64)
    (h : (a, n) ∈ l) : (gather x l).getLsbD n = x.getLsbD a := by
  rw [gather_bit x l n hn]
  apply Bool.eq_iff_iff.mpr
  rw [List.any_eq_true]
  constructor
  · rintro ⟨p, hp, e⟩
    simp only [Bool.and_eq_true, decide_eq_true_eq] at e
    have : p = (a, n) := by
      induction l with
      | nil => cases hp
      | cons q l ih =>
        rw [List.map_cons, List.nodup_cons] at hd
        rcases List.mem_cons.mp h with h1 | h1 <;> rcases List.mem_cons.mp hp with h2 | h2
        · rw [h2, h1]
        · exfalso; apply hd.1; rw [← h1]; show n ∈ _; rw [e.1]; exact List.mem_map_of_mem h2
        · exfalso; apply hd.1; rw [← h2, ← e.1]; exact List.mem_map_of_mem (f := Prod.snd) h1
        · exact ih hd.2 h1 h2
    rw [this] at e; exact e.2
  · intro e
    exact ⟨(a, n), h, by simp [e]⟩

theorem final_begin (x : U64) : finalP (beginP x) = x := by
  apply BitVec.eq_of_getLsbD_eq
  intro n hn
  have : ∀ n : Fin 64, finalT.getD n 0 < 64 ∧ (finalT.getD n 0, n.val) ∈ (finalT.mapIdx fun k t => (t, k)) ∧
      (n.val, finalT.getD n 0) ∈ pairs 64 64 beginT := by decide +kernel
  obtain ⟨h0, h1, h2⟩ := this ⟨n, hn⟩
  unfold finalP beginP
  rw [gather_mem _ _ (by decide +kernel) _ n hn h1, gather_mem _ _ (by decide +kernel) n _ h0 h2]

theorem begin_final (x : U64) : beginP (finalP x) = x := by
  apply BitVec.eq_of_getLsbD_eq
  intro n hn
  have : ∀ n : Fin 64, 63 - beginT.getD (63 - n) 0 < 64 ∧ (63 - beginT.getD (63 - n) 0, n.val) ∈ pairs 64 64 beginT ∧
      (n.val, 63 - beginT.getD (63 - n) 0) ∈ (finalT.mapIdx fun k t => (t, k)) := by decide +kernel
  obtain ⟨h0, h1, h2⟩ := this ⟨n, hn⟩
  unfold finalP beginP
  rw [gather_mem _ _ (by decide +kernel) _ n hn h1, gather_mem _ _ (by decide +kernel) n _ h0 h2]

/-! ### The Feistel rounds -/

/-- Both halves fit in 32 bits. -/
def Half (x : U64) : Prop := x &&& 0xffffffff = x

theorem half_round (k : U64) (s : U64 × U64) (h : Half s.1 ∧ Half s.2) : Half (round k s).1 ∧ Half (round k s).2 := by
  refine ⟨h.2, ?_⟩
  unfold Half round pP
  simp only []
  have h1 := h.1
  unfold Half at h1
  apply BitVec.eq_of_getLsbD_eq
  intro n hn
  have := congrArg (fun x => x.getLsbD n) h1
  simp only [BitVec.getLsbD_and] at this
  simp only [BitVec.getLsbD_and, BitVec.getLsbD_xor]
  rw [← this]
  cases (gather (sP (extP s.2 ^^^ k)) (pairs 32 32 pT)).getLsbD n <;> cases s.1.getLsbD n <;>
    cases (0xffffffff : U64).getLsbD n <;> rfl

def swp (s : U64 × U64) : U64 × U64 := (s.2, s.1)

theorem round_inv (k : U64) (s : U64 × U64) : round k (swp (round k s)) = swp s := by
  unfold round swp
  simp only [← BitVec.xor_assoc, BitVec.xor_self, BitVec.zero_xor]

theorem rounds_half (ks : Nat → U64) : ∀ (L : List Nat) (s : U64 × U64), Half s.1 ∧ Half s.2 →
    Half (L.foldl (fun s i => round (ks i) s) s).1 ∧ Half (L.foldl (fun s i => round (ks i) s) s).2
  | [], _, h => h
  | _ :: L, _, h => rounds_half ks L _ (half_round _ _ h)

theorem rounds_inv (ks : Nat → U64) : ∀ (L : List Nat) (s : U64 × U64),
    L.reverse.foldl (fun s i => round (ks i) s) (swp (L.foldl (fun s i => round (ks i) s) s)) = swp s
  | [], _ => rfl
  | i :: L, s => by
    rw [List.reverse_cons, List.foldl_append, List.foldl_cons (l := L), rounds_inv ks L]
    exact round_inv _ _

theorem split_join (a b : U64) (ha : Half a) (hb : Half b) :
    (((a &&& 0xffffffff) <<< 32) ||| (b &&& 0xffffffff)) >>> 32 &&& 0xffffffff = a ∧
    (((a &&& 0xffffffff) <<< 32) ||| (b &&& 0xffffffff)) &&& 0xffffffff = b := by
  unfold Half at ha hb
  have hm : ∀ n, n < 64 → (0xffffffff : U64).getLsbD n = decide (n < 32) := by
    have : ∀ n : Fin 64, (0xffffffff : U64).getLsbD n = decide (n.val < 32) := by decide
    intro n hn; exact this ⟨n, hn⟩
  have ga : ∀ n, 32 ≤ n → a.getLsbD n = false := by
    intro n hn
    by_cases h : n < 64
    · rw [← ha, BitVec.getLsbD_and, hm n h]; simp; omega
    · exact BitVec.getLsbD_of_ge _ _ (by omega)
  have gb : ∀ n, 32 ≤ n → b.getLsbD n = false := by
    intro n hn
    by_cases h : n < 64
    · rw [← hb, BitVec.getLsbD_and, hm n h]; simp; omega
    · exact BitVec.getLsbD_of_ge _ _ (by omega)
  rw [ha, hb]
  constructor
  · apply BitVec.eq_of_getLsbD_eq
    intro n hn
    rw [BitVec.getLsbD_and, hm n hn, BitVec.getLsbD_ushiftRight, BitVec.getLsbD_or, BitVec.getLsbD_shiftLeft, gb (32 + n) (by omega)]
    by_cases h : n < 32
    · have : 32 + n - 32 = n := by omega
      simp [h, show 32 + n < 64 by omega]
    · simp [h, ga n (by omega)]
  · apply BitVec.eq_of_getLsbD_eq
    intro n hn
    rw [BitVec.getLsbD_and, hm n hn, BitVec.getLsbD_or, BitVec.getLsbD_shiftLeft]
    by_cases h : n < 32
    · simp [h]
    · simp [h, gb n (by omega)]

theorem join_split (m : U64) :
    (((m >>> 32 &&& 0xffffffff) &&& 0xffffffff) <<< 32) ||| ((m &&& 0xffffffff) &&& 0xffffffff) = m := by
  have hm : ∀ n, n < 64 → (0xffffffff : U64).getLsbD n = decide (n < 32) := by
    have : ∀ n : Fin 64, (0xffffffff : U64).getLsbD n = decide (n.val < 32) := by decide
    intro n hn; exact this ⟨n, hn⟩
  rw [BitVec.and_assoc, BitVec.and_assoc, BitVec.and_self]
  apply BitVec.eq_of_getLsbD_eq
  intro n hn
  rw [BitVec.getLsbD_or, BitVec.getLsbD_shiftLeft, BitVec.getLsbD_and, BitVec.getLsbD_and, hm n hn, hm (n - 32) (by omega),
    BitVec.getLsbD_ushiftRight]
  by_cases h : n < 32
  · simp [h]
  · simp [h, show n - 32 < 32 by omega, hn, show 32 + (n - 32) = n by omega]

theorem half_mask (x : U64) : Half (x &&& 0xffffffff) := by
  unfold Half; rw [BitVec.and_assoc, BitVec.and_self]

/-- `des` with the rounds in the order `L`. -/
def desL (ks : Nat → U64) (L : List Nat) (msg : U64) : U64 :=
  let s := L.foldl (fun s i => round (ks i) s) ((beginP msg >>> 32) &&& 0xffffffff, beginP msg &&& 0xffffffff)
  finalP (((s.2 &&& 0xffffffff) <<< 32) ||| (s.1 &&& 0xffffffff))

theorem des_eq (ks : Nat → U64) (msg : U64) (enc : Bool) :
    des ks msg enc = desL ks (if enc then List.range 16 else (List.range 16).reverse) msg := rfl

theorem desL_inv (ks : Nat → U64) (L : List Nat) (msg : U64) : desL ks L.reverse (desL ks L msg) = msg := by
  unfold desL
  simp only []
  have hh := rounds_half ks L ((beginP msg >>> 32) &&& 0xffffffff, beginP msg &&& 0xffffffff) ⟨half_mask _, half_mask _⟩
  have hi := rounds_inv ks L ((beginP msg >>> 32) &&& 0xffffffff, beginP msg &&& 0xffffffff)
  generalize L.foldl (fun s i => round (ks i) s) ((beginP msg >>> 32) &&& 0xffffffff, beginP msg &&& 0xffffffff) = t at hh hi
  obtain ⟨e1, e2⟩ := split_join t.2 t.1 hh.2 hh.1
  rw [begin_final, e1, e2]
  have : (t.2, t.1) = swp t := rfl
  rw [this, hi]
  unfold swp
  simp only []
  rw [join_split, final_begin]

/-- DES: decryption inverts encryption and encryption inverts decryption, for any sub-keys
(in particular those of any key). -/
theorem des_inv (ks : Nat → U64) (msg : U64) (enc : Bool) : des ks (des ks msg enc) (!enc) = msg := by
  rw [des_eq, des_eq]
  cases enc
  · have := desL_inv ks (List.range 16).reverse msg
    rw [List.reverse_reverse] at this
    exact this
  · exact desL_inv ks (List.range 16) msg

/-- Triple DES. -/
theorem des3_inv (k1 k2 : Nat → U64) (msg : U64) (enc : Bool) : des3 k1 k2 (des3 k1 k2 msg enc) (!enc) = msg := by
  have h := des_inv
  unfold des3
  cases enc
  · have h1 := h k1 (des k2 (des k1 msg false) true) false
    have h2 := h k2 (des k1 msg false) true
    have h3 := h k1 msg false
    simp only [Bool.not_false, Bool.not_true, if_true, Bool.false_eq_true, if_false] at *
    rw [h1, h2, h3]
  · have h1 := h k1 (des k2 (des k1 msg true) false) true
    have h2 := h k2 (des k1 msg true) false
    have h3 := h k1 msg true
    simp only [Bool.not_false, Bool.not_true, if_true, Bool.false_eq_true, if_false] at *
    rw [h1, h2, h3]

/-! ### Conformance -/

theorem toBits_length (w : Nat) (x : U64) : (toBits w x).length = w := by simp [toBits]

theorem toBits_get (w : Nat) (x : U64) (k : Nat) (h : k < w) : (toBits w x).getD k false = x.getLsbD (w - 1 - k) := by
  simp [toBits, List.getD_eq_getElem?_getD, h]

theorem toBits_getElem (w : Nat) (x : U64) (k : Nat) (h : k < (toBits w x).length) : (toBits w x)[k] = x.getLsbD (w - 1 - k) := by
  simp [toBits]

/-- A table loop is the permutation of the standard. -/
theorem toBits_gather (inw outw : Nat) (tbl T : List Nat) (x : U64) (hT : T = tbl.map (· + 1)) (hl : tbl.length = outw)
    (ho : outw ≤ 64) (hi : ∀ t ∈ tbl, t < inw) (m : U64) (hm : ∀ n < outw, m.getLsbD n = true) :
    toBits outw (gather x (pairs inw outw tbl) &&& m) = perm T (toBits inw x) := by
  subst hT
  have hd : ((pairs inw outw tbl).map Prod.snd).Nodup := by
    have : (pairs inw outw tbl).map Prod.snd = (List.range outw).map fun k => outw - 1 - k := by
      apply List.ext_getElem
      · simp [pairs, hl]
      · intro k h1 h2; simp [pairs]
    rw [this, List.Nodup, List.pairwise_map]
    refine List.Pairwise.imp_of_mem ?_ (List.pairwise_lt_range (n := outw))
    intro a b ha hb hab
    rw [List.mem_range] at ha hb
    omega
  apply List.ext_getElem
  · simp [perm, toBits, hl]
  · intro k h1 h2
    have hk : k < outw := by simpa [toBits] using h1
    have ht := hi tbl[k] (List.getElem_mem (by omega))
    rw [toBits_getElem, BitVec.getLsbD_and, hm _ (by omega), Bool.and_true]
    rw [gather_mem x _ hd (inw - 1 - tbl[k]) _ (by omega)]
    · simp only [perm, List.getElem_map]
      rw [toBits_get _ _ _ (by omega)]
      rfl
    · apply List.mem_iff_getElem.mpr
      exact ⟨k, by simp [pairs]; omega, by simp [pairs]⟩

theorem and_all (x : U64) : x &&& BitVec.allOnes 64 = x := BitVec.and_allOnes

theorem toBits_begin (x : U64) : toBits 64 (beginP x) = perm IP (toBits 64 x) := by
  have := toBits_gather 64 64 beginT IP x (by decide) (by decide) (by omega) (by decide) (BitVec.allOnes 64)
    (by intro n hn; rw [BitVec.getLsbD_allOnes]; simp; omega)
  rw [and_all] at this
  exact this

theorem toBits_final (x : U64) : toBits 64 (finalP x) = perm FP (toBits 64 x) := by
  apply List.ext_getElem
  · simp [perm, toBits]; decide
  · intro k h1 h2
    have hk : k < 64 := by simpa [toBits] using h1
    have : ∀ k : Fin 64, FP.getD k 0 - 1 < 64 ∧ (63 - (FP.getD k 0 - 1), 63 - k.val) ∈ (finalT.mapIdx fun k t => (t, k)) := by
      decide +kernel
    obtain ⟨h3, h4⟩ := this ⟨k, hk⟩
    rw [toBits_getElem]
    unfold finalP
    rw [gather_mem _ _ (by decide +kernel) _ _ (by omega) h4]
    simp only [perm, List.getElem_map]
    have e : FP.getD k 0 = FP[k]'(by simpa [perm] using h2) := by
      rw [List.getD_eq_getElem?_getD, List.getElem?_eq_getElem]; rfl
    simp only [e] at h3 ⊢
    rw [toBits_get _ _ _ h3]

theorem mask48 (n : Nat) (h : n < 48) : (0xffffffffffff : U64).getLsbD n = true := by
  have : ∀ n : Fin 48, (0xffffffffffff : U64).getLsbD n = true := by decide
  exact this ⟨n, h⟩

theorem mask32 (n : Nat) (h : n < 32) : (0xffffffff : U64).getLsbD n = true := by
  have : ∀ n : Fin 32, (0xffffffff : U64).getLsbD n = true := by decide
  exact this ⟨n, h⟩

theorem toBits_ext (x : U64) : toBits 48 (extP x) = perm E (toBits 32 x) :=
  toBits_gather 32 48 extT E x (by decide) (by decide) (by omega) (by decide) _ mask48

theorem toBits_p (x : U64) : toBits 32 (pP x) = perm P (toBits 32 x) :=
  toBits_gather 32 32 pT P x (by decide) (by decide) (by omega) (by decide) _ mask32

theorem toBits_xor (w : Nat) (x y : U64) : toBits w (x ^^^ y) = xorL (toBits w x) (toBits w y) := by
  apply List.ext_getElem
  · simp [toBits, xorL]
  · intro k h1 h2
    simp [toBits, xorL]

/-- Nibbles put side by side. -/
theorem nib_fold (g : Nat → U64) : ∀ n, n ≤ 16 → ∀ m, m < 64 →
    ((List.range n).foldl (fun ret i => ret ||| ((g i &&& 0xf) <<< (i * 4))) (0 : U64)).getLsbD m =
      (decide (m < 4 * n) && (g (m / 4)).getLsbD (m % 4))
  | 0, _, m, _ => by simp
  | n + 1, hn, m, hm => by
    have h15 : ∀ k, k < 64 → (0xf : U64).getLsbD k = decide (k < 4) := by
      have : ∀ n : Fin 64, (0xf : U64).getLsbD n = decide (n.val < 4) := by decide
      intro n hn; exact this ⟨n, hn⟩
    rw [List.range_succ, List.foldl_append, List.foldl_cons, List.foldl_nil, BitVec.getLsbD_or, nib_fold g n (by omega) m hm,
      BitVec.getLsbD_shiftLeft, BitVec.getLsbD_and, h15 _ (by omega)]
    by_cases h1 : m < 4 * n
    · simp [h1, show m < n * 4 by omega, show m < 4 * (n + 1) by omega]
    · by_cases h2 : m < 4 * (n + 1)
      · have e1 : m / 4 = n := by omega
        have e2 : m % 4 = m - n * 4 := by omega
        simp [h1, h2, e1, e2, hm, show ¬ m < n * 4 by omega, show m - n * 4 < 4 by omega]
      · simp [h1, h2, show ¬ m - n * 4 < 4 by omega]

/-- The index computed by the code for six bits. -/
def sIdx (v : U64) : Nat := (((v >>> 1) &&& 0xf) + (((v &&& 1) ||| (((v >>> 5) &&& 1) <<< 1)) <<< 4)).toNat

theorem sIdx_eq : ∀ j : Fin 8, ∀ v : BitVec 6,
    bits4 ((sboxT.getD j []).getD (sIdx (v.setWidth 64)) 0) =
      sOne j [v.getLsbD 5, v.getLsbD 4, v.getLsbD 3, v.getLsbD 2, v.getLsbD 1, v.getLsbD 0] := by decide +kernel

theorem sP_bit (x : U64) (m : Nat) (h : m < 32) :
    (sP x).getLsbD m = (BitVec.ofNat 64 ((sboxT.getD (7 - m / 4) []).getD (sIdx ((x >>> (m / 4 * 6)) &&& 0x3f)) 0)).getLsbD (m % 4) := by
  unfold sP
  rw [BitVec.getLsbD_and, mask32 m h, Bool.and_true]
  have := nib_fold (fun i => BitVec.ofNat 64 ((sboxT.getD (7 - i) []).getD (sIdx ((x >>> (i * 6)) &&& 0x3f)) 0)) 8 (by omega) m (by omega)
  have e : (decide (m < 4 * 8)) = true := by simp; omega
  rw [e, Bool.true_and] at this
  exact this

theorem chunk_eq (x : U64) (i : Nat) :
    (x >>> (i * 6)) &&& 0x3f = ((x >>> (i * 6)).setWidth 6).setWidth 64 := by
  have h63 : ∀ k, k < 64 → (0x3f : U64).getLsbD k = decide (k < 6) := by
    have : ∀ n : Fin 64, (0x3f : U64).getLsbD n = decide (n.val < 6) := by decide
    intro n hn; exact this ⟨n, hn⟩
  apply BitVec.eq_of_getLsbD_eq
  intro n hn
  rw [BitVec.getLsbD_and, h63 n hn, BitVec.getLsbD_setWidth, BitVec.getLsbD_setWidth]
  simp [hn, Bool.and_comm]

theorem chunk_bits (x : U64) (j : Nat) (hj : j < 8) :
    ((toBits 48 x).drop (6 * j)).take 6 =
      (let v : BitVec 6 := (x >>> ((7 - j) * 6)).setWidth 6
       [v.getLsbD 5, v.getLsbD 4, v.getLsbD 3, v.getLsbD 2, v.getLsbD 1, v.getLsbD 0]) := by
  apply List.ext_getElem
  · simp [toBits]; omega
  · intro k h1 h2
    have hk : k < 6 := by simpa using h2
    have e : ∀ k, k < 6 → ((x >>> ((7 - j) * 6)).setWidth 6 : BitVec 6).getLsbD (5 - k) = x.getLsbD (48 - 1 - (6 * j + k)) := by
      intro k hk
      rw [BitVec.getLsbD_setWidth, BitVec.getLsbD_ushiftRight, show (7 - j) * 6 + (5 - k) = 48 - 1 - (6 * j + k) by omega]
      simp; omega
    have : k = 0 ∨ k = 1 ∨ k = 2 ∨ k = 3 ∨ k = 4 ∨ k = 5 := by omega
    rw [List.getElem_take, List.getElem_drop, toBits_getElem, ← e k hk]
    rcases this with rfl | rfl | rfl | rfl | rfl | rfl <;> rfl

theorem toBits_s (x : U64) : toBits 32 (sP x) = (List.range 8).flatMap fun j => sOne j (((toBits 48 x).drop (6 * j)).take 6) := by
  have key : ∀ j, j < 8 → sOne j (((toBits 48 x).drop (6 * j)).take 6) =
      [(sP x).getLsbD (31 - 4 * j), (sP x).getLsbD (30 - 4 * j), (sP x).getLsbD (29 - 4 * j), (sP x).getLsbD (28 - 4 * j)] := by
    intro j hj
    rw [chunk_bits x j hj]
    simp only []
    rw [← sIdx_eq ⟨j, hj⟩, ← chunk_eq x (7 - j)]
    rw [sP_bit x _ (by omega), sP_bit x _ (by omega), sP_bit x _ (by omega), sP_bit x _ (by omega)]
    rw [show (31 - 4 * j) / 4 = 7 - j by omega, show (30 - 4 * j) / 4 = 7 - j by omega, show (29 - 4 * j) / 4 = 7 - j by omega,
      show (28 - 4 * j) / 4 = 7 - j by omega, show (31 - 4 * j) % 4 = 3 by omega, show (30 - 4 * j) % 4 = 2 by omega,
      show (29 - 4 * j) % 4 = 1 by omega, show (28 - 4 * j) % 4 = 0 by omega, show 7 - (7 - j) = j by omega]
    simp only [bits4, BitVec.getLsbD_ofNat]; simp
  have hr : (List.range 8) = [0, 1, 2, 3, 4, 5, 6, 7] := by decide
  have hr32 : (List.range 32) = [0, 1, 2, 3, 4, 5, 6, 7, 8, 9, 10, 11, 12, 13, 14, 15, 16, 17, 18, 19, 20, 21, 22, 23, 24, 25, 26, 27,
    28, 29, 30, 31] := by decide
  rw [hr]
  simp only [List.flatMap_cons, List.flatMap_nil, key 0 (by omega), key 1 (by omega), key 2 (by omega), key 3 (by omega),
    key 4 (by omega), key 5 (by omega), key 6 (by omega), key 7 (by omega)]
  unfold toBits
  rw [hr32]
  rfl

theorem toBits_round (k : U64) (Kb : List Bool) (hk : toBits 48 k = Kb) (s : U64 × U64) :
    toBits 32 (round k s).1 = toBits 32 s.2 ∧ toBits 32 (round k s).2 = xorL (toBits 32 s.1) (f (toBits 32 s.2) Kb) := by
  refine ⟨rfl, ?_⟩
  unfold round f
  simp only []
  rw [toBits_xor, toBits_p, toBits_s, toBits_xor, toBits_ext, hk]
  unfold xorL
  rw [List.zipWith_comm]
  congr 1
  funext a b
  exact Bool.xor_comm _ _

theorem toBits_rounds (ks : Nat → U64) (Kb : Nat → List Bool) : ∀ (L : List Nat) (s : U64 × U64), (∀ i ∈ L, toBits 48 (ks i) = Kb i) →
    (fun t : U64 × U64 => (toBits 32 t.1, toBits 32 t.2)) (L.foldl (fun s i => round (ks i) s) s) =
    L.foldl (fun s i => (s.2, xorL s.1 (f s.2 (Kb i)))) (toBits 32 s.1, toBits 32 s.2)
  | [], _, _ => rfl
  | i :: L, s, h => by
    rw [List.foldl_cons, List.foldl_cons, toBits_rounds ks Kb L _ (fun j hj => h j (List.mem_cons_of_mem _ hj))]
    obtain ⟨h1, h2⟩ := toBits_round (ks i) (Kb i) (h i List.mem_cons_self) s
    rw [h1, h2]

theorem toBits_split (m : U64) : toBits 32 ((m >>> 32) &&& 0xffffffff) = (toBits 64 m).take 32 ∧
    toBits 32 (m &&& 0xffffffff) = (toBits 64 m).drop 32 := by
  constructor
  · apply List.ext_getElem
    · simp [toBits]
    · intro k h1 h2
      have hk : k < 32 := by simpa [toBits] using h1
      rw [List.getElem_take, toBits_getElem, toBits_getElem, BitVec.getLsbD_and, mask32 _ (by omega), BitVec.getLsbD_ushiftRight,
        Bool.and_true]
      congr 1; omega
  · apply List.ext_getElem
    · simp [toBits]
    · intro k h1 h2
      have hk : k < 32 := by simpa [toBits] using h1
      rw [List.getElem_drop, toBits_getElem, toBits_getElem, BitVec.getLsbD_and, mask32 _ (by omega), Bool.and_true]
      congr 1; omega

theorem toBits_join (a b : U64) (ha : Half a) (hb : Half b) :
    toBits 64 (((a &&& 0xffffffff) <<< 32) ||| (b &&& 0xffffffff)) = toBits 32 a ++ toBits 32 b := by
  obtain ⟨h1, h2⟩ := split_join a b ha hb
  obtain ⟨h3, h4⟩ := toBits_split (((a &&& 0xffffffff) <<< 32) ||| (b &&& 0xffffffff))
  rw [h1] at h3
  rw [h2] at h4
  rw [h3, h4, List.take_append_drop]

theorem toBits_desL (ks : Nat → U64) (key : List Bool) (L : List Nat) (hL : ∀ i ∈ L, toBits 48 (ks i) = K key i) (msg : U64) :
    toBits 64 (desL ks L msg) = fipsL key (toBits 64 msg) L := by
  unfold desL fipsL
  simp only []
  have hh := rounds_half ks L ((beginP msg >>> 32) &&& 0xffffffff, beginP msg &&& 0xffffffff) ⟨half_mask _, half_mask _⟩
  have hr := toBits_rounds ks (K key) L ((beginP msg >>> 32) &&& 0xffffffff, beginP msg &&& 0xffffffff) hL
  simp only [(toBits_split (beginP msg)).1, (toBits_split (beginP msg)).2, toBits_begin] at hr
  rw [toBits_final, toBits_join _ _ hh.2 hh.1, ← hr]

/-! Key schedule. -/

theorem rol28_bit (x : U64) (n k : Nat) (hn : n ≤ 28) (hk : k < 28) (hx : ∀ i, 28 ≤ i → x.getLsbD i = false) :
    (rol28 x n).getLsbD k = if k < n then x.getLsbD (28 - n + k) else x.getLsbD (k - n) := by
  have hm : (0xfffffff : U64).getLsbD k = true := by
    have : ∀ n : Fin 28, (0xfffffff : U64).getLsbD n = true := by decide
    exact this ⟨k, hk⟩
  unfold rol28
  rw [BitVec.getLsbD_and, hm, Bool.and_true, BitVec.getLsbD_or, BitVec.getLsbD_ushiftRight, BitVec.getLsbD_shiftLeft]
  by_cases h : k < n
  · simp [h]
  · simp [h, hx (28 - n + k) (by omega)]; omega

theorem toBits_rol28 (x : U64) (n : Nat) (hn : n ≤ 28) (hx : ∀ i, 28 ≤ i → x.getLsbD i = false) :
    toBits 28 (rol28 x n) = rotl n (toBits 28 x) := by
  unfold rotl
  apply List.ext_getElem
  · simp [toBits]; omega
  · intro k h1 h2
    have hk : k < 28 := by simpa [toBits] using h1
    rw [toBits_getElem, rol28_bit x n _ hn (by omega) hx]
    by_cases h : k < 28 - n
    · rw [List.getElem_append_left (by simp [toBits]; omega), List.getElem_drop, toBits_getElem, if_neg (by omega)]
      congr 1; omega
    · rw [List.getElem_append_right (by simp [toBits]; omega), List.getElem_take, toBits_getElem, if_pos (by omega)]
      congr 1
      simp [toBits]; omega

theorem mask28 (n : Nat) (hn : n < 64) : (0xfffffff : U64).getLsbD n = decide (n < 28) := by
  have : ∀ n : Fin 64, (0xfffffff : U64).getLsbD n = decide (n.val < 28) := by decide
  exact this ⟨n, hn⟩

theorem mask28_hi (x : U64) (i : Nat) (h : 28 ≤ i) : (x &&& 0xfffffff).getLsbD i = false := by
  by_cases h2 : i < 64
  · rw [BitVec.getLsbD_and, mask28 i h2]; simp; omega
  · exact BitVec.getLsbD_of_ge _ _ (by omega)

theorem moves_le (j : Nat) : moves.getD j 0 ≤ 28 := by
  by_cases h : j < 16
  · have : ∀ j : Fin 16, moves.getD j 0 ≤ 28 := by decide
    exact this ⟨j, h⟩
  · rw [List.getD_eq_getElem?_getD, List.getElem?_eq_none (by simp [moves]; omega)]; decide

theorem toBits_key (key : U64) : ∀ j, (toBits 56 (key56 key j)).take 28 = (CD (toBits 64 key) j).1 ∧
    (toBits 56 (key56 key j)).drop 28 = (CD (toBits 64 key) j).2
  | 0 => by
    have := toBits_gather 64 56 keyT PC1 key (by decide) (by decide) (by omega) (by decide) (BitVec.allOnes 64)
      (by intro n hn; rw [BitVec.getLsbD_allOnes]; simp; omega)
    rw [and_all] at this
    exact ⟨by rw [key56, this]; rfl, by rw [key56, this]; rfl⟩
  | j + 1 => by
    obtain ⟨h1, h2⟩ := toBits_key key j
    have hm : ∀ n, n < 56 → (0xffffffffffffff : U64).getLsbD n = true := by
      have : ∀ n : Fin 56, (0xffffffffffffff : U64).getLsbD n = true := by decide
      intro n h; exact this ⟨n, h⟩
    generalize hk : key56 key j = k at h1 h2
    have hhi : toBits 28 ((k >>> 28) &&& 0xfffffff) = (CD (toBits 64 key) j).1 := by
      rw [← h1]
      apply List.ext_getElem
      · simp [toBits]
      · intro i g1 g2
        have hi : i < 28 := by simpa [toBits] using g1
        rw [List.getElem_take, toBits_getElem, toBits_getElem, BitVec.getLsbD_and, mask28 _ (by omega), BitVec.getLsbD_ushiftRight]
        rw [show 28 + (28 - 1 - i) = 56 - 1 - i by omega]
        simp; omega
    have hlo : toBits 28 (k &&& 0xfffffff) = (CD (toBits 64 key) j).2 := by
      rw [← h2]
      apply List.ext_getElem
      · simp [toBits]
      · intro i g1 g2
        have hi : i < 28 := by simpa [toBits] using g1
        rw [List.getElem_drop, toBits_getElem, toBits_getElem, BitVec.getLsbD_and, mask28 _ (by omega)]
        rw [show 56 - 1 - (28 + i) = 28 - 1 - i by omega]
        simp; omega
    have rh := toBits_rol28 _ (moves.getD j 0) (moves_le j) (mask28_hi (k >>> 28))
    have rl := toBits_rol28 _ (moves.getD j 0) (moves_le j) (mask28_hi k)
    rw [hhi] at rh
    rw [hlo] at rl
    have hs : moves.getD j 0 = shifts.getD j 0 := rfl
    rw [key56, hk]
    unfold keyStep
    simp only []
    have zl : ∀ i, 28 ≤ i → (rol28 (k &&& 0xfffffff) (moves.getD j 0)).getLsbD i = false := fun i h => mask28_hi _ i h
    constructor
    · rw [CD, ← hs, ← rh]
      apply List.ext_getElem
      · simp [toBits]
      · intro i g1 g2
        have hi : i < 28 := by simpa [toBits] using g2
        rw [List.getElem_take, toBits_getElem, toBits_getElem, BitVec.getLsbD_and, hm _ (by omega), BitVec.getLsbD_or,
          BitVec.getLsbD_shiftLeft, zl _ (by omega), show 56 - 1 - i - 28 = 28 - 1 - i by omega]
        simp; omega
    · rw [CD, ← hs, ← rl]
      apply List.ext_getElem
      · simp [toBits]
      · intro i g1 g2
        have hi : i < 28 := by simpa [toBits] using g2
        rw [List.getElem_drop, toBits_getElem, toBits_getElem, BitVec.getLsbD_and, hm _ (by omega), BitVec.getLsbD_or,
          BitVec.getLsbD_shiftLeft, show 56 - 1 - (28 + i) = 28 - 1 - i by omega]
        simp [show 28 - 1 - i < 28 by omega]

theorem toBits_subKeys (key : U64) (j : Nat) : toBits 48 (subKeys key j) = K (toBits 64 key) j := by
  unfold subKeys K
  rw [← (toBits_key key (j + 1)).1, ← (toBits_key key (j + 1)).2, List.take_append_drop]
  exact toBits_gather 56 48 compT PC2 _ (by decide) (by decide) (by omega) (by decide) _ mask48

/-- `mln_des` with the sub-keys of `mln_des_init` is DES as the standard defines it. -/
theorem des_fips (key msg : U64) :
    toBits 64 (des (subKeys key) msg true) = fipsEncrypt (toBits 64 key) (toBits 64 msg) ∧
    toBits 64 (des (subKeys key) msg false) = fipsDecrypt (toBits 64 key) (toBits 64 msg) := by
  constructor
  · rw [des_eq]; exact toBits_desL _ _ _ (fun i _ => toBits_subKeys key i) msg
  · rw [des_eq]; exact toBits_desL _ _ _ (fun i _ => toBits_subKeys key i) msg

/-- Known answer: key 133457799BBCDFF1, block 0123456789ABCDEF. -/
example : des (subKeys 0x133457799BBCDFF1) 0x0123456789ABCDEF true = 0x85E813540F0AB405 := by decide +kernel

/-! ### Buffers -/

/-- Eight bytes as a word, most significant first, and back. -/
def pack (l : List Byte) : U64 := l.foldl (fun a b => (a <<< 8) ||| b.setWidth 64) 0
def unpack (x : U64) : List Byte := (List.range 8).map fun i => (x >>> ((7 - i) * 8)).setWidth 8

/-- The message cut into blocks of eight bytes, the last one completed with `fill`. -/
def blocks (fill : Byte) (l : List Byte) : List (List Byte) :=
  if _h : l = [] then [] else (l.take 8 ++ List.replicate (8 - l.length) fill) :: blocks fill (l.drop 8)
termination_by l.length
decreasing_by simp; have := List.length_pos_iff.mpr _h; omega

/-- The bytes written for a message: the block function on each block. -/
def codeBytes (g : U64 → U64) (fill : Byte) (l : List Byte) : List Byte :=
  (blocks fill l).flatMap fun b => unpack (g (pack b))

theorem pack_snoc (l : List Byte) (b : Byte) : pack (l ++ [b]) = (pack l <<< 8) ||| b.setWidth 64 := by
  unfold pack; rw [List.foldl_append]; rfl

theorem byte_mask (b : Byte) : (b.setWidth 64 &&& 0xff : U64) = b.setWidth 64 := by
  have : ∀ b : Byte, (b.setWidth 64 &&& 0xff : U64) = b.setWidth 64 := by decide +kernel
  exact this b

theorem push (d : List Byte) (b : Byte) (n : Nat) :
    (pack d <<< ((n + 1) * 8)) ||| ((b.setWidth 64 &&& 0xff) <<< (n * 8)) = pack (d ++ [b]) <<< (n * 8) := by
  rw [byte_mask, pack_snoc, BitVec.shiftLeft_or_distrib, ← BitVec.shiftLeft_add]
  congr 2; omega

theorem readLoop_ok : ∀ (n i : Nat) (d inp : List Byte) (inlen : Nat), i + n = 8 → inlen ≤ inp.length →
    readLoop n i (pack d <<< (n * 8)) inp inlen =
      some (pack (d ++ inp.take (min n inlen)) <<< ((n - min n inlen) * 8), inp.drop (min n inlen), inlen - min n inlen,
        i + min n inlen)
  | 0, i, d, inp, inlen, _, _ => by simp [readLoop]
  | n + 1, i, d, inp, inlen, hi, hl => by
    by_cases h0 : inlen = 0
    · cases inp <;> simp [h0, readLoop]
    · cases inp with
      | nil => simp at hl; omega
      | cons b inp =>
        simp only [readLoop]
        rw [if_neg h0, show 7 - i = n by omega, push, readLoop_ok n (i + 1) _ _ _ (by omega) (by simp at hl; omega)]
        have e : min (n + 1) inlen = min n (inlen - 1) + 1 := by omega
        rw [e, List.take_succ_cons, List.drop_succ_cons]
        simp [Nat.add_assoc, Nat.add_comm 1, Nat.sub_sub]

theorem fillLoop_ok (fill : Byte) : ∀ (n i : Nat) (d : List Byte), i + n = 8 →
    fillLoop fill n i (pack d <<< (n * 8)) = pack (d ++ List.replicate n fill)
  | 0, i, d, _ => by simp [fillLoop]
  | n + 1, i, d, h => by
    rw [fillLoop, show 7 - i = n by omega, push, fillLoop_ok fill n (i + 1) _ (by omega), List.replicate_succ]
    simp

theorem unpack_length (w : U64) : (unpack w).length = 8 := by simp [unpack]

theorem writeLoop_ok (w : U64) : ∀ (n i : Nat) (out : List Byte) (p outlen : Nat), i + n = 8 → p + outlen ≤ out.length →
    writeLoop w n i out p outlen = some (out.take p ++ ((unpack w).drop i).take outlen ++ out.drop (p + min n outlen),
      p + min n outlen, outlen - min n outlen, decide (outlen < n))
  | 0, i, out, p, outlen, h, hl => by
    have : i = 8 := by omega
    subst this
    rw [List.drop_of_length_le (by rw [unpack_length]; omega)]
    simp [writeLoop]
  | n + 1, i, out, p, outlen, h, hl => by
    rw [writeLoop]
    by_cases h0 : outlen = 0
    · simp [h0]
    · rw [if_neg h0, if_pos (by omega), writeLoop_ok w n (i + 1) _ _ _ (by omega) (by simp; omega)]
      have e : min (n + 1) outlen = min n (outlen - 1) + 1 := by omega
      have hd : (unpack w).drop i = ((w >>> ((7 - i) * 8)) &&& 0xff).setWidth 8 :: (unpack w).drop (i + 1) := by
        rw [List.drop_eq_getElem_cons (by rw [unpack_length]; omega)]
        congr 1
        have h255 : ∀ k, k < 8 → (0xff : U64).getLsbD k = true := by
          have : ∀ n : Fin 8, (0xff : U64).getLsbD n = true := by decide
          intro n hn; exact this ⟨n, hn⟩
        simp only [unpack, List.getElem_map, List.getElem_range]
        apply BitVec.eq_of_getLsbD_eq
        intro k hk
        rw [BitVec.getLsbD_setWidth, BitVec.getLsbD_setWidth, BitVec.getLsbD_and, h255 k hk, Bool.and_true]
      obtain ⟨o', rfl⟩ : ∃ o', outlen = o' + 1 := ⟨outlen - 1, by omega⟩
      rw [e, hd, List.take_succ_cons, List.take_add_one, List.take_set_of_le (Nat.le_refl _), List.drop_set_of_lt (by omega)]
      simp [show p < out.length by omega, Nat.add_assoc, Nat.add_comm 1]

theorem bufLoop_ok (g : U64 → U64) (fill : Byte) : ∀ (fuel : Nat) (inp : List Byte) (inlen : Nat) (out : List Byte) (p outlen : Nat),
    inlen ≤ fuel → inlen ≤ inp.length → p + outlen ≤ out.length →
    bufLoop g fill fuel inp inlen out p outlen =
      some (out.take p ++ (codeBytes g fill (inp.take inlen)).take outlen ++
        out.drop (p + min outlen (codeBytes g fill (inp.take inlen)).length))
  | 0, inp, inlen, out, p, outlen, hf, hi, ho => by
    have : inlen = 0 := by omega
    subst this
    simp [bufLoop, codeBytes, blocks]
  | fuel + 1, inp, inlen, out, p, outlen, hf, hi, ho => by
    rw [bufLoop]
    by_cases h0 : inlen = 0
    · subst h0; simp [codeBytes, blocks]
    · rw [if_neg h0]
      have h1 := readLoop_ok 8 0 [] inp inlen (by omega) hi
      have hz : pack [] <<< (8 * 8) = (0 : U64) := by decide
      rw [hz] at h1
      rw [h1]
      simp only [Option.bind_eq_bind, Option.bind_some, List.nil_append, Nat.zero_add]
      have hw : (if min 8 inlen < 8 then fillLoop fill (8 - min 8 inlen) (min 8 inlen)
            (pack (inp.take (min 8 inlen)) <<< ((8 - min 8 inlen) * 8))
          else pack (inp.take (min 8 inlen)) <<< ((8 - min 8 inlen) * 8)) =
          pack ((inp.take inlen).take 8 ++ List.replicate (8 - (inp.take inlen).length) fill) := by
        have e1 : (inp.take inlen).length = inlen := by simp; omega
        rw [e1, List.take_take]
        by_cases h8 : min 8 inlen < 8
        · rw [if_pos h8, fillLoop_ok _ _ _ _ (by omega), show 8 - min 8 inlen = 8 - inlen by omega]
        · rw [if_neg h8, show 8 - min 8 inlen = 0 by omega, show 8 - inlen = 0 by omega]; simp
      rw [hw]
      have hne : inp.take inlen ≠ [] := by
        intro e
        have := congrArg List.length e
        rw [List.length_take, List.length_nil] at this
        omega
      have hc : codeBytes g fill (inp.take inlen) =
          unpack (g (pack ((inp.take inlen).take 8 ++ List.replicate (8 - (inp.take inlen).length) fill))) ++
            codeBytes g fill ((inp.drop (min 8 inlen)).take (inlen - min 8 inlen)) := by
        rw [codeBytes, blocks, dif_neg hne, List.flatMap_cons]
        congr 1
        rw [codeBytes, List.drop_take]
        by_cases h8 : 8 ≤ inlen
        · rw [show min 8 inlen = 8 by omega]
        · rw [show inlen - 8 = 0 by omega, show inlen - min 8 inlen = 0 by omega]; simp
      rw [hc]
      generalize g (pack ((inp.take inlen).take 8 ++ List.replicate (8 - (inp.take inlen).length) fill)) = w
      have h2 := writeLoop_ok w 8 0 out p outlen (by omega) ho
      rw [h2]
      simp only [Option.bind_some, List.drop_zero]
      have hul := unpack_length w
      by_cases hd : outlen < 8
      · rw [show decide (outlen < 8) = true by simp [hd]]
        simp only [if_true]
        rw [List.take_append_of_le_length (by omega), List.length_append, hul]
        rw [show min 8 outlen = outlen by omega, show min outlen (8 + _) = outlen by omega]
      · rw [show decide (outlen < 8) = false by simp; omega]
        simp only [Bool.false_eq_true, if_false]
        rw [show min 8 outlen = 8 by omega, List.take_of_length_le (l := unpack w) (by omega)]
        rw [bufLoop_ok g fill fuel _ _ _ _ _ (by omega) (by simp; omega) (by simp [hul]; omega)]
        generalize codeBytes g fill ((inp.drop (min 8 inlen)).take (inlen - min 8 inlen)) = rest
        have hpl : (out.take p ++ unpack w).length = p + 8 := by simp [hul]; omega
        rw [List.take_append_of_le_length (by omega), List.take_of_length_le (by omega)]
        rw [List.drop_append, List.drop_of_length_le (l := out.take p ++ unpack w) (by omega), List.drop_drop, hpl]
        rw [List.take_append, List.take_of_length_le (l := unpack w) (by omega), hul, List.length_append, hul]
        rw [show p + 8 + (p + 8 + min (outlen - 8) rest.length - (p + 8)) = p + min outlen (8 + rest.length) by omega]
        simp

/-! Packing and unpacking. -/

theorem unpack_pack (l : List Byte) (h : l.length = 8) : unpack (pack l) = l := by
  match l, h with
  | [a0, a1, a2, a3, a4, a5, a6, a7], _ =>
    have hr : List.range 8 = [0, 1, 2, 3, 4, 5, 6, 7] := by decide
    unfold unpack pack
    rw [hr]
    simp only [List.map_cons, List.map_nil, List.foldl_cons, List.foldl_nil, List.cons.injEq, and_true]
    refine ⟨?_, ?_, ?_, ?_, ?_, ?_, ?_, ?_⟩ <;>
    · apply BitVec.eq_of_getLsbD_eq
      intro n hn
      have h3 : n = 0 ∨ n = 1 ∨ n = 2 ∨ n = 3 ∨ n = 4 ∨ n = 5 ∨ n = 6 ∨ n = 7 := by omega
      rcases h3 with rfl | rfl | rfl | rfl | rfl | rfl | rfl | rfl <;> simp

theorem unpack_inj (x y : U64) (h : unpack x = unpack y) : x = y := by
  have key : ∀ (w : U64) (n : Nat), n < 64 → ((unpack w).getD (7 - n / 8) 0).getLsbD (n % 8) = w.getLsbD n := by
    intro w n hn
    have : (unpack w).getD (7 - n / 8) 0 = (w >>> ((7 - (7 - n / 8)) * 8)).setWidth 8 := by
      simp [unpack, List.getD_eq_getElem?_getD, List.getElem?_range (show 7 - n / 8 < 8 by omega)]
    rw [this, BitVec.getLsbD_setWidth, BitVec.getLsbD_ushiftRight, show (7 - (7 - n / 8)) * 8 + n % 8 = n by omega]
    simp; omega
  apply BitVec.eq_of_getLsbD_eq
  intro n hn
  rw [← key x n hn, ← key y n hn, h]

theorem pack_unpack (w : U64) : pack (unpack w) = w :=
  unpack_inj _ _ (unpack_pack _ (unpack_length w))

/-- What comes back: the message completed to whole blocks. -/
theorem codeBytes_inv (g g' : U64 → U64) (hg : ∀ x, g' (g x) = x) (fill fill' : Byte) : ∀ (n : Nat) (l : List Byte), l.length ≤ n →
    codeBytes g' fill' (codeBytes g fill l) = (blocks fill l).flatten ∧ (codeBytes g fill l).length = (blocks fill l).flatten.length
  | n, l, hl => by
    by_cases h0 : l = []
    · subst h0; simp [codeBytes, blocks]
    · have hp := List.length_pos_iff.mpr h0
      cases n with
      | zero => omega
      | succ n =>
        obtain ⟨ih1, ih2⟩ := codeBytes_inv g g' hg fill fill' n (l.drop 8) (by simp; omega)
        have e : codeBytes g fill l = unpack (g (pack (l.take 8 ++ List.replicate (8 - l.length) fill))) ++ codeBytes g fill (l.drop 8) := by
          rw [codeBytes, blocks, dif_neg h0, List.flatMap_cons]; rfl
        have hb : (l.take 8 ++ List.replicate (8 - l.length) fill).length = 8 := by simp; omega
        have hu := unpack_length (g (pack (l.take 8 ++ List.replicate (8 - l.length) fill)))
        have hbl : blocks fill l = (l.take 8 ++ List.replicate (8 - l.length) fill) :: blocks fill (l.drop 8) := by
          rw [blocks, dif_neg h0]
        rw [e, hbl, List.flatten_cons]
        refine ⟨?_, by rw [List.length_append, List.length_append, hu, hb, ih2]⟩
        generalize hu' : unpack (g (pack (l.take 8 ++ List.replicate (8 - l.length) fill))) = u at hu
        have hne : u ++ codeBytes g fill (l.drop 8) ≠ [] := by
          intro e; have := congrArg List.length e; simp at this; rw [this.1] at hu; cases hu
        rw [codeBytes, blocks, dif_neg hne, List.flatMap_cons]
        have t1 : (u ++ codeBytes g fill (l.drop 8)).take 8 = u := by
          rw [List.take_append_of_le_length (by omega), List.take_of_length_le (by omega)]
        have t2 : (u ++ codeBytes g fill (l.drop 8)).drop 8 = codeBytes g fill (l.drop 8) := by
          rw [List.drop_append_of_le_length (by omega), List.drop_of_length_le (by omega), List.nil_append]
        have t3 : 8 - (u ++ codeBytes g fill (l.drop 8)).length = 0 := by rw [List.length_append]; omega
        rw [t1, t2, t3]
        simp only [List.replicate_zero, List.append_nil]
        have : (blocks fill' (codeBytes g fill (l.drop 8))).flatMap (fun b => unpack (g' (pack b))) =
          codeBytes g' fill' (codeBytes g fill (l.drop 8)) := rfl
        rw [this, ih1, ← hu', pack_unpack, hg, unpack_pack _ hb]

theorem blocks_flatten (fill : Byte) : ∀ (n : Nat) (l : List Byte), l.length ≤ n →
    (blocks fill l).flatten = l ++ List.replicate ((8 - l.length % 8) % 8) fill
  | n, l, hl => by
    by_cases h0 : l = []
    · subst h0; simp [blocks]
    · have hp := List.length_pos_iff.mpr h0
      cases n with
      | zero => omega
      | succ n =>
        rw [blocks, dif_neg h0, List.flatten_cons, blocks_flatten fill n (l.drop 8) (by simp; omega)]
        by_cases h8 : 8 ≤ l.length
        · rw [show 8 - l.length = 0 by omega, List.replicate_zero, List.append_nil, ← List.append_assoc, List.take_append_drop,
            List.length_drop, show (l.length - 8) % 8 = l.length % 8 by omega]
        · rw [List.drop_of_length_le (by omega), List.take_of_length_le (by omega)]
          simp [show l.length % 8 = l.length by omega, show (8 - l.length) % 8 = 8 - l.length by omega]

/-! ### C14 -/

/-- What the buffer functions write: the coded blocks, cut at `outlen`; nothing else of the
output buffer changes and no access leaves either buffer. -/
theorem desBuf_spec (ks : Nat → U64) (inp : List Byte) (inlen : Nat) (out : List Byte) (outlen : Nat) (fill : Byte) (enc : Bool)
    (hi : inlen ≤ inp.length) (ho : outlen ≤ out.length) :
    desBuf ks inp inlen out outlen fill enc =
      some ((codeBytes (fun w => des ks w enc) fill (inp.take inlen)).take outlen ++
        out.drop (min outlen (codeBytes (fun w => des ks w enc) fill (inp.take inlen)).length)) := by
  unfold desBuf
  rw [bufLoop_ok _ fill inlen inp inlen out 0 outlen (Nat.le_refl _) hi (by omega)]
  simp

theorem des3Buf_spec (k1 k2 : Nat → U64) (inp : List Byte) (inlen : Nat) (out : List Byte) (outlen : Nat) (fill : Byte) (enc : Bool)
    (hi : inlen ≤ inp.length) (ho : outlen ≤ out.length) :
    des3Buf k1 k2 inp inlen out outlen fill enc =
      some ((codeBytes (fun w => des3 k1 k2 w enc) fill (inp.take inlen)).take outlen ++
        out.drop (min outlen (codeBytes (fun w => des3 k1 k2 w enc) fill (inp.take inlen)).length)) := by
  unfold des3Buf
  rw [bufLoop_ok _ fill inlen inp inlen out 0 outlen (Nat.le_refl _) hi (by omega)]
  simp

/-- Encrypting a message of any length and decrypting the result gives the message
completed with fill bytes to a multiple of eight; in particular a message whose length is a
multiple of eight comes back exactly.  `enc` may be either direction. -/
theorem desBuf_roundtrip (ks : Nat → U64) (msg out1 out2 : List Byte) (fill fill' : Byte) (enc : Bool)
    (h1 : out1.length = msg.length + (8 - msg.length % 8) % 8) (h2 : out2.length = out1.length) :
    ∃ c, desBuf ks msg msg.length out1 out1.length fill enc = some c ∧ c.length = out1.length ∧
      desBuf ks c c.length out2 out2.length fill' (!enc) = some (msg ++ List.replicate ((8 - msg.length % 8) % 8) fill) := by
  have hg : ∀ x, (fun w => des ks w (!enc)) ((fun w => des ks w enc) x) = x := fun x => des_inv ks x enc
  obtain ⟨e1, e2⟩ := codeBytes_inv (fun w => des ks w enc) (fun w => des ks w (!enc)) hg fill fill' msg.length msg (Nat.le_refl _)
  rw [blocks_flatten fill msg.length msg (Nat.le_refl _)] at e1 e2
  rw [List.length_append, List.length_replicate] at e2
  have hc : desBuf ks msg msg.length out1 out1.length fill enc = some (codeBytes (fun w => des ks w enc) fill msg) := by
    rw [desBuf_spec ks msg _ out1 _ fill enc (Nat.le_refl _) (Nat.le_refl _), List.take_length,
      List.take_of_length_le (by omega), List.drop_of_length_le (by omega), List.append_nil]
  refine ⟨_, hc, by omega, ?_⟩
  rw [desBuf_spec ks _ _ out2 _ fill' _ (Nat.le_refl _) (Nat.le_refl _), List.take_length, e1,
    List.take_of_length_le (by simp; omega), List.drop_of_length_le (by simp; omega), List.append_nil]

theorem des3Buf_roundtrip (k1 k2 : Nat → U64) (msg out1 out2 : List Byte) (fill fill' : Byte) (enc : Bool)
    (h1 : out1.length = msg.length + (8 - msg.length % 8) % 8) (h2 : out2.length = out1.length) :
    ∃ c, des3Buf k1 k2 msg msg.length out1 out1.length fill enc = some c ∧ c.length = out1.length ∧
      des3Buf k1 k2 c c.length out2 out2.length fill' (!enc) = some (msg ++ List.replicate ((8 - msg.length % 8) % 8) fill) := by
  have hg : ∀ x, (fun w => des3 k1 k2 w (!enc)) ((fun w => des3 k1 k2 w enc) x) = x := fun x => des3_inv k1 k2 x enc
  obtain ⟨e1, e2⟩ := codeBytes_inv (fun w => des3 k1 k2 w enc) (fun w => des3 k1 k2 w (!enc)) hg fill fill' msg.length msg (Nat.le_refl _)
  rw [blocks_flatten fill msg.length msg (Nat.le_refl _)] at e1 e2
  rw [List.length_append, List.length_replicate] at e2
  have hc : des3Buf k1 k2 msg msg.length out1 out1.length fill enc = some (codeBytes (fun w => des3 k1 k2 w enc) fill msg) := by
    rw [des3Buf_spec k1 k2 msg _ out1 _ fill enc (Nat.le_refl _) (Nat.le_refl _), List.take_length,
      List.take_of_length_le (by omega), List.drop_of_length_le (by omega), List.append_nil]
  refine ⟨_, hc, by omega, ?_⟩
  rw [des3Buf_spec k1 k2 _ _ out2 _ fill' _ (Nat.le_refl _) (Nat.le_refl _), List.take_length, e1,
    List.take_of_length_le (by simp; omega), List.drop_of_length_le (by simp; omega), List.append_nil]

/-- Nine bytes: the second block is completed with seven fill bytes. -/
example : desBuf (subKeys 0x133457799BBCDFF1) [1, 0x23, 0x45, 0x67, 0x89, 0xab, 0xcd, 0xef, 5] 8 (List.replicate 9 7) 9 0 true =
    some [0x85, 0xE8, 0x13, 0x54, 0x0F, 0x0A, 0xB4, 0x05, 7] := by decide +kernel

end Verif.Des
