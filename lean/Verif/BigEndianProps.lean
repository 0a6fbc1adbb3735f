import Verif.BigEndian
/-
C62: the big-endian macros.
-/
namespace Verif.BigEndian

/-! ### Specification -/

/-- The number written in base 256, most significant byte first. -/
def val (l : List Byte) : Nat := l.foldl (fun a b => a * 256 + b.toNat) 0

/-! ### Proofs -/

theorem foldl_acc : ∀ (l : List Byte) (a : Nat),
    l.foldl (fun a b => a * 256 + b.toNat) a = a * 256 ^ l.length + val l
  | [], a => by simp [val]
  | b :: l, a => by
    unfold val
    simp only [List.foldl_cons, List.length_cons]
    rw [foldl_acc l, foldl_acc l]
    simp only [Nat.pow_succ, Nat.zero_mul, Nat.zero_add, Nat.add_mul, Nat.add_assoc, Nat.mul_assoc, Nat.mul_comm 256]

theorem val_cons (b : Byte) (l : List Byte) : val (b :: l) = b.toNat * 256 ^ l.length + val l := by
  unfold val
  rw [List.foldl_cons, foldl_acc]
  simp [val]

theorem val_snoc (b : Byte) (l : List Byte) : val (l ++ [b]) = val l * 256 + b.toNat := by
  unfold val; rw [List.foldl_append]; rfl

theorem val_lt : ∀ l : List Byte, val l < 256 ^ l.length
  | [] => by decide
  | b :: l => by
    rw [val_cons, List.length_cons, Nat.pow_succ]
    have h1 := val_lt l
    have h2 := b.isLt
    have : b.toNat * 256 ^ l.length ≤ 255 * 256 ^ l.length := Nat.mul_le_mul_right _ (by omega)
    omega

/-- The bytes written: byte n-1 first. -/
def be (num : U64) : Nat → List Byte
  | 0 => []
  | n + 1 => ((num >>> (n * 8)) &&& 0xff).setWidth 8 :: be num n

theorem be_length (num : U64) : ∀ n, (be num n).length = n
  | 0 => rfl
  | n + 1 => by simp [be, be_length num n]

theorem val_be (num : U64) : ∀ n, val (be num n) = num.toNat % 256 ^ n
  | 0 => by simp [be, val, Nat.mod_one]
  | n + 1 => by
    rw [be, val_cons, be_length, val_be num n, Nat.pow_succ, Nat.mod_mul]
    have : (((num >>> (n * 8)) &&& 0xff).setWidth 8 : Byte).toNat = num.toNat / 256 ^ n % 256 := by
      rw [BitVec.toNat_setWidth, BitVec.toNat_and, BitVec.toNat_ushiftRight, Nat.shiftRight_eq_div_pow]
      rw [show (BitVec.toNat (0xff : U64)) = 2 ^ 8 - 1 from rfl, Nat.and_two_pow_sub_one_eq_mod, Nat.mul_comm n 8, Nat.pow_mul]
      simp
    rw [this, Nat.mul_comm, Nat.add_comm]

theorem encLoop_ok (num : U64) (blen : Nat) : ∀ (n i : Nat) (buf : List Byte) (p : Nat), i + n = blen → n ≤ 8 →
    p + n ≤ buf.length → encLoop num blen n i buf p = some (buf.take p ++ be num n ++ buf.drop (p + n), p + n)
  | 0, i, buf, p, _, _, _ => by simp [encLoop, be]
  | n + 1, i, buf, p, h, h8, hl => by
    have e : blen - i - 1 = n := by omega
    rw [encLoop, e, if_neg (by omega), if_pos (by omega), encLoop_ok num blen n (i + 1) _ _ (by omega) (by omega) (by simp; omega)]
    rw [List.take_add_one, List.take_set_of_le (Nat.le_refl _), List.drop_set_of_lt (by omega)]
    simp [be, show p < buf.length by omega, Nat.add_assoc, Nat.add_comm 1]

theorem decLoop_ok (buf : List Byte) (blen : Nat) (h8 : blen ≤ 8) (p0 : Nat) : ∀ (n i : Nat) (num : U64), i + n = blen →
    p0 + blen ≤ buf.length → num.toNat = val ((buf.drop p0).take i) * 256 ^ n →
    decLoop buf blen n i num (p0 + i) = some (BitVec.ofNat 64 (val ((buf.drop p0).take blen)), p0 + blen)
  | 0, i, num, h, hl, hn => by
    simp only [decLoop]
    have : i = blen := by omega
    subst this
    rw [← Nat.mul_one (val _), ← Nat.pow_zero 256, ← hn]; simp
  | n + 1, i, num, h, hl, hn => by
    have e : blen - i - 1 = n := by omega
    rw [decLoop, List.getElem?_eq_getElem (by omega), e]
    simp only [Option.bind_eq_bind, Option.bind_some]
    rw [if_neg (by omega)]
    have ht : (buf.drop p0).take (i + 1) = (buf.drop p0).take i ++ [buf[p0 + i]] := by
      rw [List.take_add_one]; simp [show p0 + i < buf.length by omega]
    have hlen : ((buf.drop p0).take i).length = i := by simp; omega
    have hv := val_lt ((buf.drop p0).take i)
    rw [hlen] at hv
    refine decLoop_ok buf blen h8 p0 n (i + 1) _ (by omega) hl ?_
    rw [ht, val_snoc]
    generalize val ((buf.drop p0).take i) = v at *
    generalize buf[p0 + i] = b
    have hb : (b.setWidth 64 &&& 0xff : U64).toNat = b.toNat := by
      rw [BitVec.toNat_and, BitVec.toNat_setWidth, show (BitVec.toNat (0xff : U64)) = 2 ^ 8 - 1 from rfl,
        Nat.and_two_pow_sub_one_eq_mod]
      have := b.isLt
      omega
    have hp : (256 : Nat) ^ n = 2 ^ (n * 8) := by rw [Nat.mul_comm, Nat.pow_mul]
    have hpow : (256 : Nat) ^ (n + 1) = 2 ^ (n * 8 + 8) := by rw [Nat.pow_succ, hp, Nat.pow_add]
    have hbn : b.toNat * 256 ^ n < 256 ^ (n + 1) := by
      rw [Nat.pow_succ, Nat.mul_comm]; exact Nat.mul_lt_mul_of_pos_left b.isLt (Nat.pow_pos (by omega))
    have hle : (256 : Nat) ^ (n + 1) ≤ 256 ^ 8 := Nat.pow_le_pow_right (by omega) (by omega)
    rw [BitVec.toNat_or, BitVec.toNat_shiftLeft, hb, hn, Nat.shiftLeft_eq, ← hp, Nat.mod_eq_of_lt (by omega)]
    rw [hpow, ← Nat.shiftLeft_eq, ← Nat.shiftLeft_add_eq_or_of_lt (by rw [← hpow]; exact hbn), Nat.shiftLeft_eq, ← hpow,
      Nat.pow_succ, Nat.add_mul, Nat.mul_assoc, Nat.mul_comm 256]

/-! ### C62 -/

/-- Encoding n ≤ 8 bytes writes exactly the n bytes of the base-256 representation of the
low n bytes of the value and moves the pointer behind them. -/
theorem encode_spec (num : U64) (buf : List Byte) (p n : Nat) (hn : n ≤ 8) (hl : p + n ≤ buf.length) :
    ∃ bs, encode num buf p n = some (buf.take p ++ bs ++ buf.drop (p + n), p + n) ∧ bs.length = n ∧
      val bs = num.toNat % 256 ^ n :=
  ⟨be num n, encLoop_ok num n n 0 buf p (by omega) hn hl, be_length num n, val_be num n⟩

/-- Decoding n ≤ 8 bytes gives the number they represent. -/
theorem decode_spec (buf : List Byte) (p n : Nat) (hn : n ≤ 8) (hl : p + n ≤ buf.length) :
    ∃ v, decode buf p n = some (v, p + n) ∧ v.toNat = val ((buf.drop p).take n) := by
  refine ⟨_, decLoop_ok buf n hn p n 0 0 (by omega) hl (by simp [val]), ?_⟩
  have := val_lt ((buf.drop p).take n)
  have hlen : ((buf.drop p).take n).length = n := by simp; omega
  rw [hlen] at this
  have hle : (256 : Nat) ^ n ≤ 256 ^ 8 := Nat.pow_le_pow_right (by omega) hn
  rw [BitVec.toNat_ofNat, Nat.mod_eq_of_lt (by omega)]

/-- Decode after encode restores the low n bytes. -/
theorem decode_encode (num : U64) (buf : List Byte) (p n : Nat) (hn : n ≤ 8) (hl : p + n ≤ buf.length) :
    ∃ buf' v, encode num buf p n = some (buf', p + n) ∧ buf'.length = buf.length ∧ decode buf' p n = some (v, p + n) ∧
      v.toNat = num.toNat % 256 ^ n := by
  obtain ⟨bs, h1, h2, h3⟩ := encode_spec num buf p n hn hl
  have hlen : (buf.take p ++ bs ++ buf.drop (p + n)).length = buf.length := by simp [h2]; omega
  obtain ⟨v, h4, h5⟩ := decode_spec _ p n hn (by rw [hlen]; exact hl)
  refine ⟨_, v, h1, hlen, h4, ?_⟩
  rw [h5, ← h3]
  congr 1
  rw [List.append_assoc, List.drop_append_of_le_length (by simp; omega)]
  simp [← h2]

/-- All eight bytes: the value itself comes back. -/
theorem decode_encode8 (num : U64) (buf : List Byte) (p : Nat) (hl : p + 8 ≤ buf.length) :
    ∃ buf', encode num buf p 8 = some (buf', p + 8) ∧ decode buf' p 8 = some (num, p + 8) := by
  obtain ⟨b, v, h1, _, h2, h3⟩ := decode_encode num buf p 8 (Nat.le_refl _) hl
  refine ⟨b, h1, ?_⟩
  have : v = num := by
    apply BitVec.eq_of_toNat_eq
    rw [h3, Nat.mod_eq_of_lt (by have := num.isLt; omega)]
  rw [← this]; exact h2

/-- More than eight bytes shifts a 64-bit value by 64 or more: undefined. -/
theorem encode_wide (num : U64) (buf : List Byte) (p n : Nat) (hn : 8 < n) : encode num buf p n = none := by
  obtain ⟨m, rfl⟩ : ∃ m, n = m + 1 := ⟨n - 1, by omega⟩
  unfold encode encLoop
  rw [if_pos (by omega)]

/-- Encoding is injective: different low bytes give different buffers. -/
theorem encode_inj (a b : U64) (buf : List Byte) (p n : Nat) (hn : n ≤ 8) (hl : p + n ≤ buf.length)
    (h : encode a buf p n = encode b buf p n) : a.toNat % 256 ^ n = b.toNat % 256 ^ n := by
  obtain ⟨b1, v1, h1, _, d1, e1⟩ := decode_encode a buf p n hn hl
  obtain ⟨b2, v2, h2, _, d2, e2⟩ := decode_encode b buf p n hn hl
  rw [h1, h2] at h
  cases h
  rw [d1] at d2
  cases d2
  rw [← e1, ← e2]

example : encode 0x1234567 [9, 9, 9, 9, 9] 1 3 = some ([9, 0x23, 0x45, 0x67, 9], 4) := by decide
example : decode [9, 0x23, 0x45, 0x67, 9] 1 3 = some (0x234567, 4) := by decide

end Verif.BigEndian
