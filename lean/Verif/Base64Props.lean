import Verif.Base64
/-
Properties C07 and C08.
-/
namespace Verif.Base64

/-! ### Specification: RFC 4648 section 4, by arithmetic on 24-bit groups -/

/-- The base 64 alphabet of RFC 4648 table 1, by value. -/
def alphabet (n : Nat) : Nat :=
  if n < 26 then 'A'.toNat + n
  else if n < 52 then 'a'.toNat + (n - 26)
  else if n < 62 then '0'.toNat + (n - 52)
  else if n = 62 then '+'.toNat else '/'.toNat

def letter (n : Nat) : Byte := BitVec.ofNat 8 (alphabet n)

def rfcEncode : List Byte → List Byte
  | [] => []
  | [a] =>
    let n := a.toNat * 65536
    [letter (n / 2 ^ 18), letter (n / 2 ^ 12 % 64), eq', eq']
  | [a, b] =>
    let n := a.toNat * 65536 + b.toNat * 256
    [letter (n / 2 ^ 18), letter (n / 2 ^ 12 % 64), letter (n / 2 ^ 6 % 64), eq']
  | a :: b :: c :: l =>
    let n := a.toNat * 65536 + b.toNat * 256 + c.toNat
    letter (n / 2 ^ 18) :: letter (n / 2 ^ 12 % 64) :: letter (n / 2 ^ 6 % 64) :: letter (n % 64) :: rfcEncode l

/-! ### Tables -/

theorem bm_table : ∀ n : Fin 64, bm (BitVec.ofNat 8 n.val) = some (letter n.val) := by decide +kernel

theorem bm_eq (x : Byte) (h : x.toNat < 64) : bm x = some (letter x.toNat) := by
  have := bm_table ⟨x.toNat, h⟩
  simpa using this

theorem as_table : ∀ n : Fin 64, as (letter n.val) = some (BitVec.ofNat 8 n.val) ∧ letter n.val ≠ eq' := by
  decide +kernel

theorem as_letter (n : Nat) (h : n < 64) : as (letter n) = some (BitVec.ofNat 8 n) := (as_table ⟨n, h⟩).1
theorem letter_ne (n : Nat) (h : n < 64) : letter n ≠ eq' := (as_table ⟨n, h⟩).2

theorem ascii_length : ascii.length = 256 := by decide +kernel

theorem as_some (a : Byte) : ∃ v, as a = some v := by
  unfold as
  exact ⟨_, List.getElem?_eq_getElem (by rw [ascii_length]; exact a.isLt)⟩

/-! ### Bit identities -/

theorem hi6 : ∀ a : Byte, ((a >>> 2) &&& 0x3f).toNat = a.toNat / 4 := by decide +kernel
theorem lo2 : ∀ a : Byte, ((a &&& 0x3) <<< 4).toNat = a.toNat % 4 * 16 := by decide +kernel
theorem hi4 : ∀ a : Byte, ((a >>> 4) &&& 0xf).toNat = a.toNat / 16 := by decide +kernel
theorem lo4 : ∀ a : Byte, ((a &&& 0xf) <<< 2).toNat = a.toNat % 16 * 4 := by decide +kernel
theorem hi2 : ∀ a : Byte, ((a >>> 6) &&& 0x3).toNat = a.toNat / 64 := by decide +kernel
theorem lo6 : ∀ a : Byte, (a &&& 0x3f).toNat = a.toNat % 64 := by decide +kernel
theorem or16 : ∀ (k : Fin 4) (y : Fin 16), (k.val * 16) ||| y.val = k.val * 16 + y.val := by decide
theorem or4 : ∀ (k : Fin 16) (y : Fin 4), (k.val * 4) ||| y.val = k.val * 4 + y.val := by decide

theorem mid1 (a b : Byte) : (((a &&& 0x3) <<< 4) ||| ((b >>> 4) &&& 0xf)).toNat = a.toNat % 4 * 16 + b.toNat / 16 := by
  rw [BitVec.toNat_or, lo2, hi4]
  exact or16 ⟨a.toNat % 4, by omega⟩ ⟨b.toNat / 16, by have := b.isLt; omega⟩

theorem mid2 (a b : Byte) : (((a &&& 0xf) <<< 2) ||| ((b >>> 6) &&& 0x3)).toNat = a.toNat % 16 * 4 + b.toNat / 64 := by
  rw [BitVec.toNat_or, lo4, hi2]
  exact or4 ⟨a.toNat % 16, by omega⟩ ⟨b.toNat / 64, by have := b.isLt; omega⟩

theorem put_app (d : List Byte) (t : Byte) (ts : List Byte) (x : Byte) (j : Nat) (hj : j = d.length) :
    put (d ++ t :: ts) j x = some (d ++ x :: ts) := by
  subst hj
  simp [put]

theorem rfcEncode_length : ∀ l, (rfcEncode l).length = encLen l.length := by
  intro l
  fun_induction rfcEncode l with
  | case1 => rfl
  | case2 => simp [encLen]
  | case3 => simp [encLen]
  | case4 a b c l n ih =>
    simp only [List.length_cons, ih, encLen]
    have e : (l.length + 1 + 1 + 1) % 3 = l.length % 3 := by omega
    have e2 : (l.length + 1 + 1 + 1) / 3 = l.length / 3 + 1 := by omega
    rw [e, e2]
    split <;> omega

/-- The encoding loop appends the RFC encoding of the remaining input. -/
theorem encLoop_ok (inp : List Byte) : ∀ (rest pre done tail : List Byte) (fuel : Nat),
    inp = pre ++ rest → (rfcEncode rest).length ≤ tail.length → rest.length < fuel →
    encLoop inp fuel pre.length 0 done.length (done ++ tail) =
      some (done ++ rfcEncode rest ++ tail.drop (rfcEncode rest).length) := by
  intro rest
  fun_induction rfcEncode rest with
  | case1 =>
    intro pre done tail fuel h1 h2 h3
    obtain ⟨f, rfl⟩ : ∃ f, fuel = f + 1 := ⟨fuel - 1, by omega⟩
    have : ¬ pre.length < inp.length := by simp [h1]
    simp [encLoop, this]
  | case2 a n =>
    intro pre done tail fuel h1 h2 h3
    obtain ⟨f, rfl⟩ : ∃ f, fuel = f + 2 := ⟨fuel - 2, by simp at h3; omega⟩
    have hlen : inp.length = pre.length + 1 := by simp [h1]
    have g0 : inp[pre.length]? = some a := by simp [h1]
    match tail, h2 with
    | t0 :: t1 :: t2 :: t3 :: ts, _ =>
    have ha := a.isLt
    have b0 := bm_eq ((a >>> 2) &&& 0x3f) (by rw [hi6]; omega)
    have b1 := bm_eq ((a &&& 0x3) <<< 4) (by rw [lo2]; omega)
    rw [hi6] at b0; rw [lo2] at b1
    simp only [encLoop, hlen, g0, Option.bind_eq_bind, Option.bind_some, b0, b1, Nat.lt_add_one, if_true]
    rw [put_app _ _ _ _ _ rfl]
    simp only [Option.bind_some]
    rw [if_neg (by decide), if_pos (by omega)]
    rw [show done ++ letter (a.toNat / 4) :: t1 :: t2 :: t3 :: ts = (done ++ [letter (a.toNat / 4)]) ++ t1 :: t2 :: t3 :: ts by simp]
    rw [put_app _ _ _ _ _ (by simp)]
    simp only [Option.bind_some]
    rw [show ∀ x, (done ++ [letter (a.toNat / 4)]) ++ x :: t2 :: t3 :: ts = (done ++ [letter (a.toNat / 4), x]) ++ t2 :: t3 :: ts by simp]
    rw [put_app _ _ _ _ _ (by simp)]
    simp only [Option.bind_some]
    rw [show ∀ x y, (done ++ [letter (a.toNat / 4), x]) ++ y :: t3 :: ts = (done ++ [letter (a.toNat / 4), x, y]) ++ t3 :: ts by simp]
    rw [put_app _ _ _ _ _ (by simp)]
    have e1 : n / 2 ^ 18 = a.toNat / 4 := by omega
    have e2 : n / 2 ^ 12 % 64 = a.toNat % 4 * 16 := by omega
    simp [e1, e2]
  | case3 a b n =>
    intro pre done tail fuel h1 h2 h3
    obtain ⟨f, rfl⟩ : ∃ f, fuel = f + 3 := ⟨fuel - 3, by simp at h3; omega⟩
    have hlen : inp.length = pre.length + 2 := by simp [h1]
    have g0 : inp[pre.length]? = some a := by simp [h1]
    have g1 : inp[pre.length + 1]? = some b := by simp [h1]
    match tail, h2 with
    | t0 :: t1 :: t2 :: t3 :: ts, _ =>
    have ha := a.isLt
    have hb := b.isLt
    have b0 := bm_eq ((a >>> 2) &&& 0x3f) (by rw [hi6]; omega)
    have b1 := bm_eq (((a &&& 0x3) <<< 4) ||| ((b >>> 4) &&& 0xf)) (by rw [mid1]; omega)
    have b2 := bm_eq ((b &&& 0xf) <<< 2) (by rw [lo4]; omega)
    rw [hi6] at b0; rw [mid1] at b1; rw [lo4] at b2
    simp only [encLoop, hlen, g0, g1, Option.bind_eq_bind, Option.bind_some, b0, b1, b2,
      show pre.length < pre.length + 2 by omega, show pre.length + 1 < pre.length + 2 by omega,
      show ¬ (pre.length + 1 ≥ pre.length + 2) by omega, show pre.length + 1 + 1 ≥ pre.length + 2 by omega,
      show ¬ (1 = 0) by decide, show ¬ (2 = 0) by decide, show ¬ (2 = 1) by decide,  if_true, if_false]
    rw [put_app _ _ _ _ _ rfl]
    simp only [Option.bind_some]
    rw [show ∀ x, done ++ x :: t1 :: t2 :: t3 :: ts = (done ++ [x]) ++ t1 :: t2 :: t3 :: ts by simp]
    rw [put_app _ _ _ _ _ (by simp)]
    simp only [Option.bind_some]
    rw [show ∀ x y, (done ++ [y]) ++ x :: t2 :: t3 :: ts = (done ++ [y, x]) ++ t2 :: t3 :: ts by simp]
    rw [put_app _ _ _ _ _ (by simp)]
    simp only [Option.bind_some]
    rw [show ∀ x y z, (done ++ [z, x]) ++ y :: t3 :: ts = (done ++ [z, x, y]) ++ t3 :: ts by simp]
    rw [put_app _ _ _ _ _ (by simp)]
    have e1 : n / 2 ^ 18 = a.toNat / 4 := by omega
    have e2 : n / 2 ^ 12 % 64 = a.toNat % 4 * 16 + b.toNat / 16 := by omega
    have e3 : n / 2 ^ 6 % 64 = b.toNat % 16 * 4 := by omega
    simp [e1, e2, e3]
  | case4 a b c l n ih =>
    intro pre done tail fuel h1 h2 h3
    obtain ⟨f, rfl⟩ : ∃ f, fuel = f + 3 := ⟨fuel - 3, by simp at h3; omega⟩
    have hlen : inp.length = pre.length + 3 + l.length := by simp [h1]; omega
    have g0 : inp[pre.length]? = some a := by simp [h1]
    have g1 : inp[pre.length + 1]? = some b := by simp [h1]
    have g2 : inp[pre.length + 1 + 1]? = some c := by simp [h1, Nat.add_assoc]
    match tail, h2 with
    | t0 :: t1 :: t2 :: t3 :: ts, h2 =>
    have ha := a.isLt
    have hb := b.isLt
    have hc := c.isLt
    have b0 := bm_eq ((a >>> 2) &&& 0x3f) (by rw [hi6]; omega)
    have b1 := bm_eq (((a &&& 0x3) <<< 4) ||| ((b >>> 4) &&& 0xf)) (by rw [mid1]; omega)
    have b2 := bm_eq (((b &&& 0xf) <<< 2) ||| ((c >>> 6) &&& 0x3)) (by rw [mid2]; omega)
    have b3 := bm_eq (c &&& 0x3f) (by rw [lo6]; omega)
    rw [hi6] at b0; rw [mid1] at b1; rw [mid2] at b2; rw [lo6] at b3
    simp only [encLoop, hlen, g0, g1, g2, Option.bind_eq_bind, Option.bind_some, b0, b1, b2, b3,
      show pre.length < pre.length + 3 + l.length by omega, show pre.length + 1 < pre.length + 3 + l.length by omega,
      show ¬ (pre.length + 1 ≥ pre.length + 3 + l.length) by omega,
      show ¬ (pre.length + 1 + 1 ≥ pre.length + 3 + l.length) by omega,
      show ¬ (1 = 0) by decide, show ¬ (2 = 0) by decide, show ¬ (2 = 1) by decide, if_true, if_false]
    rw [put_app _ _ _ _ _ rfl]
    simp only [Option.bind_some]
    rw [show ∀ x, done ++ x :: t1 :: t2 :: t3 :: ts = (done ++ [x]) ++ t1 :: t2 :: t3 :: ts by simp]
    rw [put_app _ _ _ _ _ (by simp)]
    simp only [Option.bind_some]
    rw [show ∀ x y, (done ++ [y]) ++ x :: t2 :: t3 :: ts = (done ++ [y, x]) ++ t2 :: t3 :: ts by simp]
    rw [put_app _ _ _ _ _ (by simp)]
    simp only [Option.bind_some]
    rw [show ∀ x y z, (done ++ [z, x]) ++ y :: t3 :: ts = (done ++ [z, x, y]) ++ t3 :: ts by simp]
    rw [put_app _ _ _ _ _ (by simp)]
    simp only [Option.bind_some]
    have e1 : n / 2 ^ 18 = a.toNat / 4 := by omega
    have e2 : n / 2 ^ 12 % 64 = a.toNat % 4 * 16 + b.toNat / 16 := by omega
    have e3 : n / 2 ^ 6 % 64 = b.toNat % 16 * 4 + c.toNat / 64 := by omega
    have e4 : n % 64 = c.toNat % 64 := by omega
    have := ih (pre ++ [a, b, c]) (done ++ [letter (a.toNat / 4), letter (a.toNat % 4 * 16 + b.toNat / 16),
      letter (b.toNat % 16 * 4 + c.toNat / 64), letter (c.toNat % 64)]) ts f (by simp [h1]) (by simpa using h2)
      (by simp at h3; omega)
    simp only [List.length_append, List.length_cons, List.length_nil, List.append_assoc, List.cons_append, List.nil_append] at this
    simp only [e1, e2, e3, e4, List.append_assoc, List.cons_append, List.nil_append, Nat.add_assoc, List.length_cons,
      List.drop_succ_cons]
    exact this

/-- **C07 (first half).**  For every input, `mln_base64_encode` stays inside its buffers
and produces exactly the RFC 4648 encoding, NUL-terminated. -/
theorem encode_eq_rfc (inp : List Byte) :
    encodeBuf inp = some (rfcEncode inp ++ [0]) ∧ encode inp = some (rfcEncode inp) := by
  have hl := rfcEncode_length inp
  have h := encLoop_ok inp inp [] [] (List.replicate (encLen inp.length + 1) 0) (inp.length + 1) rfl
    (by simp [hl]) (by omega)
  have h' : encodeBuf inp = some (rfcEncode inp ++ [0]) := by
    simp only [List.nil_append, List.length_nil] at h
    rw [encodeBuf, h, hl]
    simp
  refine ⟨h', ?_⟩
  rw [encode, h']
  simp only [Option.map_some]
  rw [← hl, List.take_left]

/-! ### Decoding -/

theorem get_app (d : List Byte) (t : Byte) (ts : List Byte) (j : Nat) (hj : j = d.length) :
    (d ++ t :: ts)[j]? = some t := by subst hj; simp

section steps
variable {inp : List Byte} {i j f : Nat} {o : List Byte} {a v : Byte}

theorem dec0 (hi : inp[i]? = some a) (hv : as a = some v) (hj : j < o.length) :
    decLoop inp (f + 1) i 0 j o = decLoop inp f (i + 1) 1 j (o.set j (v <<< 2)) := by
  obtain ⟨this, hi⟩ := List.getElem?_eq_some_iff.mp hi
  simp [decLoop, this, hi, hv, put, hj]

theorem dec1 {x : Byte} (hi : inp[i]? = some a) (hv : as a = some v) (hx : o[j]? = some x) :
    decLoop inp (f + 1) i 1 j o = decLoop inp f i 2 (j + 1) (o.set j (x ||| ((v >>> 4) &&& 0x3))) := by
  obtain ⟨this, hi⟩ := List.getElem?_eq_some_iff.mp hi
  obtain ⟨hj, hx⟩ := List.getElem?_eq_some_iff.mp hx
  simp [decLoop, this, hi, hv, put, hj, hx]

theorem dec2 (hi : inp[i]? = some a) (hv : as a = some v) (hj : j < o.length) :
    decLoop inp (f + 1) i 2 j o = decLoop inp f (i + 1) 3 j (o.set j ((v &&& 0xf) <<< 4)) := by
  obtain ⟨this, hi⟩ := List.getElem?_eq_some_iff.mp hi
  simp [decLoop, this, hi, hv, put, hj]

theorem dec3stop (hi : inp[i]? = some a) (hv : as a = some v) (ha : a = eq') :
    decLoop inp (f + 1) i 3 j o = some o := by
  obtain ⟨this, hi⟩ := List.getElem?_eq_some_iff.mp hi
  subst ha
  simp [decLoop, this, hi, hv]

theorem dec3 {x : Byte} (hi : inp[i]? = some a) (hv : as a = some v) (ha : a ≠ eq') (hx : o[j]? = some x) :
    decLoop inp (f + 1) i 3 j o = decLoop inp f i 4 (j + 1) (o.set j (x ||| ((v >>> 2) &&& 0xf))) := by
  obtain ⟨this, hi⟩ := List.getElem?_eq_some_iff.mp hi
  obtain ⟨hj, hx⟩ := List.getElem?_eq_some_iff.mp hx
  simp [decLoop, this, hi, hv, put, hj, hx, ha]

theorem dec4 (hi : inp[i]? = some a) (hv : as a = some v) (hj : j < o.length) :
    decLoop inp (f + 1) i 4 j o = decLoop inp f (i + 1) 5 j (o.set j ((v &&& 0x3) <<< 6)) := by
  obtain ⟨this, hi⟩ := List.getElem?_eq_some_iff.mp hi
  simp [decLoop, this, hi, hv, put, hj]

theorem dec5stop (hi : inp[i]? = some a) (hv : as a = some v) (ha : a = eq') :
    decLoop inp (f + 1) i 5 j o = some o := by
  obtain ⟨this, hi⟩ := List.getElem?_eq_some_iff.mp hi
  subst ha
  simp [decLoop, this, hi, hv]

theorem dec5 {x : Byte} (hi : inp[i]? = some a) (hv : as a = some v) (ha : a ≠ eq') (hx : o[j]? = some x) :
    decLoop inp (f + 1) i 5 j o = decLoop inp f (i + 1) 0 (j + 1) (o.set j (x ||| (v &&& 0x3f))) := by
  obtain ⟨this, hi⟩ := List.getElem?_eq_some_iff.mp hi
  obtain ⟨hj, hx⟩ := List.getElem?_eq_some_iff.mp hx
  simp [decLoop, this, hi, hv, put, hj, hx, ha]

theorem decEnd (hi : inp.length ≤ i) {s : Nat} : decLoop inp (f + 1) i s j o = some o := by
  have : ¬ i < inp.length := by omega
  simp [decLoop, this]

end steps

theorem get_set_self (o : List Byte) (j : Nat) (x : Byte) (h : j < o.length) : (o.set j x)[j]? = some x := by
  simp [h]

/-- What one complete group (no stop) does. -/
theorem dec_group {inp : List Byte} {i j f : Nat} {o : List Byte} {c0 c1 c2 c3 v0 v1 v2 v3 : Byte}
    (g0 : inp[i]? = some c0) (g1 : inp[i + 1]? = some c1) (g2 : inp[i + 2]? = some c2) (g3 : inp[i + 3]? = some c3)
    (w0 : as c0 = some v0) (w1 : as c1 = some v1) (w2 : as c2 = some v2) (w3 : as c3 = some v3)
    (n2 : c2 ≠ eq') (n3 : c3 ≠ eq') (hj : j + 2 < o.length) :
    decLoop inp (f + 6) i 0 j o = decLoop inp f (i + 4) 0 (j + 3)
      (((o.set j (v0 <<< 2 ||| ((v1 >>> 4) &&& 0x3))).set (j + 1) ((v1 &&& 0xf) <<< 4 ||| ((v2 >>> 2) &&& 0xf))).set (j + 2)
        ((v2 &&& 0x3) <<< 6 ||| (v3 &&& 0x3f))) := by
  rw [dec0 g0 w0 (by omega), dec1 g1 w1 (get_set_self _ _ _ (by omega)), dec2 g1 w1 (by simp; omega),
    dec3 g2 w2 n2 (get_set_self _ _ _ (by simp; omega)), dec4 g2 w2 (by simp; omega),
    dec5 g3 w3 n3 (get_set_self _ _ _ (by simp; omega))]
  simp [List.set_set]

/-- A group stopped at its third character. -/
theorem dec_stop2 {inp : List Byte} {i j f : Nat} {o : List Byte} {c0 c1 v0 v1 v2 : Byte}
    (g0 : inp[i]? = some c0) (g1 : inp[i + 1]? = some c1) (g2 : inp[i + 2]? = some eq')
    (w0 : as c0 = some v0) (w1 : as c1 = some v1) (w2 : as eq' = some v2) (hj : j + 1 < o.length) :
    decLoop inp (f + 6) i 0 j o =
      some ((o.set j (v0 <<< 2 ||| ((v1 >>> 4) &&& 0x3))).set (j + 1) ((v1 &&& 0xf) <<< 4)) := by
  rw [dec0 g0 w0 (by omega), dec1 g1 w1 (get_set_self _ _ _ (by omega)), dec2 g1 w1 (by simp; omega),
    dec3stop g2 w2 rfl]
  simp [List.set_set]

/-- A group stopped at its fourth character. -/
theorem dec_stop3 {inp : List Byte} {i j f : Nat} {o : List Byte} {c0 c1 c2 v0 v1 v2 v3 : Byte}
    (g0 : inp[i]? = some c0) (g1 : inp[i + 1]? = some c1) (g2 : inp[i + 2]? = some c2) (g3 : inp[i + 3]? = some eq')
    (w0 : as c0 = some v0) (w1 : as c1 = some v1) (w2 : as c2 = some v2) (w3 : as eq' = some v3)
    (n2 : c2 ≠ eq') (hj : j + 2 < o.length) :
    decLoop inp (f + 6) i 0 j o =
      some (((o.set j (v0 <<< 2 ||| ((v1 >>> 4) &&& 0x3))).set (j + 1) ((v1 &&& 0xf) <<< 4 ||| ((v2 >>> 2) &&& 0xf))).set (j + 2)
        ((v2 &&& 0x3) <<< 6)) := by
  rw [dec0 g0 w0 (by omega), dec1 g1 w1 (get_set_self _ _ _ (by omega)), dec2 g1 w1 (by simp; omega),
    dec3 g2 w2 n2 (get_set_self _ _ _ (by simp; omega)), dec4 g2 w2 (by simp; omega), dec5stop g3 w3 rfl]
  simp [List.set_set]

/-- Memory safety of the loop from a group boundary: it suffices that the buffer has
room for three bytes per remaining group, or one less when the last but one character
is '='. -/
theorem decLoop_safe (inp : List Byte) : ∀ (rest pre : List Byte) (o : List Byte) (j fuel : Nat),
    inp = pre ++ rest → rest.length % 4 = 0 → 2 * rest.length < fuel →
    (rest = [] ∨ j + rest.length / 4 * 3 ≤ o.length ∨
      (rest[rest.length - 2]? = some eq' ∧ j + rest.length / 4 * 3 ≤ o.length + 1)) →
    ∃ o', decLoop inp fuel pre.length 0 j o = some o' ∧ o'.length = o.length := by
  intro rest
  induction hn : rest.length using Nat.strongRecOn generalizing rest with
  | _ n ih =>
    intro pre o j fuel h1 h2 h3 h4
    subst hn
    match rest, h2 with
    | [], _ =>
      obtain ⟨f, rfl⟩ : ∃ f, fuel = f + 1 := ⟨fuel - 1, by omega⟩
      exact ⟨o, decEnd (by simp [h1]), rfl⟩
    | c0 :: c1 :: c2 :: c3 :: l, h2 =>
      simp only [List.length_cons] at h2 h3 h4
      obtain ⟨f, rfl⟩ : ∃ f, fuel = f + 6 := ⟨fuel - 6, by omega⟩
      have hlen : inp.length = pre.length + 4 + l.length := by simp [h1]; omega
      have g0 : inp[pre.length]? = some c0 := by simp [h1]
      have g1 : inp[pre.length + 1]? = some c1 := by simp [h1]
      have g2 : inp[pre.length + 2]? = some c2 := by simp [h1]
      have g3 : inp[pre.length + 3]? = some c3 := by simp [h1]
      obtain ⟨v0, w0⟩ := as_some c0
      obtain ⟨v1, w1⟩ := as_some c1
      obtain ⟨v2, w2⟩ := as_some c2
      obtain ⟨v3, w3⟩ := as_some c3
      have hdiv : (l.length + 1 + 1 + 1 + 1) / 4 = l.length / 4 + 1 := by omega
      rw [hdiv] at h4
      -- room for at least two bytes, and for three unless the third character is '='
      have hroom : j + 1 < o.length ∧ (c2 ≠ eq' → j + 2 < o.length) ∧
          (l = [] ∨ j + 3 + l.length / 4 * 3 ≤ o.length ∨
            (l[l.length - 2]? = some eq' ∧ j + 3 + l.length / 4 * 3 ≤ o.length + 1)) := by
        have hl4 : l.length % 4 = 0 := by omega
        rcases h4 with h4 | h4 | ⟨h4, h5⟩
        · exact absurd h4 (by simp)
        · exact ⟨by omega, fun _ => by omega, .inr (.inl (by omega))⟩
        · by_cases hl : l = []
          · subst hl
            simp at h4 h5
            exact ⟨by omega, fun h => absurd h4 h, .inl rfl⟩
          · have : 4 ≤ l.length := by
              have := List.length_pos_iff.mpr hl; omega
            refine ⟨by omega, fun _ => by omega, .inr (.inr ⟨?_, by omega⟩)⟩
            rw [show l.length + 1 + 1 + 1 + 1 - 2 = (l.length - 2) + 4 by omega] at h4
            simpa using h4
      obtain ⟨hr1, hr2, hr3⟩ := hroom
      by_cases e2 : c2 = eq'
      · subst e2; exact ⟨_, dec_stop2 g0 g1 g2 w0 w1 w2 hr1, by simp⟩
      · by_cases e3 : c3 = eq'
        · subst e3; exact ⟨_, dec_stop3 g0 g1 g2 g3 w0 w1 w2 w3 e2 (hr2 e2), by simp⟩
        · rw [dec_group g0 g1 g2 g3 w0 w1 w2 w3 e2 e3 (hr2 e2)]
          generalize hbuf : (List.set _ _ _ : List Byte) = o2
          have hlo : o2.length = o.length := by rw [← hbuf]; simp
          obtain ⟨o', k1, k2⟩ := ih l.length (by simp; omega) l rfl (pre ++ [c0, c1, c2, c3]) o2 (j + 3) f
            (by simp [h1]) (by omega) (by omega) (by rw [hlo]; exact hr3)
          refine ⟨o', ?_, by rw [k2, hlo]⟩
          rw [← k1]
          simp
    | [_], h2 => simp at h2
    | [_, _], h2 => simp at h2
    | [_, _, _], h2 => simp at h2

/-- **C08.**  For every input of positive length, decoding has no undefined behaviour:
all reads are inside the input and all writes inside the allocated buffer.  Lengths
that are not a multiple of four are rejected; otherwise three bytes per group are
returned, less one for each '=' among the last two characters. -/
theorem decode_safe (inp : List Byte) (h : inp ≠ []) :
    ∃ r, decode inp = some r ∧
      (inp.length % 4 ≠ 0 → r = .fail) ∧
      (inp.length % 4 = 0 → ∃ out, r = .ok out ∧
        out.length + (inp.drop (inp.length - 2)).count eq' = inp.length / 4 * 3) := by
  unfold decode
  by_cases h4 : inp.length % 4 = 0
  · rw [if_neg (by simpa using h4)]
    have hpos := List.length_pos_iff.mpr h
    have hge : 4 ≤ inp.length := by omega
    obtain ⟨x, hx⟩ : ∃ x, inp[inp.length - 1]? = some x := ⟨_, List.getElem?_eq_getElem (by omega)⟩
    obtain ⟨y, hy⟩ : ∃ y, inp[inp.length - 2]? = some y := ⟨_, List.getElem?_eq_getElem (by omega)⟩
    have hdl : decLen inp = some (if y = eq' then (if x = eq' then inp.length / 4 * 3 - 1 else inp.length / 4 * 3) - 1
        else (if x = eq' then inp.length / 4 * 3 - 1 else inp.length / 4 * 3)) := by
      unfold decLen
      rw [if_neg (by omega), hx, hy]
      rfl
    generalize hN : (if y = eq' then (if x = eq' then inp.length / 4 * 3 - 1 else inp.length / 4 * 3) - 1
        else (if x = eq' then inp.length / 4 * 3 - 1 else inp.length / 4 * 3)) = N at hdl
    have hsafe := decLoop_safe inp inp [] (List.replicate (N + 1) 0) 0 (2 * inp.length + 1) rfl h4 (by omega) (by
      rw [List.length_replicate]
      by_cases hyq : y = eq'
      · right; right
        refine ⟨by rw [hy, hyq], ?_⟩
        rw [← hN, if_pos hyq]; split <;> omega
      · right; left
        rw [← hN, if_neg hyq]; split <;> omega)
    obtain ⟨o', k1, k2⟩ := hsafe
    simp only [List.length_nil] at k1
    simp only [hdl, k1, Option.bind_eq_bind, Option.bind_some]
    refine ⟨_, rfl, fun h' => absurd h4 h', fun _ => ⟨_, rfl, ?_⟩⟩
    have hdrop : inp.drop (inp.length - 2) = [y, x] := by
      obtain ⟨p1, p2⟩ := List.getElem?_eq_some_iff.mp hx
      obtain ⟨q1, q2⟩ := List.getElem?_eq_some_iff.mp hy
      apply List.ext_getElem
      · simp; omega
      · intro i h1 h2
        simp only [List.length_drop] at h1
        rw [List.getElem_drop]
        match i, h2 with
        | 0, _ => exact q2
        | 1, _ => simpa [show inp.length - 2 + 1 = inp.length - 1 by omega] using p2
    rw [List.length_take, k2, hdrop, List.length_replicate, Nat.min_eq_left (by omega), ← hN]
    by_cases hxe : x = eq' <;> by_cases hye : y = eq' <;> simp [hxe, hye] <;> omega
  · rw [if_pos h4]
    exact ⟨_, rfl, fun _ => rfl, fun h' => absurd h' h4⟩

/-- The hypothesis of C08 is needed: on the empty input the code reads `in[-1]`. -/
theorem decode_empty_ub : decode [] = none := by decide +kernel


/-! ### Round trip -/

theorem back0 (a b : Byte) : (BitVec.ofNat 8 (a.toNat / 4)) <<< 2 |||
    ((BitVec.ofNat 8 (a.toNat % 4 * 16 + b.toNat / 16) >>> 4) &&& 0x3) = a := by
  rw [← hi6, ← mid1, BitVec.ofNat_toNat, BitVec.ofNat_toNat]
  ext i hi
  simp
  match i with
  | 0 | 1 | 2 | 3 | 4 | 5 | 6 | 7 => simp

theorem back1 (a b c : Byte) : ((BitVec.ofNat 8 (a.toNat % 4 * 16 + b.toNat / 16)) &&& 0xf) <<< 4 |||
    ((BitVec.ofNat 8 (b.toNat % 16 * 4 + c.toNat / 64) >>> 2) &&& 0xf) = b := by
  rw [← mid2, ← mid1, BitVec.ofNat_toNat, BitVec.ofNat_toNat]
  ext i hi
  simp
  match i with
  | 0 | 1 | 2 | 3 | 4 | 5 | 6 | 7 => simp

theorem back2 (b c : Byte) : ((BitVec.ofNat 8 (b.toNat % 16 * 4 + c.toNat / 64)) &&& 0x3) <<< 6 |||
    (BitVec.ofNat 8 (c.toNat % 64) &&& 0x3f) = c := by
  rw [← mid2, ← lo6, BitVec.ofNat_toNat, BitVec.ofNat_toNat]
  ext i hi
  simp
  match i with
  | 0 | 1 | 2 | 3 | 4 | 5 | 6 | 7 => simp

theorem set_app (d : List Byte) (t : Byte) (ts : List Byte) (x : Byte) (j : Nat) (hj : j = d.length) :
    (d ++ t :: ts).set j x = d ++ x :: ts := by
  subst hj; simp

/-- Decoding the RFC encoding of `rest` writes `rest` behind what was written before. -/
theorem decLoop_rfc (inp : List Byte) : ∀ (rest pre done tail : List Byte) (fuel : Nat),
    inp = pre ++ rfcEncode rest → rest.length < tail.length → 2 * (rfcEncode rest).length < fuel →
    ∃ tail', decLoop inp fuel pre.length 0 done.length (done ++ tail) = some (done ++ rest ++ tail') := by
  intro rest
  fun_induction rfcEncode rest with
  | case1 =>
    intro pre done tail fuel h1 h2 h3
    obtain ⟨f, rfl⟩ : ∃ f, fuel = f + 1 := ⟨fuel - 1, by omega⟩
    exact ⟨tail, by rw [decEnd (by simp [h1])]; simp⟩
  | case2 a n =>
    intro pre done tail fuel h1 h2 h3
    obtain ⟨f, rfl⟩ : ∃ f, fuel = f + 6 := ⟨fuel - 6, by simp at h3; omega⟩
    have ha := a.isLt
    have e1 : n / 2 ^ 18 = a.toNat / 4 := by omega
    have e2 : n / 2 ^ 12 % 64 = a.toNat % 4 * 16 + (0 : Byte).toNat / 16 := by simp; omega
    rw [e1, e2] at h1
    obtain ⟨ve, we⟩ := as_some eq'
    match tail, h2 with
    | t0 :: t1 :: ts, _ =>
    have z0 : (0 : Byte).toNat = 0 := rfl
    have g0 : inp[pre.length]? = some (letter (a.toNat / 4)) := by rw [h1]; simp
    have g1 : inp[pre.length + 1]? = some (letter (a.toNat % 4 * 16 + (0 : Byte).toNat / 16)) := by rw [h1]; simp
    have g2 : inp[pre.length + 2]? = some eq' := by rw [h1]; simp
    rw [dec_stop2 g0 g1 g2 (as_letter _ (by omega)) (as_letter _ (by omega)) we (by simp)]
    rw [back0, set_app _ _ _ _ _ rfl, show done ++ a :: t1 :: ts = (done ++ [a]) ++ t1 :: ts by simp,
      set_app _ _ _ _ _ (by simp)]
    exact ⟨_, rfl⟩
  | case3 a b n =>
    intro pre done tail fuel h1 h2 h3
    obtain ⟨f, rfl⟩ : ∃ f, fuel = f + 6 := ⟨fuel - 6, by simp at h3; omega⟩
    have ha := a.isLt
    have hb := b.isLt
    have e1 : n / 2 ^ 18 = a.toNat / 4 := by omega
    have e2 : n / 2 ^ 12 % 64 = a.toNat % 4 * 16 + b.toNat / 16 := by omega
    have e3 : n / 2 ^ 6 % 64 = b.toNat % 16 * 4 + (0 : Byte).toNat / 64 := by simp; omega
    rw [e1, e2, e3] at h1
    obtain ⟨ve, we⟩ := as_some eq'
    match tail, h2 with
    | t0 :: t1 :: t2 :: ts, _ =>
    have z0 : (0 : Byte).toNat = 0 := rfl
    have g0 : inp[pre.length]? = some (letter (a.toNat / 4)) := by rw [h1]; simp
    have g1 : inp[pre.length + 1]? = some (letter (a.toNat % 4 * 16 + b.toNat / 16)) := by rw [h1]; simp
    have g2 : inp[pre.length + 2]? = some (letter (b.toNat % 16 * 4 + (0 : Byte).toNat / 64)) := by rw [h1]; simp
    have g3 : inp[pre.length + 3]? = some eq' := by rw [h1]; simp
    rw [dec_stop3 g0 g1 g2 g3 (as_letter _ (by omega))
      (as_letter _ (by omega)) (as_letter _ (by omega)) we (letter_ne _ (by omega)) (by simp)]
    rw [back0, back1, set_app _ _ _ _ _ rfl, show done ++ a :: t1 :: t2 :: ts = (done ++ [a]) ++ t1 :: t2 :: ts by simp,
      set_app _ _ _ _ _ (by simp), show (done ++ [a]) ++ b :: t2 :: ts = (done ++ [a, b]) ++ t2 :: ts by simp,
      set_app _ _ _ _ _ (by simp)]
    exact ⟨_, rfl⟩
  | case4 a b c l n ih =>
    intro pre done tail fuel h1 h2 h3
    obtain ⟨f, rfl⟩ : ∃ f, fuel = f + 6 := ⟨fuel - 6, by simp at h3; omega⟩
    have ha := a.isLt
    have hb := b.isLt
    have hc := c.isLt
    have e1 : n / 2 ^ 18 = a.toNat / 4 := by omega
    have e2 : n / 2 ^ 12 % 64 = a.toNat % 4 * 16 + b.toNat / 16 := by omega
    have e3 : n / 2 ^ 6 % 64 = b.toNat % 16 * 4 + c.toNat / 64 := by omega
    have e4 : n % 64 = c.toNat % 64 := by omega
    rw [e1, e2, e3, e4] at h1
    match tail, h2 with
    | t0 :: t1 :: t2 :: ts, h2 =>
    have z0 : (0 : Byte).toNat = 0 := rfl
    have g0 : inp[pre.length]? = some (letter (a.toNat / 4)) := by rw [h1]; simp
    have g1 : inp[pre.length + 1]? = some (letter (a.toNat % 4 * 16 + b.toNat / 16)) := by rw [h1]; simp
    have g2 : inp[pre.length + 2]? = some (letter (b.toNat % 16 * 4 + c.toNat / 64)) := by rw [h1]; simp
    have g3 : inp[pre.length + 3]? = some (letter (c.toNat % 64)) := by rw [h1]; simp
    rw [dec_group g0 g1 g2 g3 (as_letter _ (by omega))
      (as_letter _ (by omega)) (as_letter _ (by omega)) (as_letter _ (by omega)) (letter_ne _ (by omega))
      (letter_ne _ (by omega)) (by simp)]
    rw [back0, back1, back2, set_app _ _ _ _ _ rfl, show done ++ a :: t1 :: t2 :: ts = (done ++ [a]) ++ t1 :: t2 :: ts by simp,
      set_app _ _ _ _ _ (by simp), show (done ++ [a]) ++ b :: t2 :: ts = (done ++ [a, b]) ++ t2 :: ts by simp,
      set_app _ _ _ _ _ (by simp)]
    obtain ⟨tail', h⟩ := ih (pre ++ [letter (a.toNat / 4), letter (a.toNat % 4 * 16 + b.toNat / 16),
      letter (b.toNat % 16 * 4 + c.toNat / 64), letter (c.toNat % 64)]) (done ++ [a, b, c]) ts f (by simp [h1])
      (by simpa using h2) (by simp at h3; omega)
    refine ⟨tail', ?_⟩
    simp only [List.length_append, List.length_cons, List.length_nil, List.append_assoc, List.cons_append,
      List.nil_append] at h ⊢
    exact h

theorem rfc_last : ∀ l : List Byte, l ≠ [] → ∃ p x y, rfcEncode l = p ++ [x, y] ∧
    (if y = eq' then (if x = eq' then 2 else 1) else 0) = (3 - l.length % 3) % 3 ∧ (y ≠ eq' → x ≠ eq') := by
  intro l
  fun_induction rfcEncode l with
  | case1 => intro h; exact absurd rfl h
  | case2 a n => intro _; exact ⟨[letter (n / 2 ^ 18), letter (n / 2 ^ 12 % 64)], eq', eq', rfl, by simp, by simp⟩
  | case3 a b n =>
    intro _
    refine ⟨[letter (n / 2 ^ 18), letter (n / 2 ^ 12 % 64)], _, eq', rfl, ?_, by simp⟩
    simp [letter_ne _ (show n / 2 ^ 6 % 64 < 64 by omega)]
  | case4 a b c l n ih =>
    intro _
    by_cases hl : l = []
    · subst hl
      refine ⟨[letter (n / 2 ^ 18), letter (n / 2 ^ 12 % 64)], letter (n / 2 ^ 6 % 64), letter (n % 64), by simp [rfcEncode], ?_, ?_⟩
      · simp [letter_ne _ (show n % 64 < 64 by omega)]
      · intro _; exact letter_ne _ (by omega)
    · obtain ⟨p, x, y, h1, h2, h3⟩ := ih hl
      refine ⟨letter (n / 2 ^ 18) :: letter (n / 2 ^ 12 % 64) :: letter (n / 2 ^ 6 % 64) :: letter (n % 64) :: p, x, y, by simp [h1], ?_, h3⟩
      rw [h2]; simp only [List.length_cons]; omega

/-- **C07.**  For every nonempty byte string, encoding succeeds with the RFC 4648 text
and decoding that text succeeds with exactly the original bytes. -/
theorem decode_encode (l : List Byte) (h : l ≠ []) :
    encode l = some (rfcEncode l) ∧ decode (rfcEncode l) = some (.ok l) := by
  refine ⟨(encode_eq_rfc l).2, ?_⟩
  obtain ⟨p, x, y, h1, h2, h3⟩ := rfc_last l h
  have hlen := rfcEncode_length l
  have hpos := List.length_pos_iff.mpr h
  have hp : (rfcEncode l).length = p.length + 2 := by rw [h1]; simp
  have hel : (rfcEncode l).length % 4 = 0 ∧ (rfcEncode l).length / 4 * 3 = l.length + (3 - l.length % 3) % 3 := by
    rw [hlen]; unfold encLen; split <;> omega
  have hdl : decLen (rfcEncode l) = some l.length := by
    unfold decLen
    have gx : (rfcEncode l)[(rfcEncode l).length - 2]? = some x := by
      rw [hp]; rw [h1]; simp
    have gy : (rfcEncode l)[(rfcEncode l).length - 1]? = some y := by
      rw [hp]; rw [h1, List.getElem?_append_right (by omega)]
      rw [show p.length + 2 - 1 - p.length = 1 by omega]; rfl
    rw [if_neg (by omega), gx, gy]
    simp only [Option.bind_eq_bind, Option.bind_some, hel.2]
    congr 1
    by_cases hy : y = eq'
    · by_cases hx : x = eq'
      · simp only [hx, hy, if_true] at h2 ⊢; omega
      · simp only [hx, hy, if_true, if_false] at h2 ⊢; omega
    · have hx := h3 hy
      simp only [hx, hy, if_false] at h2 ⊢; omega
  obtain ⟨tail', hd⟩ := decLoop_rfc (rfcEncode l) l [] [] (List.replicate (l.length + 1) 0) (2 * (rfcEncode l).length + 1)
    rfl (by simp) (by omega)
  simp only [List.length_nil, List.nil_append] at hd
  unfold decode
  rw [if_neg (by simpa using hel.1), hdl]
  simp only [Option.bind_eq_bind, Option.bind_some, hd, List.take_left]

/-! ### Non-vacuity -/

example : decode ("TWFu".toList.map fun c => BitVec.ofNat 8 c.toNat) = some (.ok [77, 97, 110]) := by decide +kernel
example : (encode [77, 97]).map (·.map (·.toNat)) = some ("TWE=".toList.map (·.toNat)) := by decide +kernel
/-- A malformed input covered by C08: padding in the middle and foreign bytes. -/
example : decode ("=\n*=A===".toList.map fun c => BitVec.ofNat 8 c.toNat) = some (.ok [0, 0, 0, 0]) := by decide +kernel

end Verif.Base64
