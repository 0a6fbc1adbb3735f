/-
Model of /repo/src/mln_bignum.c and /repo/include/mln_bignum.h: signed numbers of 257 limbs
of 32 bits, each kept in a 64-bit word.

`none` is a failed `assert`, an access outside an array or an exhausted loop budget.  64-bit
arithmetic wraps (`w`).  Arguments passed by pointer are passed by value and handed back when
they are written to; `quotient` is always computed (passing NULL only drops it).  Aliased
arguments (`mul(d, d)` in the power function) read every limb before the result is stored, so
they behave as copies.  Not modelled: allocation, dump, random prime generation.
-/
namespace Verif.Bn

/-- M_BIGNUM_SIZE -/
abbrev size : Nat := 257
-- M_BIGNUM_UMAX
scoped notation "B" => (4294967296 : Nat)
/-- Wrapping of mln_u64_t. -/
def w (x : Nat) : Nat := x % 18446744073709551616

/-- mln_bignum_t; `neg` is `tag == M_BIGNUM_NEGATIVE`. -/
structure Bn where
  neg : Bool
  length : Nat
  data : List Nat
  deriving DecidableEq, Repr

/-- mln_bignum_zero(), and the effect of memset(.., 0, sizeof(mln_bignum_t)). -/
def zero : Bn := ⟨false, 0, List.replicate size 0⟩

/-- `{M_BIGNUM_POSITIVE, 1, {0}}` with data[0] = x. -/
def word (x : Nat) : Bn := ⟨false, 1, x :: List.replicate (size - 1) 0⟩

/-- The recurring search for the highest non-zero limb below index `n`, as a length. -/
def scan (data : List Nat) : Nat → Option Nat
  | 0 => some 0
  | n + 1 => do
    let x ← data[n]?
    if x ≠ 0 then some (n + 1) else scan data n

/-- Loop of the comparisons, lines 690-693 and 723-726, from index `n - 1` down. -/
def cmpLoop (d1 d2 : List Nat) : Nat → Option Int
  | 0 => some 0
  | n + 1 => do
    let a ← d1[n]?
    let b ← d2[n]?
    if a > b then some 1 else if a < b then some (-1) else cmpLoop d1 d2 n

/-- __mln_bignum_abs_compare, lines 680-696. -/
def absCompare (b1 b2 : Bn) : Option Int :=
  if b1.length ≠ b2.length then (if b1.length > b2.length then some 1 else some (-1))
  else if b1.length = 0 then some 0
  else cmpLoop b1.data b2.data b1.length

/-- __mln_bignum_compare, lines 702-729. -/
def compare (b1 b2 : Bn) : Option Int :=
  if b1.length = b2.length ∧ b1.length = 0 then some 0
  else if b1.neg ≠ b2.neg then (if b1.neg = false then some 1 else some (-1))
  else if b1.length ≠ b2.length then
    if b1.neg = false then (if b1.length > b2.length then some 1 else some (-1))
    else (if b1.length > b2.length then some (-1) else some 1)
  else cmpLoop b1.data b2.data b1.length

/-- Loop of __mln_bignum_add, lines 299-306: `n` limbs. -/
def addLoop : Nat → List Nat → List Nat → Nat → Option (List Nat × Nat)
  | 0, _, _, c => some ([], c)
  | n + 1, a :: as, b :: bs, c => do
    let t := w (w (a + b) + c)
    let (t, c) := if t ≥ B then (t - B, 1) else (t, 0)
    let (r, c) ← addLoop n as bs c
    some (t :: r, c)
  | _ + 1, _, _, _ => none

/-- __mln_bignum_add for equal tags, lines 287-313. -/
def addSame (dest src : Bn) : Option Bn := do
  let n := if dest.length < src.length then src.length else dest.length
  let (r, c) ← (if dest.length < src.length then addLoop n src.data dest.data 0 else addLoop n dest.data src.data 0)
  if c ≠ 0 ∧ n < size then do
    let x ← dest.data[n]?
    some ⟨dest.neg, n + 1, r ++ [w (x + c)] ++ dest.data.drop (n + 1)⟩
  else some ⟨dest.neg, n, r ++ dest.data.drop n⟩

/-- Loop of __mln_bignum_sub_core, lines 373-381: the limbs of `dest` up to its length. -/
def subLoop : List Nat → List Nat → Nat → Option (List Nat × Nat)
  | [], _, c => some ([], c)
  | d :: ds, s :: ss, c => do
    let (t, c) := if w (s + c) > d then (w (w (d + B) + (18446744073709551616 - w (s + c))), 1) else (d - w (s + c), 0)
    let (r, c) ← subLoop ds ss c
    some (t :: r, c)
  | _ :: _, [], _ => none

/-- __mln_bignum_sub_core, lines 367-389; `none` when the assertion fails. -/
def subCore (dest src : Bn) : Option Bn := do
  let (r, c) ← subLoop (dest.data.take dest.length) src.data 0
  if c ≠ 0 then none
  else do
    let data := r ++ dest.data.drop dest.length
    let len ← scan data dest.length
    some ⟨dest.neg, len, data⟩

/-- __mln_bignum_sub for equal tags, lines 336-364: the new dest and src. -/
def subSame (dest src : Bn) : Option (Bn × Bn) := do
  let ret ← compare dest src
  if ret = 0 then some (zero, src)
  else if ret < 0 then
    if dest.neg then do
      let src1 := { src with neg := false }
      let d ← subCore { dest with neg := false } src1
      some ({ d with neg := true }, { src1 with neg := true })
    else do
      let tmp ← subCore src dest
      some ({ tmp with neg := true }, src)
  else
    if dest.neg then do
      let tmp ← subCore { src with neg := false } { dest with neg := false }
      some ({ tmp with neg := false }, src)
    else do
      let d ← subCore dest src
      some (d, src)

/-- __mln_bignum_add, lines 270-314: the new dest and src.  The call of __mln_bignum_sub has
equal tags. -/
def add (dest src : Bn) : Option (Bn × Bn) :=
  if dest.neg ≠ src.neg then
    if dest.neg then do
      let (tmp, _) ← subSame src { dest with neg := false }
      some (tmp, src)
    else do
      let (d, s) ← subSame dest { src with neg := false }
      some (d, { s with neg := true })
  else do
    let d ← addSame dest src
    some (d, src)

/-- __mln_bignum_sub, lines 320-365: the new dest and src.  The call of __mln_bignum_add has
equal tags. -/
def sub (dest src : Bn) : Option (Bn × Bn) :=
  if dest.neg ≠ src.neg then
    if dest.neg then do
      let s := { src with neg := true }
      let d ← addSame dest s
      some (d, { s with neg := false })
    else do
      let s := { src with neg := false }
      let d ← addSame dest s
      some (d, { s with neg := true })
  else subSame dest src

/-- First loop of __mln_bignum_mul_word, lines 849-853. -/
def mulWordLoop (src : Nat) : List Nat → Nat → List Nat × Nat
  | [], c => ([], c)
  | d :: ds, c =>
    let t := w (w (d * src) + c)
    let (r, c) := mulWordLoop src ds (t / B)
    ((t % B) :: r, c)

/-- `while (carry)`, lines 854-860; the pointer is not advanced: `x` is the limb, `len` the
length. -/
def carryLoop : Nat → Nat → Nat → Nat → Option (Nat × Nat)
  | 0, _, _, _ => none
  | fuel + 1, x, len, c =>
    if c ≠ 0 then
      let x := w (x + c)
      carryLoop fuel (x % B) (len + 1) (x / B)
    else some (x, len)

/-- __mln_bignum_mul_word, lines 833-862, for 0 ≤ src < 2^63 (its callers pass one limb). -/
def mulWord (dest : Bn) (src : Nat) : Option Bn := do
  let src := src % B
  let (r, c) := mulWordLoop src (dest.data.take dest.length) 0
  match dest.data.drop dest.length with
  | [] => some ⟨dest.neg, dest.length, r⟩
  | x :: rest => do
    let (x, len) ← carryLoop 4 x dest.length c
    some ⟨dest.neg, len, r ++ x :: rest⟩

/-- `*(data+1) += tmp >> 32` if it exists, line 423. -/
def bump : List Nat → Nat → List Nat
  | [], _ => []
  | x :: xs, c => w (x + c) :: xs

/-- Inner loop of __mln_bignum_mul, lines 420-424: `src` from its start, `res` from `data`. -/
def mulRow (d : Nat) : List Nat → List Nat → List Nat
  | s :: ss, r :: rs =>
    let tmp := w (w (d * s) + r)
    (tmp % B) :: mulRow d ss (bump rs (tmp / B))
  | _, rs => rs

/-- Outer loop, lines 416-425: `res` from the position of the current limb of dest. -/
def mulRows (ss : List Nat) : List Nat → List Nat → List Nat
  | d :: ds, res =>
    match mulRow d ss res with
    | r :: rs => r :: mulRows ss ds rs
    | [] => []
  | [], res => res

/-- __mln_bignum_mul, lines 391-430. -/
def mul (dest src : Bn) : Option Bn :=
  let tag := xor dest.neg src.neg
  if src.length = 1 then do
    let x ← src.data[0]?
    let d ← mulWord dest x
    some { d with neg := tag }
  else if dest.length = 1 then do
    let x ← dest.data[0]?
    let d ← mulWord src x
    some { d with neg := tag }
  else do
    let c1 ← absCompare dest zero
    let c2 ← absCompare src zero
    if c1 = 0 ∨ c2 = 0 then some zero
    else
      let res := mulRows (src.data.take src.length) (dest.data.take dest.length) zero.data
      let pos := if dest.length - 1 + src.length < size then dest.length - 1 + src.length else size
      let len := if pos < size ∧ res[pos]?.getD 0 ≠ 0 then pos + 1 else pos
      some ⟨tag, len, res⟩

/-- First loop of __mln_bignum_nmul, lines 459-463. -/
def nmulLoop (b : Nat) : Nat → List Nat → Nat → Option (List Nat × Nat)
  | 0, _, c => some ([], c)
  | m + 1, a :: as, c => do
    let t := w (w (a * b) + c)
    let (r, c) ← nmulLoop b m as (t / B)
    some ((t % B) :: r, c)
  | _ + 1, [], _ => none

/-- Second loop of __mln_bignum_nmul, lines 464-467. -/
def fill : Nat → Nat → List Nat
  | 0, _ => []
  | n + 1, c => (c % B) :: fill n (c / B)

/-- __mln_bignum_nmul, lines 443-470: the `n` limbs of r. -/
def nmul (a : List Nat) (b n m : Nat) : Option (List Nat) :=
  let b := b % B
  if b = 0 then some (List.replicate n 0)
  else if b = 1 then (if n ≤ a.length then some (a.take n) else none)
  else do
    let (r, c) ← nmulLoop b m a 0
    some (r ++ fill (n - m) c)

/-- __mln_bignum_nsbb, lines 472-487. -/
def nsbb : Nat → List Nat → List Nat → Nat → Option (List Nat × Nat)
  | 0, _, _, c => some ([], c)
  | n + 1, a :: as, b :: bs, c => do
    let (t, c) := if a < w (b + c) then (a + B - b - c, 1) else (a - b - c, 0)
    let (r, c) ← nsbb n as bs c
    some (t :: r, c)
  | _ + 1, _, _, _ => none

/-- __mln_bignum_nadc, lines 489-504. -/
def nadc : Nat → List Nat → List Nat → Nat → Option (List Nat × Nat)
  | 0, _, _, c => some ([], c)
  | n + 1, a :: as, b :: bs, c => do
    let t := w (w (a + b) + c)
    let (t, c) := if t ≥ B then (t - B, 1) else (t, 0)
    let (r, c) ← nadc n as bs c
    some (t :: r, c)
  | _ + 1, _, _, _ => none

/-- The division loop of __mln_bignum_ndiv (lines 524-532) and __mln_bignum_div_word (lines
898-904): limbs `n - 1` down to 0 of `a`; the quotient limbs and the last `tmp`. -/
def divDown (a : List Nat) (b : Nat) : Nat → Nat → Option (List Nat × Nat)
  | 0, tmp => some ([], tmp)
  | n + 1, tmp => do
    let x ← a[n]?
    let tmp := w (tmp + x)
    let (r, t) ← divDown a b n (w ((tmp % b) * B))
    some (r ++ [tmp / b], t)

/-- __mln_bignum_ndiv, lines 506-534: the quotient limbs and their number without leading
zeros (`none` also for the result -1 of b = 0, which no caller can cause). -/
def ndiv (a : List Nat) (b n : Nat) : Option (List Nat × Nat) :=
  let b := b % B
  if b = 0 then none
  else if b = 1 then
    if n ≤ a.length then do
      let len ← scan (a.take n) n
      some (a.take n, len)
    else none
  else do
    let (r, _) ← divDown a b n 0
    let len ← scan r n
    some (r, len)

/-- __mln_bignum_div_word, lines 864-910, for 0 ≤ src < 2^63: `some none` is the result -1,
otherwise the new dest and quotient. -/
def divWord (dest : Bn) (src : Nat) : Option (Option (Bn × Bn)) :=
  if src = 0 then some none
  else
    let src := src % B
    if src = 1 then some (some (zero, dest))
    else if dest.length = 0 then some (some (dest, zero))
    else do
      let top ← dest.data[dest.length - 1]?
      let (n, tmp) := if top < src then (dest.length - 1, w (top * B)) else (dest.length, 0)
      let (q, tmp) ← divDown dest.data src n tmp
      let data := List.replicate dest.length 0 ++ dest.data.drop dest.length
      some (some (⟨dest.neg, if tmp ≠ 0 then 1 else 0, data.set 0 (tmp / B)⟩,
        ⟨dest.neg, n, q ++ List.replicate (size - n) 0⟩))

/-- The correction loop of the quotient digit, lines 593-597. -/
def qfix (vn v2 t : Nat) : Nat → Nat → Nat → Option Nat
  | 0, _, _ => none
  | fuel + 1, q, r =>
    if q = B ∨ w (q * v2) > w (w (r * B) + t) then
      let r := w (r + vn)
      if r ≥ B then some (q - 1) else qfix vn v2 t fuel (q - 1) r
    else some q

/-- One round of the loop of __mln_bignum_div, lines 587-605: the new pd and the digit. -/
def divStep (ps : List Nat) (slen : Nat) (pd : List Nat) (j : Nat) : Option (List Nat × Nat) := do
  let vn ← ps[slen - 1]?
  let v2 ← ps[slen - 2]?
  let u0 ← pd[j + slen]?
  let u1 ← pd[j + slen - 1]?
  let u2 ← pd[j + slen - 2]?
  let t := w (w (u0 * B) + u1)
  let q ← qfix vn v2 u2 4 (t / vn) (t % vn)
  let tmp ← nmul ps q (slen + 1) (slen + 1)
  let (r, c) ← nsbb (slen + 1) (pd.drop j) tmp 0
  if c ≠ 0 then do
    let (r, _) ← nadc (slen + 1) r ps 0
    some (pd.take j ++ r ++ pd.drop (j + slen + 1), q - 1)
  else some (pd.take j ++ r ++ pd.drop (j + slen + 1), q)

/-- The loop, lines 586-606, for j = n - 1 down to 0: the final pd and the digits. -/
def divLoop (ps : List Nat) (slen : Nat) : Nat → List Nat → Option (List Nat × List Nat)
  | 0, pd => some (pd, [])
  | n + 1, pd => do
    let (pd, q) ← divStep ps slen pd n
    let (pd, qs) ← divLoop ps slen n pd
    some (pd, qs ++ [q])

/-- __mln_bignum_div, lines 536-620: `some none` is the result -1, otherwise the new dest and
quotient.  ddata has dlen + 1 and sdata slen + 1 meaningful limbs. -/
def div (dest src : Bn) : Option (Option (Bn × Bn)) :=
  let tag := xor dest.neg src.neg
  if src.length = 0 then some none
  else if src.length = 1 then do
    let x ← src.data[0]?
    match ← divWord dest x with
    | none => some none
    | some (d, q) => some (some ({ d with neg := tag }, { q with neg := tag }))
  else do
    let ret ← absCompare dest src
    if ret = 0 then some (some (zero, ⟨tag, 1, 1 :: List.replicate (size - 1) 0⟩))
    else if ret < 0 then some (some ({ dest with neg := tag }, zero))
    else do
      let dlen := dest.length
      let slen := src.length
      let top ← src.data[slen - 1]?
      let d := B / (w (top + 1))
      let pd ← nmul dest.data d (dlen + 1) dlen
      let ps ← nmul src.data d slen slen
      let (pd, qs) ← divLoop (ps ++ [0]) slen (dlen - slen + 1) pd
      let qtop ← qs[dlen - slen]?
      let (r, rlen) ← ndiv pd d slen
      some (some (⟨tag, rlen, r ++ List.replicate (size - slen) 0⟩,
        ⟨tag, if qtop ≠ 0 then dlen - slen + 1 else dlen - slen, qs ++ List.replicate (size - (dlen - slen + 1)) 0⟩))

/-- __mln_bignum_bit_test, lines 735-739. -/
def bitTest (bn : Bn) (i : Nat) : Option Bool := do
  let x ← bn.data[i / 32]?
  some (x.testBit (i % 32))

/-- mln_bignum_bit_test, lines 741-745. -/
def bitTestApi (bn : Bn) (i : Nat) : Option Bool := if i ≥ 8224 then some false else bitTest bn i

/-- Search for the highest bit, lines 638-640: `i + 1` of the bit, 0 when there is none. -/
def topBit (e : Bn) : Nat → Option Nat
  | 0 => some 0
  | i + 1 => do
    if ← bitTest e i then some (i + 1) else topBit e i

/-- `if (dest->length >= mod->length) div`, lines 654-658 and 661-665; `some none` is -1. -/
def reduce (mod : Bn) (dest : Bn) : Option (Option Bn) :=
  if dest.length ≥ mod.length then do
    match ← div dest mod with
    | none => some none
    | some (d, _) => some (some d)
  else some (some dest)

/-- Loop with a modulus, lines 652-667 (`n` more bits). -/
def pwrModLoop (e mod x : Bn) : Nat → Bn → Option (Option Bn)
  | 0, dest => some (some dest)
  | i + 1, dest => do
    let d ← mul dest dest
    match ← reduce mod d with
    | none => some none
    | some d => do
      if ← bitTest e i then do
        let d ← mul d x
        match ← reduce mod d with
        | none => some none
        | some d => pwrModLoop e mod x i d
      else pwrModLoop e mod x i d

/-- Loop without a modulus, lines 669-674. -/
def pwrLoop (e x : Bn) : Nat → Bn → Option Bn
  | 0, dest => some dest
  | i + 1, dest => do
    let d ← mul dest dest
    if ← bitTest e i then do
      let d ← mul d x
      pwrLoop e x i d
    else pwrLoop e x i d

/-- __mln_bignum_pwr, lines 629-678: `some none` is the result -1. -/
def pwr (dest e : Bn) (mod : Option Bn) : Option (Option Bn) :=
  if e.neg then some none
  else do
    let i ← topBit e (e.length * 32)
    if i = 0 then some (some (word 1))
    else
      match mod with
      | some m => pwrModLoop e m dest (i - 1) dest
      | none => do
        let d ← pwrLoop e dest (i - 1) dest
        some (some d)

/-- First loop of __mln_bignum_left_shift, lines 766-771: `m` limbs below `s` (inclusive) are
left, d = s + step, `last` is the index it points to (`none`: &tmp). -/
def lshLoop (off step : Nat) : Nat → List Nat → Option Nat → Option (List Nat)
  | 0, data, _ => some data
  | m + 1, data, last => do
    let cur ← data[m]?
    let _ ← data[m + step]?
    let data := data.set (m + step) cur
    let data ← match last with
      | none => some data
      | some l => do
        let x ← data[l]?
        some (data.set l (x ||| ((cur >>> (32 - off)) &&& 0xffffffff)))
    let data := data.set (m + step) ((w (cur <<< off)) &&& 0xffffffff)
    lshLoop off step m data (some (m + step))

/-- Second loop, lines 774-776. -/
def copyDown (step : Nat) : Nat → List Nat → Option (List Nat)
  | 0, data => some data
  | m + 1, data => do
    let cur ← data[m]?
    let _ ← data[m + step]?
    copyDown step m (data.set (m + step) cur)

/-- __mln_bignum_left_shift, lines 747-784.  `m` is the number of limbs that stay inside,
`top` is `d + 1`. -/
def leftShift (bn : Bn) (n : Nat) : Option Bn :=
  if n = 0 then some bn
  else
    let step := n / 32
    let off := n % 32
    if step ≥ size then some bn
    else
      let m := if bn.length + step > size then bn.length - (bn.length + step - size) else bn.length
      let top := m + step
      if off ≠ 0 then do
        let data ← lshLoop off step m bn.data (if top < size then some top else none)
        let data := List.replicate step 0 ++ data.drop step
        let len ← scan data (if top < size then top + 1 else top)
        some { bn with length := len, data := data }
      else do
        let data ← copyDown step m bn.data
        let data := List.replicate step 0 ++ data.drop step
        let len ← scan data top
        some { bn with length := len, data := data }

/-- First loop of __mln_bignum_right_shift, lines 809-814: `n` limbs are left, the next one
has index `k` in the result. -/
def rshLoop (off step : Nat) : Nat → Nat → List Nat → Option (List Nat)
  | 0, _, data => some data
  | n + 1, k, data => do
    let cur ← data[k + step]?
    let data := data.set k cur
    let data ← match k with
      | 0 => some data
      | l + 1 => do
        let x ← data[l]?
        some (data.set l (x ||| ((w (cur <<< (32 - off))) &&& 0xffffffff)))
    let data := data.set k ((cur >>> off) &&& 0xffffffff)
    rshLoop off step n (k + 1) data

/-- Second loop, lines 817-819. -/
def copyUp (step : Nat) : Nat → Nat → List Nat → Option (List Nat)
  | 0, _, data => some data
  | n + 1, k, data => do
    let cur ← data[k + step]?
    copyUp step n (k + 1) (data.set k cur)

/-- __mln_bignum_right_shift, lines 790-827.  The search for the length starts at index
length - step. -/
def rightShift (bn : Bn) (n : Nat) : Option Bn :=
  if n = 0 then some bn
  else
    let step := n / 32
    let off := n % 32
    if step ≥ size then some bn
    else if step ≥ bn.length then some zero
    else do
      let k := bn.length - step
      let data ← if off ≠ 0 then rshLoop off step k 0 bn.data else copyUp step k 0 bn.data
      let data := data.take k ++ List.replicate step 0 ++ data.drop bn.length
      let len ← scan data (k + 1)
      some { bn with length := len, data := data }

/-- Loop of mln_bignum_extend_eulid, lines 1127-1146; `some none` is -1. -/
def euclidLoop : Nat → Bn → Bn → Bn → Bn → Bn → Bn → Bn → Option (Option (Bn × Bn))
  | 0, _, _, _, _, _, _, _ => none
  | fuel + 1, n, r, q, x0, y0, x1, y1 => do
    let c ← compare r zero
    if c > 0 then do
      let tmp ← mul q x1
      let (tmpx, _) ← sub x0 tmp
      let tmp ← mul q y1
      let (tmpy, _) ← sub y0 tmp
      match ← div n r with
      | none => some none
      | some (r', q') => euclidLoop fuel r r' q' x1 y1 tmpx tmpy
    else some (some (x1, y1))

/-- mln_bignum_extend_eulid, lines 1108-1152.  tmpx and tmpy always equal x1 and y1. -/
def extendEuclid (fuel : Nat) (a b : Bn) : Option (Option (Bn × Bn)) := do
  match ← div a b with
  | none => some none
  | some (r, q) => euclidLoop fuel b r q (word 1) zero zero (word 1)

/-- mln_bignum_i2osp, lines 1156-1171: `some none` is -1, otherwise the bytes. -/
def i2osp (n : Bn) (len : Nat) : Option (Option (List Nat)) :=
  if n.neg ∨ n.length * 4 > len then some none
  else if n.data.length < n.length then none
  else some (some (List.replicate (len - n.length * 4) 0 ++
    ((n.data.take n.length).reverse.flatMap (fun p => [(p >>> 24) &&& 0xff, (p >>> 16) &&& 0xff, (p >>> 8) &&& 0xff, p &&& 0xff]))))

/-- Loop of mln_bignum_os2ip, lines 1180-1189, over the bytes from the last one: `done` are
the finished limbs (highest first), `cur` is `*data`. -/
def os2ipLoop : List Nat → List Nat → Nat → Nat → List Nat × Nat × Nat
  | [], done, cur, i => (done, cur, i)
  | b :: bs, done, cur, i =>
    let cur := cur ||| w (b <<< i)
    if i ≥ 24 then os2ipLoop bs ((cur &&& 0xffffffff) :: done) 0 0
    else os2ipLoop bs done cur (i + 8)

/-- mln_bignum_os2ip, lines 1173-1192; `none` is the result -1. -/
def os2ip (buf : List Nat) : Option Bn :=
  if buf.length > size * 4 then none
  else
    let (done, cur, i) := os2ipLoop buf.reverse [] 0 0
    let limbs := if i ≠ 0 then done.reverse ++ [cur] else done.reverse
    some ⟨false, limbs.length, limbs ++ List.replicate (size - limbs.length) 0⟩

end Verif.Bn
