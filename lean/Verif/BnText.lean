import Verif.Bn

/-
Text input and output of big numbers, and duplication (src/mln_bignum.c).

A character buffer is a list of bytes; reading past its end is `none`.  `some none` is the
result -1 (the contents the failed call leaves in `*bn` are not modelled); for the text output
`some none` is the result NULL.
-/

namespace Verif.Bn

/-- The value of a hexadecimal digit, the case distinctions of lines 136-144 and 147-155. -/
def hexDigit (c : Nat) : Option Nat :=
  if 48 ≤ c ∧ c ≤ 57 then some (c - 48)
  else if 97 ≤ c ∧ c ≤ 102 then some (c - 97 + 10)
  else if 65 ≤ c ∧ c ≤ 70 then some (c - 65 + 10)
  else none

/-- `tmp[l] |= ((mln_u64_t)b << (j << 3))`, lines 158 and 203; `b` is an 8-bit variable. -/
def orByte (data : List Nat) (l j b : Nat) : Option (List Nat) := do
  let x ← data[l]?
  some (data.set l (x ||| w ((b % 256) <<< (j <<< 3))))

/-- Loop of mln_bignum_assign_hex, lines 134-166, over the digits from the last one. -/
def hexLoop : List Nat → Nat → Nat → Nat → Nat → List Nat → Option (Option (List Nat))
  | [], _, _, _, _, data => some (some data)
  | c :: cs, i, j, l, b, data =>
    match hexDigit c with
    | none => some none
    | some d =>
      let b := if i % 2 ≠ 0 then b ||| ((d <<< 4) &&& 0xf0) else d &&& 0xf
      if i % 2 ≠ 0 ∨ cs = [] then do
        let data ← orByte data l j b
        if j % 4 = 3 then hexLoop cs (i + 1) 0 (l + 1) b data
        else hexLoop cs (i + 1) (j + 1) l b data
      else hexLoop cs (i + 1) j l b data

/-- `s` from `off` on, `len` characters; the loops read them from the last one. -/
def chars (s : List Nat) (off len : Nat) : Option (List Nat) :=
  if off + len ≤ s.length then some ((s.drop off).take len) else none

/-- mln_bignum_assign_hex, lines 122-174; M_BIGNUM_BITS is 8224. -/
def assignHex (s : List Nat) (off : Nat) (neg : Bool) (len : Nat) : Option (Option Bn) :=
  if len > 8224 / 4 then some none
  else do
    let cs ← chars s off len
    match ← hexLoop cs.reverse 0 0 0 0 (List.replicate size 0) with
    | none => some none
    | some data => do
      let n ← scan data size
      some (some ⟨neg, n, data⟩)

/-- Loop of mln_bignum_assign_oct, lines 189-211. -/
def octLoop : List Nat → Nat → Nat → Nat → Nat → List Nat → Option (Option (List Nat))
  | [], _, _, _, _, data => some (some data)
  | c :: cs, i, j, l, b, data =>
    if c < 48 ∨ c > (if i % 3 = 2 then 51 else 55) then some none
    else
      let d := c - 48
      let b := if i % 3 = 0 then d &&& 0x7 else if i % 3 = 1 then b ||| ((d <<< 3) &&& 0x38) else b ||| ((d <<< 6) &&& 0xc0)
      if i % 3 = 2 ∨ cs = [] then do
        let data ← orByte data l j b
        if j % 4 = 3 then octLoop cs (i + 1) 0 (l + 1) b data
        else octLoop cs (i + 1) (j + 1) l b data
      else octLoop cs (i + 1) j l b data

/-- mln_bignum_assign_oct, lines 176-219. -/
def assignOct (s : List Nat) (off : Nat) (neg : Bool) (len : Nat) : Option (Option Bn) :=
  if len > 8224 / 3 then some none
  else do
    let cs ← chars s off len
    match ← octLoop cs.reverse 0 0 0 0 (List.replicate size 0) with
    | none => some none
    | some data => do
      let n ← scan data size
      some (some ⟨neg, n, data⟩)

/-- The repeated additions of mln_bignum_dec_recursive, lines 252-254 and 260-262. -/
def addTimes : Nat → Bn → Bn → Option Bn
  | 0, t, _ => some t
  | n + 1, t, x => do
    let (t, x) ← add t x
    addTimes n t x

/-- mln_bignum_dec_recursive, lines 244-264, with `*tmp` zero at the call (lines 234-235 and 256-258). -/
def decRec : Nat → Nat → Option Bn
  | 0, n => addTimes n zero (word 1)
  | k + 1, n => do
    let val ← decRec k 10
    addTimes n zero val

/-- Loop of mln_bignum_assign_dec, lines 232-238. -/
def decLoop : List Nat → Nat → Bn → Option (Option Bn)
  | [], _, bn => some (some bn)
  | c :: cs, cnt, bn =>
    if 48 ≤ c ∧ c ≤ 57 then do
      let tmp ← decRec cnt (c - 48)
      let (bn, _) ← add bn tmp
      decLoop cs (cnt + 1) bn
    else some none

/-- mln_bignum_assign_dec, lines 221-242. -/
def assignDec (s : List Nat) (off : Nat) (neg : Bool) (len : Nat) : Option (Option Bn) :=
  if len > 8224 / 4 then some none
  else do
    let cs ← chars s off len
    match ← decLoop cs.reverse 0 zero with
    | none => some none
    | some bn => some (some { bn with neg := neg })

/-- mln_bignum_assign, lines 102-120.  `len` is a 32-bit variable. -/
def assign (s : List Nat) (len : Nat) : Option (Option Bn) := do
  let c ← s[0]?
  let (neg, off, len) := if c = 45 then (true, 1, (len + 4294967295) % B) else (false, 0, len)
  let c ← s[off]?
  if c = 48 then do
    let c ← s[off + 1]?
    if c = 120 then assignHex s (off + 2) neg ((len + 4294967294) % B)
    else assignOct s (off + 1) neg ((len + 4294967295) % B)
  else assignDec s off neg len

/-- Loop of mln_bignum_tostring, lines 1251-1258: the characters in the order of writing. -/
def toStringLoop : Nat → Bn → Option (Option (List Nat))
  | 0, _ => none
  | fuel + 1, dup => do
    let c ← compare dup zero
    if c ≠ 0 then
      match ← divWord dup 10 with
      | none => some none
      | some (d, q) => do
        let x ← d.data[0]?
        match ← toStringLoop fuel q with
        | none => some none
        | some cs => some (some ((x % 256 + 48) % 256 :: cs))
    else some (some [])

/-- The size of the buffer, lines 1240 and 1245-1246 (`size + 1`). -/
def textBuffer (n : Bn) : Nat := (if n.length <<< 6 = 0 then 1 else n.length <<< 6) + 1

/-- mln_bignum_tostring, lines 1236-1276, when the allocations succeed: the characters before
the terminating zero.  Writing past the buffer is `none`. -/
def toText (fuel : Nat) (n : Bn) : Option (Option (List Nat)) := do
  match ← toStringLoop fuel n with
  | none => some none
  | some cs =>
    let cs := if n.neg then cs ++ [45] else cs
    let out := if cs = [] then [48] else cs.reverse
    if out.length + 1 ≤ textBuffer n then some (some out) else none

/-- mln_bignum_dup and mln_bignum_pool_dup, lines 82-100, when the allocation succeeds: `fresh`
is what the new memory holds. -/
def dup (fresh : List Nat) (n : Bn) : Bn := ⟨n.neg, n.length, n.data.take n.length ++ fresh.drop n.length⟩

end Verif.Bn
