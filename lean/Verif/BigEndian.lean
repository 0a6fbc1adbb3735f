/-
Model of the macros mln_bigendian_encode and mln_bigendian_decode of
/repo/include/mln_utils.h, lines 144-159.

`num` is converted to `mln_u64_t` (`BitVec 64`).  Shift counts `(Blen-i-1) << 3` of 64 or
more are undefined in C and give `none`, as do accesses outside the buffer.  The buffer
pointer is advanced by the macros; the model returns the number of bytes passed.
-/
namespace Verif.BigEndian

abbrev Byte := BitVec 8
abbrev U64 := BitVec 64

/-- Loop of lines 146-149: `fuel = Blen - i` iterations left. -/
def encLoop (num : U64) (blen : Nat) : Nat → Nat → List Byte → Nat → Option (List Byte × Nat)
  | 0, _, buf, p => some (buf, p)
  | n + 1, i, buf, p =>
    if 64 ≤ (blen - i - 1) * 8 then none
    else if p < buf.length then
      encLoop num blen n (i + 1) (buf.set p (((num >>> ((blen - i - 1) * 8)) &&& 0xff).setWidth 8)) (p + 1)
    else none

/-- mln_bigendian_encode(num, buf, Blen) with `buf` pointing at index `p`. -/
def encode (num : U64) (buf : List Byte) (p blen : Nat) : Option (List Byte × Nat) := encLoop num blen blen 0 buf p

/-- Loop of lines 155-157. -/
def decLoop (buf : List Byte) (blen : Nat) : Nat → Nat → U64 → Nat → Option (U64 × Nat)
  | 0, _, num, p => some (num, p)
  | n + 1, i, num, p => do
    let b ← buf[p]?
    if 64 ≤ (blen - i - 1) * 8 then none
    else decLoop buf blen n (i + 1) (num ||| ((b.setWidth 64 &&& 0xff) <<< ((blen - i - 1) * 8))) (p + 1)

/-- mln_bigendian_decode(num, buf, Blen). -/
def decode (buf : List Byte) (p blen : Nat) : Option (U64 × Nat) := decLoop buf blen blen 0 0 p

end Verif.BigEndian
