import Verif.Md
/-
Model of /repo/src/mln_md5.c: mln_md5_calc_block (lines 123-210), mln_md5_calc
(lines 71-121, through `Verif.Md`), mln_md5_tobytes (212-252), mln_md5_tostring
(258-273).  Macros from /repo/include/mln_md5.h lines 10-19.

The 64 macro calls of the unrolled block function are transcribed one per line as data
(`prog`) and executed by `exec`.  Bytes are promoted to 32 bits before shifting (the C
code promotes to `int`; shifting a byte >= 128 by 24 is formally signed overflow, which
is taken to be the usual two's complement result).
-/
namespace Verif.Md5
open Verif.Md

abbrev W := BitVec 32

/-- __M_MD5_F .. __M_MD5_I, mln_md5.h lines 11-14. -/
def F (x y z : W) : W := (x &&& y) ||| (~~~x &&& z)
def G (x y z : W) : W := (x &&& z) ||| (y &&& ~~~z)
def H (x y z : W) : W := x ^^^ y ^^^ z
def I (x y z : W) : W := y ^^^ (x ||| ~~~z)

/-- __M_MD5_ROTATE_LEFT, mln_md5.h line 15. -/
def rotl (x : W) (n : Nat) : W := (x <<< n) ||| (x >>> (32 - n))

/-- s[4][4], lines 12-17. -/
def sTab : List (List Nat) := [[7, 12, 17, 22], [5, 9, 14, 20], [4, 11, 16, 23], [6, 10, 15, 21]]

/-- ti[4][16], lines 18-35. -/
def tiTab : List (List W) := [
  [0xd76aa478, 0xe8c7b756, 0x242070db, 0xc1bdceee, 0xf57c0faf, 0x4787c62a, 0xa8304613, 0xfd469501, 0x698098d8, 0x8b44f7af, 0xffff5bb1, 0x895cd7be, 0x6b901122, 0xfd987193, 0xa679438e, 0x49b40821],
  [0xf61e2562, 0xc040b340, 0x265e5a51, 0xe9b6c7aa, 0xd62f105d, 0x2441453, 0xd8a1e681, 0xe7d3fbc8, 0x21e1cde6, 0xc33707d6, 0xf4d50d87, 0x455a14ed, 0xa9e3e905, 0xfcefa3f8, 0x676f02d9, 0x8d2a4c8a],
  [0xfffa3942, 0x8771f681, 0x6d9d6122, 0xfde5380c, 0xa4beea44, 0x4bdecfa9, 0xf6bb4b60, 0xbebfbc70, 0x289b7ec6, 0xeaa127fa, 0xd4ef3085, 0x4881d05, 0xd9d4d039, 0xe6db99e5, 0x1fa27cf8, 0xc4ac5665],
  [0xf4292244, 0x432aff97, 0xab9423a7, 0xfc93a039, 0x655b59c3, 0x8f0ccc92, 0xffeff47d, 0x85845dd1, 0x6fa87e4f, 0xfe2ce6e0, 0xa3014314, 0x4e0811a1, 0xf7537e82, 0xbd3af235, 0x2ad7d2bb, 0xeb86d391]
]

inductive Macro where
  | FF | GG | HH | II
deriving DecidableEq

/-- One macro call `__M_MD5_XX(ra, rb, rc, rd, group[g], s[si][sj], ti[tii][tij])`;
registers a,b,c,d are numbered 0..3. -/
structure Instr where
  m : Macro
  ra : Nat
  rb : Nat
  rc : Nat
  rd : Nat
  g : Nat
  si : Nat
  sj : Nat
  ti : Nat
  tj : Nat
deriving DecidableEq

/-- Lines 134-200. -/
def prog : List Instr := [
  ⟨.FF, 0, 1, 2, 3, 0, 0, 0, 0, 0⟩,
  ⟨.FF, 3, 0, 1, 2, 1, 0, 1, 0, 1⟩,
  ⟨.FF, 2, 3, 0, 1, 2, 0, 2, 0, 2⟩,
  ⟨.FF, 1, 2, 3, 0, 3, 0, 3, 0, 3⟩,
  ⟨.FF, 0, 1, 2, 3, 4, 0, 0, 0, 4⟩,
  ⟨.FF, 3, 0, 1, 2, 5, 0, 1, 0, 5⟩,
  ⟨.FF, 2, 3, 0, 1, 6, 0, 2, 0, 6⟩,
  ⟨.FF, 1, 2, 3, 0, 7, 0, 3, 0, 7⟩,
  ⟨.FF, 0, 1, 2, 3, 8, 0, 0, 0, 8⟩,
  ⟨.FF, 3, 0, 1, 2, 9, 0, 1, 0, 9⟩,
  ⟨.FF, 2, 3, 0, 1, 10, 0, 2, 0, 10⟩,
  ⟨.FF, 1, 2, 3, 0, 11, 0, 3, 0, 11⟩,
  ⟨.FF, 0, 1, 2, 3, 12, 0, 0, 0, 12⟩,
  ⟨.FF, 3, 0, 1, 2, 13, 0, 1, 0, 13⟩,
  ⟨.FF, 2, 3, 0, 1, 14, 0, 2, 0, 14⟩,
  ⟨.FF, 1, 2, 3, 0, 15, 0, 3, 0, 15⟩,
  ⟨.GG, 0, 1, 2, 3, 1, 1, 0, 1, 0⟩,
  ⟨.GG, 3, 0, 1, 2, 6, 1, 1, 1, 1⟩,
  ⟨.GG, 2, 3, 0, 1, 11, 1, 2, 1, 2⟩,
  ⟨.GG, 1, 2, 3, 0, 0, 1, 3, 1, 3⟩,
  ⟨.GG, 0, 1, 2, 3, 5, 1, 0, 1, 4⟩,
  ⟨.GG, 3, 0, 1, 2, 10, 1, 1, 1, 5⟩,
  ⟨.GG, 2, 3, 0, 1, 15, 1, 2, 1, 6⟩,
  ⟨.GG, 1, 2, 3, 0, 4, 1, 3, 1, 7⟩,
  ⟨.GG, 0, 1, 2, 3, 9, 1, 0, 1, 8⟩,
  ⟨.GG, 3, 0, 1, 2, 14, 1, 1, 1, 9⟩,
  ⟨.GG, 2, 3, 0, 1, 3, 1, 2, 1, 10⟩,
  ⟨.GG, 1, 2, 3, 0, 8, 1, 3, 1, 11⟩,
  ⟨.GG, 0, 1, 2, 3, 13, 1, 0, 1, 12⟩,
  ⟨.GG, 3, 0, 1, 2, 2, 1, 1, 1, 13⟩,
  ⟨.GG, 2, 3, 0, 1, 7, 1, 2, 1, 14⟩,
  ⟨.GG, 1, 2, 3, 0, 12, 1, 3, 1, 15⟩,
  ⟨.HH, 0, 1, 2, 3, 5, 2, 0, 2, 0⟩,
  ⟨.HH, 3, 0, 1, 2, 8, 2, 1, 2, 1⟩,
  ⟨.HH, 2, 3, 0, 1, 11, 2, 2, 2, 2⟩,
  ⟨.HH, 1, 2, 3, 0, 14, 2, 3, 2, 3⟩,
  ⟨.HH, 0, 1, 2, 3, 1, 2, 0, 2, 4⟩,
  ⟨.HH, 3, 0, 1, 2, 4, 2, 1, 2, 5⟩,
  ⟨.HH, 2, 3, 0, 1, 7, 2, 2, 2, 6⟩,
  ⟨.HH, 1, 2, 3, 0, 10, 2, 3, 2, 7⟩,
  ⟨.HH, 0, 1, 2, 3, 13, 2, 0, 2, 8⟩,
  ⟨.HH, 3, 0, 1, 2, 0, 2, 1, 2, 9⟩,
  ⟨.HH, 2, 3, 0, 1, 3, 2, 2, 2, 10⟩,
  ⟨.HH, 1, 2, 3, 0, 6, 2, 3, 2, 11⟩,
  ⟨.HH, 0, 1, 2, 3, 9, 2, 0, 2, 12⟩,
  ⟨.HH, 3, 0, 1, 2, 12, 2, 1, 2, 13⟩,
  ⟨.HH, 2, 3, 0, 1, 15, 2, 2, 2, 14⟩,
  ⟨.HH, 1, 2, 3, 0, 2, 2, 3, 2, 15⟩,
  ⟨.II, 0, 1, 2, 3, 0, 3, 0, 3, 0⟩,
  ⟨.II, 3, 0, 1, 2, 7, 3, 1, 3, 1⟩,
  ⟨.II, 2, 3, 0, 1, 14, 3, 2, 3, 2⟩,
  ⟨.II, 1, 2, 3, 0, 5, 3, 3, 3, 3⟩,
  ⟨.II, 0, 1, 2, 3, 12, 3, 0, 3, 4⟩,
  ⟨.II, 3, 0, 1, 2, 3, 3, 1, 3, 5⟩,
  ⟨.II, 2, 3, 0, 1, 10, 3, 2, 3, 6⟩,
  ⟨.II, 1, 2, 3, 0, 1, 3, 3, 3, 7⟩,
  ⟨.II, 0, 1, 2, 3, 8, 3, 0, 3, 8⟩,
  ⟨.II, 3, 0, 1, 2, 15, 3, 1, 3, 9⟩,
  ⟨.II, 2, 3, 0, 1, 6, 3, 2, 3, 10⟩,
  ⟨.II, 1, 2, 3, 0, 13, 3, 3, 3, 11⟩,
  ⟨.II, 0, 1, 2, 3, 4, 3, 0, 3, 12⟩,
  ⟨.II, 3, 0, 1, 2, 11, 3, 1, 3, 13⟩,
  ⟨.II, 2, 3, 0, 1, 2, 3, 2, 3, 14⟩,
  ⟨.II, 1, 2, 3, 0, 9, 3, 3, 3, 15⟩
]

/-- Macro bodies, mln_md5.h lines 16-19: the function used. -/
def Macro.fn : Macro → W → W → W → W
  | .FF => F | .GG => G | .HH => H | .II => I

/-- `(a) = (b)+ROTATE_LEFT(((a)+X((b),(c),(d))+(mj)+(ti)), (s))`. -/
def exec (group : List W) (r : List W) (i : Instr) : List W :=
  r.set i.ra (r.getD i.rb 0 + rotl (r.getD i.ra 0 + i.m.fn (r.getD i.rb 0) (r.getD i.rc 0) (r.getD i.rd 0)
    + group.getD i.g 0 + (tiTab.getD i.ti []).getD i.tj 0) ((sTab.getD i.si []).getD i.sj 0))

/-- A, B, C, D. -/
structure St where
  A : W
  B : W
  C : W
  D : W
deriving DecidableEq

/-- Lines 126-132: little-endian words of the buffer. -/
def word (buf : List Byte) (j : Nat) : W :=
  (buf.getD (4 * j) 0).setWidth 32 ||| ((buf.getD (4 * j + 1) 0).setWidth 32 <<< 8) |||
    ((buf.getD (4 * j + 2) 0).setWidth 32 <<< 16) ||| ((buf.getD (4 * j + 3) 0).setWidth 32 <<< 24)

/-- mln_md5_calc_block, lines 123-210 (the final masks with 0xffffffff are no-ops on
32-bit fields). -/
def block (m : St) (buf : List Byte) : St :=
  let group := (List.range 16).map (word buf)
  let r := prog.foldl (exec group) [m.A, m.B, m.C, m.D]
  { A := m.A + r.getD 0 0, B := m.B + r.getD 1 0, C := m.C + r.getD 2 0, D := m.D + r.getD 3 0 }

/-- Lines 109-116: `buf[56+i] = (length >> 8i) & 0xff`. -/
def lenBytes (x : BitVec 64) : List Byte :=
  [x.setWidth 8, (x >>> 8).setWidth 8, (x >>> 16).setWidth 8, (x >>> 24).setWidth 8,
   (x >>> 32).setWidth 8, (x >>> 40).setWidth 8, (x >>> 48).setWidth 8, (x >>> 56).setWidth 8]

/-- mln_md5_init (lines 38-45), mln_md5_calc. -/
def alg : Alg St where
  init := { A := 0x67452301, B := 0xefcdab89, C := 0x98badcfe, D := 0x10325476 }
  block := block
  lenBytes := lenBytes

/-- The 16 stores of mln_md5_tobytes, lines 218-251, in order; the flag says whether the
store is followed by `if (i >= len) return;`. -/
def stores (m : St) : List (Byte × Bool) :=
  [(m.A.setWidth 8, true), ((m.A >>> 8).setWidth 8, true), ((m.A >>> 16).setWidth 8, true), ((m.A >>> 24).setWidth 8, true),
   (m.B.setWidth 8, true), ((m.B >>> 8).setWidth 8, true), ((m.B >>> 16).setWidth 8, true), ((m.B >>> 24).setWidth 8, true),
   (m.C.setWidth 8, true), ((m.C >>> 8).setWidth 8, true), ((m.C >>> 16).setWidth 8, true), ((m.C >>> 24).setWidth 8, true),
   (m.D.setWidth 8, true), ((m.D >>> 8).setWidth 8, true), ((m.D >>> 16).setWidth 8, true), ((m.D >>> 24).setWidth 8, false)]

/-- mln_md5_tobytes, lines 212-252 (`buf` non-NULL, of `len` bytes). -/
def tobytes (m : St) (buf : List Byte) (len : Nat) : Option (List Byte) :=
  if len = 0 then some buf else exportBytes (stores m) len 0 buf

/-- mln_md5_tostring, lines 258-273. -/
def tostring (m : St) (buf : List Byte) (len : Nat) : Option (List Byte) :=
  exportHex (tobytes m (List.replicate 16 0) 16) 16 buf len

end Verif.Md5
