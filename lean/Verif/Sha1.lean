import Verif.Md
/-
Model of the SHA-1 half of /repo/src/mln_sha.c: macros (lines 13-40), mln_sha1_init
(56-64), mln_sha1_calc (90-140, through `Verif.Md`), mln_sha1_calc_block (142-242),
mln_sha1_tobytes (244-294), mln_sha1_tostring (296-311).

The 80 macro calls of the unrolled block function are transcribed one per line as data
(`prog`).  As in `Md5.lean` the shift of a promoted byte by 24 is taken to be two's
complement.
-/
namespace Verif.Sha1
open Verif.Md

abbrev W := BitVec 32

/-- __M_SHA1_ROTATE_LEFT, line 13. -/
def rotl (x : W) (n : Nat) : W := (x <<< n) ||| (x >>> (32 - n))

/-- __M_SHA1_F1 .. F4, lines 14-17. -/
def F1 (b c d : W) : W := (b &&& c) ||| (~~~b &&& d)
def F2 (b c d : W) : W := b ^^^ c ^^^ d
def F3 (b c d : W) : W := (b &&& c) ||| (d &&& (b ||| c))
def F4 (b c d : W) : W := b ^^^ c ^^^ d

/-- k[4], lines 41-46. -/
def kTab : List W := [0x5A827999, 0x6ED9EBA1, 0x8F1BBCDC, 0xCA62C1D6]

inductive Macro where
  | FF1 | FF2 | FF3 | FF4
deriving DecidableEq

/-- The `wt` argument: `group[j]` or `__M_SHA1_W(t, group)`. -/
inductive Wt where
  | grp (j : Nat)
  | w (t : Nat)
deriving DecidableEq

/-- One macro call; registers a..e are numbered 0..4. -/
structure Instr where
  m : Macro
  ra : Nat
  rb : Nat
  rc : Nat
  rd : Nat
  re : Nat
  wt : Wt
  k : Nat
deriving DecidableEq

/-- Lines 153-235. -/
def prog : List Instr := [
  ⟨.FF1, 0, 1, 2, 3, 4, .grp 0, 0⟩,
  ⟨.FF1, 4, 0, 1, 2, 3, .grp 1, 0⟩,
  ⟨.FF1, 3, 4, 0, 1, 2, .grp 2, 0⟩,
  ⟨.FF1, 2, 3, 4, 0, 1, .grp 3, 0⟩,
  ⟨.FF1, 1, 2, 3, 4, 0, .grp 4, 0⟩,
  ⟨.FF1, 0, 1, 2, 3, 4, .grp 5, 0⟩,
  ⟨.FF1, 4, 0, 1, 2, 3, .grp 6, 0⟩,
  ⟨.FF1, 3, 4, 0, 1, 2, .grp 7, 0⟩,
  ⟨.FF1, 2, 3, 4, 0, 1, .grp 8, 0⟩,
  ⟨.FF1, 1, 2, 3, 4, 0, .grp 9, 0⟩,
  ⟨.FF1, 0, 1, 2, 3, 4, .grp 10, 0⟩,
  ⟨.FF1, 4, 0, 1, 2, 3, .grp 11, 0⟩,
  ⟨.FF1, 3, 4, 0, 1, 2, .grp 12, 0⟩,
  ⟨.FF1, 2, 3, 4, 0, 1, .grp 13, 0⟩,
  ⟨.FF1, 1, 2, 3, 4, 0, .grp 14, 0⟩,
  ⟨.FF1, 0, 1, 2, 3, 4, .grp 15, 0⟩,
  ⟨.FF1, 4, 0, 1, 2, 3, .w 16, 0⟩,
  ⟨.FF1, 3, 4, 0, 1, 2, .w 17, 0⟩,
  ⟨.FF1, 2, 3, 4, 0, 1, .w 18, 0⟩,
  ⟨.FF1, 1, 2, 3, 4, 0, .w 19, 0⟩,
  ⟨.FF2, 0, 1, 2, 3, 4, .w 20, 1⟩,
  ⟨.FF2, 4, 0, 1, 2, 3, .w 21, 1⟩,
  ⟨.FF2, 3, 4, 0, 1, 2, .w 22, 1⟩,
  ⟨.FF2, 2, 3, 4, 0, 1, .w 23, 1⟩,
  ⟨.FF2, 1, 2, 3, 4, 0, .w 24, 1⟩,
  ⟨.FF2, 0, 1, 2, 3, 4, .w 25, 1⟩,
  ⟨.FF2, 4, 0, 1, 2, 3, .w 26, 1⟩,
  ⟨.FF2, 3, 4, 0, 1, 2, .w 27, 1⟩,
  ⟨.FF2, 2, 3, 4, 0, 1, .w 28, 1⟩,
  ⟨.FF2, 1, 2, 3, 4, 0, .w 29, 1⟩,
  ⟨.FF2, 0, 1, 2, 3, 4, .w 30, 1⟩,
  ⟨.FF2, 4, 0, 1, 2, 3, .w 31, 1⟩,
  ⟨.FF2, 3, 4, 0, 1, 2, .w 32, 1⟩,
  ⟨.FF2, 2, 3, 4, 0, 1, .w 33, 1⟩,
  ⟨.FF2, 1, 2, 3, 4, 0, .w 34, 1⟩,
  ⟨.FF2, 0, 1, 2, 3, 4, .w 35, 1⟩,
  ⟨.FF2, 4, 0, 1, 2, 3, .w 36, 1⟩,
  ⟨.FF2, 3, 4, 0, 1, 2, .w 37, 1⟩,
  ⟨.FF2, 2, 3, 4, 0, 1, .w 38, 1⟩,
  ⟨.FF2, 1, 2, 3, 4, 0, .w 39, 1⟩,
  ⟨.FF3, 0, 1, 2, 3, 4, .w 40, 2⟩,
  ⟨.FF3, 4, 0, 1, 2, 3, .w 41, 2⟩,
  ⟨.FF3, 3, 4, 0, 1, 2, .w 42, 2⟩,
  ⟨.FF3, 2, 3, 4, 0, 1, .w 43, 2⟩,
  ⟨.FF3, 1, 2, 3, 4, 0, .w 44, 2⟩,
  ⟨.FF3, 0, 1, 2, 3, 4, .w 45, 2⟩,
  ⟨.FF3, 4, 0, 1, 2, 3, .w 46, 2⟩,
  ⟨.FF3, 3, 4, 0, 1, 2, .w 47, 2⟩,
  ⟨.FF3, 2, 3, 4, 0, 1, .w 48, 2⟩,
  ⟨.FF3, 1, 2, 3, 4, 0, .w 49, 2⟩,
  ⟨.FF3, 0, 1, 2, 3, 4, .w 50, 2⟩,
  ⟨.FF3, 4, 0, 1, 2, 3, .w 51, 2⟩,
  ⟨.FF3, 3, 4, 0, 1, 2, .w 52, 2⟩,
  ⟨.FF3, 2, 3, 4, 0, 1, .w 53, 2⟩,
  ⟨.FF3, 1, 2, 3, 4, 0, .w 54, 2⟩,
  ⟨.FF3, 0, 1, 2, 3, 4, .w 55, 2⟩,
  ⟨.FF3, 4, 0, 1, 2, 3, .w 56, 2⟩,
  ⟨.FF3, 3, 4, 0, 1, 2, .w 57, 2⟩,
  ⟨.FF3, 2, 3, 4, 0, 1, .w 58, 2⟩,
  ⟨.FF3, 1, 2, 3, 4, 0, .w 59, 2⟩,
  ⟨.FF4, 0, 1, 2, 3, 4, .w 60, 3⟩,
  ⟨.FF4, 4, 0, 1, 2, 3, .w 61, 3⟩,
  ⟨.FF4, 3, 4, 0, 1, 2, .w 62, 3⟩,
  ⟨.FF4, 2, 3, 4, 0, 1, .w 63, 3⟩,
  ⟨.FF4, 1, 2, 3, 4, 0, .w 64, 3⟩,
  ⟨.FF4, 0, 1, 2, 3, 4, .w 65, 3⟩,
  ⟨.FF4, 4, 0, 1, 2, 3, .w 66, 3⟩,
  ⟨.FF4, 3, 4, 0, 1, 2, .w 67, 3⟩,
  ⟨.FF4, 2, 3, 4, 0, 1, .w 68, 3⟩,
  ⟨.FF4, 1, 2, 3, 4, 0, .w 69, 3⟩,
  ⟨.FF4, 0, 1, 2, 3, 4, .w 70, 3⟩,
  ⟨.FF4, 4, 0, 1, 2, 3, .w 71, 3⟩,
  ⟨.FF4, 3, 4, 0, 1, 2, .w 72, 3⟩,
  ⟨.FF4, 2, 3, 4, 0, 1, .w 73, 3⟩,
  ⟨.FF4, 1, 2, 3, 4, 0, .w 74, 3⟩,
  ⟨.FF4, 0, 1, 2, 3, 4, .w 75, 3⟩,
  ⟨.FF4, 4, 0, 1, 2, 3, .w 76, 3⟩,
  ⟨.FF4, 3, 4, 0, 1, 2, .w 77, 3⟩,
  ⟨.FF4, 2, 3, 4, 0, 1, .w 78, 3⟩,
  ⟨.FF4, 1, 2, 3, 4, 0, .w 79, 3⟩
]

def Macro.fn : Macro → W → W → W → W
  | .FF1 => F1 | .FF2 => F2 | .FF3 => F3 | .FF4 => F4

/-- Registers and the 16-word circular schedule (`group[16]`, all indices are masked or
literal below 16). -/
structure Run where
  r : List W
  group : Nat → W

/-- Evaluate the `wt` argument: __M_SHA1_W (lines 38-39) updates the group. -/
def evalWt (group : Nat → W) : Wt → W × (Nat → W)
  | .grp j => (group j, group)
  | .w t =>
    let v := rotl (group ((t - 3) % 16) ^^^ group ((t - 8) % 16) ^^^ group ((t - 14) % 16) ^^^ group (t % 16)) 1
    (v, fun i => if i = t % 16 then v else group i)

/-- __M_SHA1_FF1 .. FF4, lines 18-37: `e += rotl(a,5)+F(b,c,d)+kt+wt; b = rotl(b,30);`. -/
def exec (s : Run) (i : Instr) : Run :=
  let (w, group) := evalWt s.group i.wt
  let r := s.r
  let r := r.set i.re (r.getD i.re 0 + (rotl (r.getD i.ra 0) 5 +
    i.m.fn (r.getD i.rb 0) (r.getD i.rc 0) (r.getD i.rd 0) + kTab.getD i.k 0 + w))
  let r := r.set i.rb (rotl (r.getD i.rb 0) 30)
  { r := r, group := group }

structure St where
  H0 : W
  H1 : W
  H2 : W
  H3 : W
  H4 : W
deriving DecidableEq

/-- Lines 145-151: big-endian words of the buffer. -/
def word (buf : List Byte) (j : Nat) : W :=
  ((buf.getD (4 * j) 0).setWidth 32 <<< 24) ||| ((buf.getD (4 * j + 1) 0).setWidth 32 <<< 16) |||
    ((buf.getD (4 * j + 2) 0).setWidth 32 <<< 8) ||| (buf.getD (4 * j + 3) 0).setWidth 32

/-- mln_sha1_calc_block, lines 142-242. -/
def block (s : St) (buf : List Byte) : St :=
  let r := (prog.foldl exec { r := [s.H0, s.H1, s.H2, s.H3, s.H4], group := word buf }).r
  { H0 := s.H0 + r.getD 0 0, H1 := s.H1 + r.getD 1 0, H2 := s.H2 + r.getD 2 0,
    H3 := s.H3 + r.getD 3 0, H4 := s.H4 + r.getD 4 0 }

/-- Lines 129-136: `buf[56+i] = (length >> (56-8i)) & 0xff`. -/
def lenBytes (x : BitVec 64) : List Byte :=
  [(x >>> 56).setWidth 8, (x >>> 48).setWidth 8, (x >>> 40).setWidth 8, (x >>> 32).setWidth 8,
   (x >>> 24).setWidth 8, (x >>> 16).setWidth 8, (x >>> 8).setWidth 8, x.setWidth 8]

/-- mln_sha1_init (lines 56-64), mln_sha1_calc. -/
def alg : Alg St where
  init := { H0 := 0x67452301, H1 := 0xefcdab89, H2 := 0x98badcfe, H3 := 0x10325476, H4 := 0xc3d2e1f0 }
  block := block
  lenBytes := lenBytes

/-- The 20 stores of mln_sha1_tobytes, lines 251-293, with the flag whether a length
check follows. -/
def stores (m : St) : List (Byte × Bool) :=
  [((m.H0 >>> 24).setWidth 8, true), ((m.H0 >>> 16).setWidth 8, true), ((m.H0 >>> 8).setWidth 8, true), (m.H0.setWidth 8, true),
   ((m.H1 >>> 24).setWidth 8, true), ((m.H1 >>> 16).setWidth 8, true), ((m.H1 >>> 8).setWidth 8, true), (m.H1.setWidth 8, true),
   ((m.H2 >>> 24).setWidth 8, true), ((m.H2 >>> 16).setWidth 8, true), ((m.H2 >>> 8).setWidth 8, true), (m.H2.setWidth 8, true),
   ((m.H3 >>> 24).setWidth 8, true), ((m.H3 >>> 16).setWidth 8, true), ((m.H3 >>> 8).setWidth 8, true), (m.H3.setWidth 8, true),
   ((m.H4 >>> 24).setWidth 8, true), ((m.H4 >>> 16).setWidth 8, true), ((m.H4 >>> 8).setWidth 8, true), (m.H4.setWidth 8, false)]

/-- mln_sha1_tobytes, lines 244-294. -/
def tobytes (m : St) (buf : List Byte) (len : Nat) : Option (List Byte) :=
  if len = 0 then some buf else exportBytes (stores m) len 0 buf

/-- mln_sha1_tostring, lines 296-311. -/
def tostring (m : St) (buf : List Byte) (len : Nat) : Option (List Byte) :=
  exportHex (tobytes m (List.replicate 20 0) 20) 20 buf len

end Verif.Sha1
