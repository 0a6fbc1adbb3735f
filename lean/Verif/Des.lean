/-
Model of /repo/src/mln_des.c (DES, two-key triple DES) and the macro __M_DES_ROL28 of
/repo/include/mln_des.h.

`mln_u64_t` is `BitVec 64`.  Table lookups are total: every index is a literal loop bound or
a six-bit value.  Buffers of mln_des_buf are byte lists with checked accesses (`none` = access
outside the buffer); `in` and `out` are separate buffers.  The table of sub-keys is a function
of the round.  Not modelled: mln_des_new, mln_des_pool_new, mln_des_free and their 3DES
counterparts (allocation followed by init).
-/
namespace Verif.Des

abbrev U64 := BitVec 64
abbrev Byte := BitVec 8

/-- begin_permutation[], lines 18-23. -/
def beginT : List Nat := [
  57, 49, 41, 33, 25, 17, 9, 1, 59, 51, 43, 35, 27, 19, 11, 3,
  61, 53, 45, 37, 29, 21, 13, 5, 63, 55, 47, 39, 31, 23, 15, 7,
  56, 48, 40, 32, 24, 16, 8, 0, 58, 50, 42, 34, 26, 18, 10, 2,
  60, 52, 44, 36, 28, 20, 12, 4, 62, 54, 46, 38, 30, 22, 14, 6]

/-- key_permutation[], lines 25-30. -/
def keyT : List Nat := [
  56, 48, 40, 32, 24, 16, 8, 0, 57, 49, 41, 33, 25, 17, 9, 1,
  58, 50, 42, 34, 26, 18, 10, 2, 59, 51, 43, 35, 62, 54, 46, 38,
  30, 22, 14, 6, 61, 53, 45, 37, 29, 21, 13, 5, 60, 52, 44, 36,
  28, 20, 12, 4, 27, 19, 11, 3]

/-- move_times[], lines 32-34. -/
def moves : List Nat := [
  1, 1, 2, 2, 2, 2, 2, 2, 1, 2, 2, 2, 2, 2, 2, 1]

/-- compression_permutation[], lines 36-41. -/
def compT : List Nat := [
  13, 16, 10, 23, 0, 4, 2, 27, 14, 5, 20, 9, 22, 18, 11, 3,
  25, 7, 15, 6, 26, 19, 12, 1, 40, 51, 30, 36, 46, 54, 29, 39,
  50, 44, 32, 47, 43, 48, 38, 55, 33, 52, 45, 41, 49, 35, 28, 31]

/-- extension_permutation[], lines 43-48. -/
def extT : List Nat := [
  31, 0, 1, 2, 3, 4, 3, 4, 5, 6, 7, 8, 7, 8, 9, 10,
  11, 12, 11, 12, 13, 14, 15, 16, 15, 16, 17, 18, 19, 20, 19, 20,
  21, 22, 23, 24, 23, 24, 25, 26, 27, 28, 27, 28, 29, 30, 31, 0]

/-- p_permutation[], lines 101-104. -/
def pT : List Nat := [
  15, 6, 19, 20, 28, 11, 27, 16, 0, 14, 22, 25, 4, 17, 30, 9,
  1, 7, 23, 13, 31, 26, 2, 8, 18, 12, 29, 5, 21, 10, 3, 24]

/-- final_permutation[], lines 106-111. -/
def finalT : List Nat := [
  39, 7, 47, 15, 55, 23, 63, 31, 38, 6, 46, 14, 54, 22, 62, 30,
  37, 5, 45, 13, 53, 21, 61, 29, 36, 4, 44, 12, 52, 20, 60, 28,
  35, 3, 43, 11, 51, 19, 59, 27, 34, 2, 42, 10, 50, 18, 58, 26,
  33, 1, 41, 9, 49, 17, 57, 25, 32, 0, 40, 8, 48, 16, 56, 24]

/-- s_box[8][64], lines 50-99. -/
def sboxT : List (List Nat) := [
  [
    14, 4, 13, 1, 2, 15, 11, 8, 3, 10, 6, 12, 5, 9, 0, 7,
    0, 15, 7, 4, 14, 2, 13, 1, 10, 6, 12, 11, 9, 5, 3, 8,
    4, 1, 14, 8, 13, 6, 2, 11, 15, 12, 9, 7, 3, 10, 5, 0,
    15, 12, 8, 2, 4, 9, 1, 7, 5, 11, 3, 14, 10, 0, 6, 13],
  [
    15, 1, 8, 14, 6, 11, 3, 4, 9, 7, 2, 13, 12, 0, 5, 10,
    3, 13, 4, 7, 15, 2, 8, 14, 12, 0, 1, 10, 6, 9, 11, 5,
    0, 14, 7, 11, 10, 4, 13, 1, 5, 8, 12, 6, 9, 3, 2, 15,
    13, 8, 10, 1, 3, 15, 4, 2, 11, 6, 7, 12, 0, 5, 14, 9],
  [
    10, 0, 9, 14, 6, 3, 15, 5, 1, 13, 12, 7, 11, 4, 2, 8,
    13, 7, 0, 9, 3, 4, 6, 10, 2, 8, 5, 14, 12, 11, 15, 1,
    13, 6, 4, 9, 8, 15, 3, 0, 11, 1, 2, 12, 5, 10, 14, 7,
    1, 10, 13, 0, 6, 9, 8, 7, 4, 15, 14, 3, 11, 5, 2, 12],
  [
    7, 13, 14, 3, 0, 6, 9, 10, 1, 2, 8, 5, 11, 12, 4, 15,
    13, 8, 11, 5, 6, 15, 0, 3, 4, 7, 2, 12, 1, 10, 14, 9,
    10, 6, 9, 0, 12, 11, 7, 13, 15, 1, 3, 14, 5, 2, 8, 4,
    3, 15, 0, 6, 10, 1, 13, 8, 9, 4, 5, 11, 12, 7, 2, 14],
  [
    2, 12, 4, 1, 7, 10, 11, 6, 8, 5, 3, 15, 13, 0, 14, 9,
    14, 11, 2, 12, 4, 7, 13, 1, 5, 0, 15, 10, 3, 9, 8, 6,
    4, 2, 1, 11, 10, 13, 7, 8, 15, 9, 12, 5, 6, 3, 0, 14,
    11, 8, 12, 7, 1, 14, 2, 13, 6, 15, 0, 9, 10, 4, 5, 3],
  [
    12, 1, 10, 15, 9, 2, 6, 8, 0, 13, 3, 4, 14, 7, 5, 11,
    10, 15, 4, 2, 7, 12, 9, 5, 6, 1, 13, 14, 0, 11, 3, 8,
    9, 14, 15, 5, 2, 8, 12, 3, 7, 0, 4, 10, 1, 13, 11, 6,
    4, 3, 2, 12, 9, 5, 15, 10, 11, 14, 1, 7, 6, 0, 8, 13],
  [
    4, 11, 2, 14, 15, 0, 8, 13, 3, 12, 9, 7, 5, 10, 6, 1,
    13, 0, 11, 7, 4, 9, 1, 10, 14, 3, 5, 12, 2, 15, 8, 6,
    1, 4, 11, 13, 12, 3, 7, 14, 10, 15, 6, 8, 0, 5, 9, 2,
    6, 11, 13, 8, 1, 4, 10, 7, 9, 5, 0, 15, 14, 2, 3, 12],
  [
    13, 2, 8, 4, 6, 15, 11, 1, 10, 9, 3, 14, 5, 0, 12, 7,
    1, 15, 13, 8, 10, 3, 7, 4, 12, 5, 6, 11, 0, 14, 9, 2,
    7, 11, 4, 1, 9, 12, 14, 2, 0, 6, 10, 13, 15, 3, 5, 8,
    2, 1, 14, 7, 4, 10, 8, 13, 15, 12, 9, 0, 3, 5, 6, 11]]

/-- `ret |= ((x >> a) & 1) << b` over a list of (a, b). -/
def gather (x : U64) (l : List (Nat × Nat)) : U64 :=
  l.foldl (fun (r : U64) (p : Nat × Nat) => r ||| (((x >>> p.1) &&& 1) <<< p.2)) 0

/-- The pairs of the loops `for (i = out-1, scan = tbl; ...; ++scan, --i)
ret |= ((x >> (in-1 - *scan)) & 1) << i`. -/
def pairs (inw outw : Nat) (tbl : List Nat) : List (Nat × Nat) :=
  tbl.mapIdx fun k t => (inw - 1 - t, outw - 1 - k)

/-- mln_des_begin_permute, lines 199-209. -/
def beginP (x : U64) : U64 := gather x (pairs 64 64 beginT)

/-- mln_des_extension_permute, lines 211-221. -/
def extP (x : U64) : U64 := gather x (pairs 32 48 extT) &&& 0xffffffffffff

/-- Body of the loop of mln_des_s_permute, lines 228-231. -/
def sStep (x ret : U64) (i : Nat) : U64 :=
  let v : U64 := (x >>> (i * 6)) &&& 0x3f
  let row : U64 := (v &&& 1) ||| (((v >>> 5) &&& 1) <<< 1)
  let index := (((v >>> 1) &&& 0xf) + (row <<< 4)).toNat
  ret ||| ((BitVec.ofNat 64 ((sboxT.getD (7 - i) []).getD index 0) &&& 0xf) <<< (i * 4))

/-- mln_des_s_permute, lines 223-235. -/
def sP (x : U64) : U64 := (List.range 8).foldl (sStep x) 0 &&& 0xffffffff

/-- mln_des_p_permute, lines 237-246. -/
def pP (x : U64) : U64 := gather x (pairs 32 32 pT) &&& 0xffffffff

/-- mln_des_final_permute, lines 248-258 (here both indices count from the low end). -/
def finalP (x : U64) : U64 := gather x (finalT.mapIdx fun k t => (t, k))

/-- __M_DES_ROL28, mln_des.h line 39. -/
def rol28 (x : U64) (n : Nat) : U64 := ((x >>> (28 - n)) ||| (x <<< n)) &&& 0xfffffff

/-- One pass of the loop of lines 125-138: the new _56key. -/
def keyStep (k : U64) (j : Nat) : U64 :=
  let h := rol28 ((k >>> 28) &&& 0xfffffff) (moves.getD j 0)
  let l := rol28 (k &&& 0xfffffff) (moves.getD j 0)
  ((h <<< 28) ||| l) &&& 0xffffffffffffff

/-- _56key before the pass j. -/
def key56 (key : U64) : Nat → U64
  | 0 => gather key (pairs 64 56 keyT)
  | j + 1 => keyStep (key56 key j) j

/-- mln_des_init, lines 114-139: sub-key j. -/
def subKeys (key : U64) (j : Nat) : U64 := gather (key56 key (j + 1)) (pairs 56 48 compT) &&& 0xffffffffffff

/-- Body of the loops of lines 173-181 and 183-191. -/
def round (k : U64) (s : U64 × U64) : U64 × U64 := (s.2, pP (sP (extP s.2 ^^^ k)) ^^^ s.1)

/-- mln_des, lines 164-197. -/
def des (ks : Nat → U64) (msg : U64) (enc : Bool) : U64 :=
  let msg := beginP msg
  let left := (msg >>> 32) &&& 0xffffffff
  let right := msg &&& 0xffffffff
  let (left, right) :=
    (if enc then List.range 16 else (List.range 16).reverse).foldl (fun s i => round (ks i) s) (left, right)
  finalP (((right &&& 0xffffffff) <<< 32) ||| (left &&& 0xffffffff))

/-- mln_3des, lines 324-331. -/
def des3 (k1 k2 : Nat → U64) (msg : U64) (enc : Bool) : U64 :=
  if enc then des k1 (des k2 (des k1 msg true) false) true
  else des k1 (des k2 (des k1 msg false) true) false

/-- Lines 271-273: reads up to eight bytes from the input, most significant first.  Returns the
word, the rest of the input, the remaining inlen and the index i at the end. -/
def readLoop : Nat → Nat → U64 → List Byte → Nat → Option (U64 × List Byte × Nat × Nat)
  | 0, i, w, inp, inlen => some (w, inp, inlen, i)
  | n + 1, i, w, inp, inlen =>
    if inlen = 0 then some (w, inp, inlen, i)
    else
      match inp with
      | [] => none
      | b :: inp => readLoop n (i + 1) (w ||| ((b.setWidth 64 &&& 0xff) <<< ((7 - i) * 8))) inp (inlen - 1)

/-- Lines 274-278: the rest of the word is filled. -/
def fillLoop (fill : Byte) : Nat → Nat → U64 → U64
  | 0, _, w => w
  | n + 1, i, w => fillLoop fill n (i + 1) (w ||| ((fill.setWidth 64 &&& 0xff) <<< ((7 - i) * 8)))

/-- Lines 281-285: writes the eight bytes of the output word; the Boolean is `true` when the
function returns because `outlen` is zero. -/
def writeLoop (w : U64) : Nat → Nat → List Byte → Nat → Nat → Option (List Byte × Nat × Nat × Bool)
  | 0, _, out, p, outlen => some (out, p, outlen, false)
  | n + 1, i, out, p, outlen =>
    if outlen = 0 then some (out, p, outlen, true)
    else if p < out.length then
      writeLoop w n (i + 1) (out.set p (((w >>> ((7 - i) * 8)) &&& 0xff).setWidth 8)) (p + 1) (outlen - 1)
    else none

/-- The while loop of mln_des_buf (lines 260-287) and mln_3des_buf (lines 333-360), for the block
function `f`; `fuel` bounds the number of blocks (`none` when it runs out). -/
def bufLoop (f : U64 → U64) (fill : Byte) : Nat → List Byte → Nat → List Byte → Nat → Nat → Option (List Byte)
  | 0, _, inlen, out, _, _ => if inlen = 0 then some out else none
  | fuel + 1, inp, inlen, out, p, outlen =>
    if inlen = 0 then some out
    else do
      let (w, inp, inlen, i) ← readLoop 8 0 0 inp inlen
      let w := if i < 8 then fillLoop fill (8 - i) i w else w
      let (out, p, outlen, done) ← writeLoop (f w) 8 0 out p outlen
      if done then some out else bufLoop f fill fuel inp inlen out p outlen

/-- mln_des_buf, lines 260-287. -/
def desBuf (ks : Nat → U64) (inp : List Byte) (inlen : Nat) (out : List Byte) (outlen : Nat) (fill : Byte) (enc : Bool) :
    Option (List Byte) := bufLoop (fun w => des ks w enc) fill inlen inp inlen out 0 outlen

/-- mln_3des_buf, lines 333-360. -/
def des3Buf (k1 k2 : Nat → U64) (inp : List Byte) (inlen : Nat) (out : List Byte) (outlen : Nat) (fill : Byte) (enc : Bool) :
    Option (List Byte) := bufLoop (fun w => des3 k1 k2 w enc) fill inlen inp inlen out 0 outlen

end Verif.Des
