/-
Model of /repo/src/mln_aes.c and the macros of /repo/include/mln_aes.h.

`mln_u32_t` words are `BitVec 32`; the arrays `state[4]` and `w[60]` are functions of the
index (all indices in the code are literal loop bounds inside the arrays, except the
table lookups, which are by byte values, and `rcon[i / nk]`, see `AesProps`).  Reads of
the caller's `key` and of the 16-byte `text` are checked: `none` means the caller's
buffer is too short.  An inner `none` is the return value -1.
-/
namespace Verif.Aes

abbrev Byte := BitVec 8
abbrev W := BitVec 32

/-- sbox[], lines 19-36. -/
def sbox : List Byte := [
  0x63, 0x7c, 0x77, 0x7b, 0xf2, 0x6b, 0x6f, 0xc5, 0x30, 0x01, 0x67, 0x2b, 0xfe, 0xd7, 0xab, 0x76,
  0xca, 0x82, 0xc9, 0x7d, 0xfa, 0x59, 0x47, 0xf0, 0xad, 0xd4, 0xa2, 0xaf, 0x9c, 0xa4, 0x72, 0xc0,
  0xb7, 0xfd, 0x93, 0x26, 0x36, 0x3f, 0xf7, 0xcc, 0x34, 0xa5, 0xe5, 0xf1, 0x71, 0xd8, 0x31, 0x15,
  0x04, 0xc7, 0x23, 0xc3, 0x18, 0x96, 0x05, 0x9a, 0x07, 0x12, 0x80, 0xe2, 0xeb, 0x27, 0xb2, 0x75,
  0x09, 0x83, 0x2c, 0x1a, 0x1b, 0x6e, 0x5a, 0xa0, 0x52, 0x3b, 0xd6, 0xb3, 0x29, 0xe3, 0x2f, 0x84,
  0x53, 0xd1, 0x00, 0xed, 0x20, 0xfc, 0xb1, 0x5b, 0x6a, 0xcb, 0xbe, 0x39, 0x4a, 0x4c, 0x58, 0xcf,
  0xd0, 0xef, 0xaa, 0xfb, 0x43, 0x4d, 0x33, 0x85, 0x45, 0xf9, 0x02, 0x7f, 0x50, 0x3c, 0x9f, 0xa8,
  0x51, 0xa3, 0x40, 0x8f, 0x92, 0x9d, 0x38, 0xf5, 0xbc, 0xb6, 0xda, 0x21, 0x10, 0xff, 0xf3, 0xd2,
  0xcd, 0x0c, 0x13, 0xec, 0x5f, 0x97, 0x44, 0x17, 0xc4, 0xa7, 0x7e, 0x3d, 0x64, 0x5d, 0x19, 0x73,
  0x60, 0x81, 0x4f, 0xdc, 0x22, 0x2a, 0x90, 0x88, 0x46, 0xee, 0xb8, 0x14, 0xde, 0x5e, 0x0b, 0xdb,
  0xe0, 0x32, 0x3a, 0x0a, 0x49, 0x06, 0x24, 0x5c, 0xc2, 0xd3, 0xac, 0x62, 0x91, 0x95, 0xe4, 0x79,
  0xe7, 0xc8, 0x37, 0x6d, 0x8d, 0xd5, 0x4e, 0xa9, 0x6c, 0x56, 0xf4, 0xea, 0x65, 0x7a, 0xae, 0x08,
  0xba, 0x78, 0x25, 0x2e, 0x1c, 0xa6, 0xb4, 0xc6, 0xe8, 0xdd, 0x74, 0x1f, 0x4b, 0xbd, 0x8b, 0x8a,
  0x70, 0x3e, 0xb5, 0x66, 0x48, 0x03, 0xf6, 0x0e, 0x61, 0x35, 0x57, 0xb9, 0x86, 0xc1, 0x1d, 0x9e,
  0xe1, 0xf8, 0x98, 0x11, 0x69, 0xd9, 0x8e, 0x94, 0x9b, 0x1e, 0x87, 0xe9, 0xce, 0x55, 0x28, 0xdf,
  0x8c, 0xa1, 0x89, 0x0d, 0xbf, 0xe6, 0x42, 0x68, 0x41, 0x99, 0x2d, 0x0f, 0xb0, 0x54, 0xbb, 0x16
]

/-- rsbox[], lines 38-55. -/
def rsbox : List Byte := [
  0x52, 0x09, 0x6a, 0xd5, 0x30, 0x36, 0xa5, 0x38, 0xbf, 0x40, 0xa3, 0x9e, 0x81, 0xf3, 0xd7, 0xfb,
  0x7c, 0xe3, 0x39, 0x82, 0x9b, 0x2f, 0xff, 0x87, 0x34, 0x8e, 0x43, 0x44, 0xc4, 0xde, 0xe9, 0xcb,
  0x54, 0x7b, 0x94, 0x32, 0xa6, 0xc2, 0x23, 0x3d, 0xee, 0x4c, 0x95, 0x0b, 0x42, 0xfa, 0xc3, 0x4e,
  0x08, 0x2e, 0xa1, 0x66, 0x28, 0xd9, 0x24, 0xb2, 0x76, 0x5b, 0xa2, 0x49, 0x6d, 0x8b, 0xd1, 0x25,
  0x72, 0xf8, 0xf6, 0x64, 0x86, 0x68, 0x98, 0x16, 0xd4, 0xa4, 0x5c, 0xcc, 0x5d, 0x65, 0xb6, 0x92,
  0x6c, 0x70, 0x48, 0x50, 0xfd, 0xed, 0xb9, 0xda, 0x5e, 0x15, 0x46, 0x57, 0xa7, 0x8d, 0x9d, 0x84,
  0x90, 0xd8, 0xab, 0x00, 0x8c, 0xbc, 0xd3, 0x0a, 0xf7, 0xe4, 0x58, 0x05, 0xb8, 0xb3, 0x45, 0x06,
  0xd0, 0x2c, 0x1e, 0x8f, 0xca, 0x3f, 0x0f, 0x02, 0xc1, 0xaf, 0xbd, 0x03, 0x01, 0x13, 0x8a, 0x6b,
  0x3a, 0x91, 0x11, 0x41, 0x4f, 0x67, 0xdc, 0xea, 0x97, 0xf2, 0xcf, 0xce, 0xf0, 0xb4, 0xe6, 0x73,
  0x96, 0xac, 0x74, 0x22, 0xe7, 0xad, 0x35, 0x85, 0xe2, 0xf9, 0x37, 0xe8, 0x1c, 0x75, 0xdf, 0x6e,
  0x47, 0xf1, 0x1a, 0x71, 0x1d, 0x29, 0xc5, 0x89, 0x6f, 0xb7, 0x62, 0x0e, 0xaa, 0x18, 0xbe, 0x1b,
  0xfc, 0x56, 0x3e, 0x4b, 0xc6, 0xd2, 0x79, 0x20, 0x9a, 0xdb, 0xc0, 0xfe, 0x78, 0xcd, 0x5a, 0xf4,
  0x1f, 0xdd, 0xa8, 0x33, 0x88, 0x07, 0xc7, 0x31, 0xb1, 0x12, 0x10, 0x59, 0x27, 0x80, 0xec, 0x5f,
  0x60, 0x51, 0x7f, 0xa9, 0x19, 0xb5, 0x4a, 0x0d, 0x2d, 0xe5, 0x7a, 0x9f, 0x93, 0xc9, 0x9c, 0xef,
  0xa0, 0xe0, 0x3b, 0x4d, 0xae, 0x2a, 0xf5, 0xb0, 0xc8, 0xeb, 0xbb, 0x3c, 0x83, 0x53, 0x99, 0x61,
  0x17, 0x2b, 0x04, 0x7e, 0xba, 0x77, 0xd6, 0x26, 0xe1, 0x69, 0x14, 0x63, 0x55, 0x21, 0x0c, 0x7d
]

/-- rcon[], lines 57-69. -/
def rcon : List W := [
  0x0, 0x01000000, 0x02000000, 0x04000000, 0x08000000, 0x10000000, 0x20000000, 0x40000000, 0x80000000, 0x1b000000, 0x36000000
]

def sub (b : Byte) : Byte := sbox.getD b.toNat 0
def rsub (b : Byte) : Byte := rsbox.getD b.toNat 0

/-- `(w >> ((sizeof(mln_u32_t)-1-i) << 3)) & 0xff`. -/
def gb (w : W) (i : Nat) : Byte := (w >>> (8 * (3 - i))).setWidth 8

/-- `((mln_u32_t)b) << ((sizeof(mln_u32_t)-1-i) << 3)`. -/
def wb (b : Byte) (i : Nat) : W := b.setWidth 32 <<< (8 * (3 - i))

abbrev State := Nat → W

/-- `state[j] ^= old byte; state[j] |= b` in byte position i, the update pattern of all the
round functions (e.g. lines 150-153). -/
def put (s : State) (i j : Nat) (b : Byte) : State :=
  fun k => if k = j then (s j ^^^ wb (gb (s j) i) i) ||| wb b i else s k

/-- mln_aes_rotbyte, line 71. -/
def rotbyte (v : W) : W := ((v >>> 24) &&& 0xff) ||| ((v &&& 0xffffff) <<< 8)

/-- mln_aes_subbyte, lines 73-76. -/
def subbyte (v : W) : W :=
  (sub (v.setWidth 8)).setWidth 32 ||| ((sub ((v >>> 8).setWidth 8)).setWidth 32 <<< 8) |||
    ((sub ((v >>> 16).setWidth 8)).setWidth 32 <<< 16) ||| ((sub ((v >>> 24).setWidth 8)).setWidth 32 <<< 24)

/-- mln_aes_t. -/
structure Ctx where
  bits : Nat
  w : Nat → W

/-- nk and nr for `bits` (mln_aes.h lines 10-21; switch of lines 83-97 and 208-219). -/
def params (bits : Nat) : Option (Nat × Nat) :=
  if bits = 0 then some (4, 10) else if bits = 1 then some (6, 12) else if bits = 2 then some (8, 14) else none

/-- Line 101-102: word i of the key. -/
def keyWord (key : List Byte) (i : Nat) : Option W := do
  let a ← key[4 * i]?
  let b ← key[4 * i + 1]?
  let c ← key[4 * i + 2]?
  let d ← key[4 * i + 3]?
  some ((a.setWidth 32 <<< 24) ||| (b.setWidth 32 <<< 16) ||| (c.setWidth 32 <<< 8) ||| d.setWidth 32)

/-- Lines 99-103. -/
def loadKey (key : List Byte) : Nat → (Nat → W) → Option (Nat → W)
  | 0, w => some w
  | n + 1, w => do
    let w ← loadKey key n w
    let x ← keyWord key n
    some fun k => if k = n then x else w k

/-- Body of the loop of lines 104-112 (`rcon` read checked by `getD`; the index is shown to
be in range in `AesProps`). -/
def expandStep (bits nk : Nat) (w : Nat → W) (i : Nat) : Nat → W :=
  let temp := w (i - 1)
  let temp := if i % nk = 0 then subbyte (rotbyte temp) ^^^ rcon.getD (i / nk) 0
    else if bits = 2 ∧ i % nk = 4 then subbyte temp else temp
  fun k => if k = i then w (i - nk) ^^^ temp else w k

/-- mln_aes_init, lines 78-119. `w0` is the previous content of the array. -/
def init (w0 : Nat → W) (key : List Byte) (bits : Nat) : Option (Option Ctx) :=
  match params bits with
  | none => some none
  | some (nk, nr) => do
    let times := (nr + 1) * 4
    let w ← loadKey key nk w0
    let w := ((List.range (times - nk)).map (nk + ·)).foldl (expandStep bits nk) w
    let w := ((List.range (60 - times)).map (times + ·)).foldl (fun w i k => if k = i then 0 else w k) w
    some (some { bits := bits, w := w })

/-- mln_aes_addroundkey, lines 145-156. -/
def addRoundKey (w : Nat → W) (round : Nat) (s : State) : State :=
  (List.range 4).foldl (fun s i => (List.range 4).foldl (fun s j =>
    put s i j (gb (s j) i ^^^ gb (w (round * 4 + i)) j)) s) s

/-- __MLN_AES_XTIME on a promoted `int`, mln_aes.h line 23. -/
def xtime (x : W) : W := (x <<< 1) ^^^ (((x >>> 7) &&& 1) * 0x1b)
/-- __MLN_AES_MULTIB_01 .. 0e, mln_aes.h lines 25-31. -/
def m01 (x : W) : W := x &&& 0xff
def m02 (x : W) : W := xtime x
def m03 (x : W) : W := (m02 x ^^^ x) &&& 0xff
def m09 (x : W) : W := (m02 (m02 (m02 x)) ^^^ x) &&& 0xff
def m0b (x : W) : W := (m02 (m02 (m02 x)) ^^^ m02 x ^^^ x) &&& 0xff
def m0d (x : W) : W := (m02 (m02 (m02 x)) ^^^ m02 (m02 x) ^^^ x) &&& 0xff
def m0e (x : W) : W := (m02 (m02 (m02 x)) ^^^ m02 (m02 x) ^^^ m02 x) &&& 0xff

/-- mln_aes_mixcolume, lines 158-184. -/
def mixColumn (s : State) : State :=
  (List.range 4).foldl (fun s i =>
    let c0 := (gb (s 0) i).setWidth 32
    let c1 := (gb (s 1) i).setWidth 32
    let c2 := (gb (s 2) i).setWidth 32
    let c3 := (gb (s 3) i).setWidth 32
    let s := put s i 0 ((m02 c0 ^^^ m03 c1 ^^^ m01 c2 ^^^ m01 c3).setWidth 8)
    let s := put s i 1 ((m01 c0 ^^^ m02 c1 ^^^ m03 c2 ^^^ m01 c3).setWidth 8)
    let s := put s i 2 ((m01 c0 ^^^ m01 c1 ^^^ m02 c2 ^^^ m03 c3).setWidth 8)
    put s i 3 ((m03 c0 ^^^ m01 c1 ^^^ m01 c2 ^^^ m02 c3).setWidth 8)) s

/-- mln_aes_bytesub, lines 186-197. -/
def byteSub (s : State) : State :=
  (List.range 4).foldl (fun s i => (List.range 4).foldl (fun s j => put s i j (sub (gb (s j) i))) s) s

/-- mln_aes_shiftrow, lines 199-203. -/
def shiftRow (s : State) : State := fun k =>
  if k = 1 then ((s 1 <<< 8) ||| (s 1 >>> 24)) &&& 0xffffffff
  else if k = 2 then ((s 2 <<< 16) ||| (s 2 >>> 16)) &&& 0xffffffff
  else if k = 3 then ((s 3 <<< 24) ||| (s 3 >>> 8)) &&& 0xffffffff
  else s k

/-- Lines 221-225 / 265-269. -/
def load (text : List Byte) : Option State :=
  if text.length < 16 then none
  else some ((List.range 4).foldl (fun s i => (List.range 4).foldl (fun s j =>
    fun k => if k = j then s j ||| wb (text.getD (4 * i + j) 0) i else s k) s) (fun _ => 0))

/-- Lines 240-244 / 284-288: the 16 stores `text[(i<<2)+j]`. -/
def unload (s : State) (text : List Byte) : List Byte :=
  (List.range 4).foldl (fun t i => (List.range 4).foldl (fun t j => t.set (4 * i + j) (gb (s j) i)) t) text

/-- Lines 229-234. -/
def encRounds (w : Nat → W) (nr : Nat) (s : State) : State :=
  ((List.range (nr - 1)).map (· + 1)).foldl (fun s round => addRoundKey w round (mixColumn (shiftRow (byteSub s)))) s

/-- mln_aes_encrypt, lines 205-247. -/
def encrypt (a : Ctx) (text : List Byte) : Option (Option (List Byte)) :=
  match params a.bits with
  | none => some none
  | some (_, nr) => do
    let s ← load text
    let s := addRoundKey a.w 0 s
    let s := encRounds a.w nr s
    let s := addRoundKey a.w nr (shiftRow (byteSub s))
    some (some (unload s text))

/-- mln_aes_invshiftrow, lines 293-297. -/
def invShiftRow (s : State) : State := fun k =>
  if k = 1 then ((s 1 >>> 8) ||| (s 1 <<< 24)) &&& 0xffffffff
  else if k = 2 then ((s 2 >>> 16) ||| (s 2 <<< 16)) &&& 0xffffffff
  else if k = 3 then ((s 3 >>> 24) ||| (s 3 <<< 8)) &&& 0xffffffff
  else s k

/-- mln_aes_invbytesub, lines 299-310. -/
def invByteSub (s : State) : State :=
  (List.range 4).foldl (fun s i => (List.range 4).foldl (fun s j => put s i j (rsub (gb (s j) i))) s) s

/-- mln_aes_invmixcolume, lines 312-334. -/
def invMixColumn (s : State) : State :=
  (List.range 4).foldl (fun s i =>
    let c0 := (gb (s 0) i).setWidth 32
    let c1 := (gb (s 1) i).setWidth 32
    let c2 := (gb (s 2) i).setWidth 32
    let c3 := (gb (s 3) i).setWidth 32
    let s := put s i 0 ((m0e c0 ^^^ m0b c1 ^^^ m0d c2 ^^^ m09 c3).setWidth 8)
    let s := put s i 1 ((m09 c0 ^^^ m0e c1 ^^^ m0b c2 ^^^ m0d c3).setWidth 8)
    let s := put s i 2 ((m0d c0 ^^^ m09 c1 ^^^ m0e c2 ^^^ m0b c3).setWidth 8)
    put s i 3 ((m0b c0 ^^^ m0d c1 ^^^ m09 c2 ^^^ m0e c3).setWidth 8)) s

/-- Lines 273-278: `for (round = nr-1; round > 0; --round)`. -/
def decRounds (w : Nat → W) (nr : Nat) (s : State) : State :=
  ((List.range (nr - 1)).map (· + 1)).reverse.foldl
    (fun s round => invMixColumn (addRoundKey w round (invByteSub (invShiftRow s)))) s

/-- mln_aes_decrypt, lines 249-291. -/
def decrypt (a : Ctx) (cipher : List Byte) : Option (Option (List Byte)) :=
  match params a.bits with
  | none => some none
  | some (_, nr) => do
    let s ← load cipher
    let s := addRoundKey a.w nr s
    let s := decRounds a.w nr s
    let s := addRoundKey a.w 0 (invByteSub (invShiftRow s))
    some (some (unload s cipher))

end Verif.Aes
