import Verif.Md
/-
Model of the SHA-256 half of /repo/src/mln_sha.c: round constants (329-346),
mln_sha256_init (348-359), mln_sha256_calc (385-435, through `Verif.Md`), macros
(437-444), mln_sha256_safe_add (446-450), mln_sha256_calc_block (452-505),
mln_sha256_tobytes (507-579), mln_sha256_tostring (581-596).
-/
namespace Verif.Sha256
open Verif.Md

abbrev W := BitVec 32

/-- sha256_round_constant, lines 329-346. -/
def rc : List W := [
  0x428A2F98, 0x71374491, 0xB5C0FBCF, 0xE9B5DBA5,
  0x3956C25B, 0x59F111F1, 0x923F82A4, 0xAB1C5ED5,
  0xD807AA98, 0x12835B01, 0x243185BE, 0x550C7DC3,
  0x72BE5D74, 0x80DEB1FE, 0x9BDC06A7, 0xC19BF174,
  0xE49B69C1, 0xEFBE4786, 0x0FC19DC6, 0x240CA1CC,
  0x2DE92C6F, 0x4A7484AA, 0x5CB0A9DC, 0x76F988DA,
  0x983E5152, 0xA831C66D, 0xB00327C8, 0xBF597FC7,
  0xC6E00BF3, 0xD5A79147, 0x06CA6351, 0x14292967,
  0x27B70A85, 0x2E1B2138, 0x4D2C6DFC, 0x53380D13,
  0x650A7354, 0x766A0ABB, 0x81C2C92E, 0x92722C85,
  0xA2BFE8A1, 0xA81A664B, 0xC24B8B70, 0xC76C51A3,
  0xD192E819, 0xD6990624, 0xF40E3585, 0x106AA070,
  0x19A4C116, 0x1E376C08, 0x2748774C, 0x34B0BCB5,
  0x391C0CB3, 0x4ED8AA4A, 0x5B9CCA4F, 0x682E6FF3,
  0x748F82EE, 0x78A5636F, 0x84C87814, 0x8CC70208,
  0x90BEFFFA, 0xA4506CEB, 0xBEF9A3F7, 0xC67178F2
]

/-- mln_sha256_S / R / Ch / Maj, lines 437-440. -/
def S (x : W) (n : Nat) : W := (x >>> n) ||| (x <<< (32 - n))
def R (x : W) (n : Nat) : W := x >>> n
def Ch (x y z : W) : W := (x &&& y) ^^^ (~~~x &&& z)
def Maj (x y z : W) : W := (x &&& y) ^^^ (x &&& z) ^^^ (y &&& z)
/-- Lines 441-444. -/
def Sigma0 (x : W) : W := S x 2 ^^^ S x 13 ^^^ S x 22
def Sigma1 (x : W) : W := S x 6 ^^^ S x 11 ^^^ S x 25
def Gamma0 (x : W) : W := S x 7 ^^^ S x 18 ^^^ R x 3
def Gamma1 (x : W) : W := S x 17 ^^^ S x 19 ^^^ R x 10

/-- mln_sha256_safe_add, lines 446-450. -/
def safeAdd (x y : W) : W :=
  let lsw := (x &&& 0xffff) + (y &&& 0xffff)
  let msw := (x >>> 16) + (y >>> 16) + (lsw >>> 16)
  (msw <<< 16) ||| (lsw &&& 0xffff)

/-- h0..h7. -/
structure St where
  H0 : W
  H1 : W
  H2 : W
  H3 : W
  H4 : W
  H5 : W
  H6 : W
  H7 : W
deriving DecidableEq

/-- Lines 457-459: `group[j >> 2] |= (buf[j] << ((3 - j%4)<<3))`, from all zeros.
(`group[64]`; all indices are below 64.) -/
def load (buf : List Byte) : Nat → W :=
  (List.range 64).foldl (fun g j => fun i => if i = j / 4
    then g i ||| ((buf.getD j 0).setWidth 32 <<< (8 * (3 - j % 4))) else g i) (fun _ => 0)

/-- One iteration of the loop of lines 470-494. -/
def step (gh : (Nat → W) × St) (j : Nat) : (Nat → W) × St :=
  let group := if j ≥ 16
    then fun i => if i = j then safeAdd (safeAdd (safeAdd (Gamma1 (gh.1 (j - 2))) (gh.1 (j - 7))) (Gamma0 (gh.1 (j - 15)))) (gh.1 (j - 16))
      else gh.1 i
    else gh.1
  let h := gh.2
  let t1 := safeAdd (safeAdd (safeAdd (safeAdd h.H7 (Sigma1 h.H4)) (Ch h.H4 h.H5 h.H6)) (rc.getD j 0)) (group j)
  let t2 := safeAdd (Sigma0 h.H0) (Maj h.H0 h.H1 h.H2)
  (group, { H7 := h.H6, H6 := h.H5, H5 := h.H4, H4 := safeAdd h.H3 t1, H3 := h.H2, H2 := h.H1, H1 := h.H0, H0 := safeAdd t1 t2 })

/-- mln_sha256_calc_block, lines 452-505. -/
def block (s : St) (buf : List Byte) : St :=
  let h := ((List.range 64).foldl step (load buf, s)).2
  { H0 := safeAdd h.H0 s.H0, H1 := safeAdd h.H1 s.H1, H2 := safeAdd h.H2 s.H2, H3 := safeAdd h.H3 s.H3,
    H4 := safeAdd h.H4 s.H4, H5 := safeAdd h.H5 s.H5, H6 := safeAdd h.H6 s.H6, H7 := safeAdd h.H7 s.H7 }

/-- Lines 424-431. -/
def lenBytes (x : BitVec 64) : List Byte :=
  [(x >>> 56).setWidth 8, (x >>> 48).setWidth 8, (x >>> 40).setWidth 8, (x >>> 32).setWidth 8,
   (x >>> 24).setWidth 8, (x >>> 16).setWidth 8, (x >>> 8).setWidth 8, x.setWidth 8]

/-- mln_sha256_init (lines 348-359), mln_sha256_calc. -/
def alg : Alg St where
  init := { H0 := 0x6a09e667, H1 := 0xbb67ae85, H2 := 0x3c6ef372, H3 := 0xa54ff53a,
            H4 := 0x510e527f, H5 := 0x9b05688c, H6 := 0x1f83d9ab, H7 := 0x5be0cd19 }
  block := block
  lenBytes := lenBytes

/-- The 32 stores of mln_sha256_tobytes, lines 511-577, with the flag whether a length
check follows.  The check is missing after the last bytes of H4, H5, H6 (and H7). -/
def stores (m : St) : List (Byte × Bool) :=
  [((m.H0 >>> 24).setWidth 8, true), ((m.H0 >>> 16).setWidth 8, true), ((m.H0 >>> 8).setWidth 8, true), (m.H0.setWidth 8, true),
   ((m.H1 >>> 24).setWidth 8, true), ((m.H1 >>> 16).setWidth 8, true), ((m.H1 >>> 8).setWidth 8, true), (m.H1.setWidth 8, true),
   ((m.H2 >>> 24).setWidth 8, true), ((m.H2 >>> 16).setWidth 8, true), ((m.H2 >>> 8).setWidth 8, true), (m.H2.setWidth 8, true),
   ((m.H3 >>> 24).setWidth 8, true), ((m.H3 >>> 16).setWidth 8, true), ((m.H3 >>> 8).setWidth 8, true), (m.H3.setWidth 8, true),
   ((m.H4 >>> 24).setWidth 8, true), ((m.H4 >>> 16).setWidth 8, true), ((m.H4 >>> 8).setWidth 8, true), (m.H4.setWidth 8, false),
   ((m.H5 >>> 24).setWidth 8, true), ((m.H5 >>> 16).setWidth 8, true), ((m.H5 >>> 8).setWidth 8, true), (m.H5.setWidth 8, false),
   ((m.H6 >>> 24).setWidth 8, true), ((m.H6 >>> 16).setWidth 8, true), ((m.H6 >>> 8).setWidth 8, true), (m.H6.setWidth 8, false),
   ((m.H7 >>> 24).setWidth 8, true), ((m.H7 >>> 16).setWidth 8, true), ((m.H7 >>> 8).setWidth 8, true), (m.H7.setWidth 8, false)]

/-- mln_sha256_tobytes, lines 507-579. -/
def tobytes (m : St) (buf : List Byte) (len : Nat) : Option (List Byte) :=
  if len = 0 then some buf else exportBytes (stores m) len 0 buf

/-- mln_sha256_tostring, lines 581-596. -/
def tostring (m : St) (buf : List Byte) (len : Nat) : Option (List Byte) :=
  exportHex (tobytes m (List.replicate 32 0) 32) 32 buf len

end Verif.Sha256
