import Mathlib.Data.List.FinRange
/-
Model of the Reed-Solomon code, /repo/src/mln_rs.c.

Simplifications: a matrix is a function of row and column instead of a flat array indexed
`row * cols + col`; allocations succeed; products of sizes do not overflow.  The vector of
fragments passed to mln_rs_decode is a function from the index to the pointer stored there;
`none` is an index outside the vector (reading it is undefined behaviour), `some none` is a
null pointer (a lost fragment).
-/
namespace Verif.Rs

abbrev U8 := BitVec 8

/-- mln_rs_gfilog, lines 13-46. -/
def gfilog : List Nat := [1, 2, 4, 8, 16, 32, 64, 128, 45, 90, 180, 69, 138, 57, 114, 228,
  229, 231, 227, 235, 251, 219, 155, 27, 54, 108, 216, 157, 23, 46, 92, 184,
  93, 186, 89, 178, 73, 146, 9, 18, 36, 72, 144, 13, 26, 52, 104, 208,
  141, 55, 110, 220, 149, 7, 14, 28, 56, 112, 224, 237, 247, 195, 171, 123,
  246, 193, 175, 115, 230, 225, 239, 243, 203, 187, 91, 182, 65, 130, 41, 82,
  164, 101, 202, 185, 95, 190, 81, 162, 105, 210, 137, 63, 126, 252, 213, 135,
  35, 70, 140, 53, 106, 212, 133, 39, 78, 156, 21, 42, 84, 168, 125, 250,
  217, 159, 19, 38, 76, 152, 29, 58, 116, 232, 253, 215, 131, 43, 86, 172,
  117, 234, 249, 223, 147, 11, 22, 44, 88, 176, 77, 154, 25, 50, 100, 200,
  189, 87, 174, 113, 226, 233, 255, 211, 139, 59, 118, 236, 245, 199, 163, 107,
  214, 129, 47, 94, 188, 85, 170, 121, 242, 201, 191, 83, 166, 97, 194, 169,
  127, 254, 209, 143, 51, 102, 204, 181, 71, 142, 49, 98, 196, 165, 103, 206,
  177, 79, 158, 17, 34, 68, 136, 61, 122, 244, 197, 167, 99, 198, 161, 111,
  222, 145, 15, 30, 60, 120, 240, 205, 183, 67, 134, 33, 66, 132, 37, 74,
  148, 5, 10, 20, 40, 80, 160, 109, 218, 153, 31, 62, 124, 248, 221, 151,
  3, 6, 12, 24, 48, 96, 192, 173, 119, 238, 241, 207, 179, 75, 150, 0]

/-- mln_rs_gflog, lines 48-81. -/
def gflog : List Nat := [255, 0, 1, 240, 2, 225, 241, 53, 3, 38, 226, 133, 242, 43, 54, 210,
  4, 195, 39, 114, 227, 106, 134, 28, 243, 140, 44, 23, 55, 118, 211, 234,
  5, 219, 196, 96, 40, 222, 115, 103, 228, 78, 107, 125, 135, 8, 29, 162,
  244, 186, 141, 180, 45, 99, 24, 49, 56, 13, 119, 153, 212, 199, 235, 91,
  6, 76, 220, 217, 197, 11, 97, 184, 41, 36, 223, 253, 116, 138, 104, 193,
  229, 86, 79, 171, 108, 165, 126, 145, 136, 34, 9, 74, 30, 32, 163, 84,
  245, 173, 187, 204, 142, 81, 181, 190, 46, 88, 100, 159, 25, 231, 50, 207,
  57, 147, 14, 67, 120, 128, 154, 248, 213, 167, 200, 63, 236, 110, 92, 176,
  7, 161, 77, 124, 221, 102, 218, 95, 198, 90, 12, 152, 98, 48, 185, 179,
  42, 209, 37, 132, 224, 52, 254, 239, 117, 233, 139, 22, 105, 27, 194, 113,
  230, 206, 87, 158, 80, 189, 172, 203, 109, 175, 166, 62, 127, 247, 146, 66,
  137, 192, 35, 252, 10, 183, 75, 216, 31, 83, 33, 73, 164, 144, 85, 170,
  246, 65, 174, 61, 188, 202, 205, 157, 143, 169, 82, 72, 182, 215, 191, 251,
  47, 178, 89, 151, 101, 94, 160, 123, 26, 112, 232, 21, 51, 238, 208, 131,
  58, 69, 148, 18, 15, 16, 68, 17, 121, 149, 129, 19, 155, 59, 249, 70,
  214, 250, 168, 71, 201, 156, 64, 60, 237, 130, 111, 20, 93, 122, 177, 150]

def ilog (i : Nat) : U8 := BitVec.ofNat 8 (gfilog.getD i 0)
def log (a : U8) : Nat := gflog.getD a.toNat 0

/-- M_RS_GF_MUL, lines 84-87. -/
def gmul (a b : U8) : U8 := if a = 0 ∨ b = 0 then 0 else ilog ((log a + log b) % 255)

/-- M_RS_GF_DIV, lines 88-93. -/
def gdiv (a b : U8) : U8 :=
  if a = 0 ∨ b = 0 then 0
  else ilog (if log a < log b then 255 - (log b - log a) else log a - log b)

/-- The second loop of mln_rs_power_calc, lines 103-108: `i` is the number of bits left.  Values
are 64 bits wide. -/
def powLoop (save exp : BitVec 64) : Nat → BitVec 64 → BitVec 64
  | 0, base => base
  | i + 1, base =>
    let base := base * base
    powLoop save exp i (if exp.getLsbD i then base * save else base)

/-- The first loop of mln_rs_power_calc, lines 98-101: the highest set bit below `i`. -/
def topBit (exp : BitVec 64) : Nat → Option Nat
  | 0 => none
  | i + 1 => if exp.getLsbD i then some i else topBit exp i

/-- mln_rs_power_calc, lines 95-110. -/
def powerCalc (base exp : BitVec 64) : BitVec 64 :=
  match topBit exp 64 with
  | none => 1
  | some i => powLoop base exp i base

abbrev Mat (r c : Nat) := Fin r → Fin c → U8

/-- mln_rs_matrix_mul, lines 135-172.  Each cell is accumulated over the inner dimension in order. -/
def mmul {a b c : Nat} (A : Mat a b) (B : Mat b c) : Mat a c :=
  fun i j => (List.finRange b).foldl (fun acc k => acc ^^^ gmul (A i k) (B k j)) 0

/-- The search for the row with the largest entry in column `m`, lines 205-212. -/
def pivot {n : Nat} (A : Mat n n) (m : Fin n) : Fin n :=
  ((List.finRange n).filter (m < ·)).foldl (fun best j => if A best m < A j m then j else best) m

/-- The exchange of two rows, lines 214-223. -/
def swap {n : Nat} (A : Mat n n) (i k : Fin n) : Mat n n :=
  fun r => if r = i then A k else if r = k then A i else A r

/-- The division of a row, lines 230-234. -/
def scale {n : Nat} (A : Mat n n) (i : Fin n) (t : U8) : Mat n n :=
  fun r c => if r = i then gdiv (A r c) t else A r c

/-- The elimination in the other rows, lines 235-248; `t r` is the entry of row `r` in the
current column, read before the row is changed. -/
def elim {n : Nat} (t : Fin n → U8) (A : Mat n n) (i : Fin n) : Mat n n :=
  fun r c => if r = i then A r c else A r c ^^^ gmul (A i c) (t r)

/-- One round of mln_rs_matrix_inverse, lines 204-248: the matrix itself and the result so far.
`none`: there is no pivot. -/
def invStep {n : Nat} (s : Mat n n × Mat n n) (m : Fin n) : Option (Mat n n × Mat n n) :=
  let k := pivot s.1 m
  let A := swap s.1 m k
  let B := swap s.2 m k
  if A m m = 0 then none
  else
    let t := A m m
    let A := scale A m t
    let B := scale B m t
    let c := fun r => A r m
    some (elim c A m, elim c B m)

/-- mln_rs_matrix_inverse, lines 174-251. -/
def inverse {n : Nat} (A : Mat n n) : Option (Mat n n) :=
  ((List.finRange n).foldlM invStep (A, fun i j => if i = j then 1 else 0)).map Prod.snd

/-- The rows of the coefficient matrices: unit rows first, then truncated powers, lines 264-274. -/
def unitRow (n i : Nat) : Fin n → U8 := fun j => if j.val = i then 1 else 0
def powRow (n e : Nat) : Fin n → U8 := fun j => (powerCalc (BitVec.ofNat 64 (j.val + 1)) (BitVec.ofNat 64 e)).truncate 8

/-- mln_rs_matrix_co_matrix, lines 253-282. -/
def coMatrix (n k : Nat) : Mat (n + k) n := fun i => if i.val < n then unitRow n i else powRow n (i.val - n)

/-- mln_rs_encode, lines 402-439.  The result holds n + k fragments of len bytes. -/
def encode {n len : Nat} (k : Nat) (data : Mat n len) : Option (Mat (n + k) len) :=
  if len = 0 ∨ n = 0 ∨ k = 0 then none else some (mmul (coMatrix n k) data)

abbrev Vec (len : Nat) := Nat → Option (Option (Fin len → U8))

/-- The first loop of mln_rs_matrix_co_inverse_matrix, lines 297-305. -/
def coUnits {len : Nat} (n : Nat) (v : Vec len) (acc : List (Fin n → U8)) (i : Nat) : Option (List (Fin n → U8)) :=
  match v i with
  | none => none
  | some none => some acc
  | some (some _) => some (acc ++ [unitRow n i])

/-- Its second loop, lines 306-313.  The end pointer is computed from the advanced vector pointer,
so up to n + k further entries are read. -/
def coPowers {len : Nat} (n : Nat) (v : Vec len) : Nat → Nat → List (Fin n → U8) → Option (List (Fin n → U8))
  | 0, _, acc => some acc
  | todo + 1, i, acc =>
    if acc.length < n then
      match v (n + i) with
      | none => none
      | some none => coPowers n v todo (i + 1) acc
      | some (some _) => coPowers n v todo (i + 1) (acc ++ [powRow n i])
    else some acc

/-- The matrix built by mln_rs_matrix_co_inverse_matrix, lines 284-328; missing rows would be
uninitialised memory. -/
def coRows {len : Nat} (n k : Nat) (v : Vec len) : Option (List (Fin n → U8)) := do
  let acc ← (List.range n).foldlM (coUnits n v) []
  coPowers n v (n + k) 0 acc

/-- The loop of mln_rs_matrix_data_matrix, lines 342-348. -/
def dataRows {len : Nat} (n : Nat) (v : Vec len) : Nat → Nat → List (Fin len → U8) → Option (List (Fin len → U8))
  | 0, _, acc => some acc
  | todo + 1, i, acc =>
    if acc.length < n then
      match v i with
      | none => none
      | some none => dataRows n v todo (i + 1) acc
      | some (some r) => dataRows n v todo (i + 1) (acc ++ [r])
    else some acc

/-- `n` rows as a matrix; fewer rows leave uninitialised memory. -/
def toMat {c : Nat} (n : Nat) (l : List (Fin c → U8)) : Option (Mat n c) :=
  if h : l.length = n then some fun i => l[i.val] else none

/-- mln_rs_decode, lines 441-497.  Outer `none`: undefined behaviour; inner `none`: NULL returned. -/
def decode {len : Nat} (n k : Nat) (v : Vec len) : Option (Option (Mat n len)) :=
  if n = 0 ∧ k = 0 then some none
  else if k = 0 then do
    let l ← (List.range n).foldlM (fun acc i => match v i with | some (some r) => some (acc ++ [r]) | _ => none) []
    (toMat n l).map some
  else do
    let co ← coRows n k v
    let co ← toMat n co
    match inverse co with
    | none => some none
    | some inv => do
      let d ← dataRows n v (n + k) 0 []
      let d ← toMat n d
      some (some (mmul inv d))

end Verif.Rs
