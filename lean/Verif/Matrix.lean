import Mathlib.Data.List.FinRange
import Mathlib.Algebra.Order.Field.Basic
import Mathlib.Algebra.Order.Group.Unbundled.Abs
/-
Model of the matrices of src/mln_matrix.c.

Simplifications: a double is an element of an ordered field `K`, that is, there is no rounding and no
overflow; a matrix is a function of row and column instead of a flat array indexed `row * cols + col`;
allocations succeed; products of sizes do not overflow.
-/
namespace Verif.Matrix

variable {K : Type} [Field K] [LinearOrder K]

abbrev Mat (K : Type) (r c : Nat) := Fin r → Fin c → K

/-- One round of the loop over `k` in mln_matrix_mul, lines 56-61: row `i` of the result. -/
def mulRow {a b c : Nat} (A : Mat K a b) (B : Mat K b c) (i : Fin a) (row : Fin c → K) (k : Fin b) : Fin c → K :=
  fun j => row j + A i k * B k j

/-- mln_matrix_mul, lines 34-65; `none` (NULL) if the sizes do not fit.  The result is zero at first. -/
def mul {a b b' c : Nat} (A : Mat K a b) (B : Mat K b' c) : Option (Mat K a c) :=
  if h : b = b' then
    some fun i => (List.finRange b).foldl (mulRow A (h ▸ B) i) fun _ => 0
  else none

/-- The search for the row with the largest entry in column `m`, lines 95-102. -/
def pivot {n : Nat} (A : Mat K n n) (m : Fin n) : Fin n :=
  ((List.finRange n).filter (m < ·)).foldl (fun best j => if |A j m| > |A best m| then j else best) m

/-- The exchange of two rows, lines 104-113. -/
def swap {n : Nat} (A : Mat K n n) (i k : Fin n) : Mat K n n :=
  fun r => if r = i then A k else if r = k then A i else A r

/-- The division of a row, lines 120-124. -/
def scale {n : Nat} (A : Mat K n n) (i : Fin n) (t : K) : Mat K n n :=
  fun r c => if r = i then A r c / t else A r c

/-- The elimination in the other rows, lines 125-133; `t r` is the entry of row `r` in the current
column, read before the row is changed. -/
def elim {n : Nat} (t : Fin n → K) (A : Mat K n n) (i : Fin n) : Mat K n n :=
  fun r c => if r = i then A r c else A r c - A i c * t r

/-- 1e-6. -/
def eps : K := 1 / 1000000

/-- One round of the loop of mln_matrix_inverse, lines 94-134, on `origin` and `data`: the flag says
whether to go on; otherwise NULL is returned. -/
def invStep {n : Nat} (A B : Mat K n n) (m : Fin n) : Bool × Mat K n n × Mat K n n :=
  let k := pivot A m
  let A := swap A m k
  let B := swap B m k
  if |A m m| < eps then (false, A, B)
  else
    let t := A m m
    let A := scale A m t
    let B := scale B m t
    let c := fun r => A r m
    (true, elim c A m, elim c B m)

def invLoop {n : Nat} : List (Fin n) → Mat K n n → Mat K n n → Bool × Mat K n n × Mat K n n
  | [], A, B => (true, A, B)
  | m :: l, A, B =>
    match invStep A B m with
    | (true, A, B) => invLoop l A B
    | r => r

/-- mln_matrix_inverse, lines 67-137: the result (`none`: NULL) and the argument afterwards, whose
data is worked on in place. -/
def inverse {r c : Nat} (M : Mat K r c) : Option (Mat K r r) × Mat K r c :=
  if h : r = c then
    let x := invLoop (List.finRange r) (h ▸ M) fun i j => if i = j then 1 else 0
    (if x.1 then some x.2.2 else none, h ▸ x.2.1)
  else (none, M)

end Verif.Matrix
