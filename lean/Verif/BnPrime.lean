import Verif.Bn

/-
Model of the prime generator of /repo/src/mln_bignum.c, lines 930-1079.  `rand` is what rand_r
returns for a seed (it also updates the seed, but every caller overwrites it or drops it);
clock readings are arguments.
-/
namespace Verif.Bn

/-- The first loop of mln_bignum_random_prime, lines 998-1005: the limbs and the last seed. -/
def randLimbs (rand : Nat → Nat) : Nat → Nat → List Nat × Nat
  | 0, val => ([], val)
  | n + 1, val =>
    let v := rand val % 4294967296
    let (l, last) := randLimbs rand n v
    (v :: l, last)

/-- `data[0] |= 1`, lines 1018 and 1034. -/
def odd0 : List Nat → List Nat
  | [] => []
  | x :: l => (x ||| 1) :: l

/-- mln_bignum_random_prime, lines 988-1038: `t` and `t'` are the clock readings.  The two
shifts by `64 - off` keep the low `off` bits. -/
def randomPrime (rand : Nat → Nat) (t t' bitwidth : Nat) : Option Bn :=
  let times := bitwidth / 32
  let off := bitwidth % 32
  let (l, val) := randLimbs rand times (t % 4294967296)
  if off ≠ 0 then
    let top := ((w (rand val % 4294967296 * 0xfdfd) &&& 0xffffffff) ||| (1 <<< (off - 1))) % 2 ^ off
    let l := odd0 (l ++ [top])
    if size < l.length then none
    else some ⟨false, times + 1, l ++ List.replicate (size - l.length) 0⟩
  else if times = 0 then some zero
  else
    let x := l[times - 1]?.getD 0
    let x := if x = 0 then rand (t' % 4294967296) % 4294967296 else x
    let l := odd0 (l.take (times - 1) ++ [x ||| 0x80000000])
    if size < l.length then none
    else some ⟨false, times, l ++ List.replicate (size - l.length) 0⟩

/-- The search for a width in mln_bignum_random_scope, lines 1046-1055. -/
def scopeWidth (rand : Nat → Nat) (bitwidth : Nat) : List Nat → Option (Nat × List Nat)
  | [] => none
  | t :: clock =>
    let width := rand (t % 4294967296) % 4294967296 % bitwidth
    if width < 2 then scopeWidth rand bitwidth clock else some (width, clock)

/-- mln_bignum_random_scope, lines 1040-1057: the number and the clock readings left. -/
def randomScope (rand : Nat → Nat) (bitwidth : Nat) (clock : List Nat) : Option (Bn × List Nat) := do
  match ← scopeWidth rand bitwidth clock with
  | (width, t :: t' :: clock) => do
    let b ← randomPrime rand t t' width
    some (b, clock)
  | _ => none

/-- mln_bignum_seperate, lines 930-948. -/
def seperate : Nat → Nat → Bn → Option (Nat × Bn)
  | 0, _, _ => none
  | fuel + 1, pwr, odd => do
    match ← div odd (word 2) with
    | none => none
    | some (m, q) => if m.length ≠ 0 then some (pwr, odd) else seperate fuel (pwr + 1) q

/-- The loop of mln_bignum_witness, lines 965-979: `none` inside is `return 1`, otherwise new_x. -/
def witnessLoop (prim : Bn) : Nat → Bn → Bn → Option (Option Bn)
  | 0, _, newX => some (some newX)
  | n + 1, x, _ => do
    match ← pwr x (word 2) (some prim) with
    | none => none
    | some newX => do
      let (tmp, _) ← sub prim (word 1)
      let c1 ← absCompare newX (word 1)
      let c2 ← absCompare x (word 1)
      let c3 ← absCompare x tmp
      if c1 = 0 ∧ c2 ≠ 0 ∧ c3 ≠ 0 then some none else witnessLoop prim n newX newX

/-- mln_bignum_witness, lines 950-986.  A failing power would leave `x` as it is; it is not
modelled (`none`).  `sub` gives back `num` unchanged. -/
def witness (fuel : Nat) (base prim : Bn) : Option Bool := do
  let (odd, _) ← sub prim (word 1)
  let (n, odd) ← seperate fuel 0 odd
  match ← pwr base odd (some prim) with
  | none => none
  | some x =>
    match ← witnessLoop prim n x zero with
    | none => some true
    | some newX => do
      let c ← absCompare newX (word 1)
      some (c ≠ 0)

/-- The rounds of mln_bignum_prime, lines 1070-1074: whether all passed, and the clock left. -/
def rounds (rand : Nat → Nat) (bitwidth : Nat) (prime : Bn) : Nat → List Nat → Option (Bool × List Nat)
  | 0, clock => some (true, clock)
  | times + 1, clock => do
    let (base, clock) ← randomScope rand bitwidth clock
    if ← witness 8225 base prime then some (false, clock)
    else rounds rand bitwidth prime times clock

/-- The loop of mln_bignum_prime, lines 1066-1075. -/
def primeLoop (rand : Nat → Nat) (bitwidth : Nat) : Nat → List Nat → Option (Bn × List Nat)
  | fuel + 1, t :: t' :: clock => do
    let prime ← randomPrime rand t t' bitwidth
    let c ← absCompare prime (word 1)
    if c ≤ 0 then primeLoop rand bitwidth fuel clock
    else do
      let times := if bitwidth ≤ 512 then 4 else bitwidth >>> 9
      let (ok, clock) ← rounds rand bitwidth prime times clock
      if ok then some (prime, clock) else primeLoop rand bitwidth fuel clock
  | _, _ => none

/-- mln_bignum_prime, lines 1059-1079: `some none` is -1. -/
def prime (rand : Nat → Nat) (bitwidth : Nat) (clock : List Nat) : Option (Option (Bn × List Nat)) :=
  if bitwidth > 4112 ∨ bitwidth < 3 then some none
  else do
    let r ← primeLoop rand bitwidth clock.length clock
    some (some r)

end Verif.Bn
