/-
Model of src/mln_prime_generator.c.

Numbers are naturals; `u32`/`u64` wrap-around is written where the code can reach it.  The
random values are an oracle.
-/

namespace Verif.Prime

/-- rand_scope, lines 40-52: `rand` are the successive results of rand(); `none` when they run
out before a non-zero residue appears. -/
def randScope (low high : Nat) : List Nat → Option (Nat × List Nat)
  | [] => none
  | r :: rs =>
    let r := ((r + low) % 4294967296) % high
    if r ≠ 0 then some (r, rs) else randScope low high rs

/-- Loop of seperate, lines 58-63 (`fuel` bounds the rounds): (pwr, odd). -/
def seperate : Nat → Nat → Nat → Option (Nat × Nat)
  | 0, _, _ => none
  | fuel + 1, num, pwr => if num % 2 = 0 then seperate fuel (num / 2) (pwr + 1) else some (pwr, num)

/-- Loop of modular_expoinentiation, lines 72-79, for the bits `i - 1` down to 0. -/
def modExp (base pwr n : Nat) : Nat → Nat → Nat
  | 0, d => d
  | i + 1, d =>
    let d := (d * d) % 18446744073709551616 % n
    let d := if pwr.testBit i then (d * base) % 18446744073709551616 % n else d
    modExp base pwr n i d

/-- Loop of witness, lines 90-96: `k` rounds left; `none` is `return 1`, else the last new_x. -/
def squares (prim : Nat) : Nat → Nat → Nat → Option Nat
  | 0, _, newX => some newX
  | k + 1, x, _ =>
    let newX := (x * x) % 18446744073709551616 % prim
    if newX = 1 ∧ x ≠ 1 ∧ x ≠ prim - 1 then none else squares prim k newX newX

/-- witness, lines 83-101: true when `base` proves `prim` composite; outer `none` when seperate
does not end (prim = 1). -/
def witness (base prim : Nat) : Option Bool := do
  let (pwr, odd) ← seperate 32 (prim - 1) 0
  let x := modExp base odd prim 32 1
  match squares prim pwr x 0 with
  | none => some true
  | some newX => some (newX ≠ 1)

/-- The trials for one candidate, lines 27-33: `s + 1` rounds left, `pick` gives the bases
drawn by rand_scope. -/
def trials (pick : Nat → Nat) (prim : Nat) : Nat → Option Bool
  | 0 => some true
  | s + 1 => do
    if ← witness (pick s) prim then some false else trials pick prim s

/-- The loop of mln_prime_generate, lines 26-36. -/
def search (pick : Nat → Nat → Nat) : Nat → Nat → Option Nat
  | 0, _ => none
  | fuel + 1, prim => do
    let s := if prim ≤ 4 then 1 else (prim - 1) / 4
    if ← trials (pick prim) prim (s + 1) then some prim
    else search pick fuel ((prim + 2) % 4294967296)

/-- mln_prime_generate, lines 21-38. -/
def generate (pick : Nat → Nat → Nat) (fuel n : Nat) : Option Nat :=
  if n ≤ 2 then some 2
  else if n ≥ 1073741824 then some 1073741827
  else search pick fuel (if n % 2 ≠ 0 then n else n + 1)

end Verif.Prime
