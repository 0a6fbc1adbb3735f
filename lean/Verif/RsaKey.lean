import Verif.Rsa
import Verif.BnPrime

/-
Model of mln_rsa_key_generate, /repo/src/mln_rsa.c, lines 64-128, called with both keys.  The
assignments of "1" and "0x10001" are `word`.
-/
namespace Verif.Rsa
open Verif.Bn

/-- Lines 81-126, from two different numbers on: `some none` is `goto lp`. -/
def keyTry (fuel bits : Nat) (p q : Bn) : Option (Option (Key × Key)) := do
  let n ← mul p q
  if ¬ (← bitTestApi n (bits - 1)) then some none
  else
    match ← extendEuclid fuel q p with
    | none => some none
    | some (qinv, _) => do
      if (← compare qinv (word 1)) < 0 then some none
      else do
        let (p1, one) ← sub p (word 1)
        let (q1, _) ← sub q one
        let phi ← mul p1 q1
        let e := word 0x10001
        match ← extendEuclid fuel e phi with
        | none => some none
        | some (d, _) => do
          if (← compare d e) ≤ 0 then some none
          else do
            let (ep, _) ← must (div e p1)
            let (eq, _) ← must (div e q1)
            let (dp, _) ← must (div d p1)
            let (dq, _) ← must (div d q1)
            some (some (⟨n, e, p, q, ep, eq, qinv, false⟩, ⟨n, d, p, q, dp, dq, qinv, false⟩))

/-- The loops of lines 74-81: two numbers, then the rest; `some none` is -1. -/
def keyLoop (rand : Nat → Nat) (euclid bits : Nat) : Nat → List Nat → Option (Option (Key × Key))
  | 0, _ => none
  | fuel + 1, clock => do
    match ← prime rand (bits / 2 + 1) clock with
    | none => some none
    | some (p, clock) =>
      match ← prime rand (bits / 2) clock with
      | none => some none
      | some (q, clock) => do
        if (← compare p q) = 0 then keyLoop rand euclid bits fuel clock
        else
          match ← keyTry euclid bits p q with
          | none => keyLoop rand euclid bits fuel clock
          | some r => some (some r)

/-- mln_rsa_key_generate, lines 64-128: the public and the private key, `some none` is -1.
`euclid` bounds the steps of the Euclidean algorithm. -/
def keyGenerate (rand : Nat → Nat) (euclid bits : Nat) (clock : List Nat) : Option (Option (Key × Key)) :=
  if bits ≤ 88 ∨ bits > 8224 then some none else keyLoop rand euclid bits (clock.length + 1) clock

end Verif.Rsa
