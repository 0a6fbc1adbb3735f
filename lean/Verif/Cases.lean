import Verif.Asn1Props
import Verif.AllocProps
import Verif.ExprLexProps
/-!
# Concrete cases

Cases for the theorems of Asn1Props (C45, C46), AllocProps (C59), LexProps (C125) and ExprLexProps (C142), which have none
beside them.  They prove nothing about other inputs.
-/
namespace Verif.Cases

/-! ## Asn1Props: lengths, a value and its prefixes -/

example : Asn1.lengthFill 127 = [127] ∧ Asn1.lengthFill 128 = [129, 128] ∧ Asn1.lengthFill 300 = [130, 1, 44] ∧
    Asn1.lengthCalc 300 = 304 := by decide +kernel

/-- A sequence of the integer 5 and an empty string of bytes. -/
def seq : Asn1.Tree := .cons 0 16 [.prim 0 2 [5], .prim 0 4 []]

example : Asn1.der seq = [48, 5, 2, 1, 5, 4, 0] := by simp [seq, Asn1.der, Asn1.ders, Asn1.derLen]

-- cut off after four bytes: incomplete, whatever shifts by too many bits give
example (sh : Nat → Nat → Nat) : Asn1.decodeBuf sh [48, 5, 2, 1] = some (.error .incomplete) := by
  have e : Asn1.der seq = [48, 5, 2, 1, 5, 4, 0] := by simp [seq, Asn1.der, Asn1.ders, Asn1.derLen]
  have := Asn1.decode_truncated sh seq (by rw [e]; decide) 4 (by rw [e]; decide)
  rwa [e] at this

/-! ## AllocProps: sizes of blocks -/

example : Alloc.clsOf 16 = some 0 ∧ Alloc.clsOf 17 = some 1 ∧ Alloc.tbl 1 = 24 ∧ Alloc.clsOf 2097152 = some 34 ∧
    Alloc.clsOf 2097153 = none := by decide +kernel

/-! ## LexProps: numbers -/

example : Lex.numType [48#8, 120#8, 49#8, 102#8] = .ok .hex ∧ Lex.numType [48#8, 55#8] = .ok .oct ∧
    Lex.numType [49#8, 46#8, 53#8] = .ok .real ∧ Lex.numType [49#8, 50#8] = .ok .dec := by decide +kernel

/-! ## ExprLexProps: going back in a file -/

example : (Lex.rewind { path := some [102#8], buf := [97#8, 98#8, 99#8], pos := 3, left := [100#8] }
    (Lex.place { path := some [102#8], buf := [97#8, 98#8, 99#8], pos := 1, left := [100#8] })).rest = [98#8, 99#8, 100#8] := by decide +kernel

end Verif.Cases
