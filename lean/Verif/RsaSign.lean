import Verif.Rsa
import Verif.Asn1
import Verif.Md5
import Verif.Sha1
import Verif.Sha256

/-
Model of /repo/src/mln_rsa.c from line 431 on: signatures.

As in Verif.Rsa, `none` is undefined behaviour (or a loop that never ends) and `some none` the
result NULL.  Memory does not run out.  The 64 octets of a hash context that are not initialised
are `dirt`; `sh` says what the shifts of mln_asn1.c do that C leaves undefined; `after` is the
memory behind the caller's signature.  Only the octets of `hashval` that are used are modelled.
mln_string_strcmp is equality.
-/
namespace Verif.Rsa
open Verif.Bn Verif.Asn1

abbrev Byte := BitVec 8

/-- EMSAPKCS1V15_HASH, lines 31-44, by hash_type. -/
def oids : List (List Nat) :=
  [[0x2a, 0x86, 0x48, 0x86, 0xf7, 0xd, 0x2, 0x5], [0x2b, 0xe, 0x3, 0x2, 0x1a],
   [0x60, 0x86, 0x48, 0x1, 0x65, 0x3, 0x4, 0x2, 0x1]]

/-- The switch on hash_type, lines 443-472 and 633-664: `some none` is the default. -/
def digest (dirt : List Byte) (type : Nat) (m : List Byte) : Option (Option (List Nat)) :=
  match type with
  | 0 => do
    let c ← Md.update Md5.alg (Md.start Md5.alg dirt) m true
    let h ← Md5.tobytes c.st (List.replicate 16 0) 16
    some (some (h.map (·.toNat)))
  | 1 => do
    let c ← Md.update Sha1.alg (Md.start Sha1.alg dirt) m true
    let h ← Sha1.tobytes c.st (List.replicate 20 0) 20
    some (some (h.map (·.toNat)))
  | 2 => do
    let c ← Md.update Sha256.alg (Md.start Sha256.alg dirt) m true
    let h ← Sha256.tobytes c.st (List.replicate 32 0) 32
    some (some (h.map (·.toNat)))
  | _ => some none

/-- mln_EMSAPKCS1V15_encode, lines 434-519. -/
def emsaEncode (dirt : List Byte) (m : List Byte) (type : Nat) : Option (Option (List Nat)) := do
  match ← digest dirt type m with
  | none => some none
  | some h =>
    let (_, r) ← encodePrim true true 6 (oids.getD type []) En.init
    let (_, r) ← encodeNull true true r
    let (_, r) ← encodeCons id true true 16 r
    let (_, d) ← encodePrim true true 4 h En.init
    let (_, r) ← merge [] r d
    let (_, r) ← encodeCons id true true 16 r
    some (getContent r 0)

/-- Room in the buffer of the results, lines 552-563 and 608-620: it grows once by a half; then
the copy may leave it. -/
def grow (len used need : Nat) : Option Nat :=
  if len - used < need then
    if len + len / 2 - used < need then none else some (len + len / 2)
  else some len

/-- The loop of mln_RSASSAPKCS1V15_sign, lines 543-567. -/
def signLoop (k : Key) (step : Nat) : Nat → Nat → Nat → List Nat → Option (Option (List Nat))
  | 0, _, _, _ => none
  | fuel + 1, len, used, em =>
    if em.length = 0 then some (some [])
    else do
      let n := if em.length > step then step else em.length
      match ← privateEncrypt k (em.take n) with
      | none => some none
      | some c =>
        let len ← grow len used c.length
        match ← signLoop k step fuel len (used + c.length) (em.drop n) with
        | none => some none
        | some r => some (some (c ++ r))

/-- mln_RSASSAPKCS1V15_sign, lines 521-575. -/
def sign (dirt : List Byte) (k : Key) (m : List Byte) (type : Nat) : Option (Option (List Nat)) := do
  let step := w (18446744073709551616 + k.n.length * 4 - 11)
  if step < 1 then some none
  else
    match ← emsaEncode dirt m type with
    | none => some none
    | some em => signLoop k step (em.length + 1) 4096 0 em

/-- The class, identifier and contents of a decoded value. -/
def ident : Node → Nat
  | .mk _ _ _ _ i _ => i
def kids : Node → List Node
  | .mk _ _ _ _ _ ks => ks
/-- The octets of a decoded value: code_buf and code_len. -/
def code (mem : List Nat) : Node → Option (List Nat)
  | .mk off len _ _ _ _ => slice mem off len

/-- mln_EMSAPKCS1V15_decode, lines 674-747: the hash type and the hash. -/
def emsaDecode (sh : Nat → Nat → Nat) (e : List Nat) : Option (Option (Nat × List Nat)) := do
  match ← decodeBuf sh e with
  | .error _ => some none
  | .ok (res, _, _) =>
    if ident res ≠ 16 ∨ (kids res).length ≠ 2 then some none
    else do
      let sub ← (kids res)[0]?
      if ident sub ≠ 16 ∨ (kids sub).length ≠ 2 then some none
      else do
        let ssub ← (kids sub)[0]?
        if ident ssub ≠ 6 then some none
        else
          match (kids ssub)[0]? with
          | none => some none
          | some ssub => do
            let oid ← code e ssub
            if oids.idxOf oid ≥ oids.length then some none
            else do
              let ssub ← (kids sub)[1]?
              if ident ssub ≠ 5 ∨ (kids ssub).length ≠ 1 then some none
              else do
                let ssub ← (kids ssub)[0]?
                let nul ← code e ssub
                if nul.length ≠ 0 then some none
                else do
                  let sub ← (kids res)[1]?
                  if ident sub ≠ 4 ∨ (kids sub).length ≠ 1 then some none
                  else do
                    let sub ← (kids sub)[0]?
                    let h ← code e sub
                    some (some (oids.idxOf oid, h))

/-- The loop of mln_RSASSAPKCS1V15_verify, lines 601-624: the decrypted text and the new content of
the caller's signature. -/
def verifyLoop (k : Key) (n : Nat) (after : List Nat) : Nat → Nat → Nat → List Nat → Option (Option (List Nat) × List Nat)
  | 0, _, _, _ => none
  | fuel + 1, len, used, s =>
    if s.length = 0 then some (some [], [])
    else do
      match ← publicDecrypt k (s.take n) (s.drop n ++ after) with
      | (none, b) => some (none, b ++ s.drop n)
      | (some t, b) =>
        let len ← grow len used t.length
        let (r, b') ← verifyLoop k n after fuel len (used + t.length) (s.drop n)
        some (r.map (t ++ ·), b ++ b')

/-- mln_RSASSAPKCS1V15_verify, lines 577-672: whether it returns 0, and the new content of the
caller's signature. -/
def verify (sh : Nat → Nat → Nat) (dirt : List Byte) (k : Key) (m : List Byte) (s after : List Nat) : Option (Bool × List Nat) := do
  let n := k.n.length * 4
  if n = 0 then none
  else if s.length % n ≠ 0 then some (false, s)
  else
    match ← verifyLoop k n after (s.length + 1) 4096 0 s with
    | (none, b) => some (false, b)
    | (some text, b) =>
      match ← emsaDecode sh text with
      | none => some (false, b)
      | some (type, h) =>
        match ← digest dirt type m with
        | none => some (false, b)
        | some h' => some (h == h', b)

end Verif.Rsa
