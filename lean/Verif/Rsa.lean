import Verif.Bn

/-
Model of /repo/src/mln_rsa.c: the exponentiation and the PKCS #1 v1.5 encryption functions.

Memory is explicit where the code may leave a buffer: a decryption works inside the caller's
cipher buffer, which is followed by arbitrary memory.  `Option.none` is undefined behaviour
(or a loop that never ends), `some none` is the result NULL or -1.  malloc and mln_string_dup
succeed.  Octets are numbers below 256.
-/
namespace Verif.Rsa
open Verif.Bn

/-- mln_rsa_key_t, include/mln_rsa.h: `pwr` is set for keys without prime factors. -/
structure Key where
  n : Bn
  ed : Bn
  p : Bn
  q : Bn
  dp : Bn
  dq : Bn
  qinv : Bn
  pwr : Bool

/-- A call whose result -1 is ignored by mln_rsa_rsaep_rsadp, lines 141-149.  What the number
holds after such a failure is not modelled (`none`). -/
def must {α : Type} : Option (Option α) → Option α
  | some (some r) => some r
  | _ => none

/-- The second branch of mln_rsa_rsaep_rsadp, lines 139-150: `some none` is `goto in`. -/
def crt (k : Key) (x : Bn) : Option (Option Bn) := do
  let m1 ← must (pwr x k.dp (some k.p))
  let m2 ← must (pwr x k.dq (some k.q))
  let (m1, m2) ← sub m1 m2
  if m1.neg then some none
  else do
    let m1 ← mul m1 k.qinv
    let (m1, _) ← must (div m1 k.p)
    let m1 ← mul m1 k.q
    let (m1, _) ← add m1 m2
    let (m1, _) ← must (div m1 k.n)
    some (some m1)

/-- mln_rsa_rsaep_rsadp, lines 130-153. -/
def rsaep (k : Key) (x : Bn) : Option (Option Bn) :=
  if k.pwr then pwr x k.ed (some k.n)
  else do
    let c ← absCompare k.ed k.p
    if c ≤ 0 then pwr x k.ed (some k.n)
    else
      match ← crt k x with
      | none => pwr x k.ed (some k.n)
      | some r => some (some r)

/-- One octet of the random padding, lines 166-177: `rand` is what rand_r returns for a seed,
`val` the seed, `clock` the later readings of the clock; the octet and the readings left. -/
def draw (rand : Nat → Nat) (val : Nat) : List Nat → Option (Nat × List Nat)
  | [] => if rand val % 256 ≠ 0 then some (rand val % 256, []) else none
  | t :: clock => if rand val % 256 ≠ 0 then some (rand val % 256, t :: clock) else draw rand (t % 4294967296) clock

/-- The loop of mln_rsa_pub_padding, lines 165-179: the octet stored is the next seed. -/
def padLoop (rand : Nat → Nat) : Nat → Nat → List Nat → Option (List Nat)
  | 0, _, _ => some []
  | j + 1, val, clock => do
    let (b, clock) ← draw rand val clock
    let rest ← padLoop rand j b clock
    some (b :: rest)

/-- mln_rsa_pub_padding, lines 155-182.  A text too long for the key would write outside the
buffer. -/
def pubBlock (rand : Nat → Nat) (val : Nat) (clock : List Nat) (text : List Nat) (keylen : Nat) : Option (List Nat) := do
  if keylen < text.length + 3 then none
  else do
    let pad ← padLoop rand (keylen - text.length - 3) (val % 4294967296) clock
    some (0 :: 2 :: pad ++ 0 :: text)

/-- mln_rsa_pri_padding, lines 184-197. -/
def priBlock (text : List Nat) (keylen : Nat) : Option (List Nat) :=
  if keylen < text.length + 3 then none
  else some (0 :: 1 :: List.replicate (keylen - text.length - 3) 0xff ++ 0 :: text)

/-- `for (; *p != stop && p < end; ++p)`, lines 204, 216 and 220, over the memory from `p`
with `rest = end - p`; the result is the value of `p` (counted from `pos`). -/
def skip (go : Nat → Bool) : List Nat → Nat → Nat → Option Nat
  | [], _, _ => none
  | x :: mem, rest, pos =>
    if go x then
      match rest with
      | 0 => some pos
      | rest + 1 => skip go mem rest (pos + 1)
    else some pos

/-- mln_rsa_anti_padding_public, lines 199-209, for `len ≥ 2`: the offset of the message. -/
def antiPublic (mem : List Nat) (len : Nat) : Option (Option Nat) := do
  let b0 ← mem[0]?
  if b0 ≠ 0 then some none
  else do
    let b1 ← mem[1]?
    if b1 ≠ 2 then some none
    else do
      let p ← skip (· ≠ 0) (mem.drop 2) (len - 2) 2
      if p ≥ len ∨ p + 1 ≥ len then some none
      else do
        let x ← mem[p]?
        if x ≠ 0 then some none else some (some (p + 1))

/-- mln_rsa_anti_padding_private, lines 211-228, for `len ≥ 2`. -/
def antiPrivate (mem : List Nat) (len : Nat) : Option (Option Nat) := do
  let b0 ← mem[0]?
  if b0 ≠ 0 then some none
  else do
    let b1 ← mem[1]?
    if b1 = 0 then do
      let p ← skip (· = 0) (mem.drop 2) (len - 2) 2
      if p ≥ len then some none else some (some p)
    else if b1 = 1 then do
      let p ← skip (· = 0xff) (mem.drop 2) (len - 2) 2
      if p ≥ len ∨ p + 1 ≥ len then some none
      else do
        let x ← mem[p]?
        if x ≠ 0 then some none else some (some (p + 1))
    else some none

/-- The loop of the encryptions, lines 246-267 and 344-365: `step` is the size_t `nlen-11`,
`room` the octets left in `buf`, `i` the number of rounds done. -/
def encLoop (k : Key) (blk : Nat → List Nat → Nat → Option (List Nat)) (nlen step : Nat) : Nat → Nat → Nat → List Nat → Option (Option (List Nat))
  | 0, _, _, _ => none
  | fuel + 1, i, room, text =>
    if text.length = 0 then some (some [])
    else if room < nlen then none
    else do
      let m := if text.length > step then step else text.length
      let block ← blk i (text.take m) nlen
      match os2ip block with
      | none => some none
      | some num =>
        match ← rsaep k num with
        | none => some none
        | some num =>
          match ← i2osp num nlen with
          | none => some none
          | some bs =>
            match ← encLoop k blk nlen step fuel (i + 1) (room - nlen) (text.drop m) with
            | none => some none
            | some r => some (some (bs ++ r))

/-- mln_RSAESPKCS1V15_public_encrypt and mln_RSAESPKCS1V15_private_encrypt, lines 230-273 and
330-371; they differ in the padding.  `nlen-11` wraps for keys of at most two limbs.  In `sum`
the condition covers the whole sum. -/
def encrypt (k : Key) (blk : Nat → List Nat → Nat → Option (List Nat)) (text : List Nat) : Option (Option (List Nat)) :=
  let nlen := k.n.length * 4
  let step := w (18446744073709551616 + nlen - 11)
  if step < text.length then some none
  else
    let sum := if w (w (text.length / step * nlen) + text.length % step) ≠ 0 then nlen else 0
    encLoop k blk nlen step (text.length + 1) 0 sum text

/-- mln_RSAESPKCS1V15_public_encrypt; round `i` reads the clock as `clk i`. -/
def publicEncrypt (k : Key) (rand : Nat → Nat) (clk : Nat → Nat × List Nat) (text : List Nat) : Option (Option (List Nat)) :=
  encrypt k (fun i => pubBlock rand (clk i).1 (clk i).2) text

/-- mln_RSAESPKCS1V15_private_encrypt. -/
def privateEncrypt (k : Key) (text : List Nat) : Option (Option (List Nat)) :=
  encrypt k (fun _ => priBlock) text

/-- The loop of the decryptions, lines 293-322 and 388-417: `cipher` from `in`, followed by the
memory `after`.  The result is the text (`none` for NULL) and the new content of the caller's
buffer. -/
def decLoop (k : Key) (anti : List Nat → Nat → Option (Option Nat)) (nlen : Nat) (after : List Nat) :
    Nat → List Nat → Option (Option (List Nat) × List Nat)
  | 0, _ => none
  | fuel + 1, cipher =>
    if cipher.length = 0 then some (some [], [])
    else
      match os2ip (cipher.take nlen) with
      | none => some (none, cipher)
      | some num => do
        match ← rsaep k num with
        | none => some (none, cipher)
        | some num =>
          match ← i2osp num nlen with
          | none => some (none, cipher)
          | some bs =>
            match ← anti (bs ++ cipher.drop nlen ++ after) nlen with
            | none => some (none, bs ++ cipher.drop nlen)
            | some pos =>
              match ← decLoop k anti nlen after fuel (cipher.drop nlen) with
              | (r, rest) => some (r.map ((bs.drop pos) ++ ·), bs ++ rest)

/-- mln_RSAESPKCS1V15_public_decrypt and mln_RSAESPKCS1V15_private_decrypt, lines 275-328 and
373-423. -/
def decrypt (k : Key) (anti : List Nat → Nat → Option (Option Nat)) (cipher after : List Nat) : Option (Option (List Nat) × List Nat) :=
  let nlen := k.n.length * 4
  if cipher.length < 11 then some (none, cipher)
  else if nlen = 0 then none
  else if cipher.length % nlen ≠ 0 then some (none, cipher)
  else decLoop k anti nlen after (cipher.length + 1) cipher

/-- mln_RSAESPKCS1V15_public_decrypt, lines 275-328. -/
def publicDecrypt (k : Key) (cipher after : List Nat) : Option (Option (List Nat) × List Nat) := decrypt k antiPrivate cipher after

/-- mln_RSAESPKCS1V15_private_decrypt, lines 373-423. -/
def privateDecrypt (k : Key) (cipher after : List Nat) : Option (Option (List Nat) × List Nat) := decrypt k antiPublic cipher after

end Verif.Rsa
