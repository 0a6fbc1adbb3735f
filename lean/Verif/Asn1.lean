/-
Model of src/mln_asn1.c (and the setters of include/mln_asn1.h): the DER decoder and encoder.

A buffer is a list of bytes (naturals below 256); the decoder gets the memory it may read as
one list and positions in it.  A read outside the list is `none`.  Left shifts of a promoted
byte that C leaves undefined (lengths of more than four bytes, or of four bytes with the top
bit set) yield an arbitrary 64-bit value, given by the oracle `sh`.  Recursion carries fuel.
In the decoder memory allocation succeeds; in the encoder its outcome is a flag.
-/

namespace Verif.Asn1

/-! ### Decoding -/

/-- mln_asn1_deresult_t (include/mln_asn1.h 50-61): code_buf as an offset, code_len, class,
is_struct, ident, contents. -/
inductive Node where
  | mk (off len cls : Nat) (struc : Bool) (ident : Nat) (contents : List Node)

/-- M_ASN1_ID_NONE, include/mln_asn1.h 29. -/
abbrev idNone : Nat := 0xfffffff

/-- M_ASN1_RET_INCOMPLETE and M_ASN1_RET_ERROR. -/
inductive Err where
  | incomplete
  | error
  deriving DecidableEq

/-- `*q << k` on a byte promoted to int and converted to u64, src/mln_asn1.c 158. -/
def shl (sh : Nat → Nat → Nat) (q k : Nat) : Nat :=
  if k < 24 ∨ (k = 24 ∧ q < 128) then q <<< k else sh q k % 18446744073709551616

/-- The loop over the length bytes, lines 157-159. -/
def lenVal (sh : Nat → Nat → Nat) : List Nat → Nat → Nat
  | [], length => length
  | q :: qs, length => lenVal sh qs (length ||| shl sh q (qs.length * 8))

/-- memcpy of `n` bytes from position `p`. -/
def slice (mem : List Nat) (p n : Nat) : Option (List Nat) :=
  if p + n ≤ mem.length then some ((mem.drop p).take n) else none

/-- The header, lines 129-163: reads tag and length at `p` with `codeLen` bytes available.
Gives the class, the constructed flag, the identifier, the position after the header and the
content length. -/
def header (sh : Nat → Nat → Nat) (mem : List Nat) (p codeLen : Nat) : Option (Except Err (Nat × Bool × Nat × Nat × Nat)) := do
  let fin := p + codeLen
  if codeLen < 2 then some (.error .incomplete)
  else
    let ch ← mem[p]?
    let cls := (ch >>> 6) &&& 0x3
    let struc := (ch >>> 5) &&& 0x1
    let ident := ch &&& 0x1f
    let ch ← mem[p + 1]?
    let p := p + 2
    if ch &&& 0x80 ≠ 0 then
      if ch &&& 0x7f > 8 then some (.error .error)
      else if p + (ch &&& 0x7f) ≥ fin then some (.error .incomplete)
      else do
        let tmp ← slice mem p (ch &&& 0x7f)
        let p := p + (ch &&& 0x7f)
        let length := lenVal sh tmp 0
        if fin - p < length then some (.error .incomplete) else some (.ok (cls, struc != 0, ident, p, length))
    else if fin - p < ch then some (.error .incomplete) else some (.ok (cls, struc != 0, ident, p, ch))

mutual
/-- mln_asn1_decode_recursive, lines 125-207: the node, and the new values of *code and
*code_len. -/
def decode (sh : Nat → Nat → Nat) (mem : List Nat) : Nat → Nat → Nat → Option (Except Err (Node × Nat × Nat))
  | 0, _, _ => none
  | fuel + 1, p0, codeLen => do
    match ← header sh mem p0 codeLen with
    | .error e => some (.error e)
    | .ok (cls, struc, ident, p, length) =>
      if struc then
        match ← contents sh mem fuel p length [] with
        | .error e => some (.error e)
        | .ok (kids, p') => some (.ok (.mk p0 (p - p0 + length) cls struc ident kids, p', p0 + codeLen - p'))
      else
        some (.ok (.mk p0 (p - p0 + length) cls struc ident [.mk p length 0 false idNone []], p + length, p0 + codeLen - (p + length)))

/-- The loop over the contents, lines 171-192. -/
def contents (sh : Nat → Nat → Nat) (mem : List Nat) : Nat → Nat → Nat → List Node → Option (Except Err (List Node × Nat))
  | 0, _, _, _ => none
  | fuel + 1, p, length, acc =>
    if length = 0 then some (.ok (acc, p))
    else do
      match ← decode sh mem fuel p length with
      | .error e => some (.error e)
      | .ok (n, p', length') => contents sh mem fuel p' length' (acc ++ [n])
end

/-- mln_asn1_decode, lines 109-115, on a whole buffer. -/
def decodeBuf (sh : Nat → Nat → Nat) (mem : List Nat) : Option (Except Err (Node × Nat × Nat)) :=
  decode sh mem (2 * mem.length + 2) 0 mem.length

/-! ### Encoding -/

/-- mln_asn1_enresult_t (include/mln_asn1.h 80-89): `contents` are the strings in use (their
number is pos), `cap` the number of slots really allocated, `max` the field. -/
structure En where
  size : Nat
  contents : List (List Nat)
  max : Nat
  cap : Nat
  cls : Nat
  isStruct : Bool
  ident : Nat

/-- mln_asn1_enresult_init, lines 307-319. -/
def En.init : En := { size := 0, contents := [], max := 32, cap := 32, cls := 0, isStruct := false, ident := idNone }

/-- mln_asn1_encode_add_content, lines 352-370.  `re` is the outcome of mln_alloc_re; `none` is
a write past the allocated slots. -/
def addContent (re : Bool) (r : En) (buf : List Nat) : Option (Bool × En) :=
  if r.contents.length = r.max then
    let r := { r with max := r.max + r.max / 2 }
    if re then
      let r := { r with cap := r.max }
      if r.contents.length < r.cap then some (true, { r with contents := r.contents ++ [buf] }) else none
    else some (false, r)
  else if r.contents.length < r.cap then some (true, { r with contents := r.contents ++ [buf] })
  else none

/-- mln_asn1_encode_length_calc, lines 372-408. -/
def lengthCalc (bytes : Nat) : Nat :=
  let len := bytes + 1
  if bytes > 127 then
    if bytes > 0xff then
      if bytes > 0xffff then
        if bytes > 0xffffff then
          if bytes > 0xffffffff then
            if bytes > 0xffffffffff then
              if bytes > 0xffffffffffff then
                if bytes > 0xffffffffffffff then len + 9 else len + 8
              else len + 7
            else len + 6
          else len + 5
        else len + 4
      else len + 3
    else len + 2
  else len + 1

/-- mln_asn1_encode_length_fill, lines 410-481. -/
def lengthFill (bytes : Nat) : List Nat :=
  if bytes > 127 then
    if bytes > 0xff then
      if bytes > 0xffff then
        if bytes > 0xffffff then
          if bytes > 0xffffffff then
            if bytes > 0xffffffffff then
              if bytes > 0xffffffffffff then
                if bytes > 0xffffffffffffff then
                  [0x80 ||| 8, bytes >>> 56 &&& 0xff, bytes >>> 48 &&& 0xff, bytes >>> 40 &&& 0xff, bytes >>> 32 &&& 0xff, bytes >>> 24 &&& 0xff, bytes >>> 16 &&& 0xff, bytes >>> 8 &&& 0xff, bytes &&& 0xff]
                else
                  [0x80 ||| 7, bytes >>> 48 &&& 0xff, bytes >>> 40 &&& 0xff, bytes >>> 32 &&& 0xff, bytes >>> 24 &&& 0xff, bytes >>> 16 &&& 0xff, bytes >>> 8 &&& 0xff, bytes &&& 0xff]
              else
                [0x80 ||| 6, bytes >>> 40 &&& 0xff, bytes >>> 32 &&& 0xff, bytes >>> 24 &&& 0xff, bytes >>> 16 &&& 0xff, bytes >>> 8 &&& 0xff, bytes &&& 0xff]
            else
              [0x80 ||| 5, bytes >>> 32 &&& 0xff, bytes >>> 24 &&& 0xff, bytes >>> 16 &&& 0xff, bytes >>> 8 &&& 0xff, bytes &&& 0xff]
          else
            [0x80 ||| 4, bytes >>> 24 &&& 0xff, bytes >>> 16 &&& 0xff, bytes >>> 8 &&& 0xff, bytes &&& 0xff]
        else
          [0x80 ||| 3, bytes >>> 16 &&& 0xff, bytes >>> 8 &&& 0xff, bytes &&& 0xff]
      else
        [0x80 ||| 2, bytes >>> 8 &&& 0xff, bytes &&& 0xff]
    else
      [0x80 ||| 1, bytes]
  else
    [bytes]

/-- The tag byte of the encoders, e.g. line 612: stored in a byte. -/
def tag (r : En) (struc : Bool) (dflt : Nat) : Nat :=
  ((r.cls <<< 6) ||| (if struc then 1 <<< 5 else 0) ||| (if r.ident ≠ idNone then r.ident &&& 0x1f else dflt)) % 256

/-- The common body of the primitive encoders (lines 541-565 integer, 599-622 octetstring,
643-668 object_identifier, 670-693 utf8string, 725-748 t61string, 750-773 ia5string, 515-539
boolean with one byte): `ok` and `re` are the outcomes of mln_alloc_m and mln_alloc_re.  `none`
is a write past the buffer (or part of it left unwritten). -/
def encodePrim (ok re : Bool) (dflt : Nat) (content : List Nat) (r : En) : Option (Bool × En) :=
  let len := lengthCalc content.length
  if !ok then some (false, r)
  else
    let buf := tag r r.isStruct dflt :: (lengthFill content.length ++ content)
    if buf.length ≠ len then none
    else do
      let (b, r) ← addContent re r buf
      if b then some (true, { r with size := r.size + len }) else some (false, r)

/-- mln_asn1_encode_printablestring, lines 695-723 (`s` as signed chars in a byte each: bytes
above 127 are negative and not printable). -/
def encodePrintable (ok re : Bool) (s : List Nat) (r : En) : Option (Bool × En) :=
  if s.all (fun c => decide (32 ≤ c ∧ c ≤ 126)) then encodePrim ok re 19 s r else some (false, r)

/-- Contents of a bit string, lines 568 and 582-588: `none` when fewer than the needed bytes are
supplied. -/
def bitContent (bits : List Nat) (nbits : Nat) : Option (List Nat) :=
  let bytes := 1 + (if nbits % 8 ≠ 0 then nbits / 8 + 1 else nbits / 8)
  if bits.length < bytes - 1 then none
  else
    let data := bits.take (bytes - 1)
    let data := if nbits % 8 ≠ 0 then
        data.dropLast ++ (data.getLast?.toList.map fun b => (((b >>> (8 - nbits % 8)) &&& 0xff) <<< (8 - nbits % 8)) % 256)
      else data
    some ((if nbits % 8 ≠ 0 then 8 - nbits % 8 else 0) :: data)

/-- mln_asn1_encode_bitstring, lines 567-597. -/
def encodeBits (ok re : Bool) (bits : List Nat) (nbits : Nat) (r : En) : Option (Bool × En) := do
  encodePrim ok re 3 (← bitContent bits nbits) r

/-- mln_asn1_encode_null, lines 624-641. -/
def encodeNull (ok re : Bool) (r : En) : Option (Bool × En) :=
  if !ok then some (false, r)
  else do
    let (b, r) ← addContent re r [tag r r.isStruct 5, 0]
    if b then some (true, { r with size := r.size + 2 }) else some (false, r)

/-- mln_asn1_encode_sequence, lines 483-513, and mln_asn1_encode_set / setof, lines 859-886 and
896-923: `order` is the identity, or what qsort does to the contents. -/
def encodeCons (order : List (List Nat) → List (List Nat)) (ok re : Bool) (dflt : Nat) (r : En) : Option (Bool × En) :=
  let len := lengthCalc r.size
  if !ok then some (false, r)
  else
    let buf := tag r true dflt :: (lengthFill r.size ++ (order r.contents).flatten)
    if buf.length ≠ len then none
    else do
      let (b, r) ← addContent re { r with contents := [] } buf
      if b then some (true, { r with size := len }) else some (false, r)

/-- mln_asn1_encode_merge, lines 937-953: one pair of allocation outcomes per string. -/
def merge (oks : List (Bool × Bool)) (dest src : En) : Option (Bool × En) :=
  go oks src.contents dest
where
  go : List (Bool × Bool) → List (List Nat) → En → Option (Bool × En)
  | _, [], dest => some (true, { dest with size := dest.size + src.size })
  | oks, s :: ss, dest =>
    let o := oks.headD (true, true)
    if !o.1 then some (false, dest)
    else do
      let (b, dest) ← addContent o.2 dest s
      if b then go oks.tail ss dest else some (false, dest)

/-- mln_asn1_encode_implicit, lines 1000-1009: `none` when the string has no first byte. -/
def encodeImplicit (ident index : Nat) (r : En) : Option (Bool × En) :=
  if index ≥ r.contents.length then some (false, r)
  else
    match r.contents[index]? with
    | some (b :: bs) => some (true, { r with contents := r.contents.set index ((((b &&& 0x20) ||| ((2 <<< 6) ||| ident)) % 256) :: bs) })
    | _ => none

/-- mln_asn1_enresult_get_content, lines 988-998. -/
def getContent (r : En) (index : Nat) : Option (List Nat) := r.contents[index]?

/-- mln_encode_set_cmp, lines 888-894, as "not greater". -/
def setLe (a b : List Nat) : Bool := decide (a.headD 0 ≤ b.headD 0)

/-- mln_encode_setof_cmp, lines 925-935: memcmp of the common length, then the lengths. -/
def setofCmp : List Nat → List Nat → Int
  | [], [] => 0
  | [], _ :: _ => -1
  | _ :: _, [] => 1
  | a :: as, b :: bs => if a < b then -1 else if b < a then 1 else setofCmp as bs

end Verif.Asn1
