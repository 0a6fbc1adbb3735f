import Verif.Str
/-
Model of /repo/src/mln_json.c: decoding (330-878), encoding (894-1058), path expressions
(1061-1102), and the parts of the object and array interface they use (64-190).

A text is the list of its bytes; a position in it is the rest of the text, so `len` is the length
of the rest.  A result is `none` for undefined behaviour (a read or write outside a buffer, a
signed overflow), `some none` for the return value -1, `some (some (v, rest))` for success with
`rest` bytes left.  All allocations are assumed to succeed, and the recursion depth is not limited by the
stack.  A `double` is an element of a type `D` with the operations the code uses (`Fl`).

An object is a red-black tree ordered by mln_string_strcmp on the keys, whose nodes are chained in
the order of their insertion; mln_rbtree_iterate, and with it the encoder, follows the chain.  Here
it is the list of the pairs in the order of the chain.  `update` and `search` walk this list; by the
theorems of Verif/JsonTreeProps.lean this is what the tree does when the keys are 7-bit, and it is not
when the comparison does not order the keys present (`Verif.JsonTree.key_lost_refuted`).
-/
namespace Verif.Json
open Verif.Str (Byte strcmp)

/-- The operations on `double` used by the code; `fmtF` is what `snprintf("%f")` writes, `toS64`
the conversion to a 64-bit integer (`none`: out of range, undefined), `eqInt` the comparison
`i == x`. -/
structure Fl (D : Type) where
  ofNat : Nat → D
  add : D → D → D
  mul : D → D → D
  div : D → D → D
  neg : D → D
  toS64 : D → Option Int
  eqInt : D → Int → Bool
  fmtF : D → List Byte

/-- mln_json_t, mln_json.h lines 46-57. -/
inductive Json (D : Type) where
  | none
  | obj (kvs : List (List Byte × Json D))
  | arr (vs : List (Json D))
  | str (s : List Byte)
  | num (x : D)
  | tru
  | fls
  | null

/-- mln_json_policy_t, mln_json.h lines 69-76; 0 means no limit, so the NULL policy is all zero. -/
structure Policy where
  depth : Nat := 0
  keyLen : Nat := 0
  strLen : Nat := 0
  arrElem : Nat := 0
  objKv : Nat := 0

variable {D : Type}

/-- The condition of mln_json_jumpoff_blank, line 888. -/
def blank (b : Byte) : Bool := b == 32 || b == 9 || b == 13 || b == 10

/-- mln_json_jumpoff_blank, lines 884-891. -/
def skip (t : List Byte) : List Byte := t.dropWhile blank

/-- mln_isdigit. -/
def isDigit (b : Byte) : Bool := 48 ≤ b && b ≤ 57

/-! ## Strings -/

/-- The loop of mln_json_parse_string, lines 575-586: the bytes up to the closing quote, and the
rest after it. -/
def scan : Bool → List Byte → Option (List Byte × List Byte)
  | _, [] => none
  | flag, b :: t =>
    if !flag && b == 92 then (scan true t).map fun p => (b :: p.1, p.2)
    else if b == 34 && !flag then some ([], t)
    else (scan false t).map fun p => (b :: p.1, p.2)

/-- mln_json_char2int, lines 672-677: `char` is signed and the result is converted to unsigned. -/
def char2int (c : Byte) : BitVec 32 :=
  if 48 ≤ c ∧ c ≤ 57 then (c - 48).zeroExtend 32
  else if 97 ≤ c ∧ c ≤ 102 then (c - 97 + 10).zeroExtend 32
  else if 65 ≤ c ∧ c ≤ 70 then (c - 65 + 10).zeroExtend 32
  else c.signExtend 32

/-- mln_json_get_char, lines 679-746, for a nonempty string: `none` is -1; else the returned
character, the rest and the new `*hex`. -/
def getChar (hex : BitVec 32) : List Byte → Option (Byte × List Byte × BitVec 32)
  | [] => some (0, [], hex)
  | b :: t =>
    if b = 92 then
      match t with
      | [] => none
      | e :: t =>
        if e = 34 then some (34, t, hex)
        else if e = 92 then some (92, t, hex)
        else if e = 47 then some (47, t, hex)
        else if e = 98 then some (8, t, hex)
        else if e = 102 then some (12, t, hex)
        else if e = 110 then some (10, t, hex)
        else if e = 114 then some (13, t, hex)
        else if e = 116 then some (9, t, hex)
        else if e = 117 then
          match t with
          | a :: b :: c :: d :: t =>
            some (0, t, (((char2int a <<< 4 ||| char2int b) <<< 4 ||| char2int c) <<< 4) ||| char2int d)
          | _ => none
        else none
    else some (b, t, hex)

/-- mln_json_encode_utf8, lines 645-670. -/
def utf8 (u : BitVec 32) : List Byte :=
  if u ≤ 0x7f then [(u &&& 0xFF).truncate 8]
  else if u ≤ 0x7FF then [(0xC0 ||| ((u >>> 6) &&& 0xFF)).truncate 8, (0x80 ||| (u &&& 0x3F)).truncate 8]
  else if u ≤ 0xFFFF then
    [(0xE0 ||| ((u >>> 12) &&& 0xFF)).truncate 8, (0x80 ||| ((u >>> 6) &&& 0x3F)).truncate 8, (0x80 ||| (u &&& 0x3F)).truncate 8]
  else
    [(0xF0 ||| ((u >>> 18) &&& 0xFF)).truncate 8, (0x80 ||| ((u >>> 12) &&& 0x3F)).truncate 8,
     (0x80 ||| ((u >>> 6) &&& 0x3F)).truncate 8, (0x80 ||| (u &&& 0x3F)).truncate 8]

/-- The loop of mln_json_parse_string_fetch, lines 619-643: `cap` is the size of the buffer, `out`
what is written so far. -/
def fetchLoop (cap : Nat) : Nat → List Byte → BitVec 32 → List Byte → Option (Option (List Byte))
  | _, [], _, out => some (some out)
  | 0, _ :: _, _, _ => none
  | n + 1, b :: t, hex, out =>
    match getChar hex (b :: t) with
    | none => some none
    | some (c, s, hex) =>
      let w := if c = 0 then utf8 hex else [c]
      if out.length + w.length ≤ cap then fetchLoop cap n s hex (out ++ w) else none

def fetch (raw : List Byte) : Option (Option (List Byte)) := fetchLoop raw.length raw.length raw 0 []

/-- mln_json_parse_string, lines 560-617, from after the opening quote. -/
def parseString (p : Policy) (key : Bool) (t : List Byte) : Option (Option (Json D × List Byte)) :=
  match scan false t with
  | none => some none
  | some (raw, rest) =>
    match fetch raw with
    | none => none
    | some none => some none
    | some (some s) =>
      if key = true ∧ p.keyLen ≠ 0 ∧ s.length > p.keyLen then some none
      else if key = false ∧ p.strLen ≠ 0 ∧ s.length > p.strLen then some none
      else some (some (.str s, rest))

/-! ## Numbers -/

/-- Lines 784-788. -/
def intPart (F : Fl D) : D → List Byte → D × List Byte
  | v, [] => (v, [])
  | v, b :: t => if isDigit b then intPart F (F.add (F.mul v (F.ofNat 10)) (F.ofNat (b.toNat - 48))) t else (v, b :: t)

/-- The inner loop of lines 798-800. -/
def divs (F : Fl D) : Nat → D → D
  | 0, f => f
  | n + 1, f => divs F n (F.div f (F.ofNat 10))

/-- Lines 795-802. -/
def fracPart (F : Fl D) : Nat → D → List Byte → D × List Byte
  | _, v, [] => (v, [])
  | i, v, b :: t => if isDigit b then fracPart F (i + 1) (F.add v (divs F i (F.ofNat (b.toNat - 48)))) t else (v, b :: t)

/-- Lines 819-823; `i` is an `int`. -/
def expPart : Nat → List Byte → Option (Nat × List Byte)
  | i, [] => some (i, [])
  | i, b :: t => if isDigit b then (if i * 10 + (b.toNat - 48) < 2147483648 then expPart (i * 10 + (b.toNat - 48)) t else none) else some (i, b :: t)

/-- Lines 826-829. -/
def expo (F : Fl D) (dir : Bool) : Nat → D → D
  | 0, f => f
  | n + 1, f => expo F dir n (if dir then F.mul f (F.ofNat 10) else F.div f (F.ofNat 10))

/-- The exponent, lines 807-830, from after the `e`. -/
def digitExp (F : Fl D) (v : D) (s : List Byte) : Option (Option (D × List Byte)) :=
  let go (dir : Bool) (s : List Byte) : Option (Option (D × List Byte)) :=
    match expPart 0 s with
    | none => none
    | some (i, s) => if i = 0 then some (some (v, s)) else some (some (F.mul v (expo F dir i (F.ofNat 1)), s))
  match s with
  | [] => some none
  | b :: t =>
    if b = 43 then (if t = [] then some (some (v, [])) else go true t)
    else if b = 45 then (if t = [] then some (some (v, [])) else go false t)
    else go true (b :: t)

/-- Lines 806-833. -/
def digitTail (F : Fl D) (v : D) (s : List Byte) : Option (Option (D × List Byte)) :=
  match s with
  | [] => some (some (v, []))
  | b :: t => if b = 101 ∨ b = 69 then digitExp F v t else some (some (v, b :: t))

/-- Lines 792-804. -/
def digitFrac (F : Fl D) (v : D) (s : List Byte) : Option (Option (D × List Byte)) :=
  match s with
  | [] => some (some (v, []))
  | b :: t =>
    if b = 46 then
      if t = [] then some none
      else
        let r := fracPart F 1 v t
        digitTail F r.1 r.2
    else digitTail F v (b :: t)

/-- mln_json_digit_process, lines 773-834. -/
def digitProcess (F : Fl D) (s : List Byte) : Option (Option (D × List Byte)) :=
  match s with
  | [] => none
  | b :: t =>
    if !isDigit b then some none
    else if b = 48 then
      match t with
      | [] => some (some (F.ofNat 0, []))
      | c :: _ => if isDigit c then some none else digitFrac F (F.ofNat 0) t
    else
      let r := intPart F (F.ofNat 0) (b :: t)
      digitFrac F r.1 r.2

/-- mln_json_parse_digit, lines 748-771. -/
def parseDigit (F : Fl D) (t : List Byte) : Option (Option (Json D × List Byte)) :=
  match t with
  | [] => none
  | b :: s =>
    if b = 45 then
      if s = [] then some none
      else
        match digitProcess F s with
        | none => none
        | some none => some none
        | some (some (x, r)) => some (some (.num (F.neg x), r))
    else
      match digitProcess F (b :: s) with
      | none => none
      | some none => some none
      | some (some (x, r)) => some (some (.num x, r))

/-! ## Words -/

/-- tolower in the C locale. -/
def lower (b : Byte) : Byte := if 65 ≤ b ∧ b ≤ 90 then b + 32 else b

/-- mln_json_parse_true, mln_json_parse_false, mln_json_parse_null, lines 836-882; the word in lower
case. -/
def word (w : List Byte) (v : Json D) (t : List Byte) : Option (Json D × List Byte) :=
  if t.length < w.length then none
  else if (t.take w.length).map lower = w then some (v, t.drop w.length)
  else none

def wTrue : List Byte := [116, 114, 117, 101]
def wFalse : List Byte := [102, 97, 108, 115, 101]
def wNull : List Byte := [110, 117, 108, 108]

/-! ## Objects -/

/-- __mln_json_obj_update, lines 90-122. -/
def update (kvs : List (List Byte × Json D)) (k : List Byte) (v : Json D) : Option (List (List Byte × Json D)) :=
  match kvs with
  | [] => some [(k, v)]
  | (k', v') :: l =>
    match strcmp false k k' with
    | none => none
    | some r =>
      if r = 0 then some ((k, v) :: l)
      else (update l k v).map fun l => (k', v') :: l

/-- mln_json_obj_search, lines 124-141. -/
def search (kvs : List (List Byte × Json D)) (k : List Byte) : Option (Option (Json D)) :=
  match kvs with
  | [] => some none
  | (k', v') :: l =>
    match strcmp false k k' with
    | none => none
    | some r => if r = 0 then some (some v') else search l k

/-! ## Decoding -/

mutual
/-- mln_json_parse_json, lines 349-382. -/
def parseJson (F : Fl D) (p : Policy) : Nat → Bool → Nat → List Byte → Option (Option (Json D × List Byte))
  | 0, _, _, _ => none
  | n + 1, key, depth, t =>
    match skip t with
    | [] => some (some (.none, []))
    | b :: t =>
      if b = 123 then
        -- mln_json_parse_obj, lines 384-403
        if t = [] then some none
        else if p.depth ≠ 0 ∧ depth + 1 > p.depth then some none
        else objLoop F p n depth [] t
      else if b = 91 then
        -- mln_json_parse_array, lines 492-511
        if t = [] then some none
        else if p.depth ≠ 0 ∧ depth + 1 > p.depth then some none
        else arrLoop F p n depth [] t
      else if b = 34 then parseString p key t
      else if isDigit b ∨ b = 45 then parseDigit F (b :: t)
      else
        match word wTrue .tru (b :: t) with
        | some r => some (some r)
        | none =>
          match word wFalse .fls (b :: t) with
          | some r => some (some r)
          | none => some (word wNull .null (b :: t))

/-- From the label `again` of mln_json_parse_obj, lines 404-490.  Line 408 reads `jstr[0]` without
testing the length. -/
def objLoop (F : Fl D) (p : Policy) : Nat → Nat → List (List Byte × Json D) → List Byte → Option (Option (Json D × List Byte))
  | 0, _, _, _ => none
  | n + 1, depth, kvs, t =>
    match skip t with
    | [] => none
    | b :: t =>
      if b = 125 then some (some (.obj kvs, skip t))
      else
        match parseJson F p n true (depth + 1) (b :: t) with
        | none => none
        | some none => some none
        | some (some (k, t1)) =>
          if t1 = [] then some none
          else
            match k with
            | .str key =>
              match skip t1 with
              | [] => some none
              | c :: t2 =>
                if c ≠ 58 then some none
                else if t2 = [] then some none
                else
                  match parseJson F p n false (depth + 1) t2 with
                  | none => none
                  | some none => some none
                  | some (some (v, t3)) =>
                    if t3 = [] then some none
                    else
                      match skip t3 with
                      | [] => some none
                      | d :: t4 =>
                        match update kvs key v with
                        | none => none
                        | some kvs =>
                          if p.objKv ≠ 0 ∧ kvs.length > p.objKv then some none
                          else if d = 44 then (if t4 = [] then some none else objLoop F p n depth kvs t4)
                          else if d = 125 then some (some (.obj kvs, skip t4))
                          else some none
            | _ => some none

/-- From the label `again` of mln_json_parse_array, lines 512-558; the text is not empty. -/
def arrLoop (F : Fl D) (p : Policy) : Nat → Nat → List (Json D) → List Byte → Option (Option (Json D × List Byte))
  | 0, _, _, _ => none
  | n + 1, depth, vs, t =>
    match t with
    | [] => none
    | b :: t =>
      match (if b = 93 then some (some (.none, b :: t)) else parseJson F p n false (depth + 1) (b :: t)) with
      | none => none
      | some none => some none
      | some (some (v, t1)) =>
        if t1 = [] then some none
        else if p.arrElem ≠ 0 ∧ (vs ++ [v]).length > p.arrElem then some none
        else
          match skip t1 with
          | [] => some none
          | d :: t2 =>
            if d = 44 then (if t2 = [] then some none else arrLoop F p n depth (vs ++ [v]) t2)
            else if d = 93 then some (some (.arr (vs ++ [v]), skip t2))
            else some none
end

/-- mln_json_decode, lines 330-347, for texts shorter than 2^31 (`len` is an `int`). -/
def decode (F : Fl D) (p : Policy) (t : List Byte) : Option (Option (Json D)) :=
  match parseJson F p (2 * t.length + 3) false 0 t with
  | none => none
  | some none => some none
  | some (some (v, r)) =>
    if r ≠ [] then some none
    else
      match v with
      | .obj _ => some (some v)
      | .arr _ => some (some v)
      | _ => some none

/-! ## Encoding -/

/-- The buffer: what is written, and its size. -/
structure W where
  buf : List Byte
  size : Nat

/-- mln_json_write_byte, lines 920-933. -/
def put (w : W) (s : List Byte) : Option W :=
  let size := if w.size < w.buf.length + s.length then w.size * 2 else w.size
  if w.buf.length + s.length ≤ size then some ⟨w.buf ++ s, size⟩ else none

/-- snprintf "%ld" for numbers below 10^20. -/
def decNat : Nat → Nat → List Byte
  | 0, _ => []
  | k + 1, n => if n < 10 then [BitVec.ofNat 8 (48 + n)] else decNat k (n / 10) ++ [BitVec.ofNat 8 (48 + n % 10)]

def decInt (i : Int) : List Byte := if i < 0 then 45 :: decNat 20 i.natAbs else decNat 20 i.natAbs

/-- The string loop, lines 994-1001. -/
def putStr (w : W) : List Byte → Option W
  | [] => some w
  | b :: s => do
    let w ← if b = 34 ∨ b = 92 then put w [92] else some w
    let w ← put w [b]
    putStr w s

/-- Lines 989-1006. -/
def writeStr (w : W) (s : List Byte) : Option W := do
  let w ← put w [34]
  let w ← putStr w s
  put w [34]

/-- `if (save < *off) mln_json_write_back(*off, 1)`, lines 964-968. -/
def back (save : Nat) (w : W) : W := if save < w.buf.length then ⟨w.buf.dropLast, w.size⟩ else w

mutual
/-- mln_json_write_content, lines 947-1040. -/
def write (F : Fl D) : W → Json D → Option W
  | w, .none => some w
  | w, .obj kvs => do
    let w ← put w [123]
    let w' ← writeKvs F w kvs
    put (back w.buf.length w') [125]
  | w, .arr vs => do
    let w ← put w [91]
    let w' ← writeArr F w vs
    put (back w.buf.length w') [93]
  | w, .str s => writeStr w s
  | w, .num x => do
    let i ← F.toS64 x
    put w (if F.eqInt x i then decInt i else F.fmtF x)
  | w, .tru => put w wTrue
  | w, .fls => put w wFalse
  | w, .null => put w wNull

/-- The loop of lines 979-982. -/
def writeArr (F : Fl D) : W → List (Json D) → Option W
  | w, [] => some w
  | w, v :: vs => do
    let w ← write F w v
    let w ← put w [44]
    writeArr F w vs

/-- mln_json_write_content_obj_iterate_handler, lines 1042-1058, for the pairs in the order of
mln_rbtree_iterate. -/
def writeKvs (F : Fl D) : W → List (List Byte × Json D) → Option W
  | w, [] => some w
  | w, (k, v) :: l => do
    let w ← writeStr w k
    let w ← put w [58]
    let w ← write F w v
    let w ← put w [44]
    writeKvs F w l
end

/-- mln_json_encode, lines 894-912; M_JSON_BUFLEN is 512. -/
def encode (F : Fl D) (v : Json D) : Option (List Byte) := (write F ⟨[], 512⟩ v).map (·.buf)

/-! ## Paths -/

/-- mln_json_parse_is_index, lines 1089-1102: the digits from the last to the first. -/
def isIndex (s : List Byte) : Option Nat :=
  let rec go (sum : Nat) : List Byte → Option Nat
    | [] => some sum
    | b :: r => if isDigit b then go ((sum * 10 + (b.toNat - 48)) % 2 ^ 64) r else none
  go 0 s.reverse

/-- The loop of mln_json_parse, lines 1066-1081; the components of the path are the parts
mln_string_slice makes of it (none of them empty). -/
def path (v : Json D) : List (List Byte) → Option (Option (Json D))
  | [] => some (some v)
  | c :: cs =>
    match v with
    | .obj kvs =>
      match search kvs c with
      | none => none
      | some none => some none
      | some (some v) => path v cs
    | .arr vs =>
      match isIndex c with
      | none => some none
      | some i => if h : i < vs.length then path vs[i] cs else some none
    | _ => some none

end Verif.Json
