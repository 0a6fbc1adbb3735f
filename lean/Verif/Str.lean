/-
Model of /repo/src/mln_string.c: comparison (364-475), KMP search (505-577), slicing
(578-634), concatenation (281-319, 636-660), trimming (690-707) and case mapping (731-758).

A string is the list of the `len` bytes at `data`.  `none` is an access outside a buffer or
an exhausted loop budget.  Lengths are below 2^31 (the code passes them as `int` to the
search).  Pool variants differ only in the allocator.  `memcmp` and `strncasecmp` are the C
library functions; `memcmp` is modelled by the difference of the first differing bytes, of
which only the sign is used in the properties.
-/
namespace Verif.Str

abbrev Byte := BitVec 8

/-- C library memcmp on two equally long byte sequences. -/
def memcmp : List Byte → List Byte → Int
  | a :: as, b :: bs => if a = b then memcmp as bs else (a.toNat : Int) - b.toNat
  | _, _ => 0

/-- mln_string_strseqcmp, lines 364-377. -/
def strseqcmp (s1 s2 : List Byte) : Int :=
  if s1.length > s2.length then
    if s2.length = 0 then 1
    else
      let ret := memcmp (s1.take s2.length) (s2.take s2.length)
      if ret ≠ 0 then ret else 1
  else if s1.length < s2.length then
    if s1.length = 0 then 1
    else
      let ret := memcmp (s1.take s1.length) (s2.take s1.length)
      if ret ≠ 0 then ret else -1
  else if s1.length = 0 then 0
  else memcmp (s1.take s1.length) (s2.take s1.length)

/-- A 32-bit load at byte offset `i` (little endian), `*i1` of line 386. -/
def load32 (s : List Byte) (i : Nat) : Option (BitVec 32) := do
  let a ← s[i]?
  let b ← s[i + 1]?
  let c ← s[i + 2]?
  let d ← s[i + 3]?
  some (d ++ (c ++ (b ++ a)))

/-- The word loop, lines 387-391 (and 405-409, 424-428, 440-444): compare from offset `i`
up to `n`. -/
def wordLoop (s1 s2 : List Byte) (n : Nat) : Nat → Nat → Option Int
  | 0, _ => none
  | fuel + 1, i =>
    if i < n then do
      let a ← load32 s1 i
      let b ← load32 s2 i
      let res := (a - b).toInt
      if res ≠ 0 then some res else wordLoop s1 s2 n fuel (i + 4)
    else some 0

/-- mln_string_strcmp, lines 379-393.  `same` is `s1 == s2 || s1->data == s2->data`. -/
def strcmp (same : Bool) (s1 s2 : List Byte) : Option Int :=
  if same then some 0
  else if s1.length > s2.length then some 1
  else if s1.length < s2.length then some (-1)
  else if s1.length > 280 ∨ s1.length % 4 ≠ 0 then some (memcmp s1 s2)
  else wordLoop s1 s2 s1.length (s1.length + 1) 0

/-- strlen of the buffer `s` (a NUL must be inside). -/
def strlen : List Byte → Option Nat
  | [] => none
  | b :: bs => if b = 0 then some 0 else (strlen bs).map (· + 1)

/-- mln_string_const_strcmp, lines 395-411; `s2` is the buffer of the C string. -/
def constStrcmp (same : Bool) (s1 s2 : List Byte) : Option Int :=
  if same then some 0
  else do
    let len ← strlen s2
    if s1.length > len then some 1
    else if s1.length < len then some (-1)
    else if s1.length > 280 ∨ len % 4 ≠ 0 then some (memcmp s1 (s2.take len))
    else wordLoop s1 s2 len (len + 1) 0

/-- mln_string_strncmp, lines 413-429. -/
def strncmp (same : Bool) (s1 s2 : List Byte) (n : Nat) : Option Int :=
  if same then some 0
  else if s1.length < n ∨ s2.length < n then some (-1)
  else if n > 280 ∨ n % 4 ≠ 0 then some (memcmp (s1.take n) (s2.take n))
  else wordLoop s1 s2 n (n + 1) 0

/-- mln_string_const_strncmp, lines 431-445. -/
def constStrncmp (same : Bool) (s1 s2 : List Byte) (n : Nat) : Option Int :=
  if same then some 0
  else do
    let len ← strlen s2
    if s1.length < n ∨ len < n then some (-1)
    else if n > 280 ∨ n % 4 ≠ 0 then some (memcmp (s1.take n) (s2.take n))
    else wordLoop s1 s2 n (n + 1) 0

/-- __tolower, lines 17-22 (the C locale). -/
def tolower (c : Byte) : Byte := if 65 ≤ c.toNat ∧ c.toNat ≤ 90 then c + 32#8 else c

/-- strncasecmp, lines 24-37: stops after a NUL. -/
def strncasecmp : Nat → List Byte → List Byte → Option Int
  | 0, _, _ => some 0
  | n + 1, s1, s2 => do
    let a ← s1.head?
    let b ← s2.head?
    if tolower a ≠ tolower b then some (((tolower a).toNat : Int) - (tolower b).toNat)
    else if tolower a = 0 then some 0
    else strncasecmp n s1.tail s2.tail

/-- mln_string_strcasecmp, lines 447-452. -/
def strcasecmp (same : Bool) (s1 s2 : List Byte) : Option Int :=
  if same then some 0
  else if s1.length > s2.length then some 1
  else if s1.length < s2.length then some (-1)
  else strncasecmp s1.length s1 s2

/-- `while (q > 0 && pattern[q] != c) q = shift[q - 1];` (lines 544-545 and 569-570). -/
def fall (pat : List Byte) (shift : List Nat) (c : Byte) : Nat → Nat → Option Nat
  | 0, _ => none
  | fuel + 1, q =>
    if q = 0 then some 0
    else do
      let b ← pat[q]?
      if b ≠ c then do
        let q' ← shift[q - 1]?
        fall pat shift c fuel q'
      else some q

/-- `if (pattern[q] == c) ++q;` after the while loop (lines 544-547, 569-572). -/
def advance (pat : List Byte) (shift : List Nat) (q : Nat) (c : Byte) : Option Nat := do
  let q ← fall pat shift c (q + 1) q
  let b ← pat[q]?
  some (if b = c then q + 1 else q)

/-- Loop of compute_prefix_function, lines 568-574: `n` more entries. -/
def prefixLoop (pat : List Byte) : Nat → List Nat → Nat → Option (List Nat)
  | 0, shift, _ => some shift
  | n + 1, shift, k => do
    let c ← pat[shift.length]?
    let k ← advance pat shift k c
    prefixLoop pat n (shift ++ [k]) k

/-- compute_prefix_function, lines 561-577; `shift[0] = 0` needs `m ≥ 1`. -/
def prefixFn (pat : List Byte) : Option (List Nat) :=
  if pat.length = 0 then none else prefixLoop pat (pat.length - 1) [0] 0

/-- Loop of kmp_string_match, lines 543-557: `text` is the rest, `i` its position. -/
def matchLoop (pat : List Byte) (shift : List Nat) : List Byte → Nat → Nat → Option (Option Nat)
  | [], _, _ => some none
  | c :: text, i, q => do
    let q ← advance pat shift q c
    if q = pat.length then some (some (i + 1 - pat.length))
    else matchLoop pat shift text (i + 1) q

/-- mln_string_kmp, lines 505-509 with 536-559.  `same` as in `strcmp`; `ok` tells whether
the allocation of the table succeeds.  The result is the offset into the text. -/
def kmp (same ok : Bool) (text pat : List Byte) : Option (Option Nat) :=
  if same then some (some 0)
  else if ok then do
    let shift ← prefixFn pat
    matchLoop pat shift text 0 0
  else some none

/-- First loop of mln_string_slice_recursive, lines 599-602: number of separators skipped. -/
def skipSeps (sep : Byte → Bool) : List Byte → Nat
  | [] => 0
  | b :: bs => if sep b then skipSeps sep bs + 1 else 0

/-- Second loop, lines 614-616. -/
def skipValid (sep : Byte → Bool) : List Byte → Nat
  | [] => 0
  | b :: bs => if sep b then 0 else skipValid sep bs + 1

/-- mln_string_slice_recursive, lines 594-626: `off` is the offset of `s` in the copy.  The
result is the array as pairs (offset, length), ended by length 0.  The separators that the
first loop overwrites with NUL are all before the position at which the recursion reads. -/
def sliceRec (sep : Byte → Bool) : Nat → Nat → List Byte → Option (List (Nat × Nat))
  | 0, _, _ => none
  | fuel + 1, off, s =>
    let a := skipSeps sep s
    if a ≥ s.length then some [(0, 0)]
    else do
      let v := skipValid sep (s.drop a)
      let rest ← sliceRec sep fuel (off + a + v) (s.drop (a + v))
      some ((off + a, v) :: rest)

/-- The table of mln_string_slice, lines 588-590 (`seps` without its final NUL). -/
def sepTab (seps : List Byte) (b : Byte) : Bool := seps.contains b

/-- mln_string_slice, lines 578-592. -/
def slice (s seps : List Byte) : Option (List (Nat × Nat)) := sliceRec (sepTab seps) (s.length + 1) 0 s

/-- The walk of mln_string_slice_free, lines 628-634: index of the element whose `len` is 0. -/
def sliceEnd : List (Nat × Nat) → Option Nat
  | [] => none
  | (_, l) :: rest => if l = 0 then some 0 else (sliceEnd rest).map (· + 1)

/-- mln_string_concat, lines 281-319: contents of the result for optional arguments. -/
def concat (s1 s2 sep : Option (List Byte)) : List Byte :=
  let p := match s1 with
    | some a => a ++ (match s2, sep with | some _, some c => c | _, _ => [])
    | none => []
  match s2 with
  | some b => p ++ b
  | none => p

/-- The size computed before the copy, lines 288-293. -/
def concatSize (s1 s2 sep : Option (List Byte)) : Nat :=
  let size := match s1 with
    | some a => a.length + (match s2, sep with | some _, some c => c.length | _, _ => 0)
    | none => 0
  match s2 with
  | some b => size + b.length
  | none => size

/-- mln_string_trim, lines 698-703: the index `j` (counting down from the end to `i`). -/
def trimEnd (chars : Byte → Bool) (s : List Byte) (i : Nat) : Nat → Nat
  | 0 => 0
  | j + 1 =>
    if j + 1 > i then
      match s[j]? with
      | some b => if chars b then trimEnd chars s i j else j + 1
      | none => j + 1
    else j + 1

/-- mln_string_trim, lines 690-707. -/
def trim (s mask : List Byte) : List Byte :=
  let chars := fun b : Byte => mask.contains b
  let i := skipSeps chars s
  let j := trimEnd chars s i s.length
  (s.drop i).take (j - i)

/-- "ABCDEFGHIJKLMNOPQRSTUVWXYZ" -/
def upperTab : List Byte := [0x41, 0x42, 0x43, 0x44, 0x45, 0x46, 0x47, 0x48, 0x49, 0x4a, 0x4b, 0x4c, 0x4d, 0x4e, 0x4f, 0x50, 0x51, 0x52, 0x53, 0x54, 0x55, 0x56, 0x57, 0x58, 0x59, 0x5a]
/-- "abcdefghijklmnopqrstuvwxyz" -/
def lowerTab : List Byte := [0x61, 0x62, 0x63, 0x64, 0x65, 0x66, 0x67, 0x68, 0x69, 0x6a, 0x6b, 0x6c, 0x6d, 0x6e, 0x6f, 0x70, 0x71, 0x72, 0x73, 0x74, 0x75, 0x76, 0x77, 0x78, 0x79, 0x7a]

/-- `chars[from[i]] = to[i]` for all i, lines 737-739 / 752-754: the table as a function. -/
def mapTab (from_ to : List Byte) (b : Byte) : Byte :=
  ((from_.zip to).foldl (fun (t : Byte → Byte) p => fun x => if x = p.1 then p.2 else t x) (fun _ => 0)) b

/-- `if (chars[s->data[i]]) s->data[i] = chars[s->data[i]];` for every i. -/
def mapWith (from_ to : List Byte) (s : List Byte) : List Byte :=
  s.map (fun b => if mapTab from_ to b ≠ 0 then mapTab from_ to b else b)

/-- mln_string_upper, lines 731-744. -/
def upper (s : List Byte) : List Byte := mapWith lowerTab upperTab s
/-- mln_string_lower, lines 746-759. -/
def lower (s : List Byte) : List Byte := mapWith upperTab lowerTab s

end Verif.Str
