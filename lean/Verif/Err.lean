/-
Model of src/mln_error.c and of RET and CODE, include/mln_error.h lines 9-75 (the variant for
compilers other than MSVC).

Simplifications: the strings of the tables end with the byte 0 and hold no other (`%s` prints up to
it), so they are lists of bytes without it; `nfile` and `nmsg` are the lengths of the tables, as
mln_error_init is told; `len` is at most INT_MAX; the callback is not part of the model (it gets the
value that is returned).
-/
namespace Verif.Err

abbrev Byte := BitVec 8

/-- mln_error_filenames and mln_error_errmsgs, lines 9-12; `none` is NULL, and the number is 0. -/
structure Tables where
  files : Option (List (List Byte)) := none
  msgs : Option (List (List Byte)) := none

/-- mln_error_nmsg. -/
def Tables.nmsg (T : Tables) : Nat := (T.msgs.getD []).length

/-- `__LINE__` in 14 bits, mln_error.h line 49. -/
def lineBits (line : Nat) : Nat := if line ≥ 0x3fff then 0x3fff else line &&& 0x3fff

/-- The code in 8 bits, line 50. -/
def codeBits (T : Tables) (code : Int) : Nat :=
  if code < 0 ∨ code ≥ 0xff then 0xff
  else if code.toNat &&& 0xff ≥ T.nmsg then 0xff else code.toNat &&& 0xff

/-- The file in 9 bits, lines 52-64. -/
def fileBits (T : Tables) (file : List Byte) : Nat :=
  match T.files with
  | none => 0x1ff
  | some fs => if fs.idxOf file ≥ 0x1ff ∨ fs.idxOf file ≥ fs.length then 0x1ff else fs.idxOf file

/-- RET, lines 48-73, in the file `file` (without directories) at the line `line`. -/
def ret (T : Tables) (file : List Byte) (line : Nat) (code : Int) : Int :=
  let c := codeBits T code
  if c > 0 then -(((fileBits T file <<< 22) ||| (lineBits line <<< 8) ||| c : Nat) : Int) else 0

/-- CODE, line 75; for `r ≤ 0`. -/
def code (r : Int) : Nat := (-r).toNat &&& 0xff

/-- `%d` for a number that is not negative. -/
def dec (n : Nat) : List Byte := (Nat.toDigits 10 n).map (fun c => BitVec.ofNat 8 c.toNat)

/-- "Unkown File", "Unknown Line", "Unknown Code", "Invalid error code", "Success". -/
def unkownFile : List Byte := [85, 110, 107, 111, 119, 110, 32, 70, 105, 108, 101]
def unknownLine : List Byte := [85, 110, 107, 110, 111, 119, 110, 32, 76, 105, 110, 101]
def unknownCode : List Byte := [85, 110, 107, 110, 111, 119, 110, 32, 67, 111, 100, 101]
def invalid : List Byte := [73, 110, 118, 97, 108, 105, 100, 32, 101, 114, 114, 111, 114, 32, 99, 111, 100, 101]
def success : List Byte := [83, 117, 99, 99, 101, 115, 115]

/-- `snprintf(intstr, 7, "%d", line)`, line 39. -/
def intstr (line : Nat) : List Byte := (dec line).take 6

/-- The file that is printed for the index `i`, line 42; `none` if the table is read outside. -/
def fileText (T : Tables) (i : Nat) : Option (List Byte) :=
  match T.files with
  | none => some unkownFile
  | some fs => if i = 0x1ff then some unkownFile else fs[i]?

/-- The message that is printed for the code `c`, line 44. -/
def msgText (T : Tables) (c : Nat) : Option (List Byte) :=
  match T.msgs with
  | none => some unknownCode
  | some ms => if c = 0xff then some unknownCode else ms[c]?

/-- The text that is to be printed, lines 32-47; `none` if a table is read outside of its bounds or
`-err` is not defined. -/
def message (T : Tables) (err : Int) : Option (List Byte) :=
  if err > 0 then some invalid
  else if err < 0 then
    if err ≤ -(2 ^ 31) then none
    else
      let e := (-err).toNat
      let line := (e >>> 8) &&& 0x3fff
      match fileText T ((e >>> 22) &&& 0x1ff), msgText T (e &&& 0xff) with
      | some f, some m => some (f ++ 58#8 :: ((if line = 0x3fff then unknownLine else intstr line) ++ 58#8 :: m))
      | _, _ => none
  else
    match T.msgs with
    | none => some success
    | some ms => ms[0]?

/-- `snprintf(b, n, "%s", s)` on the memory `b`; `none` if it writes outside of it. -/
def snprintf (b : List Byte) (n : Nat) (s : List Byte) : Option (List Byte) :=
  if n = 0 then some b
  else
    let w := s.take (n - 1) ++ [0#8]
    if w.length ≤ b.length then some (w ++ b.drop w.length) else none

/-- mln_error_string, lines 27-51, on the buffer `b` of `len` bytes: the buffer afterwards, `none` if
something outside of the buffer or of a table is accessed.  `len - 1` wraps around. -/
def errorString (T : Tables) (err : Int) (b : List Byte) : Option (List Byte) := do
  let s ← message T err
  let n := if b.length = 0 then 2 ^ 64 - 1 else b.length - 1
  let b' ← snprintf b n s
  if s.length < b'.length then some (b'.set s.length 0#8) else none

/-- The string in a buffer. -/
def cstr (b : List Byte) : List Byte := b.takeWhile (· ≠ 0#8)

end Verif.Err
