/-
Model of /repo/src/mln_regexp.c, whole file.

A pair (pointer, length) into the pattern or the text is the list of the `length` bytes at the
pointer.  The text pointer only ever moves forward, so the `int` that the matchers return, the
number of text bytes left over, is given as the list of these bytes; -1 is `none`.  `char` is
signed (x86), so bytes from 128 on are negative in `mln_get_char`.  Lengths are below 2^31.
A capture is the byte sequence that the pushed mln_string_t refers to; `matches == NULL` is
`none`.  Growth of the array of matches succeeds (that is Verif.Array).

Loops and recursion carry one fuel counter; the outer `none` of a result is an exhausted
counter or the overflow of an `int` in mln_match_get_limit.  Every helper takes the matcher
mln_match_here with the smaller counter as its argument `self`.

Not modelled: mln_get_length reads the byte at the pointer even if the length is 0 (line 861);
the value is not used then.
-/
namespace Verif.Regexp

abbrev Byte := BitVec 8

/-- mln_reg_match_result_t, NULL being `none`. -/
abbrev Caps := Option (List (List Byte))

/-- What a matcher returns: bytes of the text left over (`none` is -1), and the captures. -/
abbrev Res := Option (Option (List Byte) × Caps)

/-- The bits of `flag`: M_REGEXP_MASK_SQUARE, M_REGEXP_MASK_OR, M_REGEXP_MASK_NEW and
M_REGEXP_SPECIAL_MASK, include/mln_regexp.h lines 13-16. -/
structure Flag where
  sq : Bool
  orr : Bool
  nw : Bool
  sp : Bool
deriving DecidableEq, Repr

/-- flag 0. -/
def F0 : Flag := ⟨false, false, false, false⟩
/-- flag M_REGEXP_MASK_NEW. -/
def FNew : Flag := ⟨false, false, true, false⟩
/-- flag M_REGEXP_MASK_SQUARE. -/
def FSq : Flag := ⟨true, false, false, false⟩
/-- flag M_REGEXP_STAR, M_REGEXP_PLUS, M_REGEXP_QUES or M_REGEXP_LBRACE: only bits of
M_REGEXP_SPECIAL_MASK. -/
def FSp : Flag := ⟨false, false, false, true⟩

/- include/mln_regexp.h lines 18-40. -/
def ALPHA : Int := 128
def NOT_ALPHA : Int := 129
def NUM : Int := 130
def NOT_NUM : Int := 131
def WS : Int := 132
def NOT_WS : Int := 133
def SEPARATOR : Int := 160
def LBRACE : Int := 161
def RBRACE : Int := 162
def LPAR : Int := 163
def RPAR : Int := 164
def LSQUAR : Int := 165
def RSQUAR : Int := 166
def XOR : Int := 167
def STAR : Int := 168
def DOLL : Int := 169
def DOT : Int := 170
def QUES : Int := 171
def PLUS : Int := 172
def SUB : Int := 173
def OR : Int := 174

/-- A `char` as an `int`. -/
def schar (b : Byte) : Int := b.toInt

/-- The escapes of mln_get_char, lines 794-818. -/
def escape (b : Byte) : Int :=
  if b = 110#8 /- n -/ then 10
  else if b = 116#8 /- t -/ then 9
  else if b = 45#8 /- minus -/ then 45
  else if b = 124#8 /- | -/ then 124
  else if b = 92#8 /- \ -/ then 92
  else if b = 119#8 /- w -/ then ALPHA
  else if b = 87#8 /- W -/ then NOT_ALPHA
  else if b = 100#8 /- d -/ then NUM
  else if b = 68#8 /- D -/ then NOT_NUM
  else if b = 115#8 /- s -/ then WS
  else if b = 83#8 /- S -/ then NOT_WS
  else schar b

/-- The single characters of mln_get_char, lines 821-857. -/
def single (sq : Bool) (b : Byte) : Int :=
  if b = 123#8 /- { -/ then LBRACE
  else if b = 125#8 /- } -/ then RBRACE
  else if b = 40#8 /- ( -/ then LPAR
  else if b = 41#8 /- ) -/ then RPAR
  else if b = 91#8 /- [ -/ then LSQUAR
  else if b = 93#8 /- ] -/ then RSQUAR
  else if b = 94#8 /- ^ -/ then XOR
  else if b = 42#8 /- * -/ then STAR
  else if b = 36#8 /- $ -/ then DOLL
  else if b = 46#8 /- . -/ then DOT
  else if b = 63#8 /- ? -/ then QUES
  else if b = 43#8 /- + -/ then PLUS
  else if b = 45#8 /- minus -/ then (if sq then SUB else 45)
  else if b = 124#8 /- | -/ then OR
  else schar b

/-- mln_get_char, lines 790-858. -/
def getChar (sq : Bool) : List Byte → Int
  | [] => 0
  | [a] => single sq a
  | a :: b :: _ => if a = 92#8 /- \ -/ then escape b else single sq a

/-- mln_get_length, lines 860-880. -/
def getLen : List Byte → Nat
  | a :: _ :: _ => if a = 92#8 /- \ -/ then 2 else 1
  | _ => 1

/-- mln_isdigit, include/mln_utils.h line 170. -/
def isDigit (c : Int) : Bool := 48 ≤ c ∧ c ≤ 57
/-- mln_isalpha, include/mln_utils.h line 169. -/
def isAlpha (c : Int) : Bool := (97 ≤ c ∧ c ≤ 122) ∨ (65 ≤ c ∧ c ≤ 90)
/-- mln_iswhitespace, include/mln_utils.h line 173. -/
def isWs (c : Int) : Bool := c = 32 ∨ c = 9 ∨ c = 10 ∨ c = 12 ∨ c = 13 ∨ c = 11

/-- The search for the closing bracket in mln_match_here, lines 77-87 and 95-105: the offset of
the bracket that closes the first one. -/
def closeAt (sq : Bool) (o c : Int) : Nat → List Byte → Int → Nat → Option Nat
  | 0, _, _, _ => none
  | n + 1, s, count, off =>
    if s = [] then none
    else
      let ch := getChar sq s
      let count := if ch = o then count + 1 else count
      if ch = c ∧ count - 1 = 0 then some off
      else closeAt sq o c n (s.drop (getLen s)) (if ch = c then count - 1 else count)
        (off + getLen s)

/-- The loops of mln_process_or, lines 326-331, 333-338 and 368-373, and of mln_adjust_or_pos,
lines 436-443, 445-452 and 479-486: what follows the bracket that closes the first one. -/
def skipPast (sq : Bool) (o c : Int) : Nat → List Byte → Int → List Byte
  | 0, s, _ => s
  | n + 1, s, count =>
    if s = [] then []
    else
      let ch := getChar sq s
      let s := s.drop (getLen s)
      let count := if ch = o then count + 1 else count
      if ch = c ∧ count - 1 = 0 then s
      else skipPast sq o c n s (if ch = c then count - 1 else count)

/-- The check of a repetition count, lines 135-162: offset of the closing brace, number of
parts, whether there is a digit; `none` is the return of line 158 or an end without brace. -/
def braceScan (sq : Bool) : Nat → List Byte → Int → Nat → Nat → Bool → Option (Nat × Nat × Bool)
  | 0, _, _, _, _, _ => none
  | n + 1, s, count, off, part, existent =>
    if s = [] then none
    else
      let c := getChar sq s
      let l := getLen s
      if c = 44 then braceScan sq n (s.drop l) count (off + l) (part + 1) existent
      else if c = LBRACE then braceScan sq n (s.drop l) (count + 1) (off + l) part existent
      else if c = RBRACE then
        if count - 1 = 0 then some (off, part, existent)
        else braceScan sq n (s.drop l) (count - 1) (off + l) part existent
      else if !isDigit c then none
      else braceScan sq n (s.drop l) count (off + l) part true

/-- The value is an `int`. -/
def int32 (v : Int) : Option Int := if -2147483648 ≤ v ∧ v ≤ 2147483647 then some v else none

/-- The loops of mln_match_get_limit, lines 611-613 and 619-621. -/
def limitVal : Int → List Byte → Option Int
  | v, [] => some v
  | v, b :: bs => do
    let t ← int32 (v * 10)
    let d ← int32 (t + (schar b - 48))
    let v' ← int32 (v + d)
    limitVal v' bs

/-- mln_match_get_limit, lines 604-625: `min` and `max`. -/
def getLimit (s : List Byte) : Option (Int × Int) :=
  match s.dropWhile (fun b => b ≠ 44#8) with
  | [] => do
    let v ← limitVal 0 (s.takeWhile (fun b => b ≠ 44#8))
    some (v, v)
  | _ :: rest => do
    let v ← limitVal 0 (s.takeWhile (fun b => b ≠ 44#8))
    let m ← limitVal 0 rest
    some (v, if m = 0 then -1 else m)

/-- The type of mln_match_here: flag, pattern, text, captures. -/
abbrev Here := Flag → List Byte → List Byte → Caps → Res

/-- mln_adjust_or_pos, lines 422-498. -/
def adjust (sq : Bool) : Nat → List Byte → List Byte
  | 0, re => re
  | n + 1, re =>
    if re = [] then []
    else
      let c := getChar sq re
      let re :=
        if c = LSQUAR then skipPast sq LSQUAR RSQUAR re.length re 0
        else if c = LPAR then skipPast sq LPAR RPAR re.length re 0
        else re.drop (getLen re)
      if re = [] then []
      else
        let c := getChar sq re
        let re :=
          if c = STAR ∨ c = QUES ∨ c = PLUS then re.drop (getLen re)
          else if sq ∧ c = SUB then
            let r := re.drop (getLen re)
            if r = [] then [] else r.drop (getLen r)
          else if c = LBRACE then skipPast sq LPAR RPAR re.length re 0
          else re
        if re = [] then []
        else if getChar sq re = OR then adjust sq n (re.drop (getLen re))
        else re

/-- What mln_process_or returns: the value, and the new pattern, text and captures. -/
abbrev OrRes := Option (Int × List Byte × List Byte × Caps)

/-- What follows the expression at the start of `rexp`, lines 323-347. -/
def orLeft (sq : Bool) (rexp : List Byte) : List Byte :=
  let c := getChar sq rexp
  if c = LSQUAR then skipPast sq LSQUAR RSQUAR rexp.length rexp 0
  else if c = LPAR then skipPast sq LPAR RPAR rexp.length rexp 0
  else rexp.drop (getLen rexp)

/-- What follows the repetition or range at the start of `left`, lines 358-378. -/
def orAfter (sq : Bool) (left : List Byte) : List Byte :=
  let c := getChar sq left
  if c = STAR ∨ c = QUES ∨ c = PLUS then left.drop (getLen left)
  else if sq ∧ c = SUB then
    let l := left.drop (getLen left)
    l.drop (getLen l)
  else if c = LBRACE then skipPast sq LBRACE RBRACE left.length left 0
  else left

/-- The label `match` of mln_process_or, lines 389-410, for the alternative `alt`; `next` is
the pattern after it, `again` the jump to `again`, taken if `loop`. -/
def orMatch (self : Here) (f : Flag) (text alt next : List Byte) (loop : Bool) (rv : Int)
    (cs : Caps) (again : Caps → OrRes) : OrRes := do
  let (r, cs) ← self { f with orr := true } alt text cs
  match r with
  | some text' => some (rv, adjust f.sq next.length next, text', cs)
  | none => if loop then again cs else some (-1, next, text, cs)

/-- mln_process_or from the label `again`, lines 319-410.  `loop` and `rv` are set together
with `last` (line 386), so `again` is only reached with all three equal. -/
def orLoop (self : Here) (f : Flag) (text : List Byte) : Nat → List Byte → Bool → Caps → OrRes
  | 0, _, _, _ => none
  | n + 1, rexp, loop, cs =>
    let rv : Int := if loop then 1 else 0
    let c := getChar f.sq rexp
    if ¬ (c = LSQUAR) ∧ ¬ (c = LPAR) ∧ loop ∧ (c = OR ∨ rexp = []) then
      let r := rexp.drop (getLen rexp)
      some (rv, adjust f.sq r.length r, text, cs)
    else
      let left := orLeft f.sq rexp
      if left = [] then
        if ¬ loop then some (rv, rexp, text, cs)
        else orMatch self f text rexp [] false 1 cs (fun _ => none)
      else
        let left := orAfter f.sq left
        let ml := rexp.length - left.length
        if getChar f.sq left ≠ OR then
          if ¬ loop then some (rv, rexp, text, cs)
          else orMatch self f text (rexp.take ml) (rexp.drop ml) false 1 cs (fun _ => none)
        else
          let next := left.drop (getLen left)
          orMatch self f text (rexp.take ml) next true 1 cs (fun cs => orLoop self f text n next true cs)

/-- The search for the bracket that closes a bracket inside a class, lines 559-570: what follows
it. -/
def squareClose (o c : Int) : Nat → List Byte → Int → Option (List Byte)
  | 0, _, _ => none
  | n + 1, s, count =>
    if s.length ≤ 1 then none
    else
      let ch := getChar true s
      let s := s.drop (getLen s)
      let count := if ch = o then count + 1 else count
      if ch = c ∧ count - 1 = 0 then some s
      else squareClose o c n s (if ch = c then count - 1 else count)

/-- The end of mln_match_square, lines 595-601. -/
def squareEnd (reverse : Bool) (text : List Byte) (cs : Caps) : Res :=
  match text with
  | [] => if reverse then some (none, cs) else some (some [], cs)
  | _ :: ts => if reverse then some (some ts, cs) else some (none, cs)

/-- The bracket that closes the code `c`, lines 531-549; `none` is 0. -/
def endOf (c : Int) : Option Int :=
  if c = LBRACE then some RBRACE
  else if c = LPAR then some RPAR
  else if c = LSQUAR then some RSQUAR
  else none

/-- The length of an item of a class that is no bracket, lines 551-560. -/
def itemLen (re : List Byte) : Nat :=
  let len := getLen re
  let r := re.drop len
  if re.length > len then
    if getChar true r = SUB ∧ re.length > len + getLen r then
      len + (getLen r + getLen (r.drop (getLen r)))
    else len
  else len

/-- The loop of mln_match_square, lines 524-593. -/
def squareLoop (self : Here) (reverse : Bool) (text : List Byte) :
    Nat → List Byte → Caps → Res
  | 0, _, _ => none
  | n + 1, re, cs =>
    if re = [] then squareEnd reverse text cs
    else
      let c := getChar true re
      let item (step : Nat) : Res :=
        if text = [] then some (none, cs)
        else do
          let (r, cs) ← self FSq (re.take step) text cs
          match r with
          | some text' => if reverse then some (none, cs) else some (some text', cs)
          | none => squareLoop self reverse text n (re.drop step) cs
      if c = RSQUAR then squareEnd reverse text cs
      else
        match endOf c with
        | some e =>
          match squareClose c e re.length re 0 with
          | none => some (none, cs)
          | some after =>
            let step := re.length - after.length
            if step = 2 * getLen re then squareLoop self reverse text n after cs
            else item step
        | none =>
          if c > SEPARATOR then squareLoop self reverse text n (re.drop (getLen re)) cs
          else item (itemLen re)

/-- mln_match_square, lines 500-602; the pattern starts with the opening bracket. -/
def square (self : Here) (n : Nat) (re text : List Byte) (cs : Caps) : Res :=
  let re := re.drop (getLen re)
  if getChar true re = XOR then squareLoop self true text n (re.drop (getLen re)) cs
  else squareLoop self false text n re cs

/-- mln_match_here(0, regexp, ...) after a repetition. -/
def andThen (self : Here) (re text : List Byte) (cs : Caps) : Res := self F0 re text cs

/-- The loop of mln_match_star for an expression of more than one byte, lines 641-658. -/
def starGroup (self : Here) (m re : List Byte) : Nat → List Byte → Bool → Caps → Res
  | 0, _, _, _ => none
  | n + 1, text, found, cs => do
    let (r, cs) ← self F0 m text cs
    match r with
    | none =>
      if re = [] then some (if found then some text else none, cs)
      else do
        let (r, cs) ← self F0 re text cs
        if found then
          match r with
          | none => some (some text, cs)
          | some t => some (some t, cs)
        else some (r, cs)
    | some text' =>
      if text' ≠ [] then starGroup self m re n text' true cs
      else if re ≠ [] then self F0 re text' cs
      else some (some [], cs)

/-- `mln_match_here(flag, mregexp, text) >= 0 || mln_match_here(flag, mregexp, &dot) >= 0`,
lines 661-663, 708-710 and 768-770: the one-byte expression takes the next byte. -/
def takes (self : Here) (m text : List Byte) (cs : Caps) : Option (Bool × Caps) := do
  let (r, cs) ← self FSp m text cs
  match r with
  | some _ => some (true, cs)
  | none => do
    let (r, cs) ← self FSp m [170#8] cs
    some (r.isSome, cs)

/-- The loop of mln_match_star for an expression of one byte, lines 661-674: the text where it
stops, and the last place where the rest of the pattern matches. -/
def starByte (self : Here) (m re : List Byte) :
    Nat → List Byte → Option (List Byte) → Caps → Option (List Byte × Option (List Byte) × Caps)
  | 0, _, _, _ => none
  | _ + 1, [], rec, cs => some ([], rec, cs)
  | n + 1, t :: ts, rec, cs => do
    let (b, cs) ← takes self m (t :: ts) cs
    if b then
      if re ≠ [] then do
        let (r, _) ← self F0 re ts none
        starByte self m re n ts (if r.isSome then some ts else rec) cs
      else starByte self m re n ts rec cs
    else some (t :: ts, rec, cs)

/-- mln_match_star, lines 627-684. -/
def star (self : Here) (n : Nat) (m re text : List Byte) (cs : Caps) : Res :=
  if text = [] then some (some [], cs)
  else if m.length > 1 then starGroup self m re n text false cs
  else do
    let (t, rec, cs) ← starByte self m re n text none cs
    if re ≠ [] then self F0 re (rec.getD t) cs
    else some (some t, cs)

/-- The loop of mln_match_plus for an expression of more than one byte, lines 695-706. -/
def plusGroup (self : Here) (m re : List Byte) : Nat → List Byte → Bool → Caps → Res
  | 0, _, _, _ => none
  | n + 1, text, found, cs => do
    let (r, cs) ← self F0 m text cs
    match r with
    | none => if ¬ found then some (none, cs) else self F0 re text cs
    | some text' =>
      if text' ≠ [] then plusGroup self m re n text' true cs
      else if re ≠ [] then self F0 re text' cs
      else some (some [], cs)

/-- The loops of mln_match_plus, lines 708-715, and of mln_match_brace, lines 768-776, for an
expression of one byte: the text where it stops and the number of bytes taken.  The loop stops
after `max` bytes if `max` is positive; mln_match_plus has no such limit (`max` is 0). -/
def takeByte (self : Here) (m : List Byte) (max : Int) :
    Nat → List Byte → Int → Caps → Option (List Byte × Int × Caps)
  | 0, _, _, _ => none
  | _ + 1, [], found, cs => some ([], found, cs)
  | n + 1, t :: ts, found, cs => do
    let (b, cs) ← takes self m (t :: ts) cs
    if b then
      if max > 0 ∧ found + 1 ≥ max then some (ts, found + 1, cs)
      else takeByte self m max n ts (found + 1) cs
    else some (t :: ts, found, cs)

/-- mln_match_plus, lines 686-725. -/
def plus (self : Here) (n : Nat) (m re text : List Byte) (cs : Caps) : Res :=
  if m.length > 1 then plusGroup self m re n text false cs
  else do
    let (t, found, cs) ← takeByte self m 0 n text 0 cs
    if found > 0 then
      if t ≠ [] then self F0 re t cs else some (some [], cs)
    else some (none, cs)

/-- mln_match_question, lines 727-746. -/
def question (self : Here) (m re text : List Byte) (cs : Caps) : Res :=
  if m.length > 1 then do
    let (r, cs) ← self F0 m text cs
    self F0 re (r.getD text) cs
  else do
    let (r, cs) ← self FSp m text cs
    match r with
    | some _ => self F0 re (text.drop 1) cs
    | none => self F0 re text cs

/-- The loop of mln_match_brace for an expression of more than one byte, lines 757-766. -/
def braceGroup (self : Here) (m re : List Byte) (min max : Int) :
    Nat → List Byte → Int → Caps → Res
  | 0, _, _, _ => none
  | n + 1, text, found, cs => do
    let (r, cs) ← self F0 m text cs
    match r with
    | none => if re = [] ∨ found < min then some (none, cs) else self F0 re text cs
    | some text' =>
      if text' ≠ [] ∧ (max < 0 ∨ found + 1 < max) then
        braceGroup self m re min max n text' (found + 1) cs
      else if text' = [] ∧ re = [] then some (some [], cs)
      else self F0 re text' cs

/-- mln_match_brace, lines 748-788. -/
def brace (self : Here) (n : Nat) (m re text : List Byte) (min max : Int) (cs : Caps) : Res :=
  if m.length > 1 then braceGroup self m re min max n text 0 cs
  else do
    let (t, found, cs) ← takeByte self m max n text 0 cs
    if found ≥ min then
      if t ≠ [] ∨ re ≠ [] then self F0 re t cs else some (some [], cs)
    else some (none, cs)

/-- The part of mln_match_here from line 267 on: brackets and literal bytes. -/
def atom (self : Here) (n : Nat) (f : Flag) (step : Nat) (re text : List Byte) (cs : Caps) :
    Res :=
  let c0 := getChar f.sq re
  let len0 := getLen re
  if c0 = LSQUAR then do
    let (r, cs) ← square self n (re.take step) text cs
    match r with
    | none => some (none, cs)
    | some text' => self f (re.drop step) text' cs
  else if c0 = LPAR then do
    let (r, cs) ← self FNew ((re.drop len0).take (step - 2 * len0)) text cs
    match r with
    | none => some (none, cs)
    | some text' =>
      self f (re.drop step) text' (cs.map (· ++ [text.take (text.length - text'.length)]))
  else
    match text with
    | [] => some (none, cs)
    | t :: ts =>
      if c0 = t.toNat then
        if f.sp then some (some (t :: ts), cs) else self f (re.drop len0) ts cs
      else some (none, cs)

/-- The classes \d, \D, \w, \W, \s, \S and the dot, lines 198-264; `none`: the code is none of
them. -/
def classOf (c : Int) : Option (Int → Bool) :=
  if c = NUM then some isDigit
  else if c = NOT_NUM then some (fun x => !isDigit x)
  else if c = ALPHA then some isAlpha
  else if c = NOT_ALPHA then some (fun x => !isAlpha x)
  else if c = WS then some isWs
  else if c = NOT_WS then some (fun x => !isWs x)
  else if c = DOT then some (fun _ => true)
  else none

/-- mln_match_here, lines 178-264: anchors, ranges and classes. -/
def classes (self : Here) (n : Nat) (f : Flag) (step : Nat) (re text : List Byte) (cs : Caps) :
    Res :=
  let c0 := getChar f.sq re
  let len0 := getLen re
  if c0 = XOR ∧ f.nw then self f (re.drop len0) text cs
  else
    let f := { f with nw := false }
    if c0 = DOLL then some (if text = [] then some [] else none, cs)
    else
      match text with
      | [] => atom self n f step re [] cs
      | t :: ts =>
        let r := re.drop len0
        if f.sq ∧ r ≠ [] ∧ getChar f.sq r = SUB ∧ re.length > len0 + getLen r then
          let hi := getChar f.sq (r.drop (getLen r))
          if c0 ≤ schar t ∧ schar t ≤ hi then some (some ts, cs) else some (none, cs)
        else
          match classOf c0 with
          | some p => if p (schar t) then self f r ts cs else some (none, cs)
          | none => atom self n f step re (t :: ts) cs

/-- mln_match_here, lines 111-176: the repetition after the expression of length `step`. -/
def quantified (self : Here) (n : Nat) (f : Flag) (step : Nat) (re text : List Byte)
    (cs : Caps) : Res :=
  if step < re.length then
    let q := re.drop step
    let m := re.take step
    let cn := getChar f.sq q
    let ln := getLen q
    if cn = STAR then star self n m (q.drop ln) text cs
    else if cn = PLUS then plus self n m (q.drop ln) text cs
    else if cn = QUES then question self m (q.drop ln) text cs
    else if cn = LBRACE then
      match braceScan f.sq q.length q 0 0 1 false with
      | none => some (none, cs)
      | some (off, part, existent) =>
        if ¬ existent ∨ part > 2 then some (none, cs)
        else do
          let (min, max) ← getLimit ((q.take off).drop ln)
          if max > 0 ∧ min > max then some (none, cs)
          else brace self n m (q.drop (off + ln)) text min max cs
    else classes self n f step re text cs
  else classes self n f step re text cs

/-- mln_match_here, lines 73-109: find the end of a bracketed expression. -/
def bracketed (self : Here) (n : Nat) (f : Flag) (re text : List Byte) (cs : Caps) : Res :=
  let c0 := getChar f.sq re
  let len0 := getLen re
  if c0 = LPAR ∨ c0 = LSQUAR then
    match closeAt f.sq c0 (if c0 = LPAR then RPAR else RSQUAR) re.length re 0 0 with
    | none => some (none, cs)
    | some off =>
      if off = len0 then self f (re.drop (2 * len0)) text cs
      else quantified self n f (off + len0) re text cs
  else quantified self n f len0 re text cs

/-- One pass of mln_match_here from the label `again`, lines 49-307; `goto again` is `self`
with the current values. -/
def body (self : Here) (n : Nat) (f : Flag) (re text : List Byte) (cs : Caps) : Res :=
  if re = [] then some (some text, cs)
  else if f.sp then atom self n f (getLen re) re text cs
  else if f.orr then bracketed self n f re text cs
  else do
    let (rv, re, text, cs) ← orLoop self f text n re false cs
    if rv < 0 then some (none, cs)
    else if rv > 0 then self f re text cs
    else bracketed self n f re text cs

/-- mln_match_here. -/
def here : Nat → Here
  | 0 => fun _ _ _ _ => none
  | n + 1 => body (here n) n

/-- mln_reg_match, lines 882-913: the matches at the end; the value returned is their number. -/
def matchLoop (fuel : Nat) (exp : List Byte) : Nat → List Byte → Caps → Option Caps
  | 0, _, _ => none
  | n + 1, p, cs => do
    let (r, cs) ← here fuel FNew exp p cs
    match r with
    | none =>
      match p with
      | [] => some cs
      | _ :: ps =>
        if exp ≠ [] ∧ exp.head? ≠ some (94#8) then matchLoop fuel exp n ps cs else some cs
    | some rest =>
      if p.length - rest.length > 0 then
        let cs := cs.map (· ++ [p.take (p.length - rest.length)])
        if rest.length ≥ exp.length then matchLoop fuel exp n rest cs else some cs
      else some cs

/-- mln_reg_match into an empty array. -/
def regMatch (fuel : Nat) (exp text : List Byte) : Option (List (List Byte)) := do
  let cs ← matchLoop fuel exp fuel text (some [])
  cs

/-- The search of mln_reg_equal, lines 921-929: the bytes left over. -/
def equalLoop (fuel : Nat) (exp : List Byte) : Nat → List Byte → Option (Option (List Byte))
  | 0, _ => none
  | n + 1, p => do
    let (r, _) ← here fuel FNew exp p none
    match r with
    | some rest => some (some rest)
    | none =>
      match p with
      | [] => some none
      | _ :: ps =>
        if exp ≠ [] ∧ exp.head? ≠ some (94#8) then equalLoop fuel exp n ps else some none

/-- mln_reg_equal, lines 915-931. -/
def regEqual (fuel : Nat) (exp text : List Byte) : Option Int := do
  let r ← equalLoop fuel exp fuel text
  match r with
  | none => some (-1)
  | some rest =>
    if rest ≠ [] ∧ exp ≠ [] ∧ exp.getLast? ≠ some (36#8) then some 0 else some rest.length

end Verif.Regexp
