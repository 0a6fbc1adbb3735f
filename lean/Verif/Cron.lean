import Verif.Time
import Verif.Str
/-
Model of /repo/src/mln_cron.c.

A field of the expression is the list of its bytes.  The byte after a field is always NUL
(mln_string_slice overwrites separators with NUL and the copy it works on is terminated), so
reads of `*end` give a byte that is no comma and `atol` stops there.  The five field parsers
share one loop; what differs is collected in `Field`, one record per C function.  `long` and
`time_t` are mathematical integers.  `none` is undefined behaviour (a read outside `mon_days`
in mln_utc_adjust/mln_utc2time/mln_month_days or outside the array of fields).
-/
namespace Verif.Cron
open Verif.Time

/-- isspace in the C locale, used by atol. -/
def isSpace (b : Byte) : Bool := b == 32#8 || (decide (9 ≤ b.toNat) && decide (b.toNat ≤ 13))

/-- mln_isdigit, include/mln_utils.h line 170. -/
def isDig (b : Byte) : Bool := decide (48 ≤ b.toNat) && decide (b.toNat ≤ 57)

/-- The digits that atol consumes, after the sign. -/
def digits : List Byte → Int → Int
  | [], acc => acc
  | b :: bs, acc => if isDig b then digits bs (acc * 10 + ((b.toNat : Int) - 48)) else acc

/-- atol (C library) on the bytes up to the terminating NUL. -/
def atol : List Byte → Int
  | [] => 0
  | b :: bs =>
    if isSpace b then atol bs
    else if b = 45#8 then - digits bs 0
    else if b = 43#8 then digits bs 0
    else digits (b :: bs) 0

/-- The backward search for '/', e.g. lines 72-79 (the same loop on lines 134-141, 206-213,
278-285, 350-357): the bytes before the last '/' and the bytes after it. -/
def lastSlash : List Byte → Option (List Byte × List Byte)
  | [] => none
  | b :: bs =>
    match lastSlash bs with
    | some (l, r) => some (b :: l, r)
    | none => if b = 47#8 then some ([], bs) else none

/-- What distinguishes the five field parsers. -/
structure Field where
  /-- Smallest item accepted before a comma. -/
  loMid : Int
  /-- Smallest item accepted at the end of the list. -/
  loEnd : Int
  /-- Items must be below this. -/
  hi : Int
  /-- Accepted periods: `perLo ≤ period < perHi`. -/
  perLo : Int
  perHi : Int
  /-- Largest number of digits of an item. -/
  width : Nat
  /-- Item 7 at the end of the list means 0 (line 395). -/
  seven : Bool
  /-- Added to an item below the current value. -/
  wrap : Option Int
  /-- The current value. -/
  cur : Int
  /-- Result for the field "*". -/
  plain : Int
  /-- `save` at a '*' in the list, for a period. -/
  star : Int → Int
  /-- New `save` for a period, the old `save` and an item. -/
  upd : Int → Int → Int → Int

/-- Lines 90-95 and 113-118 (minutes): the new `save`. -/
def updMin (min period save tmp : Int) : Int :=
  if save = 0 then (if min = tmp then min + period else tmp)
  else if (tmp = min ∧ period < save - min) ∨ tmp - min < save - min then
    (if min = tmp then min + period else tmp)
  else save

/-- Lines 154-162 and 181-189 (hours; the same text for days, months and weekdays). -/
def updGen (cur : Int) (greater : Bool) (period save tmp : Int) : Int :=
  if save = 0 then (if cur = tmp ∧ ¬ greater = true then cur + period else tmp)
  else if tmp = cur then
    (if greater then tmp else if period < save - cur then cur + period else save)
  else if tmp - cur < save - cur then tmp
  else save

/-- Lines 167, 239, 311, 383: `save` at a '*' (line 99 is the case `greater` = false). -/
def starGen (cur : Int) (greater : Bool) (period : Int) : Int :=
  if greater then cur else cur + (if period ≠ 0 then period else 1)

/-- mln_cron_parse_minute, lines 64-121. -/
def minuteF (min : Int) : Field :=
  { loMid := 1, loEnd := 0, hi := 60, perLo := 1, perHi := 60, width := 2, seven := false
    wrap := some 60, cur := min, plain := min + 1, star := starGen min false, upd := updMin min }

/-- mln_cron_parse_hour, lines 123-193. -/
def hourF (hour : Int) (greater : Bool) : Field :=
  { loMid := 1, loEnd := 0, hi := 24, perLo := 1, perHi := 24, width := 2, seven := false
    wrap := some 24, cur := hour, plain := hour, star := starGen hour greater, upd := updGen hour greater }

/-- mln_cron_parse_day, lines 195-265. -/
def dayF (year month day : Int) (greater : Bool) : Field :=
  { loMid := 1, loEnd := 1, hi := 32, perLo := 1, perHi := 32, width := 2, seven := false
    wrap := monthDays year month, cur := day, plain := day, star := starGen day greater
    upd := updGen day greater }

/-- mln_cron_parse_month, lines 267-337. -/
def monthF (mon : Int) (greater : Bool) : Field :=
  { loMid := 1, loEnd := 1, hi := 13, perLo := 1, perHi := 13, width := 2, seven := false
    wrap := some 12, cur := mon, plain := mon, star := starGen mon greater, upd := updGen mon greater }

/-- mln_cron_parse_week, lines 339-410. -/
def weekF (week : Int) (greater : Bool) : Field :=
  { loMid := 0, loEnd := 0, hi := 7, perLo := 0, perHi := 7, width := 1, seven := true
    wrap := some 7, cur := week, plain := week, star := starGen week greater, upd := updGen week greater }

/-- One item, lines 85-95 (at a comma, `last = false`) and 109-118 (at the end): the new
`save`, or -1 for "reject".  `seg` is the text from `head` to `p`. -/
def item (f : Field) (last : Bool) (period save : Int) (seg : List Byte) : Option Int :=
  if seg.length > f.width then some (-1)
  else
    let tmp := if last && f.seven && atol seg == 7 then 0 else atol seg
    if tmp < (if last then f.loEnd else f.loMid) ∨ tmp ≥ f.hi then some (-1)
    else if tmp < f.cur then do
      let w ← f.wrap
      some (f.upd period save (tmp + w))
    else some (f.upd period save tmp)

/-- The loop over the list, lines 83-120 (and the same in the other parsers): remaining bytes,
the text from `head` to `p`, `save`. -/
def items (f : Field) (period : Int) : List Byte → List Byte → Int → Option Int
  | [], seg, save => if seg = [] then some save else item f true period save seg
  | b :: bs, seg, save =>
    if b = 44#8 then
      if seg = [] then some (-1)
      else do
        let s ← item f false period save seg
        if s = -1 then some (-1) else items f period bs [] s
    else if b = 42#8 then
      match bs with
      | c :: cs => if c = 44#8 then items f period cs [] (f.star period) else items f period (c :: cs) [] (f.star period)
      | [] => items f period [] [] (f.star period)
    else if isDig b then items f period bs (seg ++ [b]) save
    else some (-1)

/-- A field parser, lines 64-121 and its four copies. -/
def field (f : Field) (s : List Byte) : Option Int :=
  if s = [] then some (-1)
  else if s = [42#8] then some f.plain
  else
    match lastSlash s with
    | some (l, r) =>
      if atol r < f.perLo ∨ atol r ≥ f.perHi then some (-1)
      else items f (atol r) l [] 0
    | none => items f 0 s [] 0

/-- `arr[i]` of the result of mln_string_slice. -/
def piece (exp : List Byte) (arr : List (Nat × Nat)) (i : Nat) : Option (List Byte) := do
  let (off, len) ← arr[i]?
  some ((exp.drop off).take len)

/-- Lines 32-61: the four fields after the minute.  `some 0` is the error value. -/
def parseRest (exp : List Byte) (arr : List (Nat × Nat)) (base : Int) (u : Utc) : Option Int := do
  let u ← adjust u
  let tmp ← utc2time u
  let h ← field (hourF u.hour (decide (tmp > base))) (← piece exp arr 1)
  if h < 0 then some 0 else
  let u ← adjust { u with hour := h }
  let tmp ← utc2time u
  let d ← field (dayF u.year u.month u.day (decide (tmp > base))) (← piece exp arr 2)
  if d < 0 then some 0 else
  let u ← adjust { u with day := d }
  let tmp ← utc2time u
  let m ← field (monthF u.month (decide (tmp > base))) (← piece exp arr 3)
  if m < 0 then some 0 else
  let u ← adjust { u with month := m }
  let tmp ← utc2time u
  let w ← field (weekF u.week (decide (tmp > base))) (← piece exp arr 4)
  if w < 0 then some 0 else
  let u ← adjust { u with day := u.day + (w - u.week) }
  utc2time u

/-- mln_cron_parse, lines 16-62; `ok`: the allocations of mln_string_slice succeed. -/
def parse (ok : Bool) (exp : List Byte) (base : Int) : Option Int := do
  let u ← time2utc base
  if !ok then some 0 else
  let arr ← Str.slice exp [32#8, 9#8]
  let mi ← field (minuteF u.minute) (← piece exp arr 0)
  if mi < 0 then some 0 else
  parseRest exp arr base { u with minute := mi }

end Verif.Cron
