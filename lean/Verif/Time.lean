/-
Model of the calendar functions of /repo/src/mln_tools.c (lines 35-38, 343-523) and of the
content bytes of the two time encoders of /repo/src/mln_asn1.c (lines 775-860).

`long` and `time_t` are mathematical integers (`Int`): no wrap-around is modelled.  `/` and
`%` of C truncate, so they are `Int.tdiv`/`Int.tmod`; `>>` on `long` is an arithmetic shift.
`none` is an access outside `mon_days` or an exhausted loop budget (the properties show that
neither happens where they promise a result).
-/
namespace Verif.Time

abbrev Byte := BitVec 8

/-- struct utctime, mln_tools.h lines 24-32. -/
structure Utc where
  year : Int
  month : Int
  day : Int
  hour : Int
  minute : Int
  second : Int
  week : Int
deriving Repr, DecidableEq

/-- mon_days, mln_tools.c lines 35-38. -/
def monTab : List (List Int) :=
  [[31, 28, 31, 30, 31, 30, 31, 31, 30, 31, 30, 31],
   [31, 29, 31, 30, 31, 30, 31, 31, 30, 31, 30, 31]]

/-- mln_is_leap, lines 343-347. -/
def isLeap (year : Int) : Nat :=
  if (year.tmod 4 = 0 ∧ year.tmod 100 ≠ 0) ∨ year.tmod 400 = 0 then 1 else 0

/-- The access `mon_days[l][m]`; an index outside the row is undefined behaviour. -/
def monDays (l : Nat) (m : Int) : Option Int :=
  if 0 ≤ m then do
    let row ← monTab[l]?
    row[m.toNat]?
  else none

/-- Lines 355-359: the year loop of mln_time2utc (`cnt`, `uc->year`). -/
def yearLoop (days : Int) : Nat → Int → Int → Option (Int × Int)
  | 0, _, _ => none
  | fuel + 1, cnt, year =>
    if (if isLeap (1970 + year) = 1 then cnt + 366 else cnt + 365) ≤ days then
      yearLoop days fuel (if isLeap (1970 + year) = 1 then cnt + 366 else cnt + 365) (year + 1)
    else some (cnt, year)

/-- Lines 364-367: the month loop (`cnt`, `uc->month`). -/
def monthLoop (l : Nat) (subdays : Int) : Nat → Int → Int → Option (Int × Int)
  | 0, _, _ => none
  | fuel + 1, cnt, month => do
    let d ← monDays l month
    if cnt + d ≤ subdays then monthLoop l subdays fuel (cnt + d) (month + 1)
    else some (cnt, month)

/-- Lines 373-375 (and 447-449): the day of the week. -/
def weekOf (year month day : Int) : Int :=
  let m := if month < 3 then month + 12 else month
  let y := if month < 3 then year - 1 else year
  (day + 1 + 2 * m + (3 * (m + 1)).tdiv 5 + y + (y >>> 2) - y.tdiv 100 + y.tdiv 400).tmod 7

/-- mln_time2utc, lines 349-376. -/
def time2utc (tm : Int) : Option Utc := do
  let days := tm.tdiv 86400
  let subsec := tm.tmod 86400
  let (cnt, y) ← yearLoop days (days.toNat + 1) 0 0
  let year := y + 1970
  let subdays := days - cnt
  let (cnt, m) ← monthLoop (isLeap year) subdays 13 0 0
  let month := m + 1
  let day := subdays - cnt + 1
  some { year, month, day
         hour := subsec.tdiv 3600
         minute := (subsec.tmod 3600).tdiv 60
         second := (subsec.tmod 3600).tmod 60
         week := weekOf year month day }

/-- Lines 383-385: `for (; year >= 1970; --year) ret += ...`. -/
def yearSum : Nat → Int → Int → Option Int
  | 0, _, _ => none
  | fuel + 1, year, ret =>
    if year ≥ 1970 then yearSum fuel (year - 1) (ret + (if isLeap year = 1 then 366 else 365))
    else some ret

/-- Lines 386-388: `for (; month >= 0; --month) ret += ...`. -/
def monthSum (l : Nat) : Nat → Int → Int → Option Int
  | 0, _, _ => none
  | fuel + 1, month, ret =>
    if month ≥ 0 then do
      let d ← monDays l month
      monthSum l fuel (month - 1) (ret + d)
    else some ret

/-- mln_utc2time, lines 378-394. -/
def utc2time (uc : Utc) : Option Int := do
  let ret ← yearSum ((uc.year - 1970).toNat + 1) (uc.year - 1) 0
  let ret ← monthSum (isLeap uc.year) (uc.month.toNat + 1) (uc.month - 2) ret
  let ret := ret + (uc.day - 1)
  let ret := ret * 86400
  some (ret + (uc.hour * 3600 + uc.minute * 60 + uc.second))

/-- The `again:` loop of mln_utc_adjust, lines 424-433: (`adj` set?, day, month, year). -/
def again : Nat → Bool → Int → Int → Int → Option (Bool × Int × Int × Int)
  | 0, _, _, _, _ => none
  | fuel + 1, adj, day, month, year => do
    let d ← monDays (isLeap year) (month - 1)
    if day > d then
      if month + 1 > 12 then again fuel true (day - d) 1 (year + 1)
      else again fuel true (day - d) (month + 1) year
    else some (adj, day, month, year)

/-- mln_utc_adjust, lines 396-450. -/
def adjust (uc : Utc) : Option Utc := do
  let adj := if uc.second ≥ 60 then uc.second.tdiv 60 else 0
  let second := if uc.second ≥ 60 then uc.second.tmod 60 else uc.second
  let minute := uc.minute + adj
  let adj := if minute ≥ 60 then minute.tdiv 60 else 0
  let minute := if minute ≥ 60 then minute.tmod 60 else minute
  let hour := uc.hour + adj
  let adj := if hour ≥ 24 then hour.tdiv 24 else 0
  let hour := if hour ≥ 24 then hour.tmod 24 else hour
  let day := uc.day + adj
  let (adj, day, m, y) ← again (day.toNat + 1) false day uc.month uc.year
  let month := if adj then m else uc.month
  let year := if adj then y else uc.year
  let adj := if month - 1 ≥ 12 then (month - 1).tdiv 12 else 0
  let month := if month - 1 ≥ 12 then (month - 1).tmod 12 + 1 else month
  let year := year + adj
  some { year, month, day, hour, minute, second, week := weekOf year month day }

/-- mln_month_days, lines 452-454. -/
def monthDays (year month : Int) : Option Int := monDays (isLeap year) (month - 1)

/-- mln_isdigit as used on lines 467 and 480. -/
def isDigit (b : Byte) : Bool := decide (48 ≤ b.toNat ∧ b.toNat ≤ 57)

/-- `*p - '0'`. -/
def dig (b : Byte) : Int := (b.toNat : Int) - 48

/-- Two digits at the pointer `p`, as read on lines 491-500. -/
def two (s : List Byte) (p : Nat) : Option Int := do
  let a ← s[p]?
  let b ← s[p + 1]?
  some (dig a * 10 + dig b)

/-- Lines 511-513: `for (tmp = 1970; tmp < year; ++tmp) day += ...`. -/
def upYears (year : Int) : Nat → Int → Int → Option Int
  | 0, _, _ => none
  | fuel + 1, tmp, day =>
    if tmp < year then upYears year fuel (tmp + 1) (day + (if isLeap tmp = 1 then 366 else 365))
    else some day

/-- Lines 514-516: `for (--month, tmp = 0; tmp < month; ++tmp) day += ...`. -/
def upMonths (l : Nat) (month : Int) : Nat → Int → Int → Option Int
  | 0, _, _ => none
  | fuel + 1, tmp, day =>
    if tmp < month then do
      let d ← monDays l tmp
      upMonths l month fuel (tmp + 1) (day + d)
    else some day

/-- Lines 491-522 of mln_s2time: month, day, hour, minute and second from position `p`,
the checks (in the order of the short-circuit `||`), and the sum.  `some none` is the
return value −1, `some (some t)` the return value 0 with `*tm = t`. -/
def s2timeRest (s : List Byte) (p : Nat) (year : Int) : Option (Option Int) := do
  let month ← two s p
  let day ← two s (p + 2)
  let hour ← two s (p + 4)
  let minute ← two s (p + 6)
  let second ← two s (p + 8)
  if year < 1970 then some none
  else if month > 12 then some none
  else
    let d ← monDays (isLeap year) (month - 1)
    if day > d then some none
    else if hour ≥ 24 then some none
    else if minute ≥ 60 then some none
    else if second ≥ 60 then some none
    else
      let day ← upYears year ((year - 1970).toNat + 1) 1970 day
      let day ← upMonths (isLeap year) (month - 1) 13 0 day
      let day := day - 1
      let tm := day * 86400
      some (some (if hour ≠ 0 ∨ minute ≠ 0 ∨ second ≠ 0 then tm + (hour * 3600 + minute * 60 + second) else tm))

/-- mln_s2time, lines 456-523.  `type` 0 is M_TOOLS_TIME_UTC, 1 M_TOOLS_TIME_GENERALIZEDTIME. -/
def s2time (s : List Byte) (type : Nat) : Option (Option Int) :=
  if type = 0 then do
    if s.length ≠ 13 then return none
    let e ← s[s.length - 1]?
    if e ≠ 0x5a#8 ∧ e ≠ 0x7a#8 then return none
    if (s.take (s.length - 1)).any (fun b => !isDigit b) then return none
    let year ← two s 0
    let year := if year ≥ 50 then year + 1900 else year + 2000
    s2timeRest s 2 year
  else if type = 1 then do
    if s.length ≠ 15 then return none
    let e ← s[s.length - 1]?
    if e ≠ 0x5a#8 ∧ e ≠ 0x7a#8 then return none
    if (s.take (s.length - 1)).any (fun b => !isDigit b) then return none
    let y1 ← s[0]?
    let y2 ← s[1]?
    let y3 ← s[2]?
    let y4 ← s[3]?
    let year := dig y1 * 1000 + dig y2 * 100 + dig y3 * 10 + dig y4
    s2timeRest s 4 year
  else some none

/-- `*p++ = x + '0'` (conversion to unsigned char). -/
def chr (x : Int) : Byte := BitVec.ofInt 8 (x + 48)

/-- Lines 797-807 / 839-849 of mln_asn1.c: month to second, then 'Z'. -/
def encRest (uc : Utc) : List Byte :=
  [chr (uc.month.tdiv 10), chr (uc.month.tmod 10), chr (uc.day.tdiv 10), chr (uc.day.tmod 10),
   chr (uc.hour.tdiv 10), chr (uc.hour.tmod 10), chr (uc.minute.tdiv 10), chr (uc.minute.tmod 10),
   chr (uc.second.tdiv 10), chr (uc.second.tmod 10), 0x5a#8]

/-- mln_asn1_encode_utctime, lines 781-807: the 13 content bytes. -/
def encUtcTime (tm : Int) : Option (List Byte) := do
  let uc ← time2utc tm
  let y := if uc.year > 2000 then uc.year - 2000 else uc.year - 1900
  some (chr (y.tdiv 10) :: chr (y.tmod 10) :: encRest uc)

/-- mln_asn1_encode_generalized_time, lines 823-849: the 15 content bytes. -/
def encGenTime (tm : Int) : Option (List Byte) := do
  let uc ← time2utc tm
  some (chr (uc.year.tdiv 1000) :: chr ((uc.year.tmod 1000).tdiv 100)
    :: chr ((uc.year.tmod 100).tdiv 10) :: chr (uc.year.tmod 10) :: encRest uc)

end Verif.Time
