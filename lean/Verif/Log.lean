import Verif.Conf
import Verif.Time
/-
Model of src/mln_log.c: which messages are written and how, the level and the file taken from the
configuration, and reloading.

Simplifications:
* a write takes all bytes (its result is not used by the code either);
* a `char *` is its bytes, none of them zero; configured strings hold no zero byte;
* snprintf of integers is the usual text of the number; a finite double is what "%f" prints of it: a
  sign and a number of millionths;
* of the arguments only the type counts: a conversion whose argument has another type is undefined
  (int and unsigned int count as one type, and so do long and unsigned long);
* the spin lock belongs to the only thread, so taking it again never returns;
* file locks, the pid written, mln_log_init outside of the calls below and MSVC are left out.
-/
namespace Verif.Log
open Conf (Item)

abbrev Byte := BitVec 8

/-- Bytes of a text. -/
def txt (s : String) : List Byte := s.toList.map fun c => BitVec.ofNat 8 c.toNat

/-- The digits of a number. -/
def digits (base n : Nat) : List Byte := (Nat.toDigits base n).map fun c => BitVec.ofNat 8 c.toNat

/-- "%ld" and "%d". -/
def dec (i : Int) : List Byte := if i < 0 then 45#8 :: digits 10 i.natAbs else digits 10 i.natAbs

/-- "%02ld" of numbers that are not negative. -/
def dec2 (i : Int) : List Byte := if 0 ≤ i ∧ i < 10 then 48#8 :: dec i else dec i

/-- An argument of mln_log. -/
inductive Arg where
  | str (s : List Byte)
  | mstr (s : List Byte)
  | int (n : BitVec 32)
  | long (n : BitVec 64)
  | dbl (neg : Bool) (micro : Nat)
deriving DecidableEq, Repr

/-- "%f". -/
def fixed (neg : Bool) (micro : Nat) : List Byte :=
  (if neg then [45#8] else []) ++ digits 10 (micro / 1000000) ++
    46#8 :: (digits 10 (1000000 + micro % 1000000)).drop 1

/-- mln_log_t, include/mln_log.h lines 22-34, with all writes made (descriptor and bytes), the
descriptors closed, and whether the lock is held. -/
structure Lg where
  level : Nat := 0
  init : Bool := false
  inDaemon : Bool := false
  fd : Nat := 2
  dirPath : List Byte := []
  pidPath : List Byte := []
  logPath : List Byte := []
  held : Bool := false
  out : List (Nat × List Byte) := []
  closed : List Nat := []
deriving DecidableEq, Repr

/-- What becomes of a call: it returns, an access outside of an object, or it does not return. -/
inductive Res (α : Type) where
  | ok (a : α)
  | bad
  | hang
deriving DecidableEq, Repr

def Res.bind {α β} (r : Res α) (f : α → Res β) : Res β :=
  match r with
  | .ok a => f a
  | .bad => .bad
  | .hang => .hang

instance : Monad Res where
  pure := .ok
  bind := Res.bind

/-! ## Writing -/

/-- Whether the terminal gets a copy. -/
def Lg.tty (l : Lg) : Bool := l.init && !l.inDaemon

/-- mln_log_write, lines 405-416. -/
def write (l : Lg) (bs : List Byte) : Lg :=
  { l with out := l.out ++ [(l.fd, bs)] ++ if l.tty then [(2, bs)] else [] }

/-- The name of a level. -/
def levelName (level : Nat) : List Byte :=
  match level with
  | 1 => txt "REPORT"
  | 2 => txt "DEBUG"
  | 3 => txt "WARN"
  | 4 => txt "ERROR"
  | _ => []

/-- The colour of a level. -/
def levelColour (level : Nat) : List Byte :=
  match level with
  | 1 => txt "\x1b[34m"
  | 2 => txt "\x1b[32m"
  | 3 => txt "\x1b[33m"
  | _ => txt "\x1b[31m"

/-- mln_log_level_write, lines 418-463. -/
def levelWrite (l : Lg) (level : Nat) : Lg :=
  if 1 ≤ level ∧ level ≤ 4 then
    { l with out := l.out ++ [(l.fd, levelName level ++ txt ": ")] ++
        if l.tty then [(2, levelColour level ++ levelName level ++ txt "\x1b[0m: ")] else [] }
  else l

/-- snprintf into `line_str` (256 bytes, all zero) with the size 255, then a write of as many bytes as
it reports, e.g. lines 570-572. -/
def writeNum (l : Lg) (text : List Byte) : Res Lg :=
  if text.length > 256 then .bad
  else .ok (write l ((text.take 254 ++ List.replicate 256 0#8).take text.length))

/-- The cases of the switch, lines 532-637: `none` is `default`. -/
def conv (l : Lg) (c : Byte) (args : List Arg) : Res (Option (Lg × List Arg)) :=
  if c = 115#8 then
    match args with
    | .str s :: args => .ok (some (write l s, args))
    | _ => .bad
  else if c = 83#8 then
    match args with
    | .mstr s :: args => .ok (some (write l s, args))
    | _ => .bad
  else if c = 108#8 ∨ c = 105#8 then
    match args with
    | .long n :: args => do return some (← writeNum l (dec n.toInt), args)
    | _ => .bad
  else if c = 100#8 then
    match args with
    | .int n :: args => do return some (← writeNum l (dec n.toInt), args)
    | _ => .bad
  else if c = 99#8 then
    match args with
    | .int n :: args => .ok (some (write l [n.setWidth 8], args))
    | _ => .bad
  else if c = 102#8 then
    match args with
    | .dbl s m :: args => do return some (← writeNum l (fixed s m), args)
    | _ => .bad
  else if c = 120#8 then
    match args with
    | .int n :: args => do return some (← writeNum l (digits 16 n.toNat), args)
    | _ => .bad
  else if c = 88#8 then
    match args with
    | .long n :: args => do return some (← writeNum l (digits 16 n.toNat), args)
    | _ => .bad
  else if c = 117#8 then
    match args with
    | .int n :: args => do return some (← writeNum l (digits 10 n.toNat), args)
    | _ => .bad
  else if c = 85#8 ∨ c = 73#8 then
    match args with
    | .long n :: args => do return some (← writeNum l (digits 10 n.toNat), args)
    | _ => .bad
  else .ok none

/-- log_err_fmt, line 50. -/
def errFmt : List Byte := txt "Log message format error."

/-- Lines 520-641: `acc` are the `cnt` bytes from `p` on. -/
def message : List Byte → Lg → List Byte → List Arg → Res Lg
  | acc, l, [], _ => .ok (if acc ≠ [] then write l acc else l)
  | acc, l, c :: r, args =>
    if c ≠ 37#8 then message (acc ++ [c]) l r args
    else
      let l := write l acc
      match r with
      | [] => .ok (write (write l errFmt) [10#8])
      | d :: r =>
        match conv l d args with
        | .bad => .bad
        | .hang => .hang
        | .ok none => .ok (write (write l errFmt) [10#8])
        | .ok (some (l, args)) => message [] l r args

/-- Where a message comes from: file, function, line; the time and the process. -/
structure Src where
  file : List Byte
  func : List Byte
  line : Int
  now : Time.Utc
  pid : Int
deriving Repr

/-- The text of the time, lines 496-499. -/
def stamp (u : Time.Utc) : List Byte :=
  dec2 u.month ++ 47#8 :: dec2 u.day ++ 47#8 :: dec u.year ++ 32#8 :: dec2 u.hour ++ 58#8 :: dec2 u.minute ++
    58#8 :: dec2 u.second ++ txt " UTC "

/-- _mln_sys_log_process, lines 479-642. -/
def process (l : Lg) (level : Nat) (src : Src) (msg : List Byte) (args : List Arg) : Res Lg :=
  if level < l.level then .ok l
  else do
    let l ← if level > 0 then writeNum l (stamp src.now) else .ok l
    let l := levelWrite l level
    let l ← if level ≥ 2 then do
        let l := write (write (write (write l src.file) [58#8]) src.func) [58#8]
        let l ← writeNum l (dec src.line)
        .ok (write l (txt ": "))
      else .ok l
    let l ← if level > 0 then writeNum l (txt "PID:" ++ dec src.pid ++ [32#8]) else .ok l
    message [] l msg args

/-- _mln_sys_log, lines 383-403. -/
def sysLog (l : Lg) (level : Nat) (src : Src) (msg : List Byte) (args : List Arg) : Res Lg :=
  if l.held then .hang
  else do
    let l ← process { l with held := true } level src msg args
    .ok { l with held := false }

/-! ## The file -/

/-- The memory and `path_len` of the path, lines 180-208: `mln_path()` is `root`, `mln_path_log()` is
`dflt`, and the arguments of `log_path` are `arg` (`none` if there is no such command). -/
def pathOf (root dflt : List Byte) : Option (List Item) → Option (List Byte × Nat)
  | none => some ((dflt.take 1022 ++ List.replicate 1024 0#8).take 1024, dflt.length)
  | some [.str s] =>
    if s.headD 0#8 ≠ 47#8 ∧ s.headD 0#8 ≠ 46#8 then
      let p := root ++ 47#8 :: s
      some ((p.take 1022 ++ List.replicate 1024 0#8).take 1024, p.length)
    else some (s ++ [0#8], min s.length 1023)
  | some _ => none

/-- Lines 209-210: the number of bytes before the last slash among the first `n`; `none` is that `p`
ends before the path. -/
def lastSlash (mem : List Byte) : Nat → Option Nat
  | 0 => none
  | n + 1 => if mem[n]? = some 47#8 then some n else lastSlash mem n

/-- What the system says: whether the directory is there after mkdir, the descriptor from `open`, and
whether the file for the pid can be opened. -/
structure Sys where
  mkdir : Bool := true
  fd : Option Nat
  pid : Bool := true
deriving DecidableEq, Repr

/-- mln_log_get_log, lines 167-274, for a configuration that is not empty. -/
def getLog (l : Lg) (root dflt : List Byte) (arg : Option (List Item)) (isInit : Bool) (sys : Sys) :
    Res (Int × Lg) :=
  match pathOf root dflt arg with
  | none => .ok (-1, l)
  | some (mem, len) =>
    if len > mem.length then .bad
    else
      match lastSlash mem len with
      | none => .bad
      | some i =>
        if i ≥ 512 then .bad
        else
          let l := { l with dirPath := mem.take i }
          if !sys.mkdir then .ok (-1, l)
          else
            match sys.fd with
            | none => .ok (-1, l)
            | some fd =>
              let l := { l with closed := if !isInit && l.fd > 2 then l.closed ++ [l.fd] else l.closed, fd := fd }
              if len ≥ 1024 then .bad
              else
                let l := { l with logPath := mem.take len }
                if isInit then
                  let l := { l with pidPath := (l.dirPath ++ txt "/melon.pid").take 1022 }
                  if sys.pid then .ok (0, l) else .ok (-1, l)
                else .ok (0, l)

/-! ## The level -/

/-- mln_log_set_level, lines 313-360: `arg` are the arguments of `log_level`; an error is logged
unless this is the start. -/
def setLevel (l : Lg) (arg : Option (List Item)) (isInit : Bool) (src : Src) : Res (Int × Lg) :=
  let fail (msg : List Byte) : Res (Int × Lg) :=
    if isInit then .ok (-1, l) else do .ok (-1, ← sysLog l 4 src msg [])
  match arg with
  | none => .ok (0, l)
  | some is =>
    match Conf.itemSearch is 1 with
    | none => fail (txt "Command 'log_level' need a parameter.\n")
    | some (.str s) =>
      if s = txt "none" then .ok (0, { l with level := 0 })
      else if s = txt "report" then .ok (0, { l with level := 1 })
      else if s = txt "debug" then .ok (0, { l with level := 2 })
      else if s = txt "warn" then .ok (0, { l with level := 3 })
      else if s = txt "error" then .ok (0, { l with level := 4 })
      else fail (txt "Parameter value of command [log_level] error.\n")
    | some _ => fail (txt "Parameter type of command 'log_level' error.\n")

/-- mln_log_reload, lines 365-378. -/
def reload (l : Lg) (root dflt : List Byte) (path level : Option (List Item)) (sys : Sys) (src : Src) :
    Res (Int × Lg) :=
  if l.held then .hang
  else do
    let (_, l) ← getLog { l with held := true } root dflt path false sys
    let (r, l) ← setLevel l level false src
    .ok (r, { l with held := false })

end Verif.Log
