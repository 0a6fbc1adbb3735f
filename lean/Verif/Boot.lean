import Mathlib.Data.Nat.Digits.Defs
/-!
# Starting Melon: limits, the user, the file with the number of the process

mln_tools.c: mln_sys_core_modify and mln_sys_nofile_modify (57-141), mln_daemon (144-174), mln_set_id (176-253),
mln_boot_params (256-277), mln_boot_reload (290-313), mln_boot_stop (315-338); mln_log.c: the part of
mln_log_set that writes melon.pid (252-272); mln_framework.c: the order of the calls (47-61).

Simplifications.
* The users of the system are a function from names to numbers.  setuid, setgid, seteuid and setegid follow setuid(2) of
  Linux; setuid may fail for root (`again`: RLIMIT_NPROC).
* The owner of the log files and messages are left out.
* mln_log_pid_path() and mln_path_pid() are the same file once the log was initialised.
* Numbers of processes are positive `int`s.  atoi of more is undefined: `none`.
-/
namespace Verif.Boot

/-- An argument of a command of the configuration. -/
inductive Arg
  | int (i : Int)
  | str (s : List Nat)
  | other
  deriving DecidableEq

/-! ## Limits -/

/-- RLIM_INFINITY -/
def infinity : Nat := 2 ^ 64 - 1
/-- "unlimited" -/
def unlimited : List Nat := [117, 110, 108, 105, 109, 105, 116, 101, 100]

/-- mln_sys_core_modify and mln_sys_nofile_modify: `cmd` are the arguments of the command if there is one, `set` whether
setrlimit accepts a value.  `none` is a NULL pointer; otherwise whether it succeeds and the limit that was set. -/
def limit (cmd : Option (List Arg)) (set : Nat → Bool) : Option (Bool × Option Nat) :=
  match cmd with
  | none => some (true, none)
  | some args =>
    match args.head? with
    | none => none
    | some (.int i) => let v := (i % 2 ^ 64).toNat; if set v then some (true, some v) else some (false, none)
    | some (.str s) => if s ≠ unlimited then some (false, none) else if set infinity then some (true, some infinity) else some (false, none)
    | some .other => some (false, none)

/-! ## The user -/

/-- The numbers a process has: real, effective and saved. -/
structure Cred where
  ruid : Nat
  euid : Nat
  suid : Nat
  rgid : Nat
  egid : Nat
  sgid : Nat
  groups : List Nat
  deriving DecidableEq

/-- setgid(2), setuid(2), setegid(2), seteuid(2): whether it succeeds, and the numbers after. -/
def setgid (c : Cred) (g : Nat) : Bool × Cred :=
  if c.euid = 0 then (true, { c with rgid := g, egid := g, sgid := g })
  else if g = c.rgid ∨ g = c.sgid then (true, { c with egid := g }) else (false, c)
def setuid (again : Bool) (c : Cred) (u : Nat) : Bool × Cred :=
  if c.euid = 0 then (if again then (false, c) else (true, { c with ruid := u, euid := u, suid := u }))
  else if u = c.ruid ∨ u = c.suid then (true, { c with euid := u }) else (false, c)
def setegid (c : Cred) (g : Nat) : Bool × Cred :=
  if c.euid = 0 ∨ g = c.rgid ∨ g = c.sgid then (true, { c with egid := g }) else (false, c)
def seteuid (c : Cred) (u : Nat) : Bool × Cred :=
  if c.euid = 0 ∨ u = c.ruid ∨ u = c.suid then (true, { c with euid := u }) else (false, c)

/-- The name given to getpwnam, lines 208-211: at most 255 bytes, up to a NUL. -/
def cname (s : List Nat) : List Nat := (s.take 255).takeWhile (· ≠ 0)

/-- The numbers that mln_set_id sets, lines 194-222; `none` is a failure. -/
def target (users : List Nat → Option (Nat × Nat)) (cmd : Option (List Arg)) (c : Cred) : Option (Nat × Nat) :=
  match cmd with
  | none => some (c.ruid, c.rgid)
  | some args =>
    match args.head? with
    | some (.str s) => (users (cname s)).map fun p => if p.1 ≠ c.ruid then p else (c.ruid, c.rgid)
    | _ => none

/-- mln_set_id: whether it succeeds, and the numbers after. -/
def setId (users : List Nat → Option (Nat × Nat)) (again : Bool) (cmd : Option (List Arg)) (c : Cred) : Bool × Cred :=
  match target users cmd c with
  | none => (false, c)
  | some (uid, gid) =>
    let r := setgid c gid
    if r.1 = false then (false, r.2)
    else
      let c := (setuid again r.2 uid).2
      let c := (setegid c gid).2
      (true, (seteuid c uid).2)

/-! ## The file melon.pid -/

/-- printf of %lu. -/
def print (n : Nat) : List Nat := if n = 0 then [48] else ((Nat.digits 10 n).reverse).map (· + 48)

def isDigit (c : Nat) : Bool := 48 ≤ c && c ≤ 57
def isBlank (c : Nat) : Bool := c = 32 || (9 ≤ c && c ≤ 13)

/-- The number at the start of a text. -/
def number (s : List Nat) : Nat := (s.takeWhile isDigit).foldl (fun a c => a * 10 + (c - 48)) 0

/-- The number with its sign. -/
def signed : List Nat → Int
  | [] => 0
  | c :: r => if c = 45 then - (number r : Int) else if c = 43 then number r else number (c :: r)

/-- atoi; `none` is a number that is no `int`. -/
def atoi (s : List Nat) : Option Int :=
  let v := signed (s.dropWhile isBlank)
  if -2 ^ 31 ≤ v ∧ v < 2 ^ 31 then some v else none

/-- What the two boot parameters do: exit, or a signal to the process of this number. -/
inductive Sent
  | exit1
  | kill (pid : Int)
  deriving DecidableEq

/-- mln_boot_stop: the file melon.pid, if it can be opened. -/
def stop (file : Option (List Nat)) : Option Sent :=
  match file with
  | none => some .exit1
  | some f => if (f.take 1023).length = 0 then some .exit1 else (atoi (f.take 1023)).map .kill

/-- mln_boot_reload: it opens `g_log.pid_path`, which is the empty path until mln_log_init is called (`inited`). -/
def reload (inited : Bool) (file : Option (List Nat)) : Option Sent := stop (if inited then file else none)

/-- A process that was started: its number, the numbers of processes that have ended, the file melon.pid. -/
structure Started where
  pid : Nat
  ended : List Nat
  file : List Nat
  deriving DecidableEq

/-- mln_daemon: mln_log_init writes the file, then the process forks if the configuration says so (`child` is the number of
the new process) and the first one ends. -/
def daemon (pid : Nat) (inDaemon : Bool) (child : Nat) : Started :=
  let file := print pid
  if inDaemon = false then ⟨pid, [], file⟩ else ⟨child, [pid], file⟩

/-- mln_framework_init with a boot parameter, lines 48-58: the parameters are looked at before mln_daemon calls
mln_log_init. -/
def bootReload (file : Option (List Nat)) : Option Sent := reload false file
def bootStop (file : Option (List Nat)) : Option Sent := stop file

end Verif.Boot
