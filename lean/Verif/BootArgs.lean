import Mathlib.Data.List.Basic
/-!
# The boot parameters, and the files of a daemon

mln_tools.c: boot_params (39-45), mln_boot_params (256-277); the descriptors in mln_daemon (144-174).

Simplifications.
* Strings are lists of bytes.  A handler is what it does to the process: it ends it (as all handlers of the table do), or
  it returns a number.
* Files are numbers.  open and dup take the lowest descriptor that is free, below a limit; close of a descriptor that is
  not open does nothing.  Nobody else opens files meanwhile.
-/
namespace Verif.BootArgs

/-- What a handler does, mln_tools.c lines 268-271, 286. -/
inductive Act
  | exit
  | ret (n : Int)
  deriving DecidableEq

/-- mln_boot_t, mln_tools.c lines 39-45; `cnt` is whether it was used. -/
structure Param where
  name : List Nat
  short : List Nat
  act : Act
  cnt : Bool := false

/-- How mln_boot_params ends: the process ends, or a return value (mln_tools.c lines 270, 276). -/
inductive Out
  | exit
  | ret (n : Int)
  deriving DecidableEq

/-- The inner loop, mln_tools.c lines 263-274: the handlers that were called (by name), the table, and how it ended if it
did not come to the end of the table. -/
def scan (p : List Nat) : List Param → List (List Nat) × List Param × Option Out
  | [] => ([], [], none)
  | b :: bs =>
    if b.cnt = false ∧ (p = b.name ∨ p = b.short) then
      let b' := { b with cnt := true }
      match b.act with
      | .exit => ([b.name], b' :: bs, some .exit)
      | .ret n =>
        if n < 0 then ([b.name], b' :: bs, some (.ret n))
        else
          let r := scan p bs
          (b.name :: r.1, b' :: r.2.1, r.2.2)
    else
      let r := scan p bs
      (r.1, b :: r.2.1, r.2.2)

/-- The outer loop, mln_tools.c lines 261-276, over the arguments behind the name of the program. -/
def loop : List (List Nat) → List Param → List (List Nat) × Out
  | [], _ => ([], .ret 0)
  | p :: ps, t =>
    let r := scan p t
    match r.2.2 with
    | some o => (r.1, o)
    | none =>
      let q := loop ps r.2.1
      (r.1 ++ q.1, q.2)

/-- mln_boot_params, mln_tools.c lines 256-277. -/
def bootParams (argv : List (List Nat)) (t : List Param) : List (List Nat) × Out := loop argv.tail t

/-- "--help", "-h", "--reload", "-r", "--stop", "-s", mln_tools.c lines 40-44. -/
def help : List Nat := [45, 45, 104, 101, 108, 112]
def shortHelp : List Nat := [45, 104]
def reload : List Nat := [45, 45, 114, 101, 108, 111, 97, 100]
def shortReload : List Nat := [45, 114]
def stop : List Nat := [45, 45, 115, 116, 111, 112]
def shortStop : List Nat := [45, 115]

/-- boot_params, mln_tools.c lines 39-45: all handlers end the process (lines 286, 312, 336). -/
def table : List Param := [⟨help, shortHelp, .exit, false⟩, ⟨reload, shortReload, .exit, false⟩, ⟨stop, shortStop, .exit, false⟩]

/-! ## The descriptors of a daemon -/

/-- The files that the descriptors of mln_tools.c lines 157-165 are open for. -/
abbrev Fds := Nat → Option Nat

/-- close, mln_tools.c lines 160-162. -/
def close (t : Fds) (d : Nat) : Fds := fun x => if x = d then none else t x

/-- The lowest free descriptor from `d` on, as open and dup in mln_tools.c lines 163-165 take it. -/
def lowest (t : Fds) : Nat → Nat → Option Nat
  | 0, _ => none
  | n + 1, d => if t d = none then some d else lowest t n (d + 1)

/-- A new descriptor for the file `f`: open and dup, mln_tools.c lines 163-165. -/
def take (lim : Nat) (t : Fds) (f : Option Nat) : Option Nat × Fds :=
  match f with
  | none => (none, t)
  | some f =>
    match lowest t lim 0 with
    | none => (none, t)
    | some d => (some d, fun x => if x = d then some f else t x)

/-- mln_daemon, mln_tools.c lines 157-172: `null` is the file that is opened, if it can be.  The flag is whether the
message of line 170 is printed. -/
def daemonFds (lim : Nat) (null : Option Nat) (t : Fds) : Bool × Fds :=
  let t := close (close (close t 0) 1) 2
  let a := take lim t null
  let b := take lim a.2 (a.1.bind a.2)
  let c := take lim b.2 (a.1.bind b.2)
  (!(a.1 = some 0 && b.1 = some 1 && c.1 = some 2), c.2)

end Verif.BootArgs
