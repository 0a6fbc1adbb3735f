/-!
# Functions that are watched, and paths that are replaced

The wrappers of include/mln_func.h with MLN_FUNC_FLAG (`MLN_FUNC` and `MLN_FUNC_VOID`, lines 18-48 and
78-108) with the callbacks of mln_func.c:7-28, and the hooks of mln_path.c:34-122.

Simplifications.
* A program is what its functions do, one thing after another: `act` is anything else than a call.
* Callbacks only answer; they call no watched functions and change no callbacks.
* The numbers of file and line and the arguments that the callbacks get are left out.
-/
namespace Verif.Hook

/-! ## Watched functions -/

/-- A program: what is done next, and what follows. -/
inductive Prog
  | done
  | act (n : Nat) (next : Prog)
  /-- a call of the watched function `f` -/
  | call (f : Nat) (body next : Prog)
  /-- `mln_func_entry_callback_set`: whether the callback lets a function run -/
  | entrySet (cb : Option (Nat → Bool)) (next : Prog)
  /-- `mln_func_exit_callback_set` -/
  | exitSet (cb : Bool) (next : Prog)

inductive Ev
  | act (n : Nat)
  /-- the entry callback is called for `f` -/
  | enter (f : Nat)
  /-- the exit callback is called for `f`; `ran` tells whether the body was run -/
  | leave (f : Nat) (ran : Bool)
  deriving DecidableEq, Repr

/-- `mln_func_entry` (a negative answer is `false`) and whether `mln_func_exit` is set. -/
structure St where
  entry : Option (Nat → Bool) := none
  exit : Bool := false

/-- `if (mln_func_entry != NULL) if (mln_func_entry(...) < 0) goto out;` -/
def St.lets (s : St) (f : Nat) : Bool :=
  match s.entry with
  | none => true
  | some cb => cb f

/-- The program, with what is seen. -/
def run (s : St) : Prog → St × List Ev
  | .done => (s, [])
  | .act n next =>
    let r := run s next
    (r.1, .act n :: r.2)
  | .entrySet cb next => run { s with entry := cb } next
  | .exitSet cb next => run { s with exit := cb } next
  | .call f body next =>
    let b := if s.lets f then run s body else (s, [])
    let r := run b.1 next
    (r.1, (if s.entry.isSome then [.enter f] else []) ++ b.2 ++ (if b.1.exit then [.leave f (s.lets f)] else []) ++ r.2)

/-- `(ret_type)MLN_FUNC_ERROR` for a type of `w` bits: what a refused call returns, mln_func.h:13, 25. -/
def refusedValue (w : Nat) : BitVec w := BitVec.ofInt w (-1)

/-! ## Paths -/

/-- `mln_path_type_t`, include/mln_path.h. -/
inductive Kind | install | null | melangLib | melangDylib | conf | tmpfile | pid | log
  deriving DecidableEq, Repr

/-- The eight static pointers, mln_path.c:34-48. -/
structure Paths (H : Type) where
  install : Option H := none
  null : Option H := none
  melangLib : Option H := none
  melangDylib : Option H := none
  conf : Option H := none
  tmpfile : Option H := none
  pid : Option H := none
  log : Option H := none

/-- `mln_path_hook_set`, mln_path.c:51-83. -/
def hookSet {H : Type} (p : Paths H) (k : Kind) (h : Option H) : Paths H :=
  match k with
  | .install => { p with install := h }
  | .conf => { p with conf := h }
  | .tmpfile => { p with tmpfile := h }
  | .pid => { p with pid := h }
  | .log => { p with log := h }
  | .null => { p with null := h }
  | .melangLib => { p with melangLib := h }
  | .melangDylib => { p with melangDylib := h }

/-- `mln_path` to `mln_path_melang_dylib`, mln_path.c:85-122: the hook that is called, `none`: the path
that is compiled in. -/
def path {H : Type} (p : Paths H) : Kind → Option H
  | .install => p.install
  | .conf => p.conf
  | .tmpfile => p.tmpfile
  | .pid => p.pid
  | .log => p.log
  | .null => p.null
  | .melangLib => p.melangLib
  | .melangDylib => p.melangDylib

end Verif.Hook
