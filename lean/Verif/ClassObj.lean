import Mathlib.Data.List.Basic
/-!
# Objects of classes

include/mln_class.h: the macros `new` (lines 12-20) and `delete` (lines 21-26).

Simplifications.
* An object is the number of its allocation, 0 is NULL; memory is not used again.  A class is a number, which also
  stands for its constructor and its destructor.
* Constructors and destructors are events in a log; they do not make or delete objects themselves.
* The argument of `delete` is an expression: `e i` is its value when it is evaluated for the (i+1)-th time.  `delete`
  evaluates it four times if the first value is not NULL: in the test, for the member `_destructor`, as the argument of
  the destructor and as that of free.  (The order of the two in the middle is not specified by C; here it is the order
  in which they are written.)
* `none` is the use of an object that is not allocated.
-/
namespace Verif.ClassObj

inductive Ev
  | constructed (c n arg : Nat)
  | destructed (c n : Nat)
  | freed (n : Nat)
  deriving DecidableEq

/-- The memory: the class whose destructor an object holds, the number of allocations, and the log. -/
structure Mem where
  cls : Nat → Option Nat := fun _ => none
  next : Nat := 0
  log : List Ev := []

/-- `new(type, arg)`, lines 12-20; `ok` is whether malloc succeeds. -/
def new (ok : Bool) (m : Mem) (c arg : Nat) : Nat × Mem :=
  if ok = false then (0, m)
  else
    let n := m.next + 1
    (n, { cls := fun x => if x = n then some c else m.cls x, next := n, log := m.log ++ [.constructed c n arg] })

/-- `delete(e)`, lines 21-26. -/
def delete (m : Mem) (e : Nat → Nat) : Option Mem :=
  if e 0 ≠ 0 then
    match m.cls (e 1) with
    | none => none
    | some c =>
      match m.cls (e 2) with
      | none => none
      | some _ =>
        match m.cls (e 3) with
        | none => none
        | some _ => some { m with cls := fun x => if x = e 3 then none else m.cls x, log := m.log ++ [.destructed c (e 2), .freed (e 3)] }
  else some m

/-- A program: it makes objects of a class, and deletes objects it has. -/
inductive Prog
  | done
  | new (c arg : Nat) (k : Nat → Prog)
  | delete (n : Nat) (k : Prog)

/-- The run of a program; `oks` tells for each malloc whether it succeeds (after the end of the list it does). -/
def run : List Bool → Mem → Prog → Option Mem
  | _, m, .done => some m
  | oks, m, .new c arg k =>
    let r := new (oks.headD true) m c arg
    run oks.tail r.2 (k r.1)
  | oks, m, .delete n k =>
    match delete m fun _ => n with
    | none => none
    | some m => run oks m k

end Verif.ClassObj
