/-
Model of the spin lock in src/mln_utils.c (lines 49-103, macros in
include/mln_utils.h lines 64-84).

Every thread is a small state machine; one step of a thread is one atomic access to
the lock word (or the entry into a call).  Memory is sequentially consistent: both
`__sync_bool_compare_and_swap` and `xchg` on memory are full barriers; the plain store
and the plain load of the second variant are taken as atomic, which aligned word
accesses are on the x86 targets that variant is compiled for.
Threads are numbered by `Nat`; any number of them may take part.
-/
namespace Verif.SpinLock

/-- The two implementations: `cas` is lines 49-68, `xchg` is lines 70-102. -/
inductive Variant where
  | cas
  | xchg
  deriving DecidableEq

/-- The calls a thread can make. -/
inductive Call where
  | lock
  | trylock
  | unlock
  deriving DecidableEq

/-- Where a thread stands: outside every call, about to do the atomic operation of a
call, or in the inner read loop (line 88) of the `xchg` variant. -/
inductive Act where
  | idle
  | locking
  | reading
  | trying
  | unlocking
  deriving DecidableEq

/-- What can be seen from outside: `spin_lock` returned, `spin_trylock` returned a value,
`spin_unlock` was called. -/
inductive Ev where
  | lockRet (t : Nat)
  | tryRet (t : Nat) (r : Nat)
  | unlockCall (t : Nat)
  deriving DecidableEq

/-- The lock word, the threads, and the events so far (newest first). -/
structure St where
  word : Nat
  act : Nat → Act
  trace : List Ev

/-- `mln_spin_init` (mln_utils.h:72 and 83). -/
def init : St := { word := 0, act := fun _ => .idle, trace := [] }

def setAct (f : Nat → Act) (t : Nat) (a : Act) : Nat → Act := fun u => if u = t then a else f u

/-- `__sync_bool_compare_and_swap(l, old, new)`: the answer and the new word. -/
def casOp (w old new : Nat) : Bool × Nat := if w = old then (true, new) else (false, w)

/-- `xchg(l, x)` (lines 74-81): the old value and the new word. -/
def xchgOp (w x : Nat) : Nat × Nat := (w, x)

/-- C's `!`. -/
def cnot (n : Nat) : Nat := if n = 0 then 1 else 0

/-- Thread `t` takes one step; when it is outside every call it enters the call `c`. -/
def step (v : Variant) (s : St) (t : Nat) (c : Call) : St :=
  match s.act t with
  | .idle =>
    match c with
    | .lock => { s with act := setAct s.act t .locking }
    | .trylock => { s with act := setAct s.act t .trying }
    | .unlock => { s with act := setAct s.act t .unlocking, trace := .unlockCall t :: s.trace }
  | .locking =>
    match v with
    | .cas =>
      -- lines 54-55
      let (ok, w) := casOp s.word 0 1
      if ok then { word := w, act := setAct s.act t .idle, trace := .lockRet t :: s.trace }
      else { s with word := w }
    | .xchg =>
      -- line 87
      let (old, w) := xchgOp s.word 1
      if cnot old ≠ 0 then { word := w, act := setAct s.act t .idle, trace := .lockRet t :: s.trace }
      else { s with word := w, act := setAct s.act t .reading }
  | .reading =>
    -- line 88
    if s.word ≠ 0 then s else { s with act := setAct s.act t .locking }
  | .trying =>
    match v with
    | .cas =>
      -- line 67
      let (ok, w) := casOp s.word 0 1
      { word := w, act := setAct s.act t .idle,
        trace := .tryRet t (cnot (if ok then 1 else 0)) :: s.trace }
    | .xchg =>
      -- line 101
      let (old, w) := xchgOp s.word 1
      { word := w, act := setAct s.act t .idle, trace := .tryRet t (cnot old) :: s.trace }
  | .unlocking =>
    match v with
    | .cas =>
      -- line 61
      { s with word := (casOp s.word 1 0).2, act := setAct s.act t .idle }
    | .xchg =>
      -- line 96
      { s with word := 0, act := setAct s.act t .idle }

/-- A schedule: which thread moves next, and what it calls if it is outside every call. -/
def run (v : Variant) : St → List (Nat × Call) → St
  | s, [] => s
  | s, (t, c) :: l => run v (step v s t c) l

end Verif.SpinLock
