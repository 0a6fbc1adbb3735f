/-
Model of the tracing of calls: /repo/src/mln_span.c and /repo/include/mln_span.h, and the wrapper
that the macros MLN_FUNC and MLN_FUNC_VOID put around every function (/repo/include/mln_func.h lines
15-60, with MLN_FUNC_FLAG).

A span is its number in the order of creation; `spans` holds all spans ever made.  The chain of the
subspans of a span is the list of their numbers (chains are Verif/Chain.lean), the stack is a list,
the top first.  gettimeofday is a function of the number of calls made before.  `none` is assert(0).

The macros mln_span_start and mln_span_stop (mln_span.h lines 63-79) pass one argument less to
mln_span_entry and mln_span_exit than these ask for, which no compiler accepts; they are modelled
with the arguments that are meant.  The memory of mln_span_t is not reused.
-/
namespace Verif.Span

/-- File, function and line of a call. -/
structure Info where
  file : Nat
  func : Nat
  line : Nat
deriving DecidableEq, Repr

/-- mln_span_t, mln_span.h lines 17-28. -/
structure Span where
  info : Info
  start : Nat
  stop : Nat
  parent : Option Nat
  subs : List Nat
deriving DecidableEq, Repr

/-- The global variables, mln_span.c lines 10-17 and mln_func.c lines 8-9 (`on`: the callbacks are
set). -/
structure St where
  spans : List Span := []
  stack : List Nat := []
  root : Option Nat := none
  on : Bool := false
  ticks : Nat := 0
deriving DecidableEq, Repr

/-- mln_span_new, mln_span.c lines 115-135, with mln_span_chain_add, lines 19-30. -/
def newSpan (st : St) (parent : Option Nat) (i : Info) : St :=
  let id := st.spans.length
  let spans :=
    match parent with
    | none => st.spans
    | some p => st.spans.modify p fun s => { s with subs := s.subs ++ [id] }
  { st with spans := spans ++ [{ info := i, start := 0, stop := 0, parent := parent, subs := [] }] }

/-- mln_span_entry, lines 148-169; `alloc` and `push` are whether the allocations succeed. -/
def entry (clock : Nat → Nat) (own alloc push : Bool) (i : Info) (st : St) : Option St :=
  if !own then some st
  else if !alloc then none
  else
    let id := st.spans.length
    let st := newSpan st st.stack.head? i
    if !push then none
    else
      let st := { st with stack := id :: st.stack }
      let st := if st.root = none then { st with root := some id } else st
      some { st with spans := st.spans.modify id fun s => { s with start := clock st.ticks }, ticks := st.ticks + 1 }

/-- mln_span_exit, lines 171-184, with mln_span_stack_pop, lines 82-93. -/
def exit (clock : Nat → Nat) (own : Bool) (st : St) : Option St :=
  if !own then some st
  else
    match st.stack with
    | [] => none
    | id :: rest =>
      some { st with stack := rest, spans := st.spans.modify id fun s => { s with stop := clock st.ticks }, ticks := st.ticks + 1 }

/-- What happens in the program: a wrapped function is entered or left in the thread that called
mln_span_start (`own`) or in another; mln_span_start and mln_span_stop. -/
inductive Ev where
  | enter (own : Bool) (i : Info)
  | leave (own : Bool)
  | start (i : Info)
  | stop
deriving DecidableEq, Repr

/-- One event; allocations succeed.  The wrapper calls the callbacks if they are set (mln_func.h
lines 20-29); mln_span_start is mln_span.h lines 63-70, mln_span_stop lines 74-79 (with
mln_span_stack_free, mln_span.c lines 95-106). -/
def step (clock : Nat → Nat) (st : St) : Ev → Option St
  | .enter own i => if st.on then entry clock own true true i st else some st
  | .leave own => if st.on then exit clock own st else some st
  | .start i => entry clock true true true i { st with on := true, stack := [], root := none }
  | .stop => (exit clock true st).map fun st => { st with on := false, stack := [] }

def run (clock : Nat → Nat) (st : St) : List Ev → Option St
  | [] => some st
  | e :: es => (step clock st e).bind fun st => run clock st es

/-- __mln_span_dump for a list of spans (the loop over the chain), lines 186-196: what the callback
gets. -/
def dumps (spans : List Span) : Nat → Nat → List Nat → List (Nat × Span)
  | 0, _, _ => []
  | _, _, [] => []
  | n + 1, level, id :: ids =>
    match spans[id]? with
    | none => dumps spans n level ids
    | some s => (level, s) :: dumps spans n (level + 1) s.subs ++ dumps spans n level ids

/-- mln_span_dump, lines 198-201. -/
def dump (st : St) : List (Nat × Span) := dumps st.spans (2 * st.spans.length + 2) 0 st.root.toList

/-- mln_span_free for a list of spans, lines 137-146: the numbers in the order in which they are
freed. -/
def frees (spans : List Span) : Nat → List Nat → List Nat
  | 0, _ => []
  | _, [] => []
  | n + 1, id :: ids =>
    match spans[id]? with
    | none => frees spans n ids
    | some s => frees spans n s.subs ++ id :: frees spans n ids

/-- mln_span_release, mln_span.h lines 81-84: what is freed, and the state afterwards. -/
def release (st : St) : List Nat × St := (frees st.spans (2 * st.spans.length + 2) st.root.toList, { st with root := none })

/-- mln_span_time_cost, mln_span.h lines 92-96 (in microseconds, modulo 2^64). -/
def timeCost (s : Span) : Nat := (s.stop + 2 ^ 64 - s.start % 2 ^ 64) % 2 ^ 64

end Verif.Span
