import Mathlib.Data.List.Basic
/-!
# Who frees the strings of mln_string.c

mln_string.h: mln_string_ref (44-48), mln_string_free (50-63); mln_string.c: mln_string_buf_new and
mln_string_buf_pool_new (96-119), mln_string_new and mln_string_pool_new (121-169), mln_string_dup and
mln_string_pool_dup (171-205), mln_string_const_ndup (240-254), mln_string_ref_dup (256-265),
mln_string_const_ref_dup (267-279), mln_string_concat and mln_string_pool_concat (281-362).

Simplifications.
* The string made by the n-th call has the number n, and the buffer that is allocated for its bytes too.  Memory is not
  used again after it was freed.  `none` is undefined behaviour: memory that was freed is used or freed, or freed with
  the wrong one of free and mln_alloc_free.
* All pools are one pool.
* memcpy of no bytes from NULL (mln_string_concat with a string without data) does nothing.
-/
namespace Verif.StrLife

/-- A function changed at one place. -/
def upd {β : Type} (f : Nat → β) (n : Nat) (b : β) : Nat → β := fun x => if x = n then b else f x

/-- Where memory is from; `fixed` is memory of the program that stays. -/
inductive Kind
  | heap
  | pool
  | fixed
  deriving DecidableEq

/-- mln_string_t, lines 12-18; `ref` has 30 bits. -/
structure Cell where
  data : Option Nat
  len : Nat
  dataRef : Bool
  pool : Bool
  ref : BitVec 30
  deriving DecidableEq

/-- The memory: strings, buffers. -/
structure Mem where
  strs : Nat → Option (Kind × Cell)
  bufs : Nat → Option (Kind × List Nat)
  next : Nat

def Mem.empty : Mem := ⟨fun _ => none, fun _ => none, 0⟩

/-- The allocator of a string. -/
def kind (pool : Bool) : Kind := if pool then .pool else .heap

/-- The bytes of a string. -/
def bytes (m : Mem) (s : Nat) : Option (List Nat) := do
  let (_, c) ← m.strs s
  match c.data with
  | none => if c.len = 0 then some [] else none
  | some p =>
    let (_, b) ← m.bufs p
    if c.len ≤ b.length then some (b.take c.len) else none

/-- A string with a buffer of its own, as in mln_string_dup, lines 172-184: `a1` and `a2` tell whether the two allocations
succeed. -/
def make (m : Mem) (pool : Bool) (t : List Nat) (a1 a2 : Bool) : Option Nat × Mem :=
  let n := m.next
  let m := { m with next := n + 1 }
  if a1 = false then (none, m)
  else
    let m := { m with strs := upd m.strs n (some (kind pool, ⟨none, 0, false, false, 0⟩)) }
    if a2 = false then (none, { m with strs := upd m.strs n none })
    else (some n, { m with strs := upd m.strs n (some (kind pool, ⟨some n, t.length, false, pool, 1⟩)), bufs := upd m.bufs n (some (kind pool, t ++ [0])) })

/-- A string without a buffer of its own. -/
def makeRef (m : Mem) (pool : Bool) (data : Option Nat) (len : Nat) (dataRef : Bool) (a1 : Bool) : Option Nat × Mem :=
  let n := m.next
  let m := { m with next := n + 1 }
  if a1 = false then (none, m)
  else (some n, { m with strs := upd m.strs n (some (kind pool, ⟨data, len, dataRef, pool, 1⟩)) })

/-- free and mln_alloc_free of a buffer and of a string. -/
def freeBuf (m : Mem) (pool : Bool) (p : Nat) : Option Mem := do
  let (k, _) ← m.bufs p
  if k = kind pool then some { m with bufs := upd m.bufs p none } else none
def freeStr (m : Mem) (pool : Bool) (s : Nat) : Option Mem := do
  let (k, _) ← m.strs s
  if k = kind pool then some { m with strs := upd m.strs s none } else none

/-- The bytes are freed by the string they belong to, lines 55-58. -/
def freeData (m : Mem) (c : Cell) : Option Mem :=
  match c.dataRef, c.data with
  | false, some p => freeBuf m c.pool p
  | _, _ => some m

/-- mln_string_free. -/
def free (m : Mem) (s : Nat) : Option Mem := do
  let (k, c) ← m.strs s
  if c.ref.toNat ≤ 1 then do
    let m ← freeData m c
    freeStr m c.pool s
  else some { m with strs := upd m.strs s (some (k, { c with ref := c.ref - 1 })) }

/-- What a program calls.  `new` is mln_string_new, mln_string_pool_new and mln_string_const_ndup (`none` is NULL);
`take` gives a buffer of the same allocator to mln_string_buf_new; `fixed` is mln_string_const_ref_dup of memory that
stays. -/
inductive Op
  | new (pool : Bool) (t : Option (List Nat)) (a1 a2 : Bool)
  | dup (pool : Bool) (s : Nat) (a1 a2 : Bool)
  | take (pool : Bool) (t : List Nat) (a1 : Bool)
  | refDup (s : Nat) (a1 : Bool)
  | fixed (t : List Nat) (a1 : Bool)
  | concat (pool : Bool) (s1 s2 sep : Option Nat) (a1 a2 : Bool)
  | ref (s : Nat)
  | free (s : Nat)
  | read (s : Nat)

/-- What it gets: a string or NULL, bytes, nothing. -/
inductive Res
  | str (s : Option Nat)
  | txt (t : List Nat)
  | unit
  deriving DecidableEq

/-- The bytes of a string or, for NULL, none. -/
def bytes? (m : Mem) : Option Nat → Option (List Nat)
  | none => some []
  | some s => bytes m s

/-- The bytes between two strings, lines 288-291 and 302-305. -/
def between (m : Mem) (s1 s2 sep : Option Nat) : Option (List Nat) := if s1.isSome ∧ s2.isSome then bytes? m sep else some []

/-- One call. -/
def step (m : Mem) : Op → Option (Res × Mem)
  | .new pool none a1 _ => let r := makeRef m pool none 0 false a1; some (.str r.1, r.2)
  | .new pool (some t) a1 a2 => let r := make m pool t a1 a2; some (.str r.1, r.2)
  | .dup pool s a1 a2 => do
    let t ← bytes m s
    let r := make m pool t a1 a2
    some (.str r.1, r.2)
  | .take pool t a1 =>
    let n := m.next
    let m := { m with bufs := upd m.bufs n (some (kind pool, t)) }
    let r := makeRef m pool (some n) t.length false a1
    -- if it fails the program frees its buffer
    if a1 = false then some (.str none, { r.2 with bufs := upd r.2.bufs n none }) else some (.str r.1, r.2)
  | .refDup s a1 => do
    let (_, c) ← m.strs s
    let r := makeRef m false c.data c.len true a1
    some (.str r.1, r.2)
  | .fixed t a1 =>
    let m := { m with bufs := upd m.bufs m.next (some (.fixed, t)) }
    let r := makeRef m false (some m.next) t.length true a1
    some (.str r.1, r.2)
  | .concat pool s1 s2 sep a1 a2 => do
    let t1 ← bytes? m s1
    let t ← between m s1 s2 sep
    let t2 ← bytes? m s2
    let r := make m pool (t1 ++ t ++ t2) a1 a2
    some (.str r.1, r.2)
  | .ref s => do
    let (k, c) ← m.strs s
    some (.str (some s), { m with strs := upd m.strs s (some (k, { c with ref := c.ref + 1 })) })
  | .free s => do
    let m ← StrLife.free m s
    some (.unit, m)
  | .read s => do
    let t ← bytes m s
    some (.txt t, m)

/-- A program: what it calls depends on what it got. -/
inductive Prog
  | done
  | call (o : Op) (k : Res → Prog)

/-- The calls of a program with their results. -/
def run : Mem → Prog → Option (List (Op × Res) × Mem)
  | m, .done => some ([], m)
  | m, .call o k => do
    let (r, m) ← step m o
    let (rs, m) ← run m (k r)
    some ((o, r) :: rs, m)

/-- A program that does not look at the results. -/
def calls : List Op → Prog
  | [] => .done
  | o :: os => .call o fun _ => calls os

end Verif.StrLife
