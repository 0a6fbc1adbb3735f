import Verif.LangKey
import Verif.RbTreeProps
/-!
# Changing a configuration from a program

mln_conf.c: mln_conf_cmd_search (560-570), mln_conf_cmd_insert (572-592), mln_conf_cmd_remove (594-607),
mln_conf_item_search (667-670), mln_conf_item_update (672-716), mln_conf_cmd_num (939-943), mln_conf_cmds
(950-966), mln_conf_arg_num (968-970).  mln_conf_domain_search, mln_conf_domain_insert and mln_conf_domain_remove
(469-511) are the same functions for the tree of domains.  The hooks: mln_conf_hook_set (895-902),
mln_conf_hook_unset (904-908) and the loop of mln_conf_reload (924-928).

Simplifications.
* Allocations succeed.  The command with number n is the n-th that was made; its memory is not used again.
* The tree holds the names, the arguments of the commands are beside it.  An argument is a number, whatever its type
  (strings are copied by mln_conf_item_update).
* `none` is the use of a command that was removed.
* The list of hooks is a list of numbers; the callback of a hook may remove hooks.
-/
namespace Verif.ConfApi
open Verif.RbTree

/-- mln_conf_domain_t: the tree of the names of the commands, and the commands that are allocated, with their
arguments. -/
structure Dom (α : Type) where
  t : Tree α
  live : List Nat
  args : Nat → List Nat
  next : Nat

/-- mln_conf_domain_init, lines 420-447. -/
def empty {α : Type} (d : α) : Dom α := ⟨LangKey.empty d, [], fun _ => [], 0⟩

/-- What a program calls. -/
inductive Op (α : Type)
  | insert (k : α)
  | search (k : α)
  | remove (k : α)
  | update (n : Nat) (items : List Nat)
  | item (n : Nat) (i : Nat)
  | num
  | cmds

/-- What it gets: nothing, a command (0 is NULL), an argument or NULL, a number, an array of commands. -/
inductive Res
  | unit
  | cmd (n : Nat)
  | arg (a : Option Nat)
  | num (n : Nat)
  | cmds (l : List Nat)
  deriving DecidableEq

/-- mln_conf_cmds_iterate_handler, lines 962-966. -/
def put {α : Type} (t : Tree α) (n : Nat) (l : List Nat) : Option (Tree α × List Nat × Bool) := some (t, l ++ [n], false)

/-- One call. -/
def step {α : Type} (cmp : α → α → Int) (d : Dom α) : Op α → Option (Res × Dom α)
  | .insert k => do
    let n := d.next + 1
    let t ← RbTree.insert cmp { d.t with data := upd d.t.data n k } n
    some (.cmd n, ⟨t, d.live ++ [n], upd d.args n [], n⟩)
  | .search k => do
    let x ← RbTree.search cmp d.t k
    some (.cmd x, d)
  | .remove k => do
    let x ← RbTree.search cmp d.t k
    if x = 0 then some (.unit, d)
    else do
      let t ← RbTree.delete d.t x
      some (.unit, { d with t := t, live := d.live.erase x })
  | .update n items => if n ∈ d.live then some (.unit, { d with args := upd d.args n items }) else none
  | .item n i =>
    if n ∈ d.live then some (.arg (if i = 0 ∨ i > (d.args n).length then none else (d.args n)[i - 1]?), d) else none
  | .num => some (.num (nodeNum d.t), d)
  | .cmds => do
    let r ← iterate put (nodeNum d.t + 1) d.t []
    some (.cmds r.2.1, d)

/-- A program: what it calls depends on what it got. -/
inductive Prog (α : Type)
  | done
  | call (o : Op α) (k : Res → Prog α)

/-- The calls of a program with their results. -/
def run {α : Type} (cmp : α → α → Int) : Dom α → Prog α → Option (List (Op α × Res) × Dom α)
  | d, .done => some ([], d)
  | d, .call o k => do
    let (r, d) ← step cmp d o
    let (rs, d) ← run cmp d (k r)
    some ((o, r) :: rs, d)

/-- A program that does not look at the results. -/
def calls {α : Type} : List (Op α) → Prog α
  | [] => .done
  | o :: os => .call o fun _ => calls os

/-! ## Hooks -/

/-- mln_conf_hook_set, mln_conf_hook_unset. -/
def hookSet (l : List Nat) (h : Nat) : List Nat := l ++ [h]
def hookUnset (l : List Nat) (h : Nat) : List Nat := l.erase h

/-- The loop of lines 924-928 from the hook `h`: `f h` are the hooks that the callback of `h` removes and whether
it succeeds.  The result: the callbacks called, whether all succeeded, and the hooks that are left; `none` is
`ch->next` of a hook that was freed. -/
def fire (f : Nat → List Nat × Bool) : Nat → List Nat → Option Nat → Option (List Nat × Bool × List Nat)
  | 0, _, _ => none
  | _ + 1, l, none => some ([], true, l)
  | fuel + 1, l, some h =>
    let l := (f h).1.foldl hookUnset l
    if (f h).2 = false then some ([h], false, l)
    else if h ∈ l then (fire f fuel l ((l.dropWhile (· ≠ h))[1]?)).map fun r => (h :: r.1, r.2)
    else none

/-- The hooks in mln_conf_reload. -/
def reload (f : Nat → List Nat × Bool) (l : List Nat) : Option (List Nat × Bool × List Nat) := fire f (l.length + 1) l l.head?

/-- mln_conf_reload, lines 921-930: `load` is the configuration that mln_conf_load made, `none` if the file is not
valid (then `g_conf` is NULL, lines 843-869).  The result: what mln_conf() gives to the callbacks and after, and the hooks. -/
def reloadConf {β : Type} (_old load : Option β) (f : Option β → Nat → List Nat × Bool) (l : List Nat) : Option (Option β × List Nat × Bool × List Nat) :=
  (reload (f load) l).map fun r => (load, r)

end Verif.ConfApi
