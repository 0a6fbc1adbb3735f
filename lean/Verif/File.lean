import Verif.RbTree
import Verif.Str
/-
Model of the file cache of /repo/src/mln_file.c (fileset, open, close, destroy).

The cache is a red-black tree of files ordered by path (the model of mln_rbtree.c, `RbTree.Tree`) and a chain of the
files nobody uses (the model of the chain macros, `Chain.C`).  The heap of the chain holds the mln_file_t structures:
an address that maps to `none` is not allocated, and using it is undefined behaviour (`none`).  The tree node of
a file is a separate allocation in C; here it has the address of its file.

The operating system and the allocator are an input of each call (`Env`).  The type of paths and the comparison
are parameters; mln_file_set_cmp is `cmp` below.  Not modelled: the times and the size of the file, temporary files
(mln_file_tmp_open), and a count of 2^64 outstanding opens of one file.
-/
namespace Verif.File

/-- The members of mln_file_t that the cache uses, include/mln_file.h lines 13-30 (the links and `file_path` apart). -/
structure File where
  fd : Nat
  refs : Nat
deriving DecidableEq

/-- mln_fileset_t, include/mln_file.h lines 32-38; `fds` are the open descriptors of the process that belong
to the cache. -/
structure St (P : Type) where
  tree : RbTree.Tree P
  free : Chain.C File
  max : Nat
  fds : List Nat

/-- mln_file_set_cmp, lines 59-63, on the bytes of the paths.  (The search key has its own string, and
every file its own, so that the pointers differ.) -/
def cmp (a b : List Str.Byte) : Int := (Str.strcmp false a b).getD 0

/-- mln_fileset_init, lines 27-57, when nothing fails. -/
def init {P} (m : RbTree.Mem) (data : Nat → P) (max : Nat) : St P :=
  { tree := RbTree.new m data (fun _ => none), free := ⟨fun _ => none, none, none⟩, max := max, fds := [] }

/-- What the surroundings do during one mln_file_open: the address of a new file, whether the three allocations
succeed, the result of open(2) and of fstat(2). -/
structure Env where
  addr : Nat
  fileOk : Bool
  pathOk : Bool
  fd : Option Nat
  statOk : Bool
  nodeOk : Bool

/-- mln_rbtree_node_new for the node `a` with the path `p`. -/
def nodeNew {P} (t : RbTree.Tree P) (a : Nat) (p : P) : RbTree.Tree P :=
  { t with data := RbTree.upd t.data a p, chain := { t.chain with heap := t.chain.heap.upd a (some ⟨(), none, none⟩) } }

/-- The end of mln_file_open, lines 124-128. -/
def take {P} (s : St P) (a : Nat) : Option (St P × Option Nat) := do
  let n ← s.free.heap a
  let c := { s.free with heap := s.free.heap.upd a (some { n with data := { n.data with refs := n.data.refs + 1 } }) }
  if n.data.refs = 0 then do
    let c ← Chain.del c a
    some ({ s with free := c }, some a)
  else some ({ s with free := c }, some a)

/-- mln_file_open, lines 76-129. -/
def openF {P} (cmp : P → P → Int) (s : St P) (p : P) (e : Env) : Option (St P × Option Nat) := do
  let rn ← RbTree.search cmp s.tree p
  if rn = 0 then
    if !e.fileOk || !e.pathOk then some (s, none)
    else match e.fd with
      | none => some (s, none)
      | some fd =>
        if !e.statOk then some (s, none)
        else do
          let c ← Chain.add { s.free with heap := s.free.heap.upd e.addr (some ⟨⟨fd, 0⟩, none, none⟩) } e.addr
          if !e.nodeOk then some ({ s with free := { c with heap := c.heap.upd e.addr none } }, none)
          else do
            let t ← RbTree.insert cmp (nodeNew s.tree e.addr p) e.addr
            take { s with tree := t, free := c, fds := fd :: s.fds } e.addr
  else take s rn

/-- mln_rbtree_node_free with mln_file_free (lines 159-167) on the file `a`. -/
def dispose {P} (s : St P) (a : Nat) : Option (St P) := do
  let n ← s.free.heap a
  some { s with
    fds := s.fds.erase n.data.fd
    free := { s.free with heap := s.free.heap.upd a none }
    tree := { s.tree with chain := { s.tree.chain with heap := s.tree.chain.heap.upd a none } } }

/-- mln_file_close, lines 132-157, on a file of the cache.  `refer_cnt` is a size_t: 0 wraps. -/
def closeF {P} (s : St P) (a : Nat) : Option (St P) := do
  let n ← s.free.heap a
  let r := if n.data.refs = 0 then 2 ^ 64 - 1 else n.data.refs - 1
  let c := { s.free with heap := s.free.heap.upd a (some { n with data := { n.data with refs := r } }) }
  if r > 0 then some { s with free := c }
  else do
    let c ← Chain.add c a
    if RbTree.nodeNum s.tree > s.max then do
      let v ← c.head
      let c ← Chain.del c v
      let t ← RbTree.delete s.tree v
      dispose { s with tree := t, free := c } v
    else some { s with free := c }

/-- mln_fileset_destroy, lines 65-73: the loop of mln_rbtree_free (mln_rbtree.c lines 59-65) over the files. -/
def destroy {P} : Nat → St P → Option (St P)
  | 0, _ => none
  | k + 1, s =>
    match s.tree.chain.tail with
    | none => some s
    | some v => do
      let c ← Chain.del s.tree.chain v
      let s ← dispose { s with tree := { s.tree with chain := c } } v
      destroy k s

/-- The calls of a user: open a path, or close the file at an address that was opened with a path. -/
inductive Op (P : Type) where
  | opn (p : P) (e : Env)
  | cls (a : Nat) (p : P)

/-- One call, with the account of the user: the handles they hold (address and the path they asked for, one entry
for each mln_file_open not yet closed) and the addresses they closed, in order. -/
def step {P} [DecidableEq P] (cmp : P → P → Int) (s : St P) (held : List (Nat × P)) (log : List Nat) :
    Op P → Option (St P × List (Nat × P) × List Nat)
  | .opn p e => do
    let (s, r) ← openF cmp s p e
    match r with
    | none => some (s, held, log)
    | some a => some (s, (a, p) :: held, log)
  | .cls a p => do
    let s ← closeF s a
    some (s, held.erase (a, p), log ++ [a])

def run {P} [DecidableEq P] (cmp : P → P → Int) (s : St P) (held : List (Nat × P)) (log : List Nat) :
    List (Op P) → Option (St P × List (Nat × P) × List Nat)
  | [] => some (s, held, log)
  | op :: ops => do
    let (s, held, log) ← step cmp s held log op
    run cmp s held log ops

end Verif.File
