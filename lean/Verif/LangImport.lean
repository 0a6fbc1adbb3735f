import Verif.SearchPath
/-!
# The libraries that scripts import

`Import` of the script language (mln_lang.c:7098-7256), the objects that count its uses
(`mln_lang_func_import_new`, `mln_lang_func_ctx_import_new`, `mln_lang_func_ctx_import_free`,
mln_lang.c:6954-7055), and what is done when a job ends (its tree of imports is freed).  Where the
library is looked for is in `Verif.SearchPath`.

Simplifications.
* The tree `import` of the interpreter is the list of its libraries, the trees `import` of the jobs
  are the list of the pairs (job, library).  A library is known by its name.
* `dlopen`, the allocations and `init` are answered by the fields of `Env`.
* The name is one for which the path fits into the buffers (see `Verif.SearchPath`).
* `init` and `destroy` do not touch the trees.
-/
namespace Verif.LangImport

/-- `mln_lang_import_t`: the name, `ref`, `count`. -/
structure Lib where
  name : Nat
  ref : Nat
  count : Nat
  deriving DecidableEq, Repr

/-- The tree of the interpreter, the trees of the jobs, and how often `dlopen` gave a handle and
`dlclose` (behind `destroy`) was called for each library. -/
structure St where
  libs : List Lib
  users : List (Nat × Nat)
  opened : List Nat
  closed : List Nat
  deriving DecidableEq, Repr

/-- `MLN_LANG_IMPORT_FREE_COUNT`, include/mln_lang.h:30. -/
def freeCount : Nat := 65535

/-- What `dlsym` and `init` answer. -/
inductive Init
  | missing
  | fails
  | gives
  deriving DecidableEq, Repr

/-- The answers of the surroundings: `dlopen`, the allocation in `mln_lang_func_import_new`, the node
for the tree of the interpreter, `mln_lang_func_ctx_import_new`, the node for the tree of the job. -/
structure Env where
  dl : Bool
  lib : Bool
  node : Bool
  use : Bool
  useNode : Bool
  init : Init
  deriving DecidableEq, Repr

/-- What the script sees: the value of `init`, or a message. -/
inductive Out
  | value
  | load
  | memory
  | noInit
  | initFailed
  deriving DecidableEq, Repr

/-- The library is in the tree of the interpreter. -/
def find (s : St) (n : Nat) : Option Lib := s.libs.find? (fun l => l.name == n)

/-- `mln_rbtree_delete` and `mln_rbtree_node_free` of a library, with `mln_lang_func_import_free`,
mln_lang.c:6981-7004. -/
def unload (s : St) (n : Nat) : St :=
  { s with libs := s.libs.filter (fun l => l.name != n), closed := n :: s.closed }

/-- Change the entry of a library. -/
def upd (s : St) (n : Nat) (f : Lib → Lib) : St :=
  { s with libs := s.libs.map (fun l => if l.name = n then f l else l) }

/-- `mln_lang_func_ctx_import_free`, mln_lang.c:7030-7045, for a use of the library `n`. -/
def release (s : St) (n : Nat) : St :=
  match find s n with
  | none => s
  | some l =>
    if l.ref > 1 then upd s n (fun l => { l with ref := l.ref - 1 })
    else if l.count > 0 then upd s n (fun l => { l with ref := l.ref - 1, count := l.count - 1 })
    else unload s n

/-- The lookup of the library, mln_lang.c:7119-7213.  `none`: a null pointer is used (line 7201).
The flag tells that `path` was filled. -/
def get (e : Env) (s : St) (n : Nat) : Option (St × Option Out × Bool) :=
  match find s n with
  | some _ => some (s, none, false)
  | none =>
    if !e.dl then some (s, some .load, true)
    else if !e.lib then none
    else if !e.node then some ({ s with opened := n :: s.opened, closed := n :: s.closed }, some .memory, true)
    else some ({ s with libs := ⟨n, 0, freeCount⟩ :: s.libs, opened := n :: s.opened }, none, true)

/-- The entry in the tree of the job `c`, mln_lang.c:7215-7233. -/
def use (e : Env) (s : St) (c n : Nat) : St × Option Out :=
  if (c, n) ∈ s.users then (s, none)
  else if !e.use then
    (match find s n with
     | none => s
     | some l => if l.ref = 0 then unload s n else s, some .memory)
  else
    let s := upd s n (fun l => { l with ref := l.ref + 1 })
    if !e.useNode then (release s n, some .memory)
    else ({ s with users := (c, n) :: s.users }, none)

/-- `mln_lang_func_import_process`, mln_lang.c:7098-7256, called by the job `c`.  `none`: a null
pointer or a buffer that was never filled is used. -/
def imp (e : Env) (s : St) (c n : Nat) : Option (St × Out) :=
  match get e s n with
  | none => none
  | some (s, some o, _) => some (s, o)
  | some (s, none, filled) =>
    match use e s c n with
    | (s, some o) => some (s, o)
    | (s, none) =>
      match e.init with
      | .gives => some (s, .value)
      | .missing => if filled then some (s, .noInit) else none
      | .fails => if filled then some (s, .initFailed) else none

/-- The tree of a job is freed with it: every entry goes through `mln_lang_func_ctx_import_free`. -/
def done (s : St) (c : Nat) : St :=
  let mine := (s.users.filter (fun u => u.1 == c)).map (·.2)
  mine.foldl release { s with users := s.users.filter (fun u => u.1 != c) }

/-- What happens in an interpreter: a job imports a library, or a job ends. -/
inductive Op
  | imp (e : Env) (c n : Nat)
  | done (c : Nat)
  deriving DecidableEq, Repr

def step (s : St) : Op → Option St
  | .imp e c n => (imp e s c n).map (·.1)
  | .done c => some (done s c)

def run (s : St) : List Op → Option St
  | [] => some s
  | o :: r => (step s o).bind (fun s => run s r)

/-- An interpreter in which nothing was imported. -/
def init : St := ⟨[], [], [], []⟩

end Verif.LangImport
