/-!
# Jobs of the script language: creation, scheduling, names and the cache of syntax trees

`mln_lang_run_handler` (mln_lang.c:846-909), `mln_lang_ast_cache_search` (mln_lang.c:939-1013),
`mln_lang_ctx_new` (mln_lang.c:1016-1161), `mln_lang_ctx_free` (mln_lang.c:1163-1209),
`mln_lang_ctx_suspend` and `_continue` (mln_lang.c:1217-1234), `mln_lang_job_new`, `mln_lang_job_free`
(mln_lang.c:1284-1346), and the script's functions `Eval` (mln_lang.c:7440-7446) and `Kill`
(mln_lang.c:7591-7619) as far as they make and free jobs.

Simplifications.
* One thread: the lock and the owner of a job are not modelled.
* What a job does is given from outside: for every handler that is called, which jobs are made and
  killed, whether the job is suspended, and whether it is to end.
* The chains of jobs are lists (see Chain for the macros); the tree of the names is a list of pairs
  of a name and a job, found by equal names (see Str for when mln_string_strcmp is an order).
* Jobs and entries of the cache have numbers in place of addresses; numbers are not used again.
* A name is a number.  Texts and paths are lists of bytes.
* `lang->signal` registers the launcher once; `pending` tells whether it is registered.
* The use of a job that has been freed is the result `none`.
-/
namespace Verif.LangSched

/-- What is outside: the parser on files and on texts, the contents of files, the time in
microseconds. -/
structure World (A : Type) where
  parse : Bool → List Nat → Option A
  text : List Nat → Option (List Nat)
  now : Nat

/-- `mln_lang_ast_cache_t`, with a number. -/
structure Entry (A : Type) where
  num : Nat
  code : List Nat
  ast : A
  ref : Nat
  expire : Bool
  time : Nat
  deriving DecidableEq, Repr

/-- `mln_lang_ctx_t`: `susp` is `ref`. -/
structure Job (A : Type) where
  num : Nat
  alias : Option Nat
  cache : Option Nat
  ast : Option A
  susp : Bool
  deriving DecidableEq, Repr

/-- `mln_lang_t`; `jobs` are the jobs that are allocated. -/
structure St (A : Type) where
  run : List Nat
  wait : List Nat
  jobs : List (Job A)
  names : List (Nat × Nat)
  cache : List (Entry A)
  useCache : Bool
  pending : Bool
  nextJob : Nat
  nextEntry : Nat

variable {A : Type}

/-- The loop over the entries, mln_lang.c:987-997.  The difference of the times is unsigned. -/
def scan (now : Nat) (data : List Nat) : List (Entry A) → List (Entry A) × Option (Entry A)
  | [] => ([], none)
  | e :: es =>
    if e.expire then
      let x := scan now data es
      (e :: x.1, x.2)
    else if (now + 2 ^ 64 - e.time) % 2 ^ 64 ≥ 30000000 then
      let x := scan now data es
      ({ e with expire := true } :: x.1, x.2)
    else if e.code = data then (e :: es, some e)
    else
      let x := scan now data es
      (e :: x.1, x.2)

/-- What an entry is looked for by: the path itself if it begins with `/` or `@`, otherwise the
contents of the file; the text.  mln_lang.c:956-985. -/
def keyOf (w : World A) (file : Bool) (content : List Nat) : Option (List Nat) :=
  if file then
    match content with
    | 47 :: _ => some content
    | 64 :: _ => some content
    | _ => w.text content
  else some content

/-- `mln_lang_ast_cache_search`, mln_lang.c:939-1013, and `++(ctx->cache->ref)` for what it finds.
Memory does not run out.  The entry that the job gets. -/
def search (w : World A) (st : St A) (file : Bool) (content : List Nat) : St A × Option (Entry A) :=
  match keyOf w file content with
  | none => (st, none)
  | some data =>
    let x := scan w.now data st.cache
    match x.2 with
    | some e => ({ st with cache := x.1.map (fun f => if f.num = e.num then { f with ref := f.ref + 1 } else f) }, some e)
    | none =>
      match w.parse file content with
      | none => ({ st with cache := x.1 }, none)
      | some a =>
        let e : Entry A := { num := st.nextEntry, code := data, ast := a, ref := 0, expire := false, time := w.now }
        ({ st with cache := x.1 ++ [{ e with ref := 1 }], nextEntry := st.nextEntry + 1 }, some e)

/-- `if (!(--(ctx->cache->ref))) …`, mln_lang.c:1197-1201. -/
def unref (k : Nat) (es : List (Entry A)) : List (Entry A) :=
  (es.map (fun f => if f.num = k then { f with ref := f.ref - 1 } else f)).filter (fun f => f.num != k || f.ref != 0)

/-- `mln_lang_ctx_free`, mln_lang.c:1163-1209. -/
def ctxFree (st : St A) (j : Job A) : St A :=
  let names := match j.alias with
    | none => st.names
    | some a => st.names.filter (fun p => p.1 != a)
  let cache := match j.ast, j.cache with
    | some _, some k => unref k st.cache
    | _, _ => st.cache
  { st with names := names, cache := cache, jobs := st.jobs.filter (fun x => x.num != j.num) }

/-- What can fail when a job is made: nothing, memory before the syntax tree is made, memory
afterwards, the memory for the node of the name, `lang->signal`. -/
inductive Fail
  | no
  | early
  | late
  | node
  | signal
  deriving DecidableEq, Repr

/-- `mln_lang_job_new`, mln_lang.c:1284-1318, with `mln_lang_ctx_new`, mln_lang.c:1016-1161. -/
def newJob (w : World A) (fail : Fail) (st : St A) (file : Bool) (content : List Nat) (alias : Option Nat) : St A × Option Nat :=
  if fail = .early then (st, none)
  else
    let x : St A × Option (Entry A) × Option A :=
      if st.useCache then
        let y := search w st file content
        (y.1, y.2, y.2.map (·.ast))
      else (st, none, w.parse file content)
    let j : Job A := { num := st.nextJob, alias := none, cache := x.2.1.map (·.num), ast := x.2.2, susp := false }
    let st1 : St A := { x.1 with jobs := x.1.jobs ++ [j], nextJob := st.nextJob + 1 }
    if fail = .late then (ctxFree st1 j, none)
    else
      let j2 : Job A := { j with alias := alias }
      let st2 : St A := { st1 with jobs := x.1.jobs ++ [j2] }
      let taken := match alias with
        | none => false
        | some a => st2.names.any (fun p => p.1 == a)
      if taken then (ctxFree st2 j2, none)
      else if fail = .node ∧ alias ≠ none then (ctxFree st2 j2, none)
      else
        let st3 : St A := match alias with
          | none => st2
          | some a => { st2 with names := st2.names ++ [(a, j.num)] }
        if fail = .signal then (ctxFree st3 j2, none)
        else ({ st3 with run := st3.run ++ [j.num], pending := true }, some j.num)

/-- `__mln_lang_job_free`, mln_lang.c:1333-1346. -/
def jobFree (st : St A) (i : Nat) : Option (St A) :=
  match st.jobs.find? (fun j => j.num == i) with
  | none => none
  | some j =>
    let st := if j.susp then { st with wait := st.wait.erase i } else { st with run := st.run.erase i }
    let st := ctxFree st j
    some { st with pending := !st.run.isEmpty }

def setSusp (b : Bool) (i : Nat) (jobs : List (Job A)) : List (Job A) :=
  jobs.map (fun j => if j.num = i then { j with susp := b } else j)

/-- `mln_lang_ctx_suspend`, mln_lang.c:1217-1222. -/
def suspend (st : St A) (i : Nat) : Option (St A) :=
  match st.jobs.find? (fun j => j.num == i) with
  | none => none
  | some j =>
    if j.susp then some st
    else some { st with run := st.run.erase i, wait := st.wait ++ [i], jobs := setSusp true i st.jobs }

/-- `mln_lang_ctx_continue`, mln_lang.c:1224-1234. -/
def resume (st : St A) (i : Nat) : Option (St A) :=
  match st.jobs.find? (fun j => j.num == i) with
  | none => none
  | some j =>
    if j.susp then some { st with wait := st.wait.erase i, run := st.run ++ [i], jobs := setSusp false i st.jobs, pending := true }
    else some st

/-- `mln_lang_func_kill_process`, mln_lang.c:7608-7613. -/
def kill (st : St A) (a : Nat) : Option (St A) :=
  match st.names.find? (fun p => p.1 == a) with
  | none => some st
  | some p => jobFree st p.2

/-- What a handler of the running job does. -/
inductive Act (A : Type)
  | eval (w : World A) (fail : Fail) (file : Bool) (content : List Nat) (alias : Option Nat)
  | kill (a : Nat)
  | susp

/-- One of them, for the running job `i`, which is looked at afterwards. -/
def act (i : Nat) (st : St A) (a : Act A) : Option (St A) :=
  let r := match a with
    | .eval w fail file content alias => some (newJob w fail st file content alias).1
    | .kill a => kill st a
    | .susp => suspend st i
  match r with
  | none => none
  | some st => if st.jobs.any (fun j => j.num == i) then some st else none

def acts (i : Nat) : St A → List (Act A) → Option (St A)
  | st, [] => some st
  | st, a :: l =>
    match act i st a with
    | none => none
    | some st => acts i st l

/-- A turn of a job: the handlers that are called one after the other (at most
M_LANG_DEFAULT_STEP), each with what it does and whether it sets `ctx->quit`; and whether the stack
of the job is then empty. -/
structure Turn (A : Type) where
  steps : List (List (Act A) × Bool)
  empty : Bool

/-- The loop of mln_lang_run_handler, mln_lang.c:869-885. -/
def turn (i : Nat) (empty : Bool) : St A → List (List (Act A) × Bool) → Option (St A)
  | st, [] => if empty then jobFree st i else some st
  | st, (as, quit) :: l =>
    match acts i st as with
    | none => none
    | some st =>
      if (st.jobs.find? (fun j => j.num == i)).any (·.susp) then some st
      else if quit then jobFree st i
      else turn i empty st l

/-- `mln_lang_run_handler`, mln_lang.c:846-909. -/
def launch (st : St A) (t : Turn A) : Option (St A) :=
  match st.run with
  | [] => some { st with pending := false }
  | i :: rest =>
    match turn i t.empty { st with run := rest ++ [i], pending := false } t.steps with
    | none => none
    | some st => some { st with pending := st.pending || !st.run.isEmpty }

/-- What the program and the event loop do. -/
inductive Op (A : Type)
  | new (w : World A) (fail : Fail) (file : Bool) (content : List Nat) (alias : Option Nat)
  | free (i : Nat)
  | susp (i : Nat)
  | cont (i : Nat)
  | launch (t : Turn A)

def step (st : St A) : Op A → Option (St A)
  | .new w fail file content alias => some (newJob w fail st file content alias).1
  | .free i => jobFree st i
  | .susp i => suspend st i
  | .cont i => resume st i
  | .launch t => launch st t

def steps : St A → List (Op A) → Option (St A)
  | st, [] => some st
  | st, o :: os =>
    match step st o with
    | none => none
    | some st => steps st os

/-- `mln_lang_new`, mln_lang.c:745-800, and `mln_lang_cache_set`. -/
def init (useCache : Bool) : St A :=
  { run := [], wait := [], jobs := [], names := [], cache := [], useCache := useCache, pending := false, nextJob := 0, nextEntry := 0 }

end Verif.LangSched
