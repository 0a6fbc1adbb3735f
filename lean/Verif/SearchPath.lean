/-!
# Where scripts, included files and dynamic libraries are looked for

`mln_lang_ast_file_open` (mln_lang_ast.c:3693-3748), the part of `mln_lex_input_new` that opens a
file (mln_lex.c:106-173), the part of `mln_lang_func_import_process` that finds a library
(mln_lang.c:7119-7195) and the part of `mln_lang_func_eval_process` that makes a path relative to the
calling script (mln_lang.c:7421-7438).  All of them put paths together in buffers of 1024 bytes, and
the first three look through the directories named by a variable of the environment.

Simplifications.
* A C string is the list of its bytes before the terminating zero; an mln_string_t is the list of
  its bytes, and is followed by a zero byte (as mln_string_dup leaves it).
* `access` is a predicate on paths, which does not change during a lookup.  The result is the path
  that is given to `open` or `dlopen`.
* The value of the variable of the environment is a block of bytes, in which zeros may have been
  written; a zero byte follows it.  Writing into it is allowed (getenv of the C standard forbids it).
* The versions for Windows are not modelled.
-/
namespace Verif.SearchPath

/-- What is done with a path: it is opened, or something outside a buffer was read or written. -/
inductive Res
  | ub
  | open (path : List Nat)
  deriving DecidableEq, Repr

/-- The C string at the beginning of a block. -/
def cstr (l : List Nat) : List Nat := l.takeWhile (fun b => b != 0)

/-- `snprintf(buf, sizeof(buf)-1, …)` with a text `s` into a buffer of 1024 bytes and
`buf[n] = 0`: at most 1022 bytes and a zero are written, but `n` is the length of all of `s`. -/
def print (s : List Nat) : Option (List Nat) := if s.length < 1024 then some (s.take 1022) else none

/-- `"%s/%s"`. -/
def join (d p : List Nat) : Option (List Nat) := print (d ++ 47 :: p)

def openOr (p : Option (List Nat)) : Res :=
  match p with
  | none => .ub
  | some p => .open p

/-- The loop over the directories, mln_lang_ast.c:3715-3742 (mln_lex.c:138-166, mln_lang.c:7148-7176),
for the bytes from `melang_path` on; the bytes afterwards, and what is opened.  In mln_lang.c the
byte `tmp_path[n]` is set later and the path copied back, with the same outcome. -/
def walk (ex : List Nat → Bool) (lib p : List Nat) : Nat → List Nat → List Nat × Res
  | 0, l => (l, .ub)
  | n + 1, l =>
    let d := l.takeWhile (fun b => b != 59 && b != 0)
    match l.dropWhile (fun b => b != 59 && b != 0) with
    | 59 :: r =>
      match join d p with
      | none => (d ++ 0 :: r, .ub)
      | some t =>
        if ex t then (d ++ 0 :: r, .open t)
        else
          let x := walk ex lib p n r
          (d ++ 0 :: x.1, x.2)
    | _ => (l, if d = [] then openOr (join lib p) else openOr (join d p))

/-- The lookup of a path that is not absolute, mln_lang_ast.c:3711-3745; `env` is the variable. -/
def lookup (ex : List Nat → Bool) (lib : List Nat) (env : Option (List Nat)) (p : List Nat) : Option (List Nat) × Res :=
  if ex p then (env, .open p)
  else
    match env with
    | none => (none, openOr (join lib p))
    | some l =>
      let x := walk ex lib p (l.length + 1) l
      (some x.1, x.2)

/-- The rest of the lookup, once the path is in the buffer `path`. -/
def find (ex : List Nat → Bool) (lib : List Nat) (env : Option (List Nat)) (p : List Nat) : Option (List Nat) × Res :=
  if p.head? = some 47 then (env, .open p) else lookup ex lib env p

/-- `mln_lang_ast_file_open`, mln_lang_ast.c:3693-3748. -/
def astOpen (ex : List Nat → Bool) (lib : List Nat) (env : Option (List Nat)) (file : List Nat) : Option (List Nat) × Res :=
  find ex lib env (cstr (file.take 1023))

/-- The path made from a name in `mln_lex_input_new`, mln_lex.c:111-123; `dir` is `lex->cur->dir`.
The buffer was filled with zeros.  `none`: bytes are written behind it, or no zero is left. -/
def lexPath (dir : Option (List Nat)) (file : List Nat) : Option (List Nat) :=
  match file with
  | 64 :: x =>
    let b := dir.getD [46] ++ [47]
    if b.length + min x.length 1023 < 1024 then some (cstr (b.take 1022 ++ x.take 1023)) else none
  | _ => some (cstr (file.take 1023))

/-- `mln_lex_input_new` for a file, mln_lex.c:106-173.  `env` is the variable named by `lex->env`,
`none` also if there is no name. -/
def lexOpen (ex : List Nat → Bool) (lib : List Nat) (env : Option (List Nat)) (dir : Option (List Nat)) (file : List Nat) : Option (List Nat) × Res :=
  match lexPath dir file with
  | none => (env, .ub)
  | some p => find ex lib env p

/-- `.so` -/
def so : List Nat := [46, 115, 111]

/-- `mln_lang_func_import_process`, mln_lang.c:7119-7180: what is given to `dlopen`. -/
def importOpen (ex : List Nat → Bool) (lib : List Nat) (env : Option (List Nat)) (name : List Nat) : Option (List Nat) × Res :=
  if name.head? = some 47 then (env, openOr (print (cstr name ++ so)))
  else
    match (if name ≠ [] ∧ name.head? ≠ some 46 then print ([46, 47] ++ cstr name ++ so) else print (cstr name ++ so)) with
    | none => (env, .ub)
    | some p => lookup ex lib env p

/-- The message `Load dynamic library [%s] failed.` when `dlopen` fails, mln_lang.c:7190-7192: 22
bytes before the path and 9 behind it.  Is it written inside the buffer? -/
def importFailOk (path : List Nat) : Bool := 22 + path.length + 9 < 1024

/-- The path of the script for `Eval`, mln_lang.c:7421-7438; `fname` is `ctx->filename`.  The result
is an mln_string_t.  The text of a script given as a string is treated in the same way. -/
def evalPath (fname : Option (List Nat)) (path : List Nat) : Option (List Nat) :=
  match path, fname with
  | 64 :: x, some f =>
    let f := cstr f
    if 47 ∈ f then
      let k := min 1023 (f.length - 1 - f.reverse.findIdx (· == 47))
      let s := 47 :: cstr x
      if k + s.length < 1024 then
        some (if k + s.length < 1023 then f.take k ++ s else f.take k ++ s.take (1022 - k) ++ [0])
      else none
    else
      match x with
      | 47 :: y => some y
      | _ => some x
  | _, _ => some path

end Verif.SearchPath
