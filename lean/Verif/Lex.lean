import Mathlib.Data.List.Basic
/-
Model of src/mln_lex.c and of the functions that include/mln_lex.h defines for a lexer: reading
from a stack of inputs, tokens, and the preprocessor.

Simplifications:
* allocations and reads succeed; a read of a file delivers 4095 bytes unless fewer are left;
* the result buffer is the list of the bytes put; lines and levels do not overflow;
* the trees of keywords and macros are lists with distinct keys (RbTree has the trees);
* a path names a file or nothing: directories, the prefix `@`, the variable of the environment and
  the directory of the library are left out;
* a hook of the user is a function on the lexer; it gets fuel for its loops;
* `Option none` is a call that does not return: a loop that does not end, recursion without end, or
  abort().
-/
namespace Verif.Lex

abbrev Byte := BitVec 8

/-- MLN_EOF and MLN_ERR, lines 19-20 of the header: the bytes 255 and 254 as `char`. -/
def EOF : Byte := 255#8
def ERR : Byte := 254#8

/-- mln_lex_input_t, lines 144-153: `path` for files, the buffer, the place in it, what is left of
the file behind the buffer, and the line to go back to. -/
structure Input where
  path : Option (List Byte) := none
  buf : List Byte := []
  pos : Nat := 0
  left : List Byte := []
  line : Nat := 1
deriving DecidableEq, Repr

/-- The type of a token, lines 332-376: `spec` are the special characters, `kw i` is
`KEYWORD_BEGIN + i + 1`. -/
inductive Ty where
  | eof | oct | dec | hex | real | id
  | spec (b : Byte)
  | kw (i : Nat)
deriving DecidableEq, Repr

/-- PREFIX_NAME##_struct_t, lines 377-382. -/
structure Tok where
  text : List Byte
  line : Nat
  type : Ty
  file : Option (List Byte) := none
deriving DecidableEq, Repr

/-- The errors of lines 32-47 of the header. -/
inductive Err where
  | succeed | nmem | invchar | invhex | invdec | invoct | invreal | read | inveof | inveol
  | inputtype | fpath | includeloop | unknownmacro | manymacrodef | invmacro
deriving DecidableEq, Repr

/-- mln_lex_t, lines 165-182 of the header, and mln_lex_preprocess_data_t. -/
structure Lex where
  cur : Option Input := none
  stack : List Input := []
  line : Nat := 1
  res : List Byte := []
  err : Err := .succeed
  ignore : Bool := false
  macros : List (List Byte × Option (List Byte)) := []
  level : Nat := 0
  matched : Nat := 0
deriving DecidableEq, Repr

/-! ## Characters -/

/-- mln_isdigit and mln_isalpha, include/mln_utils.h lines 169-170. -/
def isDigit (c : Byte) : Bool := 48 ≤ c.toNat && c.toNat ≤ 57
def isAlpha (c : Byte) : Bool :=
  (97 ≤ c.toNat && c.toNat ≤ 122) || (65 ≤ c.toNat && c.toNat ≤ 90)

/-- mln_lex_is_letter, lines 304-308. -/
def isLetter (c : Byte) : Bool := c = 95#8 || isAlpha c
/-- mln_lex_is_oct, lines 310-314. -/
def isOct (c : Byte) : Bool := 48 ≤ c.toNat && c.toNat < 56
/-- mln_lex_is_hex, lines 316-322. -/
def isHex (c : Byte) : Bool :=
  isDigit c || (97 ≤ c.toNat && c.toNat ≤ 102) || (65 ≤ c.toNat && c.toNat ≤ 70)

def isWord (c : Byte) : Bool := isLetter c || isDigit c

/-- The table of handlers, lines 536-569: the special characters. -/
def specials : List Byte :=
  [33#8, 34#8, 35#8, 36#8, 37#8, 38#8, 39#8, 40#8, 41#8, 42#8, 43#8, 44#8, 45#8, 46#8, 47#8, 58#8,
   59#8, 60#8, 61#8, 62#8, 63#8, 64#8, 91#8, 92#8, 93#8, 94#8, 95#8, 96#8, 123#8, 124#8, 125#8,
   126#8]

/-! ## Reading -/

/-- The end of an input, lines 262-299 of mln_lex.h. -/
def getTop (line : Nat) : List Input → Byte × Option Input × List Input × Nat
  | [] => (EOF, none, [], line)
  | i :: st =>
    match i.buf.drop i.pos with
    | b :: _ => (b, some { i with pos := i.pos + 1 }, st, line)
    | [] =>
      match i.left with
      | b :: bs =>
        (b, some { i with buf := (b :: bs).take 4095, left := (b :: bs).drop 4095, pos := 1 }, st, line)
      | [] => getTop i.line st

/-- mln_lex_getchar, lines 259-302. -/
def getchar (l : Lex) : Byte × Lex :=
  let r := getTop l.line (l.cur.toList ++ l.stack)
  (r.1, { l with cur := r.2.1, stack := r.2.2.1, line := r.2.2.2 })

/-- mln_lex_stepback, lines 223-232; `none` is abort(). -/
def stepback (l : Lex) (c : Byte) : Option Lex :=
  if c = EOF then some l
  else
    match l.cur with
    | none => none
    | some i => if i.pos = 0 then none else some { l with cur := some { i with pos := i.pos - 1 } }

/-- mln_lex_putchar, lines 233-257. -/
def put (l : Lex) (c : Byte) : Lex := { l with res := l.res ++ [c] }

/-- mln_lex_result_clean. -/
def clean (l : Lex) : Lex := { l with res := [] }

/-- mln_lex_push_input_buf_stream, lines 561-585 of mln_lex.c, and the end of
mln_lex_push_input_file_stream, lines 538-557. -/
def push (l : Lex) (i : Input) : Lex :=
  { l with cur := none, stack := { i with line := l.line } :: (l.cur.toList ++ l.stack), line := 1 }

def pushBuf (l : Lex) (bs : List Byte) : Lex := push l { buf := bs }
def pushFile (l : Lex) (path bs : List Byte) : Lex := push l { path := some path, left := bs }

/-- The text of a token for the end of the input, MLN_EOF_TEXT. -/
def eofText : List Byte := [35#8, 35#8, 69#8, 79#8, 70#8, 35#8, 35#8]

/-- PREFIX_NAME##_new, lines 607-634. -/
def new (l : Lex) (ty : Ty) : Tok × Lex :=
  ({ text := if ty = .eof then eofText else l.res, line := l.line, type := ty,
     file := l.cur.bind (·.path) },
   { l with err := .succeed, res := [] })

/-- A call of token that fails with the error `e`. -/
def fail (l : Lex) (e : Err) : Option Tok × Lex := (none, { l with err := e })

/-- What a function that returns a token gives. -/
abbrev Out := Option (Option Tok × Lex)

/-- `return PREFIX_NAME##_new(lex, ty)`. -/
def ret (l : Lex) (ty : Ty) : Out := some (some (new l ty).1, (new l ty).2)

/-! ## Numbers -/

/-- The rest of a number that begins with 0 from the first byte that is no octal digit on, lines
742-763. -/
def octRest (w : List Byte) : Except Err Ty :=
  if ¬ w.all (fun c => isDigit c || c = 46#8) then .error .invoct
  else if w.count 46#8 > 1 then .error .invreal
  else if w.count 46#8 = 0 then .error .invoct
  else .ok .real

/-- The check of a number, lines 725-788. -/
def numType (w : List Byte) : Except Err Ty :=
  match w with
  | [] => .ok .dec
  | c :: cs =>
    if c = 48#8 ∧ cs ≠ [] then
      if cs.head? = some 120#8 then
        if cs.tail = [] then .error .invhex
        else if cs.tail.all isHex then .ok .hex
        else .error .invhex
      else
        match cs.dropWhile isOct with
        | [] => .ok .oct
        | r => octRest r
    else
      match w.dropWhile isDigit with
      | [] => .ok .dec
      | d :: ds =>
        if d = 46#8 then if ds.all isDigit then .ok .real else .error .invreal
        else .error .invdec

/-! ## Loops over characters -/

/-- Lines 675-697: newlines, blanks and tabulators, from the character `c` on. -/
def lead : Nat → Byte → Lex → Option (Byte × Lex)
  | 0, _, _ => none
  | n + 1, c, l =>
    if c = 10#8 then
      let r := getchar { l with line := l.line + 1 }
      lead n r.1 r.2
    else if c = 32#8 ∨ c = 9#8 then
      let r := getchar l
      lead n r.1 r.2
    else some (c, l)

/-- `while (p(c)) { putchar(c); c = getchar(); }`, lines 701-705 and the loop of the preprocessor;
MLN_ERR does not satisfy `p` and ends the loop. -/
def while_ (p : Byte → Bool) : Nat → Byte → Lex → Option (Byte × Lex)
  | 0, _, _ => none
  | n + 1, c, l =>
    if p c then
      let r := getchar (put l c)
      while_ p n r.1 r.2
    else some (c, l)

/-- The bytes of a number, line 720. -/
def isNum (c : Byte) : Bool := isDigit c || isAlpha c || c = 46#8

/-- Skip blanks and tabulators, then the next character (it is consumed). -/
def blanks : Nat → Lex → Option (Byte × Lex)
  | 0, _ => none
  | n + 1, l =>
    let r := getchar l
    if r.1 = 32#8 ∨ r.1 = 9#8 then blanks n r.2 else some r

/-! ## Keywords and special characters -/

/-- What belongs to the handler of a special character: the default handler, the preprocessor, or a
hook of the user. -/
inductive Hook where
  | plain
  | nums
  | user (f : Nat → Lex → Out)

/-- The settings: keywords, handlers and files. -/
structure Cfg where
  keywords : List (List Byte) := []
  hook : Byte → Hook := fun _ => .plain
  fs : List Byte → Option (List Byte) := fun _ => none

/-- PREFIX_NAME##_process_keywords, lines 642-658. -/
def keyword (cfg : Cfg) (w : List Byte) : Ty :=
  match cfg.keywords.findIdx? (· = w) with
  | some i => .kw i
  | none => .id

/-! ## The preprocessor -/

/-- The macro named `k`. -/
def macro? (l : Lex) (k : List Byte) : Option (List Byte × Option (List Byte)) :=
  l.macros.find? (·.1 = k)

/-- mln_lex_condition_test, lines 701-758 of mln_lex.c: the value is `none` after an error. -/
def condition (n : Nat) (l : Lex) : Option (Option Bool × Lex) := do
  let (c, l) ← blanks n (clean l)
  if c = ERR then some (none, l)
  else if c = 10#8 then some (none, { l with err := .inveol })
  else if c = EOF then some (none, { l with err := .inveof })
  else do
    let l ← stepback l c
    let r := getchar l
    if r.1 = ERR then some (none, r.2)
    else do
      let reverse := r.1 = 33#8
      let l ← if reverse then some r.2 else stepback r.2 r.1
      let r := getchar l
      let (c, l) ← while_ isWord n r.1 r.2
      if c = ERR then some (none, l)
      else if c = 32#8 ∨ c = 9#8 ∨ c = 10#8 ∨ c = EOF then
        some (some ((macro? l l.res).isSome != reverse), clean l)
      else some (none, { l with err := .invchar })

/-- PREFIX_NAME##_lex_preprocess_if, lines 962-979; `tk` is the call of token. -/
def ppIf (tk : Lex → Out) (n : Nat) (l : Lex) : Out := do
  let l := { clean l with level := l.level + 1 }
  if l.ignore then tk l
  else do
    let (r, l) ← condition n l
    match r with
    | none => some (none, l)
    | some true => tk (clean { l with matched := l.matched + 1, ignore := false })
    | some false => tk (clean { l with ignore := true })

/-- The levels after #else, lines 986-992. -/
def elseLevels (l : Lex) : Lex :=
  if l.level ≤ l.matched then { l with ignore := true, matched := l.matched - 1 }
  else if l.matched + 1 = l.level then { l with matched := l.matched + 1, ignore := false }
  else l

/-- PREFIX_NAME##_lex_preprocess_else, lines 980-995. -/
def ppElse (tk : Lex → Out) (l : Lex) : Out :=
  if l.level = 0 then some (fail l .invmacro) else tk (elseLevels (clean l))

/-- The levels after #endif, lines 1002-1005. -/
def endifLevels (l : Lex) : Lex :=
  let m := if l.matched = l.level then l.matched - 1 else l.matched
  { l with matched := m, level := l.level - 1, ignore := m ≠ l.level - 1 }

/-- PREFIX_NAME##_lex_preprocess_endif, lines 996-1008. -/
def ppEndif (tk : Lex → Out) (l : Lex) : Out :=
  if l.level = 0 then some (fail l .invmacro) else tk (clean (endifLevels l))

/-- The end of the name of a macro. -/
def isBlankNl (c : Byte) : Bool := c = 32#8 || c = 9#8 || c = 10#8

/-- The name of a macro after #define and #undef, lines 875-902 and 1014-1041: the character behind
it, or `none` after an error.  The end of the input is not noticed. -/
def macroName (n : Nat) (l : Lex) : Option (Option Byte × Lex) := do
  let (c, l) ← blanks n l
  if c = ERR then some (none, l)
  else if c = EOF then some (none, { l with err := .inveof })
  else if c = 10#8 then some (none, { l with err := .inveol })
  else if ¬ isWord c then some (none, { l with err := .invchar })
  else do
    let l ← stepback l c
    let r := getchar (clean l)
    let (c, l) ← while_ (fun c => !isBlankNl c && c ≠ ERR) n r.1 r.2
    if c = ERR then some (none, l) else some (some c, l)

/-- The value of a macro from the label `again` on, lines 929-944; `none` after an error. -/
def macroValue : Nat → Lex → Option (Option (Option (List Byte)) × Lex)
  | 0, _ => none
  | n + 1, l => do
    let r := getchar l
    let (c, l) ← while_ (fun c => c ≠ ERR && c ≠ EOF && c ≠ 10#8) n r.1 r.2
    if c = ERR then some (none, l)
    else if l.res = [] then some (some none, l)
    else if l.res.getLast? = some 92#8 then macroValue n { l with res := l.res.dropLast }
    else some (some (some l.res), l)

/-- What follows the name, lines 916-945. -/
def macroBody (n : Nat) (c : Byte) (l : Lex) : Option (Option (Option (List Byte)) × Lex) :=
  if c = 10#8 then some (some none, l)
  else do
    let (c, l) ← blanks n (clean l)
    if c = ERR then some (none, l)
    else if c = EOF ∨ c = 10#8 then some (some none, l)
    else do
      let l ← stepback l c
      macroValue n l

/-- PREFIX_NAME##_lex_preprocess_define, lines 870-961. -/
def ppDefine (tk : Lex → Out) (n : Nat) (l : Lex) : Out := do
  let (c, l) ← macroName n l
  match c with
  | none => some (none, l)
  | some c =>
    if l.ignore then tk (clean l)
    else
      let k := l.res
      if (macro? l k).isSome then some (none, l)
      else do
        let (v, l) ← macroBody n c l
        match v with
        | none => some (none, l)
        | some v => tk (clean { l with macros := l.macros ++ [(k, v)] })

/-- PREFIX_NAME##_lex_preprocess_undef, lines 1009-1052. -/
def ppUndef (tk : Lex → Out) (n : Nat) (l : Lex) : Out := do
  let (c, l) ← macroName n l
  match c with
  | none => some (none, l)
  | some _ => tk (clean { l with macros := l.macros.filter (·.1 ≠ l.res) })

/-- mln_lex_check_file_loop, lines 587-699 of mln_lex.c, for files: the current input is compared
whatever its type (`data` is the path or the buffer), those below only if they are files. -/
def inLoop (l : Lex) (path : List Byte) : Bool :=
  (match l.cur with
   | none => false
   | some i => i.path.getD i.buf = path) ||
  l.stack.any (fun i => i.path = some path)

/-- PREFIX_NAME##_lex_preprocess_include, lines 822-869. -/
def ppInclude (cfg : Cfg) (tk : Lex → Out) (n : Nat) (l : Lex) : Out := do
  let (c, l) ← blanks n l
  if c = ERR then some (none, l)
  else if c = EOF then some (fail l .inveof)
  else if c = 10#8 then some (fail l .inveol)
  else if c ≠ 34#8 then some (fail l .invchar)
  else do
    let r := getchar (clean l)
    let (c, l) ← while_ (fun c => c ≠ ERR && c ≠ EOF && c ≠ 34#8) n r.1 r.2
    if c = ERR then some (none, l)
    else if c = EOF then some (fail l .inveof)
    else if l.res = [] then some (fail l .fpath)
    else
      match cfg.fs l.res with
      | none => some (fail l .fpath)
      | some bs =>
        if inLoop l l.res then some (fail l .includeloop)
        else tk (clean (pushFile l l.res bs))

def sDefine : List Byte := [100#8, 101#8, 102#8, 105#8, 110#8, 101#8]
def sInclude : List Byte := [105#8, 110#8, 99#8, 108#8, 117#8, 100#8, 101#8]
def sIf : List Byte := [105#8, 102#8]
def sElse : List Byte := [101#8, 108#8, 115#8, 101#8]
def sEndif : List Byte := [101#8, 110#8, 100#8, 105#8, 102#8]
def sUndef : List Byte := [117#8, 110#8, 100#8, 101#8, 102#8]

/-- The command `w` of the preprocessor, lines 1053-1060 and 1077-1107. -/
def ppCommand (cfg : Cfg) (tk : Lex → Out) (n : Nat) (w : List Byte) (l : Lex) : Out :=
  if w = sDefine then ppDefine tk n (clean l)
  else if w = sInclude then ppInclude cfg tk n (clean l)
  else if w = sIf then ppIf tk n (clean l)
  else if w = sElse then ppElse tk (clean l)
  else if w = sEndif then ppEndif tk (clean l)
  else if w = sUndef then ppUndef tk n (clean l)
  else
    match macro? l w with
    | none => some (fail l .unknownmacro)
    | some (_, none) => tk (clean l)
    | some (_, some v) => tk (clean (pushBuf l v))

/-- PREFIX_NAME##_nums_handler, lines 1061-1108. -/
def numsHandler (cfg : Cfg) (tk : Lex → Out) (n : Nat) (l : Lex) : Out := do
  let r := getchar l
  if r.1 = ERR then some (none, r.2)
  else if ¬ isWord r.1 then do
    let l ← stepback r.2 r.1
    ret l (.spec 64#8)
  else do
    let (c, l) ← while_ isWord n r.1 (clean r.2)
    if c = ERR then some (none, l)
    else do
      let l ← stepback l c
      ppCommand cfg tk n l.res l

/-! ## Tokens -/

/-- PREFIX_NAME##_process_spec_char, lines 659-669. -/
def special (cfg : Cfg) (tk : Lex → Out) (n : Nat) (l : Lex) (c : Byte) : Out :=
  if specials.elem c then
    match cfg.hook c with
    | .plain => ret l (.spec c)
    | .nums => numsHandler cfg tk n l
    | .user f => f n l
  else some (fail l .invchar)

/-- Lines 700-714: an identifier, a keyword or the underscore. -/
def word (cfg : Cfg) (tk : Lex → Out) (n : Nat) (c : Byte) (l : Lex) : Out := do
  let (c, l) ← while_ isWord n c l
  if c = ERR then some (none, l)
  else do
    let l ← stepback l c
    if l.res = [95#8] then special cfg tk n l 95#8
    else ret l (keyword cfg l.res)

/-- Lines 715-788: a number. -/
def number (n : Nat) (c : Byte) (l : Lex) : Out := do
  let (c, l) ← while_ isNum n c l
  if c = ERR then some (none, l)
  else do
    let l ← stepback l c
    match numType l.res with
    | .error e => some (fail l e)
    | .ok ty => ret l ty

/-- PREFIX_NAME##_token, lines 671-800, after the blanks. -/
def dispatch (cfg : Cfg) (tk : Lex → Out) (n : Nat) (c : Byte) (l : Lex) : Out :=
  if isLetter c then word cfg tk n c l
  else if isDigit c then number n c l
  else special cfg tk n (put l c) c

/-- What is done with a token: given back unless what stands here is to be ignored. -/
def finish (tk : Lex → Out) (r : Option Tok × Lex) : Out :=
  if r.1 = none ∨ r.2.ignore = false then some r else tk r.2

/-- PREFIX_NAME##_token, lines 671-800. -/
def token (cfg : Cfg) : Nat → Lex → Out
  | 0, _ => none
  | n + 1, l => do
    let r := getchar l
    let (c, l) ← lead n r.1 r.2
    if c = ERR then some (none, l)
    else if c = EOF then ret l .eof
    else do
      let r ← dispatch cfg (token cfg n) n c l
      finish (token cfg n) r

/-- The macros of a new lexer, lines 267-381 of mln_lex.c: `1` and `true`. -/
def macros0 : List (List Byte × Option (List Byte)) :=
  [([49#8], none), ([116#8, 114#8, 117#8, 101#8], none)]

/-- mln_lex_init, lines 267-381 of mln_lex.c, for a buffer and for a file. -/
def init (bs : List Byte) : Lex := pushBuf { macros := macros0 } bs
def initFile (path bs : List Byte) : Lex := pushFile { macros := macros0 } path bs

/-! ## Snapshots -/

/-- The place in an input: for buffers counted from the beginning, for files from the end (so that
the size of the file is not needed). -/
def place (i : Input) : Nat :=
  match i.path with
  | none => i.pos
  | some _ => i.left.length + (i.buf.length - i.pos)

/-- mln_lex_snapshot_record, lines 760-776 of mln_lex.c: the place in the current input or in the one
on top of the stack; `none` is NULL. -/
def snapshot (l : Lex) : Option Nat := (l.cur.toList ++ l.stack).head?.map place

/-- Going back to the place `d` of an input, lines 784-792 of mln_lex.c.  In a file this is only done
if the place is in the buffer. -/
def rewind (i : Input) (d : Nat) : Input :=
  match i.path with
  | none => if d < i.buf.length then { i with pos := d } else i
  | some _ =>
    if d ≤ i.left.length ∨ d > i.left.length + i.buf.length then i
    else { i with left := i.buf.drop (i.left.length + i.buf.length - d) ++ i.left,
                  pos := i.buf.length }

/-- mln_lex_snapshot_apply, lines 778-794 of mln_lex.c; the place belongs to the input it is applied
to. -/
def apply (l : Lex) (d : Option Nat) : Lex :=
  match d with
  | none => l
  | some d =>
    match l.cur, l.stack with
    | some i, _ => { l with cur := some (rewind i d) }
    | none, i :: st => { l with stack := rewind i d :: st }
    | none, [] => l

end Verif.Lex
