import Verif.Lex
/-
Model of src/mln_expr.c: running a text of constants, variables, calls, conditions and loops.

Simplifications:
* allocations succeed (Lex has the same); an array of arguments is a list (Array has the arrays);
* the callback is a function on the state of the user; it does not change the array it is given and
  does not call the lexer;
* a string carries the place of its memory, the pool of the lexer or the memory of the user; counts
  of references are left out, so is the function that frees a value;
* `sscanf` saturates as glibc does; reading a real number is a parameter;
* `Option none` is a call that does not return.
-/
namespace Verif.Expr
open Verif.Lex

/-- mln_expr_val_t, include/mln_expr.h lines 20-40.  `pool` says that a string lies in the pool that
mln_expr_run makes for the lexer and destroys before it returns. -/
inductive Val where
  | null
  | bool (b : Byte)
  | int (i : Int)
  | real (bits : BitVec 64)
  | str (pool : Bool) (s : List Byte)
  | udata (p : Nat)
deriving DecidableEq, Repr

/-! ## Tokens -/

/-- The keywords, lines 9-21. -/
def keywords : List (List Byte) :=
  [[116#8, 114#8, 117#8, 101#8], [102#8, 97#8, 108#8, 115#8, 101#8], [110#8, 117#8, 108#8, 108#8],
   [105#8, 102#8], [116#8, 104#8, 101#8, 110#8], [101#8, 108#8, 115#8, 101#8], [102#8, 105#8],
   [108#8, 111#8, 111#8, 112#8], [100#8, 111#8], [101#8, 110#8, 100#8]]

/-- The types of tokens of lines 23-36 that the parser asks for. -/
abbrev TRUE : Ty := .kw 0
abbrev FALSE : Ty := .kw 1
abbrev NULL : Ty := .kw 2
abbrev IF : Ty := .kw 3
abbrev THEN : Ty := .kw 4
abbrev ELSE : Ty := .kw 5
abbrev FI : Ty := .kw 6
abbrev LOOP : Ty := .kw 7
abbrev DO : Ty := .kw 8
abbrev END : Ty := .kw 9
abbrev STRING : Ty := .kw 10
abbrev COLON : Ty := .spec 58#8
abbrev COMMA : Ty := .spec 44#8
abbrev LPAR : Ty := .spec 40#8
abbrev RPAR : Ty := .spec 41#8

/-- The byte that stands for a backslash and `n`, lines 61-95. -/
def escape (n : Byte) : Option Byte :=
  if n = 34#8 then some 34#8
  else if n = 39#8 then some 39#8
  else if n = 110#8 then some 10#8
  else if n = 116#8 then some 9#8
  else if n = 98#8 then some 8#8
  else if n = 97#8 then some 7#8
  else if n = 102#8 then some 12#8
  else if n = 114#8 then some 13#8
  else if n = 118#8 then some 11#8
  else if n = 92#8 then some 92#8
  else none

/-- The loops of mln_expr_dblq_handler and mln_expr_sglq_handler, lines 105-115 and 121-131, with
mln_get_char, lines 57-100. -/
def quoted (q : Byte) : Nat → Lex → Out
  | 0, _ => none
  | n + 1, l =>
    let r := getchar l
    if r.1 = ERR then some (none, r.2)
    else if r.1 = EOF then some (fail r.2 .inveof)
    else if r.1 = q then ret r.2 STRING
    else if r.1 = 92#8 then
      let r2 := getchar r.2
      if r2.1 = ERR then some (none, r2.2)
      else
        match escape r2.1 with
        | none => some (fail r2.2 .invchar)
        | some b => quoted q n (put r2.2 b)
    else quoted q n (put r.2 r.1)

/-- The settings of mln_expr_run, lines 738-751. -/
def cfg : Cfg where
  keywords := keywords
  hook := fun b =>
    if b = 34#8 then .user (fun n l => quoted 34#8 n (clean l))
    else if b = 39#8 then .user (fun n l => quoted 39#8 n (clean l))
    else .plain

/-- The settings of mln_expr_run_file, lines 797-810: with the preprocessor. -/
def cfgFile (fs : List Byte → Option (List Byte)) : Cfg :=
  { keywords := keywords, fs := fs,
    hook := fun b => if b = 35#8 then .nums else cfg.hook b }

/-! ## Constants -/

/-- The value of a digit. -/
def digit (c : Byte) : Nat :=
  if c.toNat ≤ 57 then c.toNat - 48 else if c.toNat ≤ 70 then c.toNat - 55 else c.toNat - 87

/-- The number written with the digits `ds`. -/
def number (base : Nat) (ds : List Byte) : Nat := ds.foldl (fun a c => a * base + digit c) 0

/-- `sscanf` with `%lo` and `%lx` into a signed variable. -/
def scanU (n : Nat) : Int := (BitVec.ofNat 64 (min n (2 ^ 64 - 1))).toInt
/-- `sscanf` with `%ld`, for digits without sign. -/
def scanS (n : Nat) : Int := min n (2 ^ 63 - 1)

/-- mln_expr_val_init, lines 134-191. -/
def valInit (real : List Byte → BitVec 64) (t : Tok) : Option Val :=
  let num := t.text.take 1023
  match t.type with
  | .oct => some (.int (scanU (number 8 num)))
  | .dec => some (.int (scanS (number 10 num)))
  | .hex => some (.int (scanU (number 16 (num.drop 2))))
  | .real => some (.real (real num))
  | .kw 10 => some (.str true t.text)
  | .kw 0 => some (.bool 1#8)
  | .kw 1 => some (.bool 0#8)
  | .kw 2 => some .null
  | _ => none

/-- The test of lines 463-482 and 630-649. -/
def truth : Val → Bool
  | .null => false
  | .bool b => b != 0#8
  | .int i => i != 0
  | .real r => r != 0#64 && r != 0x8000000000000000#64
  | .str _ s => s != []
  | .udata p => p != 0

/-! ## The parser -/

/-- What the parser works with: the callback (namespace, name, arguments), reading real numbers, the
settings of the lexer and the fuel of the loops over the text. -/
structure Env (U : Type) where
  cb : U → Option (List Byte) → List Byte → Option (List Val) → Option Val × U
  real : List Byte → BitVec 64
  cfg : Cfg
  fuel : Nat

/-- The lexer, the state of the user, `*eof` and `*next`. -/
structure St (U : Type) where
  lex : Lex
  usr : U
  eof : Bool := false
  next : Option Tok := none

/-- MLN_EXPR_RET_*, include/mln_expr.h lines 11-14, with the value for OK. -/
inductive Rc where
  | ok (v : Val) | comma | rpar | err
deriving DecidableEq, Repr

variable {U : Type}

/-- mln_expr_token. -/
def tok (E : Env U) (s : St U) : Option (Option Tok × St U) := do
  let (t, l) ← token E.cfg E.fuel s.lex
  some (t, { s with lex := l })

/-- The token put back, or a new one: lines 319-327 and the same at other places. -/
def nextTok (E : Env U) (s : St U) : Option (Option Tok × St U) :=
  match s.next with
  | some t => some (some t, { s with next := none })
  | none => tok E s

/-- mln_string_pool_concat, src/mln_string.c lines 321-362. -/
def concat (ns : Option (List Byte)) (name sep : List Byte) : List Byte :=
  match ns with
  | none => name
  | some ns => ns ++ sep ++ name

/-- The loop of lines 516-529: to the `fi` that belongs to the `else` that was read; `false` is an error. -/
def skipFi (E : Env U) : Nat → Nat → St U → Option (Bool × St U)
  | 0, _, _ => none
  | n + 1, count, s => do
    let (t, s) ← tok E s
    match t with
    | none => some (false, s)
    | some t =>
      if t.type = IF then skipFi E n (count + 1) s
      else if t.type = .eof then some (false, s)
      else if t.type = FI then if count = 0 then some (true, s) else skipFi E n (count - 1) s
      else skipFi E n count s

/-- The loop of lines 552-575: to the `else`.  The first token may be the one put back. -/
def skipElse (E : Env U) : Nat → Int → St U → Option (Bool × St U)
  | 0, _, _ => none
  | n + 1, count, s => do
    let (t, s) ← nextTok E s
    match t with
    | none => some (false, s)
    | some t =>
      if t.type = IF then skipElse E n (count + 1) s
      else if t.type = .eof then some (false, s)
      else if t.type = FI then skipElse E n (count - 1) s
      else if t.type = ELSE then if count = 0 then some (true, s) else skipElse E n count s
      else skipElse E n count s

/-- The loop of lines 702-723: to the `end`. -/
def skipEnd (E : Env U) : Nat → Nat → St U → Option (Bool × St U)
  | 0, _, _ => none
  | n + 1, count, s => do
    let (t, s) ← nextTok E s
    match t with
    | none => some (false, s)
    | some t =>
      if t.type = LOOP then skipEnd E n (count + 1) s
      else if t.type = .eof then some (false, s)
      else if t.type = END then if count = 0 then some (true, s) else skipEnd E n (count - 1) s
      else skipEnd E n count s

mutual
/-- mln_expr_parse, lines 307-442, from the label `again` on with the namespace `ns`. -/
def parse (E : Env U) : Nat → Option (List Byte) → St U → Option (Rc × St U)
  | 0, _, _ => none
  | n + 1, ns, s => do
    let (t, s) ← nextTok E s
    match t with
    | none => some (.err, s)
    | some t =>
      if t.type = .eof then some (.ok .null, { s with eof := true })
      else if t.type = COLON then parse E n ns s
      else if t.type = COMMA then some (.comma, s)
      else if t.type = RPAR then some (.rpar, s)
      else if t.type = IF then parseIf E n s
      else if t.type = LOOP then parseLoop E n (snapshot s.lex) .null s
      else if t.type ≠ .id then
        match valInit E.real t with
        | none => some (.err, s)
        | some v => some (.ok v, s)
      else do
        let (t2, s) ← tok E s
        match t2 with
        | none => some (.err, s)
        | some t2 =>
          if t2.type = COLON then parse E n (some (concat ns t.text t2.text)) s
          else if t2.type ≠ LPAR then
            let r := E.cb s.usr ns t.text none
            let s := { s with
              usr := r.2, next := if t2.type = .eof ∨ t2.type = COMMA then s.next else some t2 }
            match r.1 with
            | none => some (.err, s)
            | some v => some (.ok v, s)
          else do
            let (args, s) ← parseArgs E n [] s
            match args with
            | none => some (.err, s)
            | some args =>
              let r := E.cb s.usr ns t.text (some args)
              let s := { s with usr := r.2 }
              match r.1 with
              | none => some (.err, s)
              | some v => some (.ok v, s)

/-- The arguments of a call, lines 405-433; `none` is an error. -/
def parseArgs (E : Env U) : Nat → List Val → St U → Option (Option (List Val) × St U)
  | 0, _, _ => none
  | n + 1, acc, s => do
    let (rc, s) ← parse E n none s
    match rc with
    | .err => some (none, s)
    | .rpar => some (some acc, s)
    | .ok v => if s.eof then some (none, s) else parseArgs E n (acc ++ [v]) s
    | .comma => parseArgs E n acc s

/-- mln_expr_parse_if, lines 444-607. -/
def parseIf (E : Env U) : Nat → St U → Option (Rc × St U)
  | 0, _ => none
  | n + 1, s => do
    let (rc, s) ← parse E n none s
    match rc with
    | .ok v =>
      if s.eof then some (.err, s)
      else do
        let (t, s) ← nextTok E s
        match t with
        | none => some (.err, s)
        | some t =>
          if t.type ≠ THEN then some (.err, s)
          else if truth v then parseThen E n .null s
          else do
            let (b, s) ← skipElse E E.fuel 0 s
            if b then parseElse E n .null s else some (.err, s)
    | rc => some (rc, s)

/-- The branch behind `then`, lines 505-550. -/
def parseThen (E : Env U) : Nat → Val → St U → Option (Rc × St U)
  | 0, _, _ => none
  | n + 1, r, s => do
    let (t, s) ← nextTok E s
    match t with
    | none => some (.err, s)
    | some t =>
      if t.type = ELSE then do
        let (b, s) ← skipFi E E.fuel 0 s
        if b then some (.ok r, s) else some (.err, s)
      else if t.type = FI then some (.ok r, s)
      else do
        let (rc, s) ← parse E n none { s with next := some t }
        match rc with
        | .ok v => if s.eof then some (.err, s) else parseThen E n v s
        | rc => some (rc, s)

/-- The branch behind `else`, lines 577-603. -/
def parseElse (E : Env U) : Nat → Val → St U → Option (Rc × St U)
  | 0, _, _ => none
  | n + 1, r, s => do
    let (t, s) ← nextTok E s
    match t with
    | none => some (.err, s)
    | some t =>
      if t.type = FI then some (.ok r, s)
      else do
        let (rc, s) ← parse E n none { s with next := some t }
        match rc with
        | .ok v => if s.eof then some (.err, s) else parseElse E n v s
        | rc => some (rc, s)

/-- mln_expr_parse_loop, lines 609-727, from the label `begin` on; `off` is the place behind `loop`. -/
def parseLoop (E : Env U) : Nat → Option Nat → Val → St U → Option (Rc × St U)
  | 0, _, _, _ => none
  | n + 1, off, r, s => do
    let (rc, s) ← parse E n none s
    match rc with
    | .ok v =>
      if s.eof then some (.err, s)
      else do
        let (t, s) ← nextTok E s
        match t with
        | none => some (.err, s)
        | some t =>
          if t.type ≠ DO then some (.err, s)
          else if truth v then do
            let (rc, s) ← parseBody E n r s
            match rc with
            | .ok r => parseLoop E n off r { s with lex := apply s.lex off }
            | rc => some (rc, s)
          else do
            let (b, s) ← skipEnd E E.fuel 0 s
            if b then some (.ok r, s) else some (.err, s)
    | rc => some (rc, s)

/-- The body of a loop, lines 672-698. -/
def parseBody (E : Env U) : Nat → Val → St U → Option (Rc × St U)
  | 0, _, _ => none
  | n + 1, r, s => do
    let (t, s) ← nextTok E s
    match t with
    | none => some (.err, s)
    | some t =>
      if t.type = END then some (.ok r, s)
      else do
        let (rc, s) ← parse E n none { s with next := some t }
        match rc with
        | .ok v => if s.eof then some (.err, s) else parseBody E n v s
        | rc => some (rc, s)
end

/-- The loop of mln_expr_run, lines 759-779: the result is `none` for NULL, and the state of the user
at the end. -/
def loop (E : Env U) : Nat → Option Val → St U → Option (Option Val × U)
  | 0, _, _ => none
  | n + 1, r, s => do
    let (rc, s) ← parse E n none s
    match rc with
    | .ok v => if s.eof then some (some (r.getD .null), s.usr) else loop E n (some v) s
    | _ => some (none, s.usr)

/-- mln_expr_run, lines 729-786, and mln_expr_run_file, lines 788-845: fuel `n`. -/
def run (E : Env U) (n : Nat) (text : List Byte) (u : U) : Option (Option Val × U) :=
  loop E n none { lex := init text, usr := u }
def runFile (E : Env U) (n : Nat) (path text : List Byte) (u : U) : Option (Option Val × U) :=
  loop E n none { lex := initFile path text, usr := u }

end Verif.Expr
