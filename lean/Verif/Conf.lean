import Verif.Lex
/-
Model of src/mln_conf.c: the tokens of a configuration file, loading it, and reloading.

Simplifications:
* allocations succeed (Lex has the same); what is freed is left out;
* the trees of domains and of commands are lists in the order of insertion (RbTree has the trees; which
  of several equal names is found depends on their shape);
* a command is put in its domain once its arguments have been read (the code does it before; if reading
  them fails, everything is dropped);
* `atol` saturates as glibc does; reading a real number is a parameter; messages on stderr are left out;
* `Option none` is a call that does not return.
-/
namespace Verif.Conf
open Verif.Lex

/-! ## Tokens -/

/-- conf_keywords, lines 26-30. -/
def keywords : List (List Byte) := [[111#8, 110#8], [111#8, 102#8, 102#8]]

/-- The types of tokens of lines 34-39. -/
abbrev ON : Ty := .kw 0
abbrev OFF : Ty := .kw 1
abbrev COMMENT : Ty := .kw 2
abbrev CHAR : Ty := .kw 3
abbrev STRING : Ty := .kw 4
abbrev SLASH : Ty := .spec 47#8
abbrev SUB : Ty := .spec 45#8
abbrev SEMIC : Ty := .spec 59#8
abbrev LBRACE : Ty := .spec 123#8
abbrev RBRACE : Ty := .spec 125#8

/-- The byte that stands for a backslash and `n`, lines 137-176. -/
def escape (n : Byte) : Option Byte :=
  if n = 34#8 then some 34#8
  else if n = 39#8 then some 39#8
  else if n = 110#8 then some 10#8
  else if n = 116#8 then some 9#8
  else if n = 98#8 then some 8#8
  else if n = 97#8 then some 7#8
  else if n = 102#8 then some 12#8
  else if n = 114#8 then some 13#8
  else if n = 101#8 then some 27#8
  else if n = 118#8 then some 11#8
  else if n = 92#8 then some 92#8
  else none

/-- mln_get_char, lines 132-181; the flag is false for -1. -/
def getEsc (l : Lex) (c : Byte) : Bool × Lex :=
  if c = 92#8 then
    let r := getchar l
    if r.1 = ERR then (false, r.2)
    else
      match escape r.1 with
      | none => (false, { r.2 with err := .invchar })
      | some b => (true, put r.2 b)
  else (true, put l c)

/-- mln_conf_lex_sglq_handler, lines 115-130. -/
def sglq (l : Lex) : Out :=
  let r := getchar (clean l)
  if r.1 = ERR then some (none, r.2)
  else if r.1.toNat > 127 ∨ r.1 = 39#8 then some (fail r.2 .invchar)
  else
    let e := getEsc r.2 r.1
    if e.1 = false then some (none, e.2)
    else
      let r := getchar e.2
      if r.1 = ERR then some (none, r.2)
      else if r.1 ≠ 39#8 then some (fail r.2 .invchar)
      else ret r.2 CHAR

/-- The loop of mln_conf_lex_dblq_handler, lines 183-197. -/
def dblq : Nat → Lex → Out
  | 0, _ => none
  | n + 1, l =>
    let r := getchar l
    if r.1 = ERR then some (none, r.2)
    else if r.1 = EOF then some (fail r.2 .inveof)
    else if r.1 = 34#8 then ret r.2 STRING
    else
      let e := getEsc r.2 r.1
      if e.1 = false then some (none, e.2) else dblq n e.2

/-- The line is counted. -/
def nl (l : Lex) (c : Byte) : Lex := if c = 10#8 then { l with line := l.line + 1 } else l

/-- The loop over a comment of several lines, lines 204-227. -/
def block : Nat → Lex → Out
  | 0, _ => none
  | n + 1, l =>
    let r := getchar l
    if r.1 = ERR then some (none, r.2)
    else if r.1 = EOF then (stepback r.2 r.1).bind (ret · COMMENT)
    else
      let l := nl r.2 r.1
      if r.1 = 42#8 then
        let r := getchar (put l 42#8)
        if r.1 = ERR then some (none, r.2)
        else if r.1 = EOF then (stepback r.2 r.1).bind (ret · COMMENT)
        else
          let l := nl r.2 r.1
          if r.1 = 47#8 then ret (put l r.1) COMMENT else block n (put l r.1)
      else block n (put l r.1)

/-- The loop over a comment up to the end of the line, lines 230-242. -/
def lineComment : Nat → Lex → Out
  | 0, _ => none
  | n + 1, l =>
    let r := getchar l
    if r.1 = ERR then some (none, r.2)
    else if r.1 = EOF ∨ r.1 = 10#8 then (stepback r.2 r.1).bind (ret · COMMENT)
    else lineComment n (put r.2 r.1)

/-- mln_conf_lex_slash_handler, lines 199-248. -/
def slash (n : Nat) (l : Lex) : Out :=
  let r := getchar l
  if r.1 = ERR then some (none, r.2)
  else if r.1 = 42#8 then block n (put r.2 r.1)
  else if r.1 = 47#8 then lineComment n (put r.2 r.1)
  else (stepback r.2 r.1).bind (ret · SLASH)

/-- The settings of the lexer, lines 359-369. -/
def cfg (fs : List Byte → Option (List Byte)) : Cfg where
  keywords := keywords
  fs := fs
  hook := fun b =>
    if b = 34#8 then .user (fun n l => dblq n (clean l))
    else if b = 39#8 then .user (fun _ l => sglq l)
    else if b = 47#8 then .user slash
    else if b = 35#8 then .nums
    else .plain

/-- mln_conf_token, lines 250-302, from the loop on; `sub` is `sub_mark`.  A number behind the sign
gets it in front of its bytes (the length of the string is not changed, and not read either). -/
def confToken (fs : List Byte → Option (List Byte)) (fuel : Nat) : Nat → Bool → Lex → Out
  | 0, _, _ => none
  | n + 1, sub, l => do
    let (t, l) ← token (cfg fs) fuel l
    match t with
    | none => if sub then some (fail l .invchar) else some (none, l)
    | some t =>
      if t.type = COMMENT then
        if sub then some (fail l .invchar) else confToken fs fuel n false l
      else if t.type = SUB then
        if sub then some (fail l .invchar) else confToken fs fuel n true l
      else if sub = false then some (some t, l)
      else if t.type = .dec ∨ t.type = .real then some (some { t with text := 45#8 :: t.text }, l)
      else some (fail l .invchar)

/-! ## Arguments -/

/-- mln_conf_item_t, include/mln_conf.h lines 36-52; a real number is a `float`. -/
inductive Item where
  | str (s : List Byte)
  | chr (b : Byte)
  | bool (b : Bool)
  | int (i : Int)
  | real (bits : BitVec 32)
deriving DecidableEq, Repr

/-- The number written with the digits `ds`. -/
def number (ds : List Byte) : Nat := ds.foldl (fun a c => a * 10 + (c.toNat - 48)) 0

/-- `atol` on a decimal number with or without a sign. -/
def atol (s : List Byte) : Int :=
  match s with
  | [] => 0
  | c :: ds => if c = 45#8 then max (-(number ds : Int)) (-(2 ^ 63)) else min (number s : Int) (2 ^ 63 - 1)

/-- mln_conf_item_init and mln_isvalid_item, lines 609-665; `none` is -1. -/
def itemInit (real : List Byte → BitVec 32) (t : Tok) : Option Item :=
  match t.type with
  | .dec => some (.int (atol t.text))
  | .real => some (.real (real t.text))
  | .kw 4 => some (.str t.text)
  | .kw 0 => some (.bool true)
  | .kw 1 => some (.bool false)
  | .kw 3 => some (.chr (t.text.headD 0#8))
  | _ => none

/-- What loading works with: the files, `atof`, and the fuel of the loops over the text. -/
structure Env where
  fs : List Byte → Option (List Byte) := fun _ => none
  real : List Byte → BitVec 32
  fuel : Nat

def Env.token (E : Env) (l : Lex) : Out := confToken E.fs E.fuel E.fuel false l

/-- mln_conf_item_recursive, lines 718-756, on the token `t`: the tokens are read up to the semicolon,
then they become arguments from the last one to the first.  `none` inside is -1. -/
def items (E : Env) : Nat → Option Tok → Lex → Option (Option (List Item) × Lex)
  | 0, _, _ => none
  | n + 1, t, l =>
    match t with
    | none => some (none, l)
    | some t =>
      if t.type = .eof then some (none, l)
      else if t.type = SEMIC then some (some [], l)
      else do
        let (next, l) ← E.token l
        let (r, l) ← items E n next l
        match r with
        | none => some (none, l)
        | some is => some ((itemInit E.real t).map (· :: is), l)

/-! ## Domains -/

/-- mln_conf_domain_t: the name and the commands with their arguments. -/
structure Dom where
  name : List Byte
  cmds : List (List Byte × List Item) := []
deriving DecidableEq, Repr

abbrev Conf := List Dom

/-- default_domain, line 25. -/
def main : List Byte := [109#8, 97#8, 105#8, 110#8]

/-- mln_conf_cmd_insert, lines 572-591, into the domain at `cur`. -/
def addCmd (C : Conf) (cur : Nat) (name : List Byte) (is : List Item) : Conf :=
  C.modify cur fun d => { d with cmds := d.cmds ++ [(name, is)] }

/-- _mln_conf_load, lines 758-833, for the domain at `cur`; the flag is false for -1. -/
def load (E : Env) : Nat → Nat → Conf → Lex → Option (Bool × Conf × Lex)
  | 0, _, _, _ => none
  | n + 1, cur, C, l => do
    let name := (C[cur]?.map (·.name)).getD []
    let (fir, l) ← E.token l
    match fir with
    | none => some (false, C, l)
    | some fir =>
      if fir.type = .eof then some (true, C, l)
      else if fir.type = RBRACE then some (name != main, C, l)
      else if fir.type ≠ .id then some (false, C, l)
      else do
        let (next, l) ← E.token l
        match next with
        | none => some (false, C, l)
        | some next =>
          if next.type = .eof then some (false, C, l)
          else if next.type = LBRACE then
            if name ≠ main then some (false, C, l)
            else do
              let (ok, C, l) ← load E n C.length (C ++ [{ name := fir.text }]) l
              if ok then load E n cur C l else some (false, C, l)
          else do
            let (r, l) ← items E E.fuel (some next) l
            match r with
            | none => some (false, C, l)
            | some is => load E n cur (addCmd C cur fir.text is) l

/-- The configuration before the file is read, line 384. -/
def empty : Conf := [{ name := main }]

/-! ## Loading and reloading -/

/-- mln_conf_load, lines 835-869: g_conf afterwards and whether it returns 0.  `file` is the
configuration file, if there is one. -/
def confLoad (E : Env) (path : List Byte) (file : Option (List Byte)) (g : Option Conf) :
    Option (Bool × Option Conf) :=
  match g with
  | some C => some (true, some C)
  | none =>
    match file with
    | none => some (true, some empty)
    | some bs => do
      let (ok, C, _) ← load E E.fuel 0 empty (initFile path bs)
      some (ok, if ok then some C else none)

/-- The loop of mln_conf_reload, lines 925-928: hooks are functions of g_conf; the flag is false if one
of them gives a negative number. -/
def runHooks (g : Option Conf) : List (Option Conf → Int) → Bool
  | [] => true
  | h :: hs => if h g < 0 then false else runHooks g hs

/-- mln_conf_reload, lines 921-930. -/
def reload (E : Env) (path : List Byte) (file : Option (List Byte)) (hooks : List (Option Conf → Int))
    (_g : Option Conf) : Option (Bool × Option Conf) := do
  let (_, g) ← confLoad E path file none
  some (runHooks g hooks, g)

/-- mln_conf_item_search, lines 667-670. -/
def itemSearch (is : List Item) (index : Nat) : Option Item :=
  if index = 0 ∨ index > is.length then none else is[index - 1]?

end Verif.Conf
