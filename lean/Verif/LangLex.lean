import Verif.Conf
import Verif.LangExp
/-!
# The tokens of scripts

mln_lang_ast.c:402-417, 539-859 and 3761-3817: the keywords and the handlers that make a lexer of
mln_lex.h (`Verif.Lex`) the lexer of scripts, and the whole text of a script as the tokens the parser
gets.

Simplifications.
* Those of `Verif.Lex`.
* `mln_get_char` (lines 735-784) is that of mln_conf.c, byte for byte: `Verif.Conf.getEsc`.
* A comment ends in a call of `mln_lang_token`: `cfg fs d` are the settings for at most `d` comments
  one behind the other, with more the result is `none`.
* The parser asks for one token after the other and works in between; here all are read first.
  A text that the lexer refuses has no tokens then.
-/
namespace Verif.LangLex
open Verif.Lex

/-- `keywords`, lines 402-417: if, else, while, for, continue, break, return, goto, nil, true, false,
switch, case, default, fi. -/
def keywords : List (List Byte) := [
  [105#8, 102#8],
  [101#8, 108#8, 115#8, 101#8],
  [119#8, 104#8, 105#8, 108#8, 101#8],
  [102#8, 111#8, 114#8],
  [99#8, 111#8, 110#8, 116#8, 105#8, 110#8, 117#8, 101#8],
  [98#8, 114#8, 101#8, 97#8, 107#8],
  [114#8, 101#8, 116#8, 117#8, 114#8, 110#8],
  [103#8, 111#8, 116#8, 111#8],
  [110#8, 105#8, 108#8],
  [116#8, 114#8, 117#8, 101#8],
  [102#8, 97#8, 108#8, 115#8, 101#8],
  [115#8, 119#8, 105#8, 116#8, 99#8, 104#8],
  [99#8, 97#8, 115#8, 101#8],
  [100#8, 101#8, 102#8, 97#8, 117#8, 108#8, 116#8],
  [102#8, 105#8]]

/-! The types of tokens behind the keywords, lines 11-51. -/
abbrev STRING : Ty := .kw 15
abbrev PLUSEQ : Ty := .kw 16
abbrev SUBEQ : Ty := .kw 17
abbrev LMOVEQ : Ty := .kw 18
abbrev RMOVEQ : Ty := .kw 19
abbrev MULEQ : Ty := .kw 20
abbrev DIVEQ : Ty := .kw 21
abbrev OREQ : Ty := .kw 22
abbrev ANDEQ : Ty := .kw 23
abbrev ANTIEQ : Ty := .kw 24
abbrev XOREQ : Ty := .kw 25
abbrev MODEQ : Ty := .kw 26
abbrev LOWOR : Ty := .kw 27
abbrev LOWAND : Ty := .kw 28
abbrev DEQUAL : Ty := .kw 29
abbrev NONEQUAL : Ty := .kw 30
abbrev LESSEQ : Ty := .kw 31
abbrev GREATEREQ : Ty := .kw 32
abbrev INC : Ty := .kw 33
abbrev DECR : Ty := .kw 34
abbrev LMOVE : Ty := .kw 35
abbrev RMOVE : Ty := .kw 36

/-- A handler for a sign that may be followed by `=`: lines 571-580 (`*`), 657-666 (`~`), 669-678 (`^`),
681-690 (`%`), 693-702 (`=`), 705-714 (`!`). -/
def one (eq plain : Ty) (l : Lex) : Out :=
  let r := getchar l
  if r.1 = 61#8 then ret (put r.2 r.1) eq else (stepback r.2 r.1).bind (ret · plain)

/-- A handler for a sign that may be followed by itself or by `=`: lines 539-552 (`-`), 555-568 (`+`),
625-638 (`|`), 641-654 (`&`). -/
def two (q : Byte) (twice eq plain : Ty) (l : Lex) : Out :=
  let r := getchar l
  if r.1 = q then ret (put r.2 r.1) twice
  else if r.1 = 61#8 then ret (put r.2 r.1) eq
  else (stepback r.2 r.1).bind (ret · plain)

/-- mln_lang_lagl_handler and mln_lang_ragl_handler, lines 583-601 and 604-622. -/
def angle (q : Byte) (move moveq eq plain : Ty) (l : Lex) : Out :=
  let r := getchar l
  if r.1 = q then
    let r := getchar (put r.2 r.1)
    if r.1 ≠ 61#8 then (stepback r.2 r.1).bind (ret · move) else ret (put r.2 r.1) moveq
  else if r.1 = 61#8 then ret (put r.2 r.1) eq
  else (stepback r.2 r.1).bind (ret · plain)

/-- The line is counted. -/
def nl (l : Lex) (c : Byte) : Lex := if c = 10#8 then { l with line := l.line + 1 } else l

/-- The loop of mln_lang_sglq_handler, lines 717-732. -/
def sglq : Nat → Lex → Out
  | 0, _ => none
  | n + 1, l =>
    let r := getchar l
    if r.1 = ERR then some (none, r.2)
    else if r.1 = EOF then some (fail r.2 .inveof)
    else if r.1 = 39#8 then ret r.2 STRING
    else sglq n (put (nl r.2 r.1) r.1)

/-- The loop of mln_lang_dblq_handler, lines 786-802. -/
def dblq : Nat → Lex → Out
  | 0, _ => none
  | n + 1, l =>
    let r := getchar l
    if r.1 = ERR then some (none, r.2)
    else if r.1 = EOF then some (fail r.2 .inveof)
    else if r.1 = 34#8 then ret r.2 STRING
    else
      let e := Conf.getEsc (nl r.2 r.1) r.1
      if e.1 = false then some (none, e.2) else dblq n e.2

/-- The loop over a comment of several lines, lines 812-834; the flag is false for `return NULL`. -/
def block : Nat → Lex → Option (Bool × Lex)
  | 0, _ => none
  | n + 1, l =>
    let r := getchar l
    if r.1 = ERR then some (false, r.2)
    else if r.1 = EOF then (stepback r.2 r.1).map (true, ·)
    else
      let l := nl r.2 r.1
      if r.1 = 42#8 then
        let r := getchar (put l 42#8)
        if r.1 = ERR then some (false, r.2)
        else if r.1 = EOF then (stepback r.2 r.1).map (true, ·)
        else
          let l := nl r.2 r.1
          if r.1 = 47#8 then some (true, put l r.1) else block n (put l r.1)
      else block n (put l r.1)

/-- The loop over a comment up to the end of the line, lines 837-849. -/
def lineComment : Nat → Lex → Option (Bool × Lex)
  | 0, _ => none
  | n + 1, l =>
    let r := getchar l
    if r.1 = ERR then some (false, r.2)
    else if r.1 = EOF then (stepback r.2 r.1).map (true, ·)
    else if r.1 = 10#8 then (stepback r.2 r.1).map (true, ·)
    else lineComment n (put r.2 r.1)

/-- The end of mln_lang_slash_handler behind a comment, lines 857-858; `tk` is mln_lang_token. -/
def behind (tk : Lex → Out) (r : Bool × Lex) : Out := if r.1 then tk (clean r.2) else some (none, r.2)

/-- mln_lang_slash_handler, lines 805-859. -/
def slash (tk : Lex → Out) (n : Nat) (l : Lex) : Out :=
  let r := getchar l
  if r.1 = ERR then some (none, r.2)
  else if r.1 = 42#8 then (block n (put r.2 r.1)).bind (behind tk)
  else if r.1 = 47#8 then (lineComment n (put r.2 r.1)).bind (behind tk)
  else if r.1 = 61#8 then ret (put r.2 r.1) DIVEQ
  else (stepback r.2 r.1).bind (ret · (.spec 47#8))

/-- The handlers of mln_lang_ast_generate, lines 3779-3793, and `preprocess`, which sets that of `#`. -/
def hook (sl : Nat → Lex → Out) (b : Byte) : Hook :=
  if b = 45#8 then .user fun _ => two 45#8 DECR SUBEQ (.spec 45#8)
  else if b = 43#8 then .user fun _ => two 43#8 INC PLUSEQ (.spec 43#8)
  else if b = 42#8 then .user fun _ => one MULEQ (.spec 42#8)
  else if b = 60#8 then .user fun _ => angle 60#8 LMOVE LMOVEQ LESSEQ (.spec 60#8)
  else if b = 62#8 then .user fun _ => angle 62#8 RMOVE RMOVEQ GREATEREQ (.spec 62#8)
  else if b = 124#8 then .user fun _ => two 124#8 LOWOR OREQ (.spec 124#8)
  else if b = 38#8 then .user fun _ => two 38#8 LOWAND ANDEQ (.spec 38#8)
  else if b = 126#8 then .user fun _ => one ANTIEQ (.spec 126#8)
  else if b = 94#8 then .user fun _ => one XOREQ (.spec 94#8)
  else if b = 37#8 then .user fun _ => one MODEQ (.spec 37#8)
  else if b = 61#8 then .user fun _ => one DEQUAL (.spec 61#8)
  else if b = 33#8 then .user fun _ => one NONEQUAL (.spec 33#8)
  else if b = 39#8 then .user fun n l => sglq n (clean l)
  else if b = 34#8 then .user fun n l => dblq n (clean l)
  else if b = 47#8 then .user sl
  else if b = 35#8 then .nums
  else .plain

/-- The settings of the lexer, lines 3775-3799, for at most `d` comments one behind the other. -/
def cfg (fs : List Byte → Option (List Byte)) : Nat → Cfg
  | 0 => { keywords := keywords, fs := fs, hook := hook fun _ _ => none }
  | d + 1 => { keywords := keywords, fs := fs, hook := hook (fun n => slash (token (cfg fs d) n) n) }

/-- mln_lang_token. -/
def next (fs : List Byte → Option (List Byte)) (n : Nat) (l : Lex) : Out := token (cfg fs n) n l

/-- The number of the type of a token in `Verif.LangGram.grammar`; 67 for those the grammar does not
name. -/
def sym : Ty → Nat
  | .eof => 0
  | .oct => 62
  | .dec => 63
  | .hex => 64
  | .real => 65
  | .id => 1
  | .spec b =>
    if b = 123#8 then 2 else if b = 125#8 then 3 else if b = 58#8 then 4 else if b = 40#8 then 6
    else if b = 41#8 then 7 else if b = 59#8 then 9 else if b = 64#8 then 11 else if b = 36#8 then 12
    else if b = 44#8 then 22 else if b = 61#8 then 23 else if b = 124#8 then 36 else if b = 38#8 then 37
    else if b = 94#8 then 38 else if b = 60#8 then 41 else if b = 62#8 then 43 else if b = 43#8 then 47
    else if b = 45#8 then 48 else if b = 42#8 then 49 else if b = 47#8 then 50 else if b = 37#8 then 51
    else if b = 33#8 then 52 else if b = 91#8 then 55 else if b = 93#8 then 56 else if b = 46#8 then 57
    else if b = 126#8 then 58 else 67
  | .kw i =>
    [19, 20, 5, 8, 15, 16, 17, 18, 61, 59, 60, 10, 14, 13, 21, 66, 24, 25, 26, 27, 28, 29, 30, 31, 67,
     32, 33, 34, 35, 39, 40, 42, 44, 53, 54, 45, 46].getD i 67

/-- A token as the parser sees it: `code` numbers texts, signs have none. -/
def tok (code : List Byte → Nat) (t : Tok) : Pg.Tok LangExp.V :=
  ⟨sym t.type, .tok (match t.type with | .id | .oct | .dec | .hex | .real | .kw 15 => code t.text | _ => 0)⟩

/-- All tokens up to the end of the text; `none` is also for a text that is refused. -/
def tokens (fs : List Byte → Option (List Byte)) (n : Nat) : Nat → Lex → Option (List Tok)
  | 0, _ => none
  | k + 1, l =>
    match next fs n l with
    | some (some t, l) => if t.type = .eof then some [t] else (tokens fs n k l).map (t :: ·)
    | _ => none

end Verif.LangLex
