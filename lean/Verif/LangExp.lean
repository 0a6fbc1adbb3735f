import Verif.LangGram
/-!
# Expressions and statements of the script language

The functions of the productions (mln_lang_ast.c:2168-3684, named in `prod_tbl`, lines 419-532), and the order in which the handlers of the interpreter go through what they built
(mln_lang.c:4421-5283 for the operators, 5284-5464, 5465-5640 for `!`, the suffixes and the chain of
indices, properties and calls).

Simplifications.
* The functions have memory: none fails.
* The tree that is built is folded at once: the chain of operands of one level (`left`, `op`,
  `right`) to the tree in whose order the handlers work.  For the levels of `|` to `*` they take the
  operands from left to right (`node->pos = right`); for `||` and `&&` see `logicRun`.
* A token of the text has a number for its text.  Line numbers and file names are left out.
-/
namespace Verif.LangExp
open Verif.Pg

/-- An expression, as it is to be worked out. `o` is the number of the token of the operator. -/
inductive Ex
  /-- a name or a constant: kind of the token and text -/
  | atom (ty n : Nat)
  /-- `$name` -/
  | fresh (n : Nat)
  /-- `( ... )` -/
  | par (l : Ex)
  /-- `-`, `~`, `&`, `++`, `--` in front -/
  | pre (o : Nat) (e : Ex)
  | index (e l : Ex)
  | prop (e : Ex) (n : Nat)
  | call (e l : Ex)
  /-- `++`, `--` behind -/
  | suf (o : Nat) (e : Ex)
  | not (e : Ex)
  | bin (o : Nat) (l r : Ex)
  | asg (o : Nat) (l r : Ex)
  /-- the lists of expressions in brackets -/
  | nil
  | one (e : Ex)
  | cons (e l : Ex)
  /-- `[ ... ]` with the elements -/
  | arr (l : Ex)
  /-- the elements: the end, `v, ...` and `k: v, ...` -/
  | elEnd
  | el (v l : Ex)
  | elk (k v l : Ex)
  deriving DecidableEq, Repr

/-- Statements, and the parts they are made of. -/
inductive Sm
  /-- `mln_lang_stm_t`: the end, and each kind with what comes behind -/
  | nil
  | block (b n : Sm)
  | func (f n : Sm)
  | set (x : Nat) (b n : Sm)
  | label (x : Nat) (n : Sm)
  | loop (c : Ex) (b n : Sm)
  | for3 (i c s : Ex) (b n : Sm)
  | switch (c : Ex) (k n : Sm)
  /-- `mln_lang_block_t` -/
  | exp (e : Ex)
  | braces (s : Sm)
  | cont
  | brk
  | ret (e : Ex)
  | goto (x : Nat)
  /-- `if`; the last part is `nil` for `fi` -/
  | cond (c : Ex) (t f : Sm)
  /-- `mln_lang_setstm_t` -/
  | setEnd
  | setVar (x : Nat) (n : Sm)
  | setFunc (f n : Sm)
  /-- `mln_lang_funcdef_t` -/
  | fdef (x : Nat) (args use : Ex) (body : Sm)
  /-- `mln_lang_switchstm_t`; no factor for `default` -/
  | caseEnd
  | case (k : Option Ex) (s n : Sm)
  deriving DecidableEq, Repr

/-- The links of `mln_lang_locate_t`. -/
inductive Step
  | index (l : Ex)
  | prop (n : Nat)
  | call (l : Ex)
  deriving DecidableEq, Repr

/-- `factor->data`: a token, the chain of a level (`left`, and `op` with what is on the right), a
`tmp` object, a finished part. -/
inductive V
  | tok (n : Nat)
  | chain (h : Ex) (t : List (Nat × Ex))
  | more (o : Nat) (h : Ex) (t : List (Nat × Ex))
  | ex (e : Ex)
  | asgT (o : Nat) (r : Ex)
  | sufT (o : Nat)
  | steps (l : List Step)
  | sm (s : Sm)
  deriving DecidableEq, Repr

/-- The functions of the productions. -/
inductive Act
  | null | exp | expList | asg | asgTail (o : Nat) | bin | binTail (o : Nat) | notNot | same | suffix
  | sufTail (o : Nat) | locate | locIndex | locProp | locCall | pre (o : Nat) | fresh | par | factor (ty : Nat)
  | arr | elems | stmBlock | stmFunc | stmSet | label | loop | for3 | switch | setVar | setFunc | fdef | use | case
  | blkExp | blkStm | cont | brk | ret | goto | cond
  deriving DecidableEq, Repr

/-- LANG_TK_LOWAND. -/
def opAnd : Nat := 35

/-- The handlers of the levels from `| & ^` to `* / %` (mln_lang.c:4636-5283): the value so far and
the next operand give the next value. -/
def foldBin (h : Ex) (t : List (Nat × Ex)) : Ex := t.foldl (fun a x => .bin x.1 a x.2) h

/-- The tree in whose order `||` and `&&` are worked out: see `logicRun`. -/
def foldLogic (before : Option Ex) (now : Ex) : List (Nat × Ex) → Ex
  | [] => match before with
    | none => now
    | some a => .bin 34 a now
  | (o, e) :: r =>
    if o = opAnd then foldLogic before (.bin o now e) r
    else foldLogic (some (match before with | none => now | some a => .bin 34 a now)) e r

/-- `mln_lang_stack_handler_logiclow`, mln_lang.c:4579-4634, on a chain of operands: `v` is the truth
of the last value, the answer is the truth of the value of the chain and the operands that are worked
out.  If it is true, `&&` goes on to the next operand (line 4603) and `||` ends; if it is false, `||`
goes on (line 4614), and behind `&&` the next operator is looked at (line 4622). -/
def logicRun (ev : Ex → Bool) (v : Bool) : List (Nat × Ex) → Bool × List Ex
  | [] => (v, [])
  | (o, e) :: r =>
    if v then
      if o = opAnd then ((logicRun ev (ev e) r).1, e :: (logicRun ev (ev e) r).2) else (true, [])
    else if o = opAnd then logicRun ev false r
    else ((logicRun ev (ev e) r).1, e :: (logicRun ev (ev e) r).2)

/-- `mln_lang_stack_handler_locate`, mln_lang.c:5465-5640: one link after the other. -/
def follow (e : Ex) : Step → Ex
  | .index l => .index e l
  | .prop n => .prop e n
  | .call l => .call e l

/-- A list in brackets that may be missing. -/
def listOf : Option V → Ex
  | some (.ex e) => e
  | _ => .nil

/-- An operand: a finished part or the chain of the next level. -/
def operand : Option V → Ex
  | some (.ex e) => e
  | some (.chain h t) => foldBin h t
  | _ => .nil

def stepsOf : Option V → List Step
  | some (.steps l) => l
  | _ => []

/-- Elements of an array that may be missing. -/
def elemsOf : Option V → Ex
  | some (.ex e) => e
  | _ => .elEnd

/-- Statements, members of a set, cases, that may be missing. -/
def stmOf : Option V → Sm
  | some (.sm s) => s
  | _ => .nil

def membersOf : Option V → Sm
  | some (.sm s) => s
  | _ => .setEnd

def casesOf : Option V → Sm
  | some (.sm s) => s
  | _ => .caseEnd

/-- The factor behind `case`. -/
def factorOf : Option V → Option Ex
  | some (.ex e) => some e
  | _ => none

/-- What a function leaves in `left->data`. -/
def Act.run : Act → List (Option V) → Option V
  | .exp, [some (.ex a), none] => some (.ex (.one a)) -- mln_lang_ast.c:2562-2578
  | .exp, [some (.ex a), some (.ex l)] => some (.ex (.cons a l))
  | .expList, [_, l] => l -- 2580-2588; 2485-2493, 2495-2503 (case, else), 3670-3688 (elements)
  | .asg, [some (.chain h t), none] => some (.ex (foldLogic none h t)) -- 2590-2610
  | .asg, [some (.chain h t), some (.asgT o r)] => some (.ex (.asg o (foldLogic none h t) r))
  | .asgTail o, [_, some (.ex r)] => some (.asgT o r) -- 2612-2753
  | .bin, [a, none] => some (.chain (operand a) []) -- 2755-2775, 2805-2825, ..., 3097-3117
  | .bin, [a, some (.more o h t)] => some (.chain (operand a) ((o, h) :: t))
  | .binTail o, [_, some (.chain h t)] => some (.more o h t) -- 2777-2803, ..., 3119-3159
  | .notNot, [_, some (.ex e)] => some (.ex (.not e)) -- 3161-3174
  | .same, e :: _ => e -- 2168-2176 (start), 3176-3189, 3465-3478
  | .suffix, [some (.ex e), none] => some (.ex e) -- 3191-3209
  | .suffix, [some (.ex e), some (.sufT o)] => some (.ex (.suf o e))
  | .sufTail o, _ => some (.sufT o) -- 3211-3237
  | .locate, [some (.ex e), l] => some (.ex ((stepsOf l).foldl follow e)) -- 3239-3287
  | .locIndex, [_, l, _, r] => some (.steps (.index (listOf l) :: stepsOf r)) -- 3289-3307
  | .locProp, [_, some (.tok n), r] => some (.steps (.prop n :: stepsOf r)) -- 3309-3330
  | .locCall, [_, l, _, r] => some (.steps (.call (listOf l) :: stepsOf r)) -- 3332-3350
  | .pre o, [_, some (.ex e)] => some (.ex (.pre o e)) -- 3352-3425
  | .fresh, [_, some (.tok n)] => some (.ex (.fresh n)) -- 3427-3443
  | .par, [_, l, _] => some (.ex (.par (listOf l))) -- 3445-3463
  | .factor ty, [some (.tok n)] => some (.ex (.atom ty n)) -- 3480-3623
  | .arr, [_, l, _] => some (.ex (.arr (elemsOf l))) -- 3625-3638
  | .elems, [some (.ex v), none, l] => some (.ex (.el v (elemsOf l))) -- 3640-3668
  | .elems, [some (.ex k), some (.ex v), l] => some (.ex (.elk k v (elemsOf l)))
  | .stmBlock, [some (.sm b), n] => some (.sm (.block b (stmOf n))) -- 2178-2192
  | .stmFunc, [some (.sm f), n] => some (.sm (.func f (stmOf n))) -- 2194-2208
  | .stmSet, [some (.tok x), _, b, _, n] => some (.sm (.set x (membersOf b) (stmOf n))) -- 2210-2238
  | .label, [some (.tok x), _, n] => some (.sm (.label x (stmOf n))) -- 2308-2326
  | .loop, [_, _, c, _, some (.sm b), n] => some (.sm (.loop (listOf c) b (stmOf n))) -- 2328-2350
  | .for3, [_, _, i, _, c, _, s, _, some (.sm b), n] => -- 2353-2379
    some (.sm (.for3 (listOf i) (listOf c) (listOf s) b (stmOf n)))
  | .switch, [_, _, c, _, _, k, _, n] => some (.sm (.switch (listOf c) (casesOf k) (stmOf n))) -- 2405-2427
  | .setVar, [some (.tok x), _, n] => some (.sm (.setVar x (membersOf n))) -- 2240-2262
  | .setFunc, [some (.sm f), n] => some (.sm (.setFunc f (membersOf n))) -- 2264-2280
  | .fdef, [_, some (.tok x), _, a, _, u, _, b, _] => some (.sm (.fdef x (listOf a) (listOf u) (stmOf b))) -- 2429-2453
  | .use, [_, _, e, _] => e -- 2455-2463
  | .case, [k, _, s, n] => some (.sm (.case (factorOf k) (stmOf s) (casesOf n))) -- 2465-2483
  | .blkExp, [e, _] => some (.sm (.exp (listOf e))) -- 2282-2293
  | .blkStm, [_, s, _] => some (.sm (.braces (stmOf s))) -- 2295-2306
  | .cont, _ => some (.sm .cont) -- 2505-2515
  | .brk, _ => some (.sm .brk) -- 2517-2527
  | .ret, [_, e, _] => some (.sm (.ret (listOf e))) -- 2529-2540
  | .goto, [_, some (.tok x), _] => some (.sm (.goto x)) -- 2542-2560
  | .cond, [_, _, c, _, some (.sm t), f] => some (.sm (.cond (listOf c) t (stmOf f))) -- 2381-2403
  | _, _ => none

/-- The functions named in `prod_tbl`, in the order of the productions. -/
def acts : List Act := [
  .same, .stmBlock, .stmFunc, .stmSet, .label, .loop, .for3, .switch,
  .null, .setVar, .setFunc, .null, .fdef, .use, .null, .case,
  .null, .null, .expList, .blkExp, .blkStm, .cont, .brk, .ret,
  .goto, .cond, .expList, .null, .exp, .null, .expList, .null,
  .asg, .asgTail 23, .asgTail 24, .asgTail 25, .asgTail 26, .asgTail 27, .asgTail 28, .asgTail 29,
  .asgTail 30, .asgTail 31, .asgTail 32, .asgTail 33, .null, .bin, .binTail 34, .binTail 35,
  .null, .bin, .binTail 36, .binTail 37, .binTail 38, .null, .bin, .binTail 39,
  .binTail 40, .null, .bin, .binTail 41, .binTail 42, .binTail 43, .binTail 44, .null,
  .bin, .binTail 45, .binTail 46, .null, .bin, .binTail 47, .binTail 48, .null,
  .bin, .binTail 49, .binTail 50, .binTail 51, .null, .notNot, .same, .suffix,
  .sufTail 53, .sufTail 54, .null, .locate, .locIndex, .locProp, .locCall, .null,
  .pre 48, .pre 58, .pre 37, .pre 53, .pre 54, .fresh, .par, .same,
  .factor 59, .factor 60, .factor 61, .factor 1, .factor 62, .factor 63, .factor 64, .factor 65,
  .factor 66, .arr, .elems, .null, .expList, .null, .expList, .null]

/-- The functions as the parser calls them. -/
def act (i : Nat) (vs : List (Option V)) (u : Unit) : Unit × Option (Option V) := (u, some ((acts.getD i .null).run vs))

end Verif.LangExp
