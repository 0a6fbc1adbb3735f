import Verif.ExprLexProps
import Mathlib.Tactic.Ring
/-
Running a text is evaluating the expressions that are written there.
-/
namespace Verif.Expr
open Verif.Lex

/-! ## Expressions and their values -/

/-- Constants. -/
inductive Const where
  | true | false | null
  | str (s : List Byte)
  | oct (w : List Byte)
  | dec (w : List Byte)
  | hex (w : List Byte)
  | real (w : List Byte)

/-- Expressions: constants, variables and calls with the path of their namespace, conditions, loops. -/
inductive Ex where
  | const (c : Const)
  | var (path : List (List Byte)) (name : List Byte)
  | call (path : List (List Byte)) (name : List Byte) (args : List Ex)
  | ite (c : Ex) (t e : List Ex)
  | loop (c : Ex) (body : List Ex)

abbrev Toks := List (Ty × List Byte)

/-- How a constant is written. -/
def Const.tok : Const → Ty × List Byte
  | .true => (.kw 0, [116#8, 114#8, 117#8, 101#8])
  | .false => (.kw 1, [102#8, 97#8, 108#8, 115#8, 101#8])
  | .null => (.kw 2, [110#8, 117#8, 108#8, 108#8])
  | .str s => (.kw 10, s)
  | .oct w => (.oct, w)
  | .dec w => (.dec, w)
  | .hex w => (.hex, w)
  | .real w => (.real, w)

def tIf : Ty × List Byte := (.kw 3, [105#8, 102#8])
def tThen : Ty × List Byte := (.kw 4, [116#8, 104#8, 101#8, 110#8])
def tElse : Ty × List Byte := (.kw 5, [101#8, 108#8, 115#8, 101#8])
def tFi : Ty × List Byte := (.kw 6, [102#8, 105#8])
def tLoop : Ty × List Byte := (.kw 7, [108#8, 111#8, 111#8, 112#8])
def tDo : Ty × List Byte := (.kw 8, [100#8, 111#8])
def tEnd : Ty × List Byte := (.kw 9, [101#8, 110#8, 100#8])
def tColon : Ty × List Byte := (.spec 58#8, [58#8])
def tComma : Ty × List Byte := (.spec 44#8, [44#8])
def tLpar : Ty × List Byte := (.spec 40#8, [40#8])
def tRpar : Ty × List Byte := (.spec 41#8, [41#8])

/-- `a:b:` before a name. -/
def pathToks (path : List (List Byte)) : Toks := path.flatMap (fun x => [(.id, x), tColon])

mutual
/-- How an expression is written. -/
def toks : Ex → Toks
  | .const c => [c.tok]
  | .var path x => pathToks path ++ [(.id, x)]
  | .call path f args => pathToks path ++ (.id, f) :: tLpar :: (argToks args ++ [tRpar])
  | .ite c t e => tIf :: (toks c ++ tThen :: (seqToks t ++ tElse :: (seqToks e ++ [tFi])))
  | .loop c b => tLoop :: (toks c ++ tDo :: (seqToks b ++ [tEnd]))
/-- A sequence of expressions. -/
def seqToks : List Ex → Toks
  | [] => []
  | e :: es => toks e ++ seqToks es
/-- Arguments: with commas between them. -/
def argToks : List Ex → Toks
  | [] => []
  | e :: es => toks e ++ argRest es
/-- The arguments behind the first one. -/
def argRest : List Ex → Toks
  | [] => []
  | e :: es => tComma :: (toks e ++ argRest es)
end

/-- The number with the digits `w`, the first one counting most. -/
def value (base : Nat) : List Byte → Nat
  | [] => 0
  | c :: cs => digit c * base ^ cs.length + value base cs

/-- The digits by their value. -/
def digits : List (List Byte) :=
  [[48#8], [49#8], [50#8], [51#8], [52#8], [53#8], [54#8], [55#8], [56#8], [57#8],
   [65#8, 97#8], [66#8, 98#8], [67#8, 99#8], [68#8, 100#8], [69#8, 101#8], [70#8, 102#8]]

/-- Every digit has its value. -/
theorem digit_value : ∀ c : Byte, isHex c = true → c ∈ digits[digit c]?.getD [] := by decide +kernel

/-- The value of a constant. -/
def Const.val (real : List Byte → BitVec 64) : Const → Val
  | .true => .bool 1#8
  | .false => .bool 0#8
  | .null => .null
  | .str s => .str Bool.true s
  | .oct w => .int (value 8 w)
  | .dec w => .int (value 10 w)
  | .hex w => .int (value 16 (w.drop 2))
  | .real w => .real (real w)

/-- A constant that has its value: 63 bits and 1023 digits. -/
def Const.fits : Const → Prop
  | .oct w => value 8 w < 2 ^ 63 ∧ w.length ≤ 1023
  | .dec w => value 10 w < 2 ^ 63 ∧ w.length ≤ 1023
  | .hex w => value 16 (w.drop 2) < 2 ^ 63 ∧ w.length ≤ 1023
  | .real w => w.length ≤ 1023
  | _ => True

mutual
def fits (lp : Prop) : Ex → Prop
  | .const c => c.fits
  | .var _ _ => True
  | .call _ _ args => fitsAll lp args
  | .ite c t e => fits lp c ∧ fitsAll lp t ∧ fitsAll lp e
  | .loop c b => lp ∧ fits lp c ∧ fitsAll lp b
def fitsAll (lp : Prop) : List Ex → Prop
  | [] => True
  | e :: es => fits lp e ∧ fitsAll lp es
end

/-- The values that count as false. -/
def Falsy (v : Val) : Prop :=
  v = .null ∨ v = .bool 0#8 ∨ v = .int 0 ∨ v = .real 0#64 ∨ v = .real 0x8000000000000000#64 ∨
  v = .str true [] ∨ v = .str false [] ∨ v = .udata 0

instance (v : Val) : Decidable (Falsy v) := by unfold Falsy; infer_instance

/-- The name of a namespace: its parts with colons between them. -/
def nsName (path : List (List Byte)) : Option (List Byte) :=
  if path = [] then none else some (List.intercalate [58#8] path)

variable {U : Type}

abbrev Cb (U : Type) := U → Option (List Byte) → List Byte → Option (List Val) → Option Val × U

mutual
/-- Evaluation from left to right with fuel; `some (none, u)` is a failure: the callback gave nothing. -/
def eval (real : List Byte → BitVec 64) (cb : Cb U) : Nat → Ex → U → Option (Option Val × U)
  | 0, _, _ => none
  | _ + 1, .const c, u => some (some (c.val real), u)
  | _ + 1, .var path x, u => some (cb u (nsName path) x none)
  | n + 1, .call path f args, u =>
    match evalArgs real cb n args u with
    | none => none
    | some (none, u) => some (none, u)
    | some (some vs, u) => some (cb u (nsName path) f (some vs))
  | n + 1, .ite c t e, u =>
    match eval real cb n c u with
    | none => none
    | some (none, u) => some (none, u)
    | some (some v, u) => evalSeq real cb n (if Falsy v then e else t) .null u
  | n + 1, .loop c b, u => evalLoop real cb n c b .null u
/-- The values of the arguments. -/
def evalArgs (real : List Byte → BitVec 64) (cb : Cb U) : Nat → List Ex → U → Option (Option (List Val) × U)
  | 0, _, _ => none
  | _ + 1, [], u => some (some [], u)
  | n + 1, e :: es, u =>
    match eval real cb n e u with
    | none => none
    | some (none, u) => some (none, u)
    | some (some v, u) =>
      match evalArgs real cb n es u with
      | none => none
      | some (none, u) => some (none, u)
      | some (some vs, u) => some (some (v :: vs), u)
/-- The value of a sequence is the last one, or `r`. -/
def evalSeq (real : List Byte → BitVec 64) (cb : Cb U) : Nat → List Ex → Val → U → Option (Option Val × U)
  | 0, _, _, _ => none
  | _ + 1, [], r, u => some (some r, u)
  | n + 1, e :: es, _, u =>
    match eval real cb n e u with
    | none => none
    | some (none, u) => some (none, u)
    | some (some v, u) => evalSeq real cb n es v u
/-- The body is repeated as long as the condition does not count as false. -/
def evalLoop (real : List Byte → BitVec 64) (cb : Cb U) : Nat → Ex → List Ex → Val → U → Option (Option Val × U)
  | 0, _, _, _, _ => none
  | n + 1, c, b, r, u =>
    match eval real cb n c u with
    | none => none
    | some (none, u) => some (none, u)
    | some (some v, u) =>
      if Falsy v then some (some r, u)
      else
        match evalSeq real cb n b r u with
        | none => none
        | some (none, u) => some (none, u)
        | some (some r, u) => evalLoop real cb n c b r u
end

/-! ## Tokens one after the other -/

/-- The parser works on the source `B`. -/
structure Ok (E : Env U) (B : Src) : Prop where
  quotes : Quotes E.cfg
  fuel : E.fuel = B.fuel
  keep : ∀ l r, B.I l → token E.cfg B.fuel l = some r → B.I r.2

/-- Nothing was put back, and the tokens `ts` follow. -/
structure Sees0 (B : Src) (s : St U) (ts : Toks) : Prop where
  next : s.next = none
  eof : s.eof = false
  reads : Reads B s.lex ts

/-- The tokens `ts` follow; the first one may have been put back. -/
def Sees (B : Src) (s : St U) (ts : Toks) : Prop :=
  Sees0 B s ts ∨ s.eof = false ∧ ∃ t ts', s.next = some t ∧ ts = (t.type, t.text) :: ts' ∧ t.type ≠ .eof ∧ Reads B s.lex ts'

theorem tok_sees {E : Env U} {B s ty w ts} (hE : Ok E B) (h : Sees0 B s ((ty, w) :: ts)) :
    ∃ t s', tok E s = some (some t, s') ∧ t.type = ty ∧ t.text = w ∧ Sees0 B s' ts ∧ s'.usr = s.usr := by
  obtain ⟨t, l', a1, a2, a3, a4⟩ := reads_token hE.quotes h.reads hE.keep
  exact ⟨t, { s with lex := l' }, by simp [tok, hE.fuel, a1], a2, a3, ⟨h.next, h.eof, a4⟩, rfl⟩

theorem reads_type {B l ty w ts} (h : Reads B l ((ty, w) :: ts)) : ty ≠ .eof := by
  have hw := h.written
  generalize text l = T at hw
  cases hw with
  | cons _ h _ => exact spell_eof h

theorem next_sees {E : Env U} {B s ty w ts} (hE : Ok E B) (h : Sees B s ((ty, w) :: ts)) :
    ∃ t s', nextTok E s = some (some t, s') ∧ t.type = ty ∧ t.text = w ∧ Sees0 B s' ts ∧ s'.usr = s.usr ∧
      Sees B { s' with next := some t } ((ty, w) :: ts) ∧ ty ≠ .eof := by
  rcases h with h | ⟨h1, t, ts', h2, h3, h4, h5⟩
  · obtain ⟨t, s', a1, a2, a3, a4, a5⟩ := tok_sees hE h
    have := reads_type h.reads
    refine ⟨t, s', by rw [nextTok, h.next]; exact a1, a2, a3, a4, a5, ?_, this⟩
    exact .inr ⟨a4.eof, t, ts, rfl, by rw [a2, a3], by rw [a2]; exact this, a4.reads⟩
  · simp only [List.cons.injEq, Prod.mk.injEq] at h3
    obtain ⟨⟨rfl, rfl⟩, rfl⟩ := h3
    refine ⟨t, { s with next := none }, by rw [nextTok, h2], rfl, rfl, ⟨rfl, h1, h5⟩, rfl, ?_, h4⟩
    exact .inr ⟨h1, t, ts, rfl, rfl, h4, h5⟩

theorem Sees0.sees {B} {s : St U} {ts} (h : Sees0 B s ts) : Sees B s ts := .inl h

/-! ## Skipping -/

/-- Tokens in which `if`, `else`, `fi` and `loop`, `end` belong together. -/
inductive Bal : Toks → Prop
  | nil : Bal []
  | other {ty w xs} : ty ≠ IF → ty ≠ ELSE → ty ≠ FI → ty ≠ LOOP → ty ≠ END → Bal xs → Bal ((ty, w) :: xs)
  | ite {xs ys zs} : Bal xs → Bal ys → Bal zs → Bal (tIf :: (xs ++ tElse :: (ys ++ tFi :: zs)))
  | loop {xs ys} : Bal xs → Bal ys → Bal (tLoop :: (xs ++ tEnd :: ys))

theorem Bal.append {xs ys} (h : Bal xs) (k : Bal ys) : Bal (xs ++ ys) := by
  induction h with
  | nil => exact k
  | other h1 h2 h3 h4 h5 _ ih => exact .other h1 h2 h3 h4 h5 ih
  | ite hx hy _ _ _ ih =>
    simp only [List.cons_append, List.append_assoc]
    exact .ite hx hy ih
  | loop hx _ _ ih =>
    simp only [List.cons_append, List.append_assoc]
    exact .loop hx ih

theorem bal_path (path : List (List Byte)) : Bal (pathToks path) := by
  induction path with
  | nil => exact .nil
  | cons x xs ih =>
    exact .other (by decide) (by decide) (by decide) (by decide) (by decide)
      (.other (by decide) (by decide) (by decide) (by decide) (by decide) ih)

theorem bal_one {ty w} (h1 : ty ≠ IF) (h2 : ty ≠ ELSE) (h3 : ty ≠ FI) (h4 : ty ≠ LOOP) (h5 : ty ≠ END) :
    Bal [(ty, w)] := .other h1 h2 h3 h4 h5 .nil

mutual
theorem bal_toks : ∀ e : Ex, Bal (toks e)
  | .const c => by
    rw [toks]
    cases c <;> exact bal_one (by decide) (by decide) (by decide) (by decide) (by decide)
  | .var path x => by
    rw [toks]
    exact (bal_path path).append (bal_one (by decide) (by decide) (by decide) (by decide) (by decide))
  | .call path f args => by
    rw [toks]
    refine (bal_path path).append (.other (by decide) (by decide) (by decide) (by decide) (by decide) ?_)
    refine .other (by decide) (by decide) (by decide) (by decide) (by decide) ?_
    exact (bal_args args).append (bal_one (by decide) (by decide) (by decide) (by decide) (by decide))
  | .ite c t e => by
    rw [toks]
    have h : Bal (toks c ++ tThen :: seqToks t) :=
      (bal_toks c).append (.other (by decide) (by decide) (by decide) (by decide) (by decide) (bal_seq t))
    have := Bal.ite h (bal_seq e) .nil
    simpa only [List.append_assoc, List.cons_append] using this
  | .loop c b => by
    rw [toks]
    have h : Bal (toks c ++ tDo :: seqToks b) :=
      (bal_toks c).append (.other (by decide) (by decide) (by decide) (by decide) (by decide) (bal_seq b))
    have := Bal.loop h .nil
    simpa only [List.append_assoc, List.cons_append] using this
theorem bal_seq : ∀ es : List Ex, Bal (seqToks es)
  | [] => by rw [seqToks]; exact .nil
  | e :: es => by rw [seqToks]; exact (bal_toks e).append (bal_seq es)
theorem bal_args : ∀ es : List Ex, Bal (argToks es)
  | [] => by rw [argToks]; exact .nil
  | e :: es => by rw [argToks]; exact (bal_toks e).append (bal_rest es)
theorem bal_rest : ∀ es : List Ex, Bal (argRest es)
  | [] => by rw [argRest]; exact .nil
  | e :: es => by
    rw [argRest]
    exact .other (by decide) (by decide) (by decide) (by decide) (by decide)
      ((bal_toks e).append (bal_rest es))
end

theorem skipFi_bal {E : Env U} {B} (hE : Ok E B) {xs} (h : Bal xs) : ∀ {s ts count}, Sees0 B s (xs ++ ts) →
    ∃ s', (∀ n, skipFi E (n + xs.length) count s = skipFi E n count s') ∧ Sees0 B s' ts ∧ s'.usr = s.usr := by
  induction h with
  | nil => intro s ts count hs; exact ⟨s, fun n => rfl, hs, rfl⟩
  | @other ty w xs h1 h2 h3 h4 h5 _ ih =>
    intro s ts count hs
    obtain ⟨t, s1, a1, a2, a3, a4, a5⟩ := tok_sees hE hs
    obtain ⟨s', b1, b2, b3⟩ := ih (count := count) a4
    have he := reads_type hs.reads
    refine ⟨s', fun n => ?_, b2, b3.trans a5⟩
    rw [← b1 n, List.length_cons, ← Nat.add_assoc, skipFi, a1]
    simp [a2, h1, h3, he]
  | @ite xs ys zs _ _ _ ih1 ih2 ih3 =>
    intro s ts count hs
    simp only [List.cons_append, List.append_assoc] at hs
    obtain ⟨t, s1, a1, a2, a3, a4, a5⟩ := tok_sees hE hs
    obtain ⟨s2, b1, b2, b3⟩ := ih1 (count := count + 1) a4
    obtain ⟨t', s3, c1, c2, c3, c4, c5⟩ := tok_sees hE b2
    obtain ⟨s4, d1, d2, d3⟩ := ih2 (count := count + 1) c4
    obtain ⟨t'', s5, e1, e2, e3, e4, e5⟩ := tok_sees hE d2
    obtain ⟨s6, f1, f2, f3⟩ := ih3 (count := count) e4
    refine ⟨s6, fun n => ?_, f2, by rw [f3, e5, d3, c5, b3, a5]⟩
    have l : n + (tIf :: (xs ++ tElse :: (ys ++ tFi :: zs))).length =
        ((((n + zs.length) + 1) + ys.length + 1) + xs.length) + 1 := by simp; omega
    rw [l, skipFi, a1]
    simp only [Option.bind_eq_bind, Option.bind_some, a2, if_true]
    rw [b1, skipFi, c1]
    simp [c2]
    rw [d1, skipFi, e1]
    simp [e2]
    rw [f1]
  | @loop xs ys _ _ ih1 ih2 =>
    intro s ts count hs
    simp only [List.cons_append, List.append_assoc] at hs
    obtain ⟨t, s1, a1, a2, a3, a4, a5⟩ := tok_sees hE hs
    obtain ⟨s2, b1, b2, b3⟩ := ih1 (count := count) a4
    obtain ⟨t', s3, c1, c2, c3, c4, c5⟩ := tok_sees hE b2
    obtain ⟨s4, d1, d2, d3⟩ := ih2 (count := count) c4
    refine ⟨s4, fun n => ?_, d2, by rw [d3, c5, b3, a5]⟩
    have l : n + (tLoop :: (xs ++ tEnd :: ys)).length = (((n + ys.length) + 1) + xs.length) + 1 := by
      simp; omega
    rw [l, skipFi, a1]
    simp [a2]
    rw [b1, skipFi, c1]
    simp [c2]
    rw [d1]

theorem skipElse_bal {E : Env U} {B} (hE : Ok E B) {xs} (h : Bal xs) : ∀ {s ts} {count : Int}, 0 ≤ count →
    Sees B s (xs ++ ts) →
    ∃ s', (∀ n, skipElse E (n + xs.length) count s = skipElse E n count s') ∧ Sees B s' ts ∧ s'.usr = s.usr := by
  induction h with
  | nil => intro s ts count _ hs; exact ⟨s, fun n => rfl, hs, rfl⟩
  | @other ty w xs h1 h2 h3 h4 h5 _ ih =>
    intro s ts count hc hs
    obtain ⟨t, s1, a1, a2, a3, a4, a5, _, he⟩ := next_sees hE hs
    obtain ⟨s', b1, b2, b3⟩ := ih hc a4.sees
    refine ⟨s', fun n => ?_, b2, b3.trans a5⟩
    rw [← b1 n, List.length_cons, ← Nat.add_assoc, skipElse, a1]
    simp [a2, h1, h2, h3, he]
  | @ite xs ys zs _ _ _ ih1 ih2 ih3 =>
    intro s ts count hc hs
    simp only [List.cons_append, List.append_assoc] at hs
    obtain ⟨t, s1, a1, a2, a3, a4, a5, _⟩ := next_sees hE hs
    obtain ⟨s2, b1, b2, b3⟩ := ih1 (count := count + 1) (by omega) a4.sees
    obtain ⟨t', s3, c1, c2, c3, c4, c5, _⟩ := next_sees hE b2
    obtain ⟨s4, d1, d2, d3⟩ := ih2 (count := count + 1) (by omega) c4.sees
    obtain ⟨t'', s5, e1, e2, e3, e4, e5, _⟩ := next_sees hE d2
    obtain ⟨s6, f1, f2, f3⟩ := ih3 hc e4.sees
    refine ⟨s6, fun n => ?_, f2, by rw [f3, e5, d3, c5, b3, a5]⟩
    have l : n + (tIf :: (xs ++ tElse :: (ys ++ tFi :: zs))).length =
        ((((n + zs.length) + 1) + ys.length + 1) + xs.length) + 1 := by simp; omega
    rw [l, skipElse, a1]
    simp only [Option.bind_eq_bind, Option.bind_some, a2, if_true]
    rw [b1, skipElse, c1]
    have hne : count + 1 ≠ 0 := by omega
    simp [c2, hne]
    rw [d1, skipElse, e1]
    simp [e2]
    rw [f1]
  | @loop xs ys _ _ ih1 ih2 =>
    intro s ts count hc hs
    simp only [List.cons_append, List.append_assoc] at hs
    obtain ⟨t, s1, a1, a2, a3, a4, a5, _⟩ := next_sees hE hs
    obtain ⟨s2, b1, b2, b3⟩ := ih1 hc a4.sees
    obtain ⟨t', s3, c1, c2, c3, c4, c5, _⟩ := next_sees hE b2
    obtain ⟨s4, d1, d2, d3⟩ := ih2 hc c4.sees
    refine ⟨s4, fun n => ?_, d2, by rw [d3, c5, b3, a5]⟩
    have l : n + (tLoop :: (xs ++ tEnd :: ys)).length = (((n + ys.length) + 1) + xs.length) + 1 := by
      simp; omega
    rw [l, skipElse, a1]
    simp [a2]
    rw [b1, skipElse, c1]
    simp [c2]
    rw [d1]

theorem skipEnd_bal {E : Env U} {B} (hE : Ok E B) {xs} (h : Bal xs) : ∀ {s ts count},
    Sees B s (xs ++ ts) →
    ∃ s', (∀ n, skipEnd E (n + xs.length) count s = skipEnd E n count s') ∧ Sees B s' ts ∧ s'.usr = s.usr := by
  induction h with
  | nil => intro s ts count hs; exact ⟨s, fun n => rfl, hs, rfl⟩
  | @other ty w xs h1 h2 h3 h4 h5 _ ih =>
    intro s ts count hs
    obtain ⟨t, s1, a1, a2, a3, a4, a5, _, he⟩ := next_sees hE hs
    obtain ⟨s', b1, b2, b3⟩ := ih (count := count) a4.sees
    refine ⟨s', fun n => ?_, b2, b3.trans a5⟩
    rw [← b1 n, List.length_cons, ← Nat.add_assoc, skipEnd, a1]
    simp [a2, h4, h5, he]
  | @ite xs ys zs _ _ _ ih1 ih2 ih3 =>
    intro s ts count hs
    simp only [List.cons_append, List.append_assoc] at hs
    obtain ⟨t, s1, a1, a2, a3, a4, a5, _⟩ := next_sees hE hs
    obtain ⟨s2, b1, b2, b3⟩ := ih1 (count := count) a4.sees
    obtain ⟨t', s3, c1, c2, c3, c4, c5, _⟩ := next_sees hE b2
    obtain ⟨s4, d1, d2, d3⟩ := ih2 (count := count) c4.sees
    obtain ⟨t'', s5, e1, e2, e3, e4, e5, _⟩ := next_sees hE d2
    obtain ⟨s6, f1, f2, f3⟩ := ih3 (count := count) e4.sees
    refine ⟨s6, fun n => ?_, f2, by rw [f3, e5, d3, c5, b3, a5]⟩
    have l : n + (tIf :: (xs ++ tElse :: (ys ++ tFi :: zs))).length =
        ((((n + zs.length) + 1) + ys.length + 1) + xs.length) + 1 := by simp; omega
    rw [l, skipEnd, a1]
    simp [a2]
    rw [b1, skipEnd, c1]
    simp [c2]
    rw [d1, skipEnd, e1]
    simp [e2]
    rw [f1]
  | @loop xs ys _ _ ih1 ih2 =>
    intro s ts count hs
    simp only [List.cons_append, List.append_assoc] at hs
    obtain ⟨t, s1, a1, a2, a3, a4, a5, _⟩ := next_sees hE hs
    obtain ⟨s2, b1, b2, b3⟩ := ih1 (count := count + 1) a4.sees
    obtain ⟨t', s3, c1, c2, c3, c4, c5, _⟩ := next_sees hE b2
    obtain ⟨s4, d1, d2, d3⟩ := ih2 (count := count) c4.sees
    refine ⟨s4, fun n => ?_, d2, by rw [d3, c5, b3, a5]⟩
    have l : n + (tLoop :: (xs ++ tEnd :: ys)).length = (((n + ys.length) + 1) + xs.length) + 1 := by
      simp; omega
    rw [l, skipEnd, a1]
    simp only [Option.bind_eq_bind, Option.bind_some, a2, if_true]
    rw [b1, skipEnd, c1]
    simp [c2]
    rw [d1]

theorem sees_length {E : Env U} {B} {s : St U} {ts} (hE : Ok E B) (h : Sees B s ts) : ts.length < E.fuel := by
  rw [hE.fuel]
  rcases h with h | ⟨_, t, ts', _, rfl, _, h⟩
  · have := written_length h.reads.written
    have := h.reads.small
    omega
  · have := written_length h.written
    have := h.small
    simp; omega

theorem skipFi_seq {E : Env U} {B s es ts} (hE : Ok E B) (h : Sees0 B s (seqToks es ++ tFi :: ts)) :
    ∃ s', skipFi E E.fuel 0 s = some (true, s') ∧ Sees0 B s' ts ∧ s'.usr = s.usr := by
  obtain ⟨s1, a1, a2, a3⟩ := skipFi_bal hE (bal_seq es) (count := 0) h
  obtain ⟨t, s2, b1, b2, _, b4, b5⟩ := tok_sees hE a2
  refine ⟨s2, ?_, b4, b5.trans a3⟩
  have hl := sees_length hE h.sees
  rw [List.length_append, List.length_cons] at hl
  obtain ⟨n, hn⟩ : ∃ n, E.fuel = n + 1 + (seqToks es).length := ⟨E.fuel - 1 - (seqToks es).length, by omega⟩
  rw [hn, a1, skipFi, b1]
  simp [b2]

theorem skipElse_seq {E : Env U} {B s es ts} (hE : Ok E B) (h : Sees B s (seqToks es ++ tElse :: ts)) :
    ∃ s', skipElse E E.fuel 0 s = some (true, s') ∧ Sees0 B s' ts ∧ s'.usr = s.usr := by
  obtain ⟨s1, a1, a2, a3⟩ := skipElse_bal hE (bal_seq es) (count := 0) (by decide) h
  obtain ⟨t, s2, b1, b2, _, b4, b5, _⟩ := next_sees hE a2
  refine ⟨s2, ?_, b4, b5.trans a3⟩
  have hl := sees_length hE h
  rw [List.length_append, List.length_cons] at hl
  obtain ⟨n, hn⟩ : ∃ n, E.fuel = n + 1 + (seqToks es).length := ⟨E.fuel - 1 - (seqToks es).length, by omega⟩
  rw [hn, a1, skipElse, b1]
  simp [b2]

theorem skipEnd_seq {E : Env U} {B s es ts} (hE : Ok E B) (h : Sees B s (seqToks es ++ tEnd :: ts)) :
    ∃ s', skipEnd E E.fuel 0 s = some (true, s') ∧ Sees0 B s' ts ∧ s'.usr = s.usr := by
  obtain ⟨s1, a1, a2, a3⟩ := skipEnd_bal hE (bal_seq es) (count := 0) h
  obtain ⟨t, s2, b1, b2, _, b4, b5, _⟩ := next_sees hE a2
  refine ⟨s2, ?_, b4, b5.trans a3⟩
  have hl := sees_length hE h
  rw [List.length_append, List.length_cons] at hl
  obtain ⟨n, hn⟩ : ∃ n, E.fuel = n + 1 + (seqToks es).length := ⟨E.fuel - 1 - (seqToks es).length, by omega⟩
  rw [hn, a1, skipEnd, b1]
  simp [b2]

/-! ## Small facts -/

theorem foldl_value (base : Nat) (w : List Byte) : ∀ a, w.foldl (fun a c => a * base + digit c) a =
    a * base ^ w.length + value base w := by
  induction w with
  | nil => intro a; simp [value]
  | cons c cs ih =>
    intro a
    rw [List.foldl_cons, ih, value, List.length_cons, pow_succ]
    ring

theorem number_value (base : Nat) (w : List Byte) : number base w = value base w := by
  rw [number, foldl_value]; simp

theorem scanU_small {n : Nat} (h : n < 2 ^ 63) : scanU n = n := by
  rw [scanU, Nat.min_eq_left (by omega), BitVec.toInt_eq_toNat_of_lt]
  · rw [BitVec.toNat_ofNat, Nat.mod_eq_of_lt (by omega)]
  · rw [BitVec.toNat_ofNat, Nat.mod_eq_of_lt (by omega)]; omega

theorem scanS_small {n : Nat} (h : n < 2 ^ 63) : scanS n = n := by
  rw [scanS]
  omega

/-- A constant that fits has the value it denotes. -/
theorem valInit_const (real : List Byte → BitVec 64) {c : Const} {t : Tok} (h : c.fits) (h1 : t.type = c.tok.1)
    (h2 : t.text = c.tok.2) : valInit real t = some (c.val real) := by
  cases c <;> simp only [Const.tok, Const.fits] at h h1 h2 <;> simp only [valInit, h1, h2, Const.val]
  · rw [List.take_of_length_le h.2, number_value, scanU_small h.1]
  · rw [List.take_of_length_le h.2, number_value, scanS_small h.1]
  · rw [List.take_of_length_le h.2, number_value, scanU_small h.1]
  · rw [List.take_of_length_le h]

theorem truth_iff (v : Val) : truth v = true ↔ ¬ Falsy v := by
  cases v with
  | str p s => cases p <;> simp [truth, Falsy]
  | _ => simp [truth, Falsy]

/-- The types a written expression begins with. -/
def starts : List Ty := [.id, .oct, .dec, .hex, .real, TRUE, FALSE, NULL, IF, LOOP, STRING]

theorem head_path (path : List (List Byte)) (x : List Byte) (r : Toks) :
    ∃ w r', pathToks path ++ (.id, x) :: r = (.id, w) :: r' := by
  cases path with
  | nil => exact ⟨x, r, rfl⟩
  | cons y ys => exact ⟨y, _, rfl⟩

theorem head_toks (e : Ex) : ∃ ty w r, toks e = (ty, w) :: r ∧ ty ∈ starts := by
  cases e with
  | const c =>
    rw [toks]
    refine ⟨c.tok.1, c.tok.2, [], rfl, ?_⟩
    cases c <;> simp [Const.tok, starts]
  | var path x =>
    obtain ⟨w, r, h⟩ := head_path path x []
    exact ⟨_, _, _, by rw [toks, h], by decide⟩
  | call path f args =>
    obtain ⟨w, r, h⟩ := head_path path f (tLpar :: (argToks args ++ [tRpar]))
    exact ⟨_, _, _, by rw [toks, h], by decide⟩
  | ite c t e => exact ⟨_, _, _, by rw [toks, tIf], by decide⟩
  | loop c b => exact ⟨_, _, _, by rw [toks, tLoop], by decide⟩

/-! ## The parser -/

/-- What may stand behind an expression. -/
def Follow (ts : Toks) : Prop := ∀ ty w r, ts = (ty, w) :: r → ty ≠ COLON ∧ ty ≠ LPAR

/-- What is left to read behind an expression: a variable takes a comma behind it, and at the end of
the text the end is not put back. -/
def After (E : Env U) (B : Src) (s : St U) (ts : Toks) : Prop :=
  Sees B s ts ∨ (∃ ts', ts = tComma :: ts' ∧ Sees0 B s ts') ∨
  (ts = [] ∧ s.next = none ∧ s.eof = false ∧ AtEnd E.cfg E.fuel s.lex)

theorem After.sees {E : Env U} {B s ty w r} (h : After E B s ((ty, w) :: r)) (hc : ty ≠ COMMA) :
    Sees B s ((ty, w) :: r) := by
  rcases h with h | ⟨ts', h, _⟩ | ⟨h, _⟩
  · exact h
  · simp only [List.cons.injEq, tComma, Prod.mk.injEq] at h
    exact absurd h.1.1 hc
  · cases h

/-- The result of parsing an expression with the outcome `o` and the state `u` of the user. -/
def Res (E : Env U) (B : Src) (ts : Toks) (o : Option Val) (u : U) (rc : Rc) (s : St U) : Prop :=
  s.usr = u ∧
  match o with
  | none => rc = .err
  | some v => rc = .ok v ∧ After E B s ts

theorem parse_path {E : Env U} {B} (hE : Ok E B) : ∀ (path : List (List Byte)) {acc s ts},
    Sees B s (pathToks path ++ ts) →
    ∃ s', (∀ m, parse E (m + path.length) acc s =
        parse E m (path.foldl (fun a x => some (concat a x [58#8])) acc) s') ∧ Sees B s' ts ∧ s'.usr = s.usr := by
  intro path
  induction path with
  | nil => intro acc s ts h; exact ⟨s, fun m => rfl, h, rfl⟩
  | cons x xs ih =>
    intro acc s ts h
    have h' : Sees B s ((.id, x) :: tColon :: (pathToks xs ++ ts)) := h
    obtain ⟨t, s1, a1, a2, a3, a4, a5, _⟩ := next_sees hE h'
    obtain ⟨t', s2, b1, b2, b3, b4, b5⟩ := tok_sees hE a4
    obtain ⟨s', c1, c2, c3⟩ := ih (acc := some (concat acc x [58#8])) b4.sees
    refine ⟨s', fun m => ?_, c2, by rw [c3, b5, a5]⟩
    rw [List.foldl_cons, ← c1, List.length_cons, ← Nat.add_assoc, parse, a1]
    simp [a2, b1, b2, a3, b3]

theorem fold_ns (a : List Byte) (path : List (List Byte)) :
    path.foldl (fun a x => some (concat a x [58#8])) (some a) = some (List.intercalate [58#8] (a :: path)) := by
  induction path generalizing a with
  | nil => simp [List.intercalate]
  | cons x xs ih =>
    rw [List.foldl_cons, concat, ih]
    congr 1
    cases xs with
    | nil => simp [List.intercalate]
    | cons y ys => simp [List.intercalate]

theorem ns_name (path : List (List Byte)) :
    path.foldl (fun a x => some (concat a x [58#8])) none = nsName path := by
  cases path with
  | nil => rfl
  | cons x xs =>
    rw [List.foldl_cons, concat, fold_ns, nsName, if_neg (by simp)]

/-- The behaviour of the parser on expressions whose evaluation takes fuel `n`. -/
def Parses (E : Env U) (B : Src) (n : Nat) : Prop :=
  ∀ e s ts o u, fits (Back B.I) e → Sees B s (toks e ++ ts) → Follow ts → eval E.real E.cb n e s.usr = some (o, u) →
    ∃ N rc s', (∀ m, N ≤ m → parse E m none s = some (rc, s')) ∧ Res E B ts o u rc s'

/-- A variable. -/
theorem parse_var {E : Env U} {B} (hE : Ok E B) {path x s ts} (h : Sees B s (toks (.var path x) ++ ts))
    (hf : Follow ts) :
    ∃ N rc s', (∀ m, N ≤ m → parse E m none s = some (rc, s')) ∧
      Res E B ts (E.cb s.usr (nsName path) x none).1 (E.cb s.usr (nsName path) x none).2 rc s' := by
  rw [toks, List.append_assoc] at h
  obtain ⟨s1, a1, a2, a3⟩ := parse_path hE path (acc := none) h
  rw [ns_name] at a1
  obtain ⟨t, s2, b1, b2, b3, b4, b5, _⟩ := next_sees hE a2
  have hu : s2.usr = s.usr := b5.trans a3
  have hm : ∀ {N : Nat} {r : Rc × St U}, (∀ m, N ≤ m → parse E m (nsName path) s1 = some r) →
      ∀ m, N + path.length ≤ m → parse E m none s = some r := by
    intro N r hh m hm
    have e : m = (m - path.length) + path.length := by omega
    rw [e, a1]
    exact hh _ (by omega)
  generalize hr : E.cb s.usr (nsName path) x none = r
  obtain ⟨v, u⟩ := r
  cases ts with
  | nil =>
    obtain ⟨t2, l', c1, c2, c3, c4, c5⟩ := reads_end hE.quotes b4.reads
    have hend : AtEnd E.cfg E.fuel l' := by
      refine blank_end hE.quotes (by simp [c5]) c4 c3 ?_
      have := b4.reads.small
      rw [hE.fuel, c5, List.length_nil]; omega
    have htk : tok E s2 = some (some t2, { s2 with lex := l' }) := by simp [tok, hE.fuel, c1]
    cases v with
    | none =>
      refine ⟨1 + path.length, .err, _, hm (N := 1) (r := (.err, { s2 with lex := l', usr := u, next := s2.next })) ?_, rfl, rfl⟩
      intro m h1
      obtain ⟨m, rfl⟩ : ∃ k, m = k + 1 := ⟨m - 1, by omega⟩
      rw [parse, b1]
      simp [b2, htk, c2, b3, hu, hr]
    | some v =>
      refine ⟨1 + path.length, .ok v, _, hm (N := 1) (r := (.ok v, { s2 with lex := l', usr := u, next := s2.next })) ?_, rfl, rfl, ?_⟩
      · intro m h1
        obtain ⟨m, rfl⟩ : ∃ k, m = k + 1 := ⟨m - 1, by omega⟩
        rw [parse, b1]
        simp [b2, htk, c2, b3, hu, hr]
      · exact .inr (.inr ⟨rfl, b4.next, b4.eof, hend⟩)
  | cons x' ts =>
    obtain ⟨ty, w⟩ := x'
    obtain ⟨f1, f2⟩ := hf ty w ts rfl
    obtain ⟨t2, s3, c1, c2, c3, c4, c5⟩ := tok_sees hE b4
    have hne := reads_type b4.reads
    cases v with
    | none =>
      refine ⟨1 + path.length, .err, _, hm (N := 1) (r := (.err, { s3 with usr := u, next := if ty = COMMA then s3.next else some t2 })) ?_, rfl, rfl⟩
      intro m h1
      obtain ⟨m, rfl⟩ : ∃ k, m = k + 1 := ⟨m - 1, by omega⟩
      rw [parse, b1]
      simp [b2, c1, c2, b3, f1, f2, c5, hu, hr, hne]
    | some v =>
      refine ⟨1 + path.length, .ok v, _, hm (N := 1) (r := (.ok v, { s3 with usr := u, next := if ty = COMMA then s3.next else some t2 })) ?_, rfl, rfl, ?_⟩
      · intro m h1
        obtain ⟨m, rfl⟩ : ∃ k, m = k + 1 := ⟨m - 1, by omega⟩
        rw [parse, b1]
        simp [b2, c1, c2, b3, f1, f2, c5, hu, hr, hne]
      · by_cases hc : ty = COMMA
        · subst hc
          have hw : w = [44#8] := by
            have hw := b4.reads.written
            generalize text s2.lex = T at hw
            cases hw with
            | cons _ h _ =>
              cases h with
              | plain h =>
                cases h with
                | spec => rfl
                | num h => exact absurd h (by simp [IsNumber])
          subst hw
          exact .inr (.inl ⟨ts, rfl, ⟨by simpa using c4.next, c4.eof, c4.reads⟩⟩)
        · refine .inl (.inr ⟨c4.eof, t2, ts, by simp [hc], by rw [c2, c3], by rw [c2]; exact hne, c4.reads⟩)

theorem Follow.cons {ty w r} (h1 : ty ≠ COLON) (h2 : ty ≠ LPAR) : Follow ((ty, w) :: r) := by
  intro ty' w' r' h
  cases h
  exact ⟨h1, h2⟩

theorem starts_ne {ty : Ty} (h : ty ∈ starts) : ty ≠ COLON ∧ ty ≠ LPAR ∧ ty ≠ COMMA ∧ ty ≠ RPAR ∧ ty ≠ ELSE ∧
    ty ≠ FI ∧ ty ≠ END ∧ ty ≠ .eof := by
  refine ⟨?_, ?_, ?_, ?_, ?_, ?_, ?_, ?_⟩ <;> rintro rfl <;> revert h <;> decide

/-! ### Arguments -/

/-- Behind an argument: at most a comma is skipped. -/
theorem args_comma {E : Env U} {B} (hE : Ok E B) {es s ts} (h : After E B s (argRest es ++ tRpar :: ts)) (acc : List Val) :
    ∃ s1 d, (∀ m, 0 < m → parseArgs E (m + d) acc s = parseArgs E m acc s1) ∧
      Sees B s1 (argToks es ++ tRpar :: ts) ∧ s1.usr = s.usr := by
  cases es with
  | nil => exact ⟨s, 0, fun m _ => rfl, by rw [argToks]; rw [argRest] at h; exact h.sees (by decide), rfl⟩
  | cons e es =>
    rw [argRest] at h
    rw [argToks]
    rcases h with h | ⟨ts', h, h2⟩ | ⟨h, _⟩
    · obtain ⟨t, s1, a1, a2, a3, a4, a5, _⟩ := next_sees hE h
      refine ⟨s1, 1, fun m hm => ?_, a4.sees, a5⟩
      obtain ⟨m, rfl⟩ : ∃ k, m = k + 1 := ⟨m - 1, by omega⟩
      rw [parseArgs, parse, a1]
      simp [a2]
    · simp only [List.cons_append, List.cons.injEq, true_and] at h
      rw [← h] at h2
      exact ⟨s, 0, fun m _ => rfl, h2.sees, rfl⟩
    · cases h

theorem follow_rest (es : List Ex) (ts : Toks) : Follow (argRest es ++ tRpar :: ts) := by
  cases es with
  | nil => rw [argRest]; exact Follow.cons (by decide) (by decide)
  | cons e es => rw [argRest]; exact Follow.cons (by decide) (by decide)

theorem parse_args {E : Env U} {B} (hE : Ok E B) : ∀ k, (∀ j, j < k → Parses E B j) → ∀ {es s ts acc o u},
    fitsAll (Back B.I) es → Sees B s (argToks es ++ tRpar :: ts) → evalArgs E.real E.cb k es s.usr = some (o, u) →
    ∃ N s', (∀ m, N ≤ m → parseArgs E m acc s = some (o.map (acc ++ ·), s')) ∧ s'.usr = u ∧
      (o ≠ none → Sees0 B s' ts) := by
  intro k
  induction k with
  | zero => intro _ es s ts acc o u _ _ h; cases h
  | succ k ih =>
    intro hP es s ts acc o u hf hs he
    cases es with
    | nil =>
      rw [evalArgs] at he
      cases he
      rw [argToks] at hs
      obtain ⟨t, s1, a1, a2, a3, a4, a5, _⟩ := next_sees hE hs
      refine ⟨2, s1, fun m hm => ?_, a5, fun _ => a4⟩
      obtain ⟨m, rfl⟩ : ∃ k, m = k + 2 := ⟨m - 2, by omega⟩
      rw [parseArgs, parse, a1]
      simp [a2]
    | cons e es =>
      rw [fitsAll] at hf
      rw [argToks, List.append_assoc] at hs
      rw [evalArgs] at he
      cases he1 : eval E.real E.cb k e s.usr with
      | none => rw [he1] at he; cases he
      | some r1 =>
        obtain ⟨o1, u1⟩ := r1
        rw [he1] at he
        obtain ⟨N, rc, s1, a1, a2, a3⟩ := hP k (by omega) e s _ o1 u1 hf.1 hs (follow_rest es ts) he1
        cases o1 with
        | none =>
          cases he
          dsimp only at a3
          subst a3
          refine ⟨N + 1, s1, fun m hm => ?_, a2, fun h => absurd rfl h⟩
          obtain ⟨m, rfl⟩ : ∃ k, m = k + 1 := ⟨m - 1, by omega⟩
          rw [parseArgs, a1 m (by omega)]
          rfl
        | some v =>
          obtain ⟨rfl, a3⟩ := a3
          have heof : s1.eof = false := by
            rcases a3 with (h | ⟨h, _⟩) | ⟨ts', _, h⟩ | ⟨h, _⟩
            · exact h.eof
            · exact h
            · exact h.eof
            · cases es <;> simp [argRest] at h
          obtain ⟨s2, d, b1, b2, b3⟩ := args_comma hE a3 (acc ++ [v])
          dsimp only at he
          cases he2 : evalArgs E.real E.cb k es u1 with
          | none => rw [he2] at he; cases he
          | some r2 =>
            obtain ⟨o2, u2⟩ := r2
            rw [he2] at he
            obtain ⟨N2, s3, c1, c2, c3⟩ := ih (fun j hj => hP j (by omega)) (acc := acc ++ [v]) hf.2 b2
              (o := o2) (u := u2) (by rw [b3, a2, he2])
            have hgo : ∀ m, N + N2 + d + 2 ≤ m → parseArgs E m acc s = some (o2.map (acc ++ [v] ++ ·), s3) := by
              intro m hm
              obtain ⟨m, rfl⟩ : ∃ k, m = k + 1 := ⟨m - 1, by omega⟩
              rw [parseArgs, a1 m (by omega)]
              simp only [Option.bind_eq_bind, Option.bind_some, heof]
              obtain ⟨m, rfl⟩ : ∃ k, m = k + d := ⟨m - d, by omega⟩
              rw [if_neg (by decide), b1 m (by omega), c1 m (by omega)]
            cases o2 with
            | none =>
              cases he
              exact ⟨_, s3, hgo, c2, fun h => absurd rfl h⟩
            | some vs =>
              cases he
              refine ⟨N + N2 + d + 2, s3, fun m hm => ?_, c2, fun _ => c3 (by simp)⟩
              rw [hgo m hm]
              simp

/-! ### Sequences -/

/-- A loop over a sequence. -/
def SeqLoop (E : Env U) (L : Nat → Val → St U → Option (Rc × St U)) : Prop :=
  ∀ n r s t s1, nextTok E s = some (some t, s1) → t.type ∈ starts →
    L (n + 1) r s = (parse E n none { s1 with next := some t }).bind (fun x =>
      match x.1 with
      | .ok v => if x.2.eof then some (.err, x.2) else L n v x.2
      | rc => some (rc, x.2))

theorem then_loop (E : Env U) : SeqLoop E (parseThen E) := by
  intro n r s t s1 h ht
  obtain ⟨_, _, _, _, h1, h2, h3, _⟩ := starts_ne ht
  rw [parseThen, h]
  simp [h1, h2]
  refine congrArg _ (funext fun x => ?_)
  obtain ⟨rc, x⟩ := x
  cases rc <;> rfl
theorem else_loop (E : Env U) : SeqLoop E (parseElse E) := by
  intro n r s t s1 h ht
  obtain ⟨_, _, _, _, h1, h2, h3, _⟩ := starts_ne ht
  rw [parseElse, h]
  simp [h2]
  refine congrArg _ (funext fun x => ?_)
  obtain ⟨rc, x⟩ := x
  cases rc <;> rfl
theorem body_loop (E : Env U) : SeqLoop E (parseBody E) := by
  intro n r s t s1 h ht
  obtain ⟨_, _, _, _, h1, h2, h3, _⟩ := starts_ne ht
  rw [parseBody, h]
  simp [h3]
  refine congrArg _ (funext fun x => ?_)
  obtain ⟨rc, x⟩ := x
  cases rc <;> rfl

theorem head_seq (es : List Ex) {ty w r} (h1 : ty ≠ COLON) (h2 : ty ≠ LPAR) (h3 : ty ≠ COMMA) :
    ∃ ty' w' r', seqToks es ++ (ty, w) :: r = (ty', w') :: r' ∧ ty' ≠ COLON ∧ ty' ≠ LPAR ∧ ty' ≠ COMMA := by
  cases es with
  | nil => exact ⟨ty, w, r, by rw [seqToks]; rfl, h1, h2, h3⟩
  | cons e es =>
    obtain ⟨ty', w', r', h, hs⟩ := head_toks e
    obtain ⟨a, b, c, _⟩ := starts_ne hs
    exact ⟨ty', w', _, by rw [seqToks, h]; rfl, a, b, c⟩

theorem parse_seq {E : Env U} {B} (hE : Ok E B) {L} (hL : SeqLoop E L) : ∀ k, (∀ j, j < k → Parses E B j) →
    ∀ {es s r ty w ts o u}, fitsAll (Back B.I) es → Sees B s (seqToks es ++ (ty, w) :: ts) → ty ≠ COLON → ty ≠ LPAR →
    ty ≠ COMMA → evalSeq E.real E.cb k es r s.usr = some (o, u) →
    ∃ N s', s'.usr = u ∧
      match o with
      | none => ∀ m, N ≤ m → L m r s = some (.err, s')
      | some v => (∀ m, N ≤ m → L (m + es.length) r s = L m v s') ∧ Sees B s' ((ty, w) :: ts) := by
  intro k
  induction k with
  | zero => intro _ es s r ty w ts o u _ _ _ _ _ h; cases h
  | succ k ih =>
    intro hP es s r ty w ts o u hf hs t1 t2 t3 he
    cases es with
    | nil =>
      rw [evalSeq] at he
      cases he
      rw [seqToks] at hs
      exact ⟨0, s, rfl, fun m _ => rfl, hs⟩
    | cons e es =>
      rw [fitsAll] at hf
      rw [seqToks, List.append_assoc] at hs
      rw [evalSeq] at he
      obtain ⟨ty', w', r', h1, h2⟩ := head_toks e
      have hs' := hs
      rw [h1] at hs'
      obtain ⟨t, s1, a1, a2, a3, a4, a5, a6, _⟩ := next_sees hE hs'
      have a7 : Sees B { s1 with next := some t } (toks e ++ (seqToks es ++ (ty, w) :: ts)) := by
        rw [h1]; exact a6
      obtain ⟨ty2, w2, r2, g1, g2, g3, g4⟩ := head_seq es (w := w) (r := ts) t1 t2 t3
      cases he1 : eval E.real E.cb k e s.usr with
      | none => rw [he1] at he; cases he
      | some r1 =>
        obtain ⟨o1, u1⟩ := r1
        rw [he1] at he
        obtain ⟨N, rc, s2, b1, b2, b3⟩ := hP k (by omega) e { s1 with next := some t } _ o1 u1 hf.1 a7
          (by rw [g1]; exact Follow.cons g2 g3) (by rw [← he1]; exact congrArg _ a5)
        cases o1 with
        | none =>
          cases he
          dsimp only at b3
          subst b3
          refine ⟨N + 1, s2, b2, fun m hm => ?_⟩
          obtain ⟨m, rfl⟩ : ∃ k, m = k + 1 := ⟨m - 1, by omega⟩
          rw [hL m r s t s1 a1 (a2 ▸ h2), b1 m (by omega)]
          rfl
        | some v =>
          obtain ⟨rfl, b3⟩ := b3
          have b4 : Sees B s2 (seqToks es ++ (ty, w) :: ts) := by
            rw [g1] at b3 ⊢
            exact b3.sees g4
          have heof : s2.eof = false := by
            rcases b4 with h | ⟨h, _⟩
            exacts [h.eof, h]
          dsimp only at he
          obtain ⟨N2, s3, c1, c2⟩ := ih (fun j hj => hP j (by omega)) (r := v) hf.2 b4 t1 t2 t3
            (o := o) (u := u) (by rw [b2]; exact he)
          have hstep : ∀ m, N ≤ m → L (m + 1) r s = L m v s2 := by
            intro m hm
            rw [hL m r s t s1 a1 (a2 ▸ h2), b1 m hm]
            simp [heof]
          cases o with
          | none =>
            refine ⟨N + N2 + 1, s3, c1, fun m hm => ?_⟩
            obtain ⟨m, rfl⟩ : ∃ k, m = k + 1 := ⟨m - 1, by omega⟩
            rw [hstep m (by omega)]
            exact c2 m (by omega)
          | some v' =>
            refine ⟨N + N2, s3, c1, fun m hm => ?_, c2.2⟩
            rw [List.length_cons, ← Nat.add_assoc, hstep _ (by omega)]
            exact c2.1 m (by omega)

/-! ### Conditions and loops -/

theorem parse_ite {E : Env U} {B} (hE : Ok E B) {k} (hP : ∀ j, j ≤ k → Parses E B j) {c t e s ts o u}
    (hf : fits (Back B.I) (.ite c t e)) (hs : Sees B s (toks (.ite c t e) ++ ts))
    (he : eval E.real E.cb (k + 1) (.ite c t e) s.usr = some (o, u)) :
    ∃ N rc s', (∀ m, N ≤ m → parse E m none s = some (rc, s')) ∧ Res E B ts o u rc s' := by
  rw [fits] at hf
  simp only [toks, List.cons_append, List.append_assoc, List.nil_append] at hs
  obtain ⟨t0, s0, a1, a2, a3, a4, a5, _⟩ := next_sees hE hs
  rw [eval] at he
  cases he1 : eval E.real E.cb k c s.usr with
  | none => rw [he1] at he; cases he
  | some r1 =>
    obtain ⟨o1, u1⟩ := r1
    rw [he1] at he
    obtain ⟨N, rc, s1, b1, b2, b3⟩ := hP k (by omega) c s0 _ o1 u1 hf.1 a4.sees
      (Follow.cons (by decide) (by decide)) (by rw [a5]; exact he1)
    have hgo : ∀ m, parse E (m + 1) none s = parseIf E m s0 := by
      intro m
      rw [parse, a1]
      simp [a2]
    cases o1 with
    | none =>
      cases he
      dsimp only at b3
      subst b3
      refine ⟨N + 2, .err, s1, fun m hm => ?_, b2, rfl⟩
      obtain ⟨m, rfl⟩ : ∃ k, m = k + 2 := ⟨m - 2, by omega⟩
      rw [hgo, parseIf, b1 m (by omega)]
      rfl
    | some v =>
      obtain ⟨rfl, b3⟩ := b3
      have b4 := b3.sees (by decide)
      have heof : s1.eof = false := by
        rcases b4 with h | ⟨h, _⟩
        exacts [h.eof, h]
      obtain ⟨t1, s2, c1, c2, _, c4, c5, _⟩ := next_sees hE b4
      dsimp only at he
      have hif : ∀ m, N ≤ m → parseIf E (m + 1) s0 =
          if truth v then parseThen E m .null s2
          else (skipElse E E.fuel 0 s2).bind (fun x => if x.1 then parseElse E m .null x.2 else some (.err, x.2)) := by
        intro m hm
        rw [parseIf, b1 m hm]
        simp [heof, c1, c2]
      by_cases hv : Falsy v
      · rw [if_pos hv] at he
        have htr : truth v = false := by
          by_contra h
          exact (truth_iff v).mp (by simpa using h) hv
        obtain ⟨s3, d1, d2, d3⟩ := skipElse_seq hE c4.sees
        have hu3 : s3.usr = u1 := by rw [d3, c5, b2]
        obtain ⟨N2, s4, e1, e2⟩ := parse_seq hE (else_loop E) k (fun j hj => hP j (by omega)) hf.2.2 d2.sees
          (by decide) (by decide) (by decide) (o := o) (u := u) (by rw [hu3]; exact he)
        have hif' : ∀ m, N ≤ m → parseIf E (m + 1) s0 = parseElse E m .null s3 := by
          intro m hm
          rw [hif m hm, htr, d1]
          rfl
        cases o with
        | none =>
          dsimp only at e2
          refine ⟨N + N2 + 2, .err, s4, fun m hm => ?_, e1, rfl⟩
          obtain ⟨m, rfl⟩ : ∃ k, m = k + 2 := ⟨m - 2, by omega⟩
          rw [hgo, hif' m (by omega), e2 m (by omega)]
        | some v' =>
          obtain ⟨e2, e3⟩ := e2
          obtain ⟨t2, s5, f1, f2, _, f4, f5, _⟩ := next_sees hE e3
          refine ⟨N + N2 + e.length + 3, .ok v', s5, fun m hm => ?_, f5.trans e1, rfl, .inl f4.sees⟩
          obtain ⟨m, rfl⟩ : ∃ k, m = k + 1 + e.length + 2 := ⟨m - 3 - e.length, by omega⟩
          rw [hgo, hif' _ (by omega), e2 _ (by omega), parseElse, f1]
          simp [f2]
      · rw [if_neg hv] at he
        have htr : truth v = true := (truth_iff v).mpr hv
        have hu2 : s2.usr = u1 := by rw [c5, b2]
        obtain ⟨N2, s4, e1, e2⟩ := parse_seq hE (then_loop E) k (fun j hj => hP j (by omega)) hf.2.1 c4.sees
          (by decide) (by decide) (by decide) (o := o) (u := u) (by rw [hu2]; exact he)
        have hif' : ∀ m, N ≤ m → parseIf E (m + 1) s0 = parseThen E m .null s2 := by
          intro m hm
          rw [hif m hm, htr]
          rfl
        cases o with
        | none =>
          dsimp only at e2
          refine ⟨N + N2 + 2, .err, s4, fun m hm => ?_, e1, rfl⟩
          obtain ⟨m, rfl⟩ : ∃ k, m = k + 2 := ⟨m - 2, by omega⟩
          rw [hgo, hif' m (by omega), e2 m (by omega)]
        | some v' =>
          obtain ⟨e2, e3⟩ := e2
          obtain ⟨t2, s5, f1, f2, _, f4, f5, _⟩ := next_sees hE e3
          obtain ⟨s6, g1, g2, g3⟩ := skipFi_seq hE f4
          refine ⟨N + N2 + t.length + 3, .ok v', s6, fun m hm => ?_, by rw [g3, f5, e1], rfl, .inl g2.sees⟩
          obtain ⟨m, rfl⟩ : ∃ k, m = k + 1 + t.length + 2 := ⟨m - 3 - t.length, by omega⟩
          rw [hgo, hif' _ (by omega), e2 _ (by omega), parseThen, f1]
          simp [f2, g1]

theorem parse_loop {E : Env U} {B} (hE : Ok E B) (hB : Back B.I) {c b ts l0} (hfc : fits (Back B.I) c) (hfb : fitsAll (Back B.I) b)
    (hl : Reads B l0 (toks c ++ tDo :: (seqToks b ++ tEnd :: ts))) : ∀ k, (∀ j, j < k → Parses E B j) → ∀ {s r o u},
    Sees0 B s (toks c ++ tDo :: (seqToks b ++ tEnd :: ts)) →
    evalLoop E.real E.cb k c b r s.usr = some (o, u) →
    ∃ N rc s', (∀ m, N ≤ m → parseLoop E m (snapshot l0) r s = some (rc, s')) ∧ Res E B ts o u rc s' := by
  intro k
  induction k with
  | zero => intro _ s r o u _ h; cases h
  | succ k ih =>
    intro hP s r o u hs he
    rw [evalLoop] at he
    cases he1 : eval E.real E.cb k c s.usr with
    | none => rw [he1] at he; cases he
    | some r1 =>
      obtain ⟨o1, u1⟩ := r1
      rw [he1] at he
      obtain ⟨N, rc, s1, b1, b2, b3⟩ := hP k (by omega) c s _ o1 u1 hfc hs.sees
        (Follow.cons (by decide) (by decide)) he1
      cases o1 with
      | none =>
        cases he
        dsimp only at b3
        subst b3
        refine ⟨N + 1, .err, s1, fun m hm => ?_, b2, rfl⟩
        obtain ⟨m, rfl⟩ : ∃ k, m = k + 1 := ⟨m - 1, by omega⟩
        rw [parseLoop, b1 m (by omega)]
        rfl
      | some v =>
        obtain ⟨rfl, b3⟩ := b3
        have b4 := b3.sees (by decide)
        have heof : s1.eof = false := by
          rcases b4 with h | ⟨h, _⟩
          exacts [h.eof, h]
        obtain ⟨t1, s2, c1, c2, _, c4, c5, _⟩ := next_sees hE b4
        dsimp only at he
        have hgo : ∀ m, N ≤ m → parseLoop E (m + 1) (snapshot l0) r s =
            if truth v then (parseBody E m r s2).bind (fun x =>
              match x.1 with
              | .ok r => parseLoop E m (snapshot l0) r { x.2 with lex := apply x.2.lex (snapshot l0) }
              | rc => some (rc, x.2))
            else (skipEnd E E.fuel 0 s2).bind (fun x => if x.1 then some (.ok r, x.2) else some (.err, x.2)) := by
          intro m hm
          rw [parseLoop, b1 m hm]
          simp [heof, c1, c2]
          refine congrArg (fun z => if truth v = true then z else _) ?_
          refine congrArg _ (funext fun x => ?_)
          obtain ⟨rc, x⟩ := x
          cases rc <;> rfl
        by_cases hv : Falsy v
        · rw [if_pos hv] at he
          cases he
          have htr : truth v = false := by
            by_contra h
            exact (truth_iff v).mp (by simpa using h) hv
          obtain ⟨s3, d1, d2, d3⟩ := skipEnd_seq hE c4.sees
          refine ⟨N + 1, .ok r, s3, fun m hm => ?_, by rw [d3, c5, b2], rfl, .inl d2.sees⟩
          obtain ⟨m, rfl⟩ : ∃ k, m = k + 1 := ⟨m - 1, by omega⟩
          rw [hgo m (by omega), htr, d1]
          rfl
        · rw [if_neg hv] at he
          have htr : truth v = true := (truth_iff v).mpr hv
          have hu2 : s2.usr = u1 := by rw [c5, b2]
          cases he2 : evalSeq E.real E.cb k b r u1 with
          | none => rw [he2] at he; cases he
          | some r2 =>
            obtain ⟨o2, u2⟩ := r2
            rw [he2] at he
            obtain ⟨N2, s4, e1, e2⟩ := parse_seq hE (body_loop E) k (fun j hj => hP j (by omega)) hfb c4.sees
              (by decide) (by decide) (by decide) (o := o2) (u := u2) (by rw [hu2]; exact he2)
            cases o2 with
            | none =>
              cases he
              dsimp only at e2
              refine ⟨N + N2 + 1, .err, s4, fun m hm => ?_, e1, rfl⟩
              obtain ⟨m, rfl⟩ : ∃ k, m = k + 1 := ⟨m - 1, by omega⟩
              rw [hgo m (by omega), htr, if_pos rfl, e2 m (by omega)]
              rfl
            | some v' =>
              obtain ⟨e2, e3⟩ := e2
              obtain ⟨t2, s5, f1, f2, _, f4, f5, _⟩ := next_sees hE e3
              dsimp only at he
              have hs6 : Sees0 B { s5 with lex := apply s5.lex (snapshot l0) }
                  (toks c ++ tDo :: (seqToks b ++ tEnd :: ts)) :=
                ⟨f4.next, f4.eof, reads_apply hB hl f4.reads⟩
              obtain ⟨N3, rc, s7, g1, g2⟩ := ih (fun j hj => hP j (by omega)) hs6 (r := v') (o := o) (u := u)
                (by rw [← he]; exact congrArg _ (f5.trans e1))
              refine ⟨N + N2 + N3 + b.length + 2, rc, s7, fun m hm => ?_, g2⟩
              obtain ⟨m, rfl⟩ : ∃ k, m = k + 1 + b.length + 1 := ⟨m - 2 - b.length, by omega⟩
              rw [hgo _ (by omega), htr, if_pos rfl, e2 _ (by omega), parseBody, f1]
              simp [f2]
              exact g1 _ (by omega)

theorem parses {E : Env U} {B} (hE : Ok E B) : ∀ n, Parses E B n := by
  intro n
  induction n using Nat.strong_induction_on with
  | _ n ih =>
    intro e s ts o u hf hs hfo he
    cases n with
    | zero => cases he
    | succ n =>
      cases e with
      | const c =>
        rw [toks] at hs
        rw [eval] at he
        rw [fits] at hf
        cases he
        obtain ⟨t, s1, a1, a2, a3, a4, a5, _⟩ := next_sees hE hs
        refine ⟨1, .ok (c.val E.real), s1, fun m hm => ?_, a5, rfl, .inl a4.sees⟩
        obtain ⟨m, rfl⟩ : ∃ k, m = k + 1 := ⟨m - 1, by omega⟩
        rw [parse, a1]
        have h1 : t.type ≠ .eof ∧ t.type ≠ COLON ∧ t.type ≠ COMMA ∧ t.type ≠ RPAR ∧ t.type ≠ IF ∧ t.type ≠ LOOP ∧
            t.type ≠ .id := by
          rw [a2]; cases c <;> simp
        simp [h1, valInit_const E.real hf a2 a3]
      | var path x =>
        rw [eval, Option.some_inj] at he
        have := parse_var hE hs hfo
        rw [he] at this
        exact this
      | call path f args =>
        rw [fits] at hf
        simp only [toks, List.cons_append, List.append_assoc, List.nil_append] at hs
        obtain ⟨s1, a1, a2, a3⟩ := parse_path hE path (acc := none) hs
        rw [ns_name] at a1
        obtain ⟨t, s2, b1, b2, b3, b4, b5, _⟩ := next_sees hE a2
        obtain ⟨t2, s3, c1, c2, c3, c4, c5⟩ := tok_sees hE b4
        rw [eval] at he
        cases he1 : evalArgs E.real E.cb n args s.usr with
        | none => rw [he1] at he; cases he
        | some r1 =>
          obtain ⟨o1, u1⟩ := r1
          rw [he1] at he
          obtain ⟨N, s4, d1, d2, d3⟩ := parse_args hE n (fun j hj => ih j (by omega)) (acc := []) hf c4.sees
            (o := o1) (u := u1) (by rw [c5, b5, a3]; exact he1)
          cases o1 with
          | none =>
            cases he
            refine ⟨N + 1 + path.length, .err, s4, fun m hm => ?_, d2, rfl⟩
            obtain ⟨m, rfl⟩ : ∃ k, m = k + 1 + path.length := ⟨m - 1 - path.length, by omega⟩
            rw [a1, parse, b1]
            simp [b2, c1, c2, d1 m (by omega)]
          | some vs =>
            dsimp only at he
            have d3 := d3 (by simp)
            generalize hr : E.cb u1 (nsName path) f (some vs) = r at he
            obtain ⟨v, u'⟩ := r
            cases he
            cases o with
            | none =>
              refine ⟨N + 1 + path.length, .err, { s4 with usr := u }, fun m hm => ?_, rfl, rfl⟩
              obtain ⟨m, rfl⟩ : ∃ k, m = k + 1 + path.length := ⟨m - 1 - path.length, by omega⟩
              rw [a1, parse, b1]
              simp [b2, c1, c2, d1 m (by omega), d2, b3, hr]
            | some v =>
              refine ⟨N + 1 + path.length, .ok v, { s4 with usr := u }, fun m hm => ?_, rfl, rfl, ?_⟩
              · obtain ⟨m, rfl⟩ : ∃ k, m = k + 1 + path.length := ⟨m - 1 - path.length, by omega⟩
                rw [a1, parse, b1]
                simp [b2, c1, c2, d1 m (by omega), d2, b3, hr]
              · exact .inl (.inl ⟨d3.next, d3.eof, d3.reads⟩)
      | ite c t e => exact parse_ite hE (fun j hj => ih j (by omega)) hf hs he
      | loop c b =>
        rw [fits] at hf
        simp only [toks, List.cons_append, List.append_assoc, List.nil_append] at hs
        obtain ⟨t, s1, a1, a2, a3, a4, a5, _⟩ := next_sees hE hs
        rw [eval] at he
        obtain ⟨N, rc, s2, b1, b2⟩ := parse_loop hE hf.1 hf.2.1 hf.2.2 a4.reads n (fun j hj => ih j (by omega)) a4
          (r := .null) (o := o) (u := u) (by rw [a5]; exact he)
        refine ⟨N + 1, rc, s2, fun m hm => ?_, b2⟩
        obtain ⟨m, rfl⟩ : ∃ k, m = k + 1 := ⟨m - 1, by omega⟩
        rw [parse, a1]
        simp [a2]
        exact b1 m (by omega)

/-! ## Whole texts -/

theorem loop_seq {E : Env U} {B} (hE : Ok E B) : ∀ k {es s r o u}, fitsAll (Back B.I) es → After E B s (seqToks es) →
    (∀ v, r.getD .null = v → evalSeq E.real E.cb k es v s.usr = some (o, u)) →
    ∃ N, ∀ m, N ≤ m → loop E m r s = some (o, u) := by
  intro k
  induction k with
  | zero => intro es s r o u _ _ h; cases h _ rfl
  | succ k ih =>
    intro es s r o u hf hs he
    have he := he _ rfl
    cases es with
    | nil =>
      rw [evalSeq] at he
      cases he
      rw [seqToks] at hs
      have hend : s.next = none ∧ s.eof = false ∧ AtEnd E.cfg E.fuel s.lex := by
        rcases hs with (h | ⟨_, t, ts', _, h, _⟩) | ⟨ts', h, _⟩ | ⟨_, h⟩
        · exact ⟨h.next, h.eof, hE.fuel ▸ reads_end hE.quotes h.reads⟩
        · cases h
        · cases h
        · exact h
      obtain ⟨h1, h2, t, l', h3, h4, _⟩ := hend
      refine ⟨2, fun m hm => ?_⟩
      obtain ⟨m, rfl⟩ : ∃ k, m = k + 2 := ⟨m - 2, by omega⟩
      rw [loop, parse, nextTok, h1]
      simp [tok, h3, h4]
    | cons e es =>
      rw [fitsAll] at hf
      rw [seqToks] at hs
      rw [evalSeq] at he
      obtain ⟨ty, w, r', h1, h2⟩ := head_toks e
      have hs' : Sees B s (toks e ++ seqToks es) := by
        rw [h1] at hs ⊢
        exact hs.sees (starts_ne h2).2.2.1
      have hfo : Follow (seqToks es) := by
        cases es with
        | nil => rw [seqToks]; intro _ _ _ h; cases h
        | cons e' es' =>
          obtain ⟨ty, w, r', h1, h2⟩ := head_toks e'
          rw [seqToks, h1]
          exact Follow.cons (starts_ne h2).1 (starts_ne h2).2.1
      cases he1 : eval E.real E.cb k e s.usr with
      | none => rw [he1] at he; cases he
      | some r1 =>
        obtain ⟨o1, u1⟩ := r1
        rw [he1] at he
        obtain ⟨N, rc, s2, b1, b2, b3⟩ := parses hE k e s _ o1 u1 hf.1 hs' hfo he1
        cases o1 with
        | none =>
          cases he
          dsimp only at b3
          subst b3
          refine ⟨N + 1, fun m hm => ?_⟩
          obtain ⟨m, rfl⟩ : ∃ k, m = k + 1 := ⟨m - 1, by omega⟩
          rw [loop, b1 m (by omega)]
          simp [b2]
        | some v =>
          obtain ⟨rfl, b3⟩ := b3
          have heof : s2.eof = false := by
            rcases b3 with (h | ⟨h, _⟩) | ⟨ts', _, h⟩ | ⟨_, _, h, _⟩
            exacts [h.eof, h, h.eof, h]
          dsimp only at he
          obtain ⟨N2, c1⟩ := ih (r := some v) (o := o) (u := u) hf.2 b3 (by
            rintro _ rfl
            rw [b2]; exact he)
          refine ⟨N + N2 + 1, fun m hm => ?_⟩
          obtain ⟨m, rfl⟩ : ∃ k, m = k + 1 := ⟨m - 1, by omega⟩
          rw [loop, b1 m (by omega)]
          simp [heof]
          exact c1 m (by omega)

/-- The parser works on the text `T` in memory, with enough fuel. -/
structure OkMem (E : Env U) (T : List Byte) : Prop where
  cfg : E.cfg = cfg
  clean : Clean T
  fuel : T.length + 1 < E.fuel

theorem OkMem.ok {E : Env U} {T} (h : OkMem E T) : Ok E (mem T E.fuel) :=
  ⟨h.cfg ▸ quotes_cfg, rfl, fun _ _ hl ht => buf_token _ _ _ hl (h.cfg ▸ ht)⟩

theorem OkMem.sees {E : Env U} {T ts} (h : OkMem E T) (hw : Written T ts) (u : U) :
    Sees0 (mem T E.fuel) ({ lex := init T, usr := u } : St U) ts := ⟨rfl, rfl, reads_init hw h.clean h.fuel⟩

theorem back_mem (T : List Byte) (n : Nat) : Back (mem T n).I ↔ True := iff_true_intro (buf_back T)

/-- Running a text that is written as the expressions `es` gives what evaluating them from left to
right gives: the same calls of the callback with the same arguments, and the last value; NULL if the
callback gives nothing. -/
theorem run_eval {E : Env U} {T es k o u u'} (hE : OkMem E T) (hw : Written T (seqToks es)) (hf : fitsAll True es)
    (he : evalSeq E.real E.cb k es .null u = some (o, u')) :
    ∃ N, ∀ m, N ≤ m → run E m T u = some (o, u') := by
  refine loop_seq hE.ok k ?_ (.inl (hE.sees hw u).sees) (r := none) ?_
  · rw [back_mem]; exact hf
  · rintro _ rfl
    exact he

/-- The next token, if any, is not of the type `ty`. -/
theorem next_other {E : Env U} {B s ts ty} (hE : Ok E B) (h : After E B s ts) (hty : ty ≠ .eof)
    (hn : ∀ w r, ts ≠ (ty, w) :: r) (hc : ∀ w r, ts ≠ (COMMA, w) :: r) :
    s.eof = false ∧ ∃ t s', nextTok E s = some (some t, s') ∧ t.type ≠ ty ∧ s'.usr = s.usr := by
  cases ts with
  | nil =>
    have hend : s.next = none ∧ s.eof = false ∧ AtEnd E.cfg E.fuel s.lex := by
      rcases h with (h | ⟨_, t, ts', _, h, _⟩) | ⟨ts', h, _⟩ | ⟨_, h⟩
      · exact ⟨h.next, h.eof, hE.fuel ▸ reads_end hE.quotes h.reads⟩
      · cases h
      · cases h
      · exact h
    obtain ⟨h1, h2, t, l', h3, h4, _⟩ := hend
    exact ⟨h2, t, { s with lex := l' }, by simp [nextTok, h1, tok, h3], by rw [h4]; exact hty.symm, rfl⟩
  | cons p r =>
    obtain ⟨ty', w⟩ := p
    have hne : ty' ≠ COMMA := fun h => hc w r (by rw [h])
    have hs := h.sees hne
    obtain ⟨t, s', a1, a2, a3, a4, a5, _⟩ := next_sees hE hs
    refine ⟨?_, t, s', a1, ?_, a5⟩
    · rcases hs with h | ⟨h, _⟩
      · exact h.eof
      · exact h
    · rw [a2]; rintro rfl; exact hn w r rfl

/-- A condition without `then` behind it is an error: nothing is run but the condition. -/
theorem if_without_then {E : Env U} {T c ts k v u u'} (hE : OkMem E T) (hw : Written T (tIf :: (toks c ++ ts)))
    (hf : fits True c) (hn : ∀ w r, ts ≠ (THEN, w) :: r) (hc : ∀ w r, ts ≠ (COMMA, w) :: r) (hfo : Follow ts)
    (he : eval E.real E.cb k c u = some (some v, u')) : ∃ N, ∀ m, N ≤ m → run E m T u = some (none, u') := by
  obtain ⟨t, s1, a1, a2, a3, a4, a5, _⟩ := next_sees hE.ok (hE.sees hw u).sees
  obtain ⟨N, rc, s2, b1, b2, b3, b4⟩ := parses hE.ok k c s1 ts (some v) u'
    (by rw [back_mem]; exact hf) a4.sees hfo (by rw [a5]; exact he)
  obtain ⟨c1, t', s3, c2, c3, c4⟩ := next_other hE.ok b4 (by decide) hn hc
  subst b3
  refine ⟨N + 3, fun m hm => ?_⟩
  obtain ⟨m, rfl⟩ : ∃ k, m = k + 3 := ⟨m - 3, by omega⟩
  rw [run, loop, parse, a1]
  simp [a2, parseIf, b1 m (by omega), c1, c2, c3, c4, b2, IF, COLON, COMMA, RPAR]

/-- A condition of a loop without `do` behind it is an error. -/
theorem loop_without_do {E : Env U} {T c ts k v u u'} (hE : OkMem E T) (hw : Written T (tLoop :: (toks c ++ ts)))
    (hf : fits True c) (hn : ∀ w r, ts ≠ (DO, w) :: r) (hc : ∀ w r, ts ≠ (COMMA, w) :: r) (hfo : Follow ts)
    (he : eval E.real E.cb k c u = some (some v, u')) : ∃ N, ∀ m, N ≤ m → run E m T u = some (none, u') := by
  obtain ⟨t, s1, a1, a2, a3, a4, a5, _⟩ := next_sees hE.ok (hE.sees hw u).sees
  obtain ⟨N, rc, s2, b1, b2, b3, b4⟩ := parses hE.ok k c s1 ts (some v) u'
    (by rw [back_mem]; exact hf) a4.sees hfo (by rw [a5]; exact he)
  obtain ⟨c1, t', s3, c2, c3, c4⟩ := next_other hE.ok b4 (by decide) hn hc
  subst b3
  refine ⟨N + 3, fun m hm => ?_⟩
  obtain ⟨m, rfl⟩ : ∃ k, m = k + 3 := ⟨m - 3, by omega⟩
  rw [run, loop, parse, a1]
  simp [a2, parseLoop, b1 m (by omega), c1, c2, c3, c4, b2, IF, LOOP, COLON, COMMA, RPAR]

/-- `if` or `loop` and nothing else is an error. -/
theorem word_alone {E : Env U} {T p u} (hE : OkMem E T) (hp : p = tIf ∨ p = tLoop) (hw : Written T [p]) :
    ∃ N, ∀ m, N ≤ m → run E m T u = some (none, u) := by
  obtain ⟨ty, w⟩ := p
  obtain ⟨t, s1, a1, a2, a3, a4, a5, _⟩ := next_sees hE.ok (hE.sees hw u).sees
  obtain ⟨t', l', h3, h4, _⟩ := hE.ok.fuel ▸ reads_end hE.ok.quotes a4.reads
  have h3 : token E.cfg E.fuel s1.lex = some (some t', l') := h3
  refine ⟨4, fun m hm => ?_⟩
  obtain ⟨m, rfl⟩ : ∃ k, m = k + 4 := ⟨m - 4, by omega⟩
  have hq : ∀ q, parse E (m + 1) q s1 = some (.ok .null, { s1 with lex := l', eof := true }) := by
    intro q
    rw [parse, nextTok, a4.next]
    simp [tok, h3, h4, a4.next]
  rw [run, loop, parse, a1]
  rcases hp with h | h <;> cases h
  · simp [a2, parseIf, hq, a5, IF, COLON, COMMA, RPAR]
  · simp [a2, parseLoop, hq, a5, IF, LOOP, COLON, COMMA, RPAR]

theorem not_back_file : ¬ Back (fun _ => True) := by
  intro h
  have := (h (init [97#8]) (init [98#8]) trivial trivial (by decide) (by decide)).1
  revert this
  decide

/-- Running a file that is written as expressions without loops: the same. Missing: loops; see
`file_loop`. -/
theorem file_eval_partial {E : Env U} {fs path T es k o u u'} (hE : E.cfg = cfgFile fs)
    (hc : Clean T) (hl : T.length + 1 < E.fuel) (hw : Written T (seqToks es)) (hf : fitsAll False es)
    (he : evalSeq E.real E.cb k es .null u = some (o, u')) :
    ∃ N, ∀ m, N ≤ m → runFile E m path T u = some (o, u') := by
  have hok : Ok E (file E.fuel) := ⟨hE ▸ quotes_file fs, rfl, fun _ _ _ _ => trivial⟩
  have hb : Back (file E.fuel).I ↔ False := iff_false_intro not_back_file
  exact loop_seq hok k (by rw [hb]; exact hf) (.inl (.inl ⟨rfl, rfl, reads_file hw hc hl⟩)) (r := none)
    (by rintro _ rfl; exact he)

/-! ## Examples -/

/-- A callback that writes down what it is asked for: `a` is true the first two times, everything else
is the number of its arguments. -/
def exCb (u : List (List Byte)) (_ : Option (List Byte)) (x : List Byte) (args : Option (List Val)) :
    Option Val × List (List Byte) :=
  (if x = [97#8] then some (.bool (if (u.filter (· = [97#8])).length < 2 then 1#8 else 0#8)) else some (.int (args.getD []).length),
   u ++ [x])

def exEnv : Env (List (List Byte)) := { cb := exCb, real := fun _ => 0#64, cfg := cfg, fuel := 60 }

/-- `f(a,'x') `. -/
def exText : List Byte := [102#8, 40#8, 97#8, 44#8, 39#8, 120#8, 39#8, 41#8, 32#8]

theorem exText_written : Written exText (seqToks [.call [] [102#8] [.var [] [97#8], .const (.str [120#8])]]) := by
  have hid : ∀ (b c : Byte) (r : List Byte), isLetter b = true → isWord b = true → b ≠ 95#8 → [b] ∉ keywords →
      isWord c = false → Spell .id [b] [b] (c :: r) := by
    intro b c r h1 h2 h3 h4 h5
    refine .plain (.id ⟨⟨b, [], rfl, h1⟩, by simpa using h2⟩ (by simpa using h3) h4 ?_) (by decide) (by decide)
      (by decide) (by decide)
    intro x hx; cases hx; exact h5
  have hsp : ∀ (b : Byte) (r : List Byte), b ∈ specials → b ≠ 95#8 → b ≠ 34#8 → b ≠ 39#8 → b ≠ 35#8 →
      Spell (.spec b) [b] [b] r := by
    intro b r h1 h2 h3 h4 h5
    refine .plain (.spec h1 h2) (by simp) ?_ ?_ ?_ <;> simp [h3, h4, h5]
  refine .cons (ws := []) (w := [102#8]) (by simp) (hid _ _ _ ?_ ?_ ?_ ?_ ?_)
    (.cons (ws := []) (w := [40#8]) (by simp) (hsp _ _ ?_ ?_ ?_ ?_ ?_)
    (.cons (ws := []) (w := [97#8]) (by simp) (hid _ _ _ ?_ ?_ ?_ ?_ ?_)
    (.cons (ws := []) (w := [44#8]) (by simp) (hsp _ _ ?_ ?_ ?_ ?_ ?_)
    (.cons (ws := []) (w := [39#8, 120#8, 39#8]) (by simp) (.str (w := [120#8]) (by decide) (.byte (by decide) (by decide) .nil))
    (.cons (ws := []) (w := [41#8]) (by simp) (hsp _ _ ?_ ?_ ?_ ?_ ?_)
    (.nil (by decide) (by decide))))))) <;> decide

/-- `if` alone is an error, and so is a loop with `then`. -/
example : run exEnv 20 [105#8, 102#8] [] = some (none, []) := by decide +kernel
example : run exEnv 20 [108#8, 111#8, 111#8, 112#8, 32#8, 97#8, 32#8, 116#8, 104#8, 101#8, 110#8, 32#8, 98#8, 32#8, 101#8, 110#8, 100#8] [] =
    some (none, [[97#8]]) := by decide +kernel

/-- The hypotheses of `run_eval` can be met, and the result is the expected one. -/
example : ∃ N, ∀ m, N ≤ m → run exEnv m exText [] = some (some (.int 2), [[97#8], [102#8]]) :=
  run_eval (k := 9) ⟨rfl, by unfold Clean; decide, by decide⟩ exText_written (by simp [fitsAll, fits, Const.fits]) (by decide)

/-- The model itself: `f(a,'x') ` and `loop a do b end ` (twice around). -/
example : run exEnv 20 exText [] = some (some (.int 2), [[97#8], [102#8]]) := by decide +kernel
example : run exEnv 40 [108#8, 111#8, 111#8, 112#8, 32#8, 97#8, 32#8, 100#8, 111#8, 32#8, 98#8, 32#8, 101#8, 110#8,
    100#8, 32#8] [] = some (some (.int 0), [[97#8], [98#8], [97#8], [98#8], [97#8]]) := by decide +kernel
/-- `if a then b else c fi ` -/
example : run exEnv 40 [105#8, 102#8, 32#8, 97#8, 32#8, 116#8, 104#8, 101#8, 110#8, 32#8, 98#8, 32#8, 101#8, 108#8,
    115#8, 101#8, 32#8, 99#8, 32#8, 102#8, 105#8, 32#8] [[97#8], [97#8]] =
    some (some (.int 0), [[97#8], [97#8], [97#8], [99#8]]) := by decide +kernel

end Verif.Expr
