import Verif.ExprProps
/-
Where running a text is not what is written there: conditions without `else`, strings in the result,
large numbers, loops at the very end, and texts that should be refused.
-/
namespace Verif.Expr
open Verif.Lex

variable {U : Type}

/-! ## Conditions without else -/

/-- `if c then t fi` with something behind it. -/
def ifToks (c : Ex) (t : List Ex) (rest : Toks) : Toks := tIf :: (toks c ++ tThen :: (seqToks t ++ tFi :: rest))

/-- Up to the branch: the condition has been evaluated and `then` has been read. -/
theorem upto_then {E : Env U} {B} (hE : Ok E B) {c s ts k v u} (hf : fits (Back B.I) c)
    (hs : Sees B s (tIf :: (toks c ++ tThen :: ts)))
    (he : eval E.real E.cb k c s.usr = some (some v, u)) :
    ∃ N s2, (∀ m, N ≤ m → parse E (m + 2) none s =
        if truth v then parseThen E m .null s2
        else (skipElse E E.fuel 0 s2).bind (fun x => if x.1 then parseElse E m .null x.2 else some (.err, x.2))) ∧
      Sees0 B s2 ts ∧ s2.usr = u := by
  obtain ⟨t0, s0, a1, a2, a3, a4, a5, _⟩ := next_sees hE hs
  obtain ⟨N, rc, s1, b1, b2, b3⟩ := parses hE k c s0 _ _ u hf a4.sees
    (Follow.cons (by decide) (by decide)) (by rw [a5]; exact he)
  obtain ⟨rfl, b3⟩ := b3
  have b4 := b3.sees (by decide)
  have heof : s1.eof = false := by
    rcases b4 with h | ⟨h, _⟩
    exacts [h.eof, h]
  obtain ⟨t1, s2, c1, c2, _, c4, c5, _⟩ := next_sees hE b4
  refine ⟨N, s2, fun m hm => ?_, c4, c5.trans b2⟩
  rw [parse, a1]
  simp only [Option.bind_eq_bind, Option.bind_some, a2]
  rw [if_neg (by decide), if_neg (by decide), if_neg (by decide), if_neg (by decide), if_pos (by decide)]
  rw [parseIf, b1 m hm]
  simp [heof, c1, c2]

/-- Behind the `fi` the search for `else` goes on. -/
theorem skipElse_fi {E : Env U} {B s t ts} (hE : Ok E B) (h : Sees B s (seqToks t ++ tFi :: ts)) :
    ∃ s', (∀ n, skipElse E (n + 1 + (seqToks t).length) 0 s = skipElse E n (-1) s') ∧ Sees0 B s' ts ∧
      s'.usr = s.usr := by
  obtain ⟨s1, a1, a2, a3⟩ := skipElse_bal hE (bal_seq t) (count := 0) (by decide) h
  obtain ⟨t1, s2, b1, b2, _, b4, b5, _⟩ := next_sees hE a2
  refine ⟨s2, fun n => ?_, b4, b5.trans a3⟩
  rw [a1, skipElse, b1]
  simp [b2]

theorem next_end {E : Env U} {B s} (hE : Ok E B) (h : Sees0 B s []) :
    ∃ t s', nextTok E s = some (some t, s') ∧ t.type = .eof ∧ s'.usr = s.usr := by
  obtain ⟨t, l', a1, a2, _⟩ := reads_end hE.quotes h.reads
  exact ⟨t, { s with lex := l' }, by simp [nextTok, h.next, tok, hE.fuel, a1], a2, rfl⟩

theorem falsy_truth {v} (h : Falsy v) : truth v = false := by
  by_contra hn
  exact (truth_iff v).mp (by simpa using hn) h

/-- A condition without `else` that is false makes the whole text fail. -/
theorem if_no_else {E : Env U} {T c t k v u u'} (hE : OkMem E T) (hw : Written T (ifToks c t [])) (hf : fits True c)
    (he : eval E.real E.cb k c u = some (some v, u')) (hv : Falsy v) :
    ∃ N, ∀ m, N ≤ m → run E m T u = some (none, u') := by
  have hs := hE.sees hw u
  have hE := hE.ok
  obtain ⟨N, s2, a1, a2, a3⟩ := upto_then hE (by rw [back_mem]; exact hf) hs.sees he
  obtain ⟨s3, b1, b2, b3⟩ := skipElse_fi hE a2.sees
  obtain ⟨t4, s4, c1, c2, c3⟩ := next_end hE b2
  have hl := sees_length hE a2.sees
  simp only [List.length_append, List.length_cons] at hl
  have hsk : skipElse E E.fuel 0 s2 = some (false, s4) := by
    obtain ⟨n, hn⟩ : ∃ n, E.fuel = (n + 1) + 1 + (seqToks t).length := ⟨E.fuel - 2 - (seqToks t).length, by omega⟩
    rw [hn, b1, skipElse, c1]
    simp [c2]
  refine ⟨N + 3, fun m hm => ?_⟩
  obtain ⟨m, rfl⟩ : ∃ k, m = k + 3 := ⟨m - 3, by omega⟩
  rw [run, loop, a1 m (by omega), falsy_truth hv, hsk]
  simp [c3, b3, a3]

/-- The same text with a condition that is true does what is written. -/
theorem if_then {E : Env U} {T c t k v u u' o u''} (hE : OkMem E T) (hw : Written T (ifToks c t [])) (hf : fits True c)
    (hft : fitsAll True t) (he : eval E.real E.cb k c u = some (some v, u')) (hv : ¬ Falsy v)
    (ht : evalSeq E.real E.cb k t .null u' = some (some o, u'')) :
    ∃ N, ∀ m, N ≤ m → run E m T u = some (some o, u'') := by
  have hs := hE.sees hw u
  have hE := hE.ok
  obtain ⟨N, s2, a1, a2, a3⟩ := upto_then hE (by rw [back_mem]; exact hf) hs.sees he
  obtain ⟨N2, s3, b1, b2, b3⟩ := parse_seq hE (then_loop E) k (fun j _ => parses hE j) (by rw [back_mem]; exact hft) a2.sees
    (by decide) (by decide) (by decide) (by rw [a3]; exact ht)
  obtain ⟨t4, s4, c1, c2, _, c4, c5, _⟩ := next_sees hE b3
  obtain ⟨t5, s5, d1, d2, d3⟩ := next_end hE c4
  refine ⟨N + N2 + t.length + 5, fun m hm => ?_⟩
  obtain ⟨m, rfl⟩ : ∃ k, m = k + 2 + t.length + 3 := ⟨m - 5 - t.length, by omega⟩
  rw [run, loop, a1 _ (by omega), (truth_iff v).mpr hv, if_pos rfl, b2 _ (by omega), parseThen, c1]
  simp only [Option.bind_eq_bind, Option.bind_some, c2]
  rw [if_neg (by decide), if_pos (by decide)]
  dsimp only [Option.bind_some]
  rw [c4.eof, if_neg (by decide), loop, show m + 2 + t.length + 1 = (m + t.length + 2) + 1 from by omega, parse, d1]
  simp [d2, d3, c5, b1]

/-- With a second condition behind it, its `else` branch is run in place of the first one: the second
condition is not even evaluated. -/
theorem else_taken {E : Env U} {T c t c2 t2 e2 k v u u' o u''} (hE : OkMem E T)
    (hw : Written T (ifToks c t (toks (.ite c2 t2 e2)))) (hf : fits True c) (hfe : fitsAll True e2)
    (he : eval E.real E.cb k c u = some (some v, u')) (hv : Falsy v)
    (ht : evalSeq E.real E.cb k e2 .null u' = some (some o, u'')) :
    ∃ N, ∀ m, N ≤ m → run E m T u = some (some o, u'') := by
  have hs := hE.sees hw u
  have hE := hE.ok
  obtain ⟨N, s2, a1, a2, a3⟩ := upto_then hE (by rw [back_mem]; exact hf) hs.sees he
  obtain ⟨s3, b1, b2, b3⟩ := skipElse_fi hE a2.sees
  rw [toks] at b2
  obtain ⟨t4, s4, c1, c2', _, c4, c5, _⟩ := next_sees hE b2.sees
  have hbal : Bal (toks c2 ++ tThen :: seqToks t2) :=
    (bal_toks c2).append (.other (by decide) (by decide) (by decide) (by decide) (by decide) (bal_seq t2))
  have c6 : Sees (mem T E.fuel) s4 ((toks c2 ++ tThen :: seqToks t2) ++ tElse :: (seqToks e2 ++ [tFi])) := by
    have := c4.sees
    simpa only [List.append_assoc, List.cons_append] using this
  obtain ⟨s5, d1, d2, d3⟩ := skipElse_bal hE hbal (count := 0) (by decide) c6
  obtain ⟨t6, s6, e1, e2', _, e4, e5, _⟩ := next_sees hE d2
  have hu6 : s6.usr = u' := by rw [e5, d3, c5, b3, a3]
  have hl := sees_length hE a2.sees
  have hsk : skipElse E E.fuel 0 s2 = some (true, s6) := by
    simp only [List.length_append, List.length_cons, toks] at hl
    obtain ⟨n, hn⟩ : ∃ n, E.fuel = (n + 1 + (toks c2 ++ tThen :: seqToks t2).length + 1) + 1 + (seqToks t).length :=
      ⟨E.fuel - 3 - (toks c2 ++ tThen :: seqToks t2).length - (seqToks t).length, by
        simp only [List.length_append, List.length_cons]; omega⟩
    rw [hn, b1, skipElse, c1]
    simp only [Option.bind_eq_bind, Option.bind_some, c2', if_true]
    rw [show (-1 : Int) + 1 = 0 from rfl, d1, skipElse, e1]
    simp [e2']
  obtain ⟨N2, s7, f1, f2, f3⟩ := parse_seq hE (else_loop E) k (fun j _ => parses hE j) (by rw [back_mem]; exact hfe) e4.sees
    (by decide) (by decide) (by decide) (by rw [hu6]; exact ht)
  obtain ⟨t8, s8, g1, g2, _, g4, g5, _⟩ := next_sees hE f3
  obtain ⟨t9, s9, i1, i2, i3⟩ := next_end hE g4
  refine ⟨N + N2 + e2.length + 5, fun m hm => ?_⟩
  obtain ⟨m, rfl⟩ : ∃ k, m = k + 2 + e2.length + 3 := ⟨m - 5 - e2.length, by omega⟩
  rw [run, loop, a1 _ (by omega), falsy_truth hv, hsk, if_neg (by decide), Option.bind_some, if_pos rfl,
    f2 _ (by omega), parseElse, g1]
  simp only [Option.bind_eq_bind, Option.bind_some, g2]
  rw [if_pos (by decide)]
  dsimp only [Option.bind_some]
  rw [g4.eof, if_neg (by decide), loop, show m + 2 + e2.length + 1 = (m + e2.length + 2) + 1 from by omega, parse, i1]
  simp [i2, i3, g5, f1]

/-! ## Strings in the result -/

/-- The value can be used behind mln_expr_run: it does not lie in the pool that has been destroyed. -/
def Usable : Val → Prop
  | .str true _ => False
  | _ => True

mutual
/-- No value of the expression is a string constant. -/
def noStr : Ex → Prop
  | .const (.str _) => False
  | .const _ => True
  | .var _ _ => True
  | .call _ _ _ => True
  | .ite _ t e => noStrs t ∧ noStrs e
  | .loop _ b => noStrs b
def noStrs : List Ex → Prop
  | [] => True
  | e :: es => noStr e ∧ noStrs es
end

/-- The callback gives no string of the pool. -/
def OwnStrings (cb : Cb U) : Prop := ∀ u ns x args v, (cb u ns x args).1 = some v → Usable v

theorem eval_usable (real : List Byte → BitVec 64) {cb : Cb U} (hcb : OwnStrings cb) : ∀ n,
    (∀ e u v u', noStr e → eval real cb n e u = some (some v, u') → Usable v) ∧
    (∀ es r u v u', noStrs es → Usable r → evalSeq real cb n es r u = some (some v, u') → Usable v) ∧
    (∀ c b r u v u', noStrs b → Usable r → evalLoop real cb n c b r u = some (some v, u') → Usable v) := by
  intro n
  induction n with
  | zero =>
    refine ⟨?_, ?_, ?_⟩
    · intro e u v u' _ h; cases h
    · intro es r u v u' _ _ h; cases h
    · intro c b r u v u' _ _ h; cases h
  | succ n ih =>
    obtain ⟨ih1, ih2, ih3⟩ := ih
    refine ⟨?_, ?_, ?_⟩
    · intro e u v u' hn h
      cases e with
      | const c =>
        rw [eval] at h
        cases h
        cases c <;> trivial
      | var path x =>
        rw [eval, Option.some_inj] at h
        exact hcb u (nsName path) x none v (by rw [h])
      | call path f args =>
        rw [eval] at h
        split at h
        · cases h
        · cases h
        · rw [Option.some_inj] at h
          exact hcb _ _ _ _ v (congrArg Prod.fst h)
      | ite c t e =>
        rw [noStr] at hn
        rw [eval] at h
        split at h
        · cases h
        · cases h
        · refine ih2 _ .null _ _ _ ?_ trivial h
          split
          exacts [hn.2, hn.1]
      | loop c b =>
        rw [noStr] at hn
        rw [eval] at h
        exact ih3 _ _ .null _ _ _ hn trivial h
    · intro es r u v u' hn hr h
      cases es with
      | nil => rw [evalSeq] at h; cases h; exact hr
      | cons e es =>
        rw [noStrs] at hn
        rw [evalSeq] at h
        split at h
        · cases h
        · cases h
        · rename_i v1 u1 h1
          exact ih2 _ _ _ _ _ hn.2 (ih1 _ _ _ _ hn.1 h1) h
    · intro c b r u v u' hn hr h
      rw [evalLoop] at h
      split at h
      · cases h
      · cases h
      · split at h
        · cases h; exact hr
        · split at h
          · cases h
          · cases h
          · rename_i r1 u1 h1
            exact ih3 _ _ _ _ _ _ hn (ih2 _ _ _ _ _ hn hr h1) h

/-- The result can be used if no value is a string constant and the callback gives strings of its own.
Missing: texts whose value is a string constant; `result_string` shows that they fail. -/
theorem result_usable_partial {E : Env U} {T es k v u u'} (hE : OkMem E T) (hw : Written T (seqToks es))
    (hf : fitsAll True es) (hcb : OwnStrings E.cb) (hn : noStrs es)
    (he : evalSeq E.real E.cb k es .null u = some (some v, u')) :
    ∃ N, ∀ m, N ≤ m → run E m T u = some (some v, u') ∧ Usable v := by
  obtain ⟨N, h⟩ := run_eval hE hw hf he
  exact ⟨N, fun m hm => ⟨h m hm, (eval_usable E.real hcb k).2.1 _ .null _ _ _ hn trivial he⟩⟩

/-- A text that is a string constant: the string that is returned lies in memory that is gone. -/
theorem result_string {E : Env U} {T s u} (hE : OkMem E T) (hw : Written T (seqToks [.const (.str s)])) :
    ∃ N, ∀ m, N ≤ m → run E m T u = some (some (.str true s), u) ∧ ¬ Usable (.str true s) := by
  obtain ⟨N, h⟩ := run_eval (k := 3) (o := some (.str true s)) (u := u) (u' := u) hE hw
    ⟨trivial, trivial⟩ rfl
  exact ⟨N, fun m hm => ⟨h m hm, id⟩⟩

/-- The handler of the manual gives the name it was given as the value of a variable: the same. -/
theorem result_name {E : Env U} {T x u} (hE : OkMem E T) (hw : Written T (seqToks [.var [] x]))
    (hcb : ∀ u ns x, E.cb u ns x none = (some (.str true x), u)) :
    ∃ N, ∀ m, N ≤ m → run E m T u = some (some (.str true x), u) ∧ ¬ Usable (.str true x) := by
  obtain ⟨N, h⟩ := run_eval (k := 3) (o := some (.str true x)) (u := u) (u' := u) hE hw
    ⟨trivial, trivial⟩ (by simp [evalSeq, eval, hcb, nsName])
  exact ⟨N, fun m hm => ⟨h m hm, id⟩⟩

/-! ## Numbers -/

/-- A text with one token that is a constant. -/
theorem run_const {E : Env U} {T ty w u v} (hE : OkMem E T) (hw : Written T [(ty, w)])
    (ht : ty ∈ [Ty.oct, .dec, .hex, .real, TRUE, FALSE, NULL, STRING])
    (hv : ∀ t : Tok, t.type = ty → t.text = w → valInit E.real t = some v) :
    ∀ m, run E (m + 3) T u = some (some v, u) := by
  intro m
  have hs := hE.sees hw u
  have hE := hE.ok
  obtain ⟨t, s1, a1, a2, a3, a4, a5, _⟩ := next_sees hE hs.sees
  obtain ⟨t2, s2, b1, b2, b3⟩ := next_end hE a4
  have hn : ty ≠ .eof ∧ ty ≠ COLON ∧ ty ≠ COMMA ∧ ty ≠ RPAR ∧ ty ≠ IF ∧ ty ≠ LOOP ∧ ty ≠ .id := by
    refine ⟨?_, ?_, ?_, ?_, ?_, ?_, ?_⟩ <;> rintro rfl <;> revert ht <;> decide
  have heof := a4.eof
  rw [run, loop, parse, a1]
  simp only [Option.bind_eq_bind, Option.bind_some, a2]
  rw [if_neg hn.1, if_neg hn.2.1, if_neg hn.2.2.1, if_neg hn.2.2.2.1, if_neg hn.2.2.2.2.1, if_neg hn.2.2.2.2.2.1,
    if_pos hn.2.2.2.2.2.2, hv t a2 a3]
  dsimp only [Option.bind_some]
  rw [heof, if_neg (by decide), loop, parse, b1]
  simp [b2, b3, a5]

/-- Decimal constants that are too large are taken for the largest number. -/
theorem dec_large {E : Env U} {T w u} (hE : OkMem E T) (hw : Written T [(.dec, w)]) (hl : w.length ≤ 1023)
    (hv : 2 ^ 63 ≤ value 10 w) (m : Nat) : run E (m + 3) T u = some (some (.int (2 ^ 63 - 1)), u) := by
  refine run_const hE hw (by decide) ?_ m
  intro t h1 h2
  simp only [valInit, h1, h2]
  rw [List.take_of_length_le hl, number_value, scanS]
  congr 2
  omega

/-- Hexadecimal constants of more than 64 bits are taken for -1. -/
theorem hex_large {E : Env U} {T w u} (hE : OkMem E T) (hw : Written T [(.hex, w)]) (hl : w.length ≤ 1023)
    (hv : 2 ^ 64 ≤ value 16 (w.drop 2)) (m : Nat) : run E (m + 3) T u = some (some (.int (-1)), u) := by
  refine run_const hE hw (by decide) ?_ m
  intro t h1 h2
  simp only [valInit, h1, h2]
  rw [List.take_of_length_le hl, number_value, scanU, Nat.min_eq_right (by omega)]
  decide

theorem value_zeros (n : Nat) : value 8 (List.replicate n 48#8) = 0 := by
  induction n with
  | zero => rfl
  | succ n ih => rw [List.replicate_succ, value, ih]; simp [digit]

/-- Digits behind the 1023rd are not looked at: an octal constant with 1023 zeros before it is 0. -/
theorem oct_long {E : Env U} {T ds u} (hE : OkMem E T) (hw : Written T [(.oct, List.replicate 1023 48#8 ++ ds)])
    (m : Nat) : run E (m + 3) T u = some (some (.int 0), u) := by
  refine run_const hE hw (by decide) ?_ m
  intro t h1 h2
  simp only [valInit, h1, h2]
  rw [List.take_left' (List.length_replicate ..), number_value, value_zeros]
  decide

/-! ## A loop at the very end -/

/-- `loop a do b end`, without anything behind it. -/
def loopText : List Byte :=
  [108#8, 111#8, 111#8, 112#8, 32#8, 97#8, 32#8, 100#8, 111#8, 32#8, 98#8, 32#8, 101#8, 110#8, 100#8]

/-- The lexer on that text at the place `p`. -/
def loopLex (p : Nat) : Lex := { macros := macros0, cur := some (inp loopText p) }

def mk (w : List Byte) (ty : Ty) : Tok := { text := w, line := 1, type := ty }

theorem loopText_tokens (n : Nat) :
    token cfg (n + 20) (init loopText) = some (some (mk (loopText.take 4) LOOP), loopLex 4) ∧
    token cfg (n + 20) (loopLex 4) = some (some (mk [97#8] .id), loopLex 6) ∧
    token cfg (n + 20) (loopLex 6) = some (some (mk [100#8, 111#8] DO), loopLex 9) ∧
    token cfg (n + 20) (loopLex 9) = some (some (mk [98#8] .id), loopLex 11) ∧
    token cfg (n + 20) (loopLex 11) = some (some (mk [101#8, 110#8, 100#8] END), { macros := macros0 }) ∧
    token cfg (n + 20) { macros := macros0 } = some (some (mk eofText .eof), { macros := macros0 }) :=
  ⟨rfl, rfl, rfl, rfl, rfl, rfl⟩

/-- If the condition holds, the body is run once and then the text fails: with the `end` everything has
been read, and the lexer cannot go back. -/
theorem loop_at_end {E : Env U} {n u u1 u2 v w} (hc : E.cfg = cfg) (hf : E.fuel = n + 20)
    (ha : E.cb u none [97#8] none = (some v, u1)) (hb : E.cb u1 none [98#8] none = (some w, u2))
    (hv : ¬ Falsy v) (m : Nat) : run E (m + 8) loopText u = some (none, u2) := by
  obtain ⟨t1, t2, t3, t4, t5, t6⟩ := loopText_tokens n
  have htr := (truth_iff v).mpr hv
  have hsn : snapshot (loopLex 4) = some 4 := rfl
  have hap : apply ({ macros := macros0 } : Lex) (some 4) = { macros := macros0 } := rfl
  rw [run, loop, parse, nextTok, tok]
  simp only [hc, hf, t1, Option.bind_eq_bind, Option.bind_some, mk]
  rw [if_neg (by decide), if_neg (by decide), if_neg (by decide), if_neg (by decide), if_neg (by decide),
    if_pos (by decide), parseLoop, parse, nextTok, tok]
  simp [hc, hf, t2, t3, mk, tok, ha, nextTok, htr]
  rw [parseBody, nextTok, tok]
  simp [hc, hf, t4, mk]
  rw [parse, nextTok]
  simp [tok, hc, hf, t5, mk, hb]
  rw [parseBody, nextTok]
  simp [hsn, hap]
  rw [parseLoop, parse, nextTok]
  simp [tok, hc, hf, t6, mk]

/-! ## Nested loops in files -/

/-- `loop a do loop b do c end d end `. -/
def nestText : List Byte :=
  [108#8, 111#8, 111#8, 112#8, 32#8, 97#8, 32#8, 100#8, 111#8, 32#8, 108#8, 111#8, 111#8, 112#8, 32#8, 98#8, 32#8,
   100#8, 111#8, 32#8, 99#8, 32#8, 101#8, 110#8, 100#8, 32#8, 100#8, 32#8, 101#8, 110#8, 100#8, 32#8]

/-- Its end, ` b do c end d end `. -/
def nestTail : List Byte :=
  [32#8, 98#8, 32#8, 100#8, 111#8, 32#8, 99#8, 32#8, 101#8, 110#8, 100#8, 32#8, 100#8, 32#8, 101#8, 110#8, 100#8, 32#8]

/-- The lexer with the buffer `b` at the place `p`. -/
def nestLex (path b : List Byte) (p : Nat) : Lex :=
  { macros := macros0, cur := some { path := some path, buf := b, pos := p } }

/-- The lexer that has gone back to the condition of the inner loop. -/
def nestBack (path : List Byte) : Lex :=
  { macros := macros0, cur := some { path := some path, buf := nestText, pos := 32, left := nestTail } }

def mkf (path w : List Byte) (ty : Ty) : Tok := { text := w, line := 1, type := ty, file := some path }

set_option maxHeartbeats 1000000 in
theorem nest_tokens (fs : List Byte → Option (List Byte)) (path : List Byte) (n : Nat) :
    token (cfgFile fs) (n + 40) (initFile path nestText) = some (some (mkf path [108#8, 111#8, 111#8, 112#8] LOOP), nestLex path nestText 4) ∧
    token (cfgFile fs) (n + 40) (nestLex path nestText 4) = some (some (mkf path [97#8] .id), nestLex path nestText 6) ∧
    token (cfgFile fs) (n + 40) (nestLex path nestText 6) = some (some (mkf path [100#8, 111#8] DO), nestLex path nestText 9) ∧
    token (cfgFile fs) (n + 40) (nestLex path nestText 9) = some (some (mkf path [108#8, 111#8, 111#8, 112#8] LOOP), nestLex path nestText 14) ∧
    token (cfgFile fs) (n + 40) (nestLex path nestText 14) = some (some (mkf path [98#8] .id), nestLex path nestText 16) ∧
    token (cfgFile fs) (n + 40) (nestLex path nestText 16) = some (some (mkf path [100#8, 111#8] DO), nestLex path nestText 19) ∧
    token (cfgFile fs) (n + 40) (nestLex path nestText 19) = some (some (mkf path [99#8] .id), nestLex path nestText 21) ∧
    token (cfgFile fs) (n + 40) (nestLex path nestText 21) = some (some (mkf path [101#8, 110#8, 100#8] END), nestLex path nestText 25) := by
  refine ⟨rfl, rfl, rfl, rfl, rfl, rfl, rfl, rfl⟩

set_option maxHeartbeats 1000000 in
theorem nest_tokens2 (fs : List Byte → Option (List Byte)) (path : List Byte) (n : Nat) :
    token (cfgFile fs) (n + 40) (nestBack path) = some (some (mkf path [98#8] .id), nestLex path nestTail 2) ∧
    token (cfgFile fs) (n + 40) (nestLex path nestTail 2) = some (some (mkf path [100#8, 111#8] DO), nestLex path nestTail 5) ∧
    token (cfgFile fs) (n + 40) (nestLex path nestTail 5) = some (some (mkf path [99#8] .id), nestLex path nestTail 7) ∧
    token (cfgFile fs) (n + 40) (nestLex path nestTail 7) = some (some (mkf path [101#8, 110#8, 100#8] END), nestLex path nestTail 11) ∧
    token (cfgFile fs) (n + 40) (nestLex path nestTail 11) = some (some (mkf path [100#8] .id), nestLex path nestTail 13) ∧
    token (cfgFile fs) (n + 40) (nestLex path nestTail 13) = some (some (mkf path [101#8, 110#8, 100#8] END), nestLex path nestTail 17) ∧
    token (cfgFile fs) (n + 40) (nestLex path nestTail 17) = some (some (mk eofText .eof), { macros := macros0 }) := by
  refine ⟨rfl, rfl, rfl, rfl, rfl, rfl, rfl⟩

/-- Once the inner loop has been repeated, the outer one cannot be: the buffer begins behind its
condition.  So the text fails, and `a` is not asked a second time. -/
theorem file_loop {E : Env U} {fs path n u u1 u2 u3 u4 u5 va vb vc vb' vd} (hc : E.cfg = cfgFile fs)
    (hf : E.fuel = n + 40)
    (ha : E.cb u none [97#8] none = (some va, u1)) (hb : E.cb u1 none [98#8] none = (some vb, u2))
    (hcc : E.cb u2 none [99#8] none = (some vc, u3)) (hb' : E.cb u3 none [98#8] none = (some vb', u4))
    (hd : E.cb u4 none [100#8] none = (some vd, u5))
    (hva : ¬ Falsy va) (hvb : ¬ Falsy vb) (hvb' : Falsy vb') (m : Nat) :
    runFile E (m + 20) path nestText u = some (none, u5) := by
  obtain ⟨t1, t2, t3, t4, t5, t6, t7, t8⟩ := nest_tokens fs path n
  obtain ⟨s1, s2, s3, s4, s5, s6, s7⟩ := nest_tokens2 fs path n
  have ra := (truth_iff va).mpr hva
  have rb := (truth_iff vb).mpr hvb
  have rb' := falsy_truth hvb'
  have h1 : snapshot (nestLex path nestText 4) = some 28 := rfl
  have h2 : snapshot (nestLex path nestText 14) = some 18 := rfl
  have h3 : apply (nestLex path nestText 25) (some 18) = nestBack path := rfl
  have h4 : apply (nestLex path nestTail 17) (some 28) = nestLex path nestTail 17 := rfl
  rw [runFile, loop, parse, nextTok, tok]
  simp only [hc, hf, t1, Option.bind_eq_bind, Option.bind_some, mkf]
  rw [if_neg (by decide), if_neg (by decide), if_neg (by decide), if_neg (by decide), if_neg (by decide),
    if_pos (by decide), parseLoop, parse, nextTok, tok]
  simp [hc, hf, t2, t3, mkf, tok, ha, nextTok, ra]
  rw [parseBody, nextTok, tok]
  simp [hc, hf, t4, mkf]
  rw [parse, nextTok]
  simp only [Option.bind_eq_bind, Option.bind_some]
  rw [if_neg (by decide), if_neg (by decide), if_neg (by decide), if_neg (by decide), if_neg (by decide),
    if_pos (by decide), parseLoop, parse, nextTok, tok]
  simp [hc, hf, t5, t6, mkf, tok, hb, nextTok, rb]
  rw [parseBody, nextTok, tok]
  simp [hc, hf, t7, mkf]
  rw [parse, nextTok]
  simp [tok, hc, hf, t8, mkf, hcc]
  rw [parseBody, nextTok]
  simp [h2, h3]
  rw [parseLoop, parse, nextTok]
  simp [tok, hc, hf, s1, s2, mkf, hb', nextTok, rb']
  have hsk : ∀ k, skipEnd E (k + 2) 0 { lex := nestLex path nestTail 5, usr := u4 } =
      some (true, { lex := nestLex path nestTail 11, usr := u4 }) := by
    intro k
    rw [skipEnd, nextTok, tok]
    simp [hc, hf, s3, mkf]
    rw [skipEnd, nextTok, tok]
    simp [hc, hf, s4, mkf]
  rw [hsk (n + 38)]
  simp
  rw [parseBody, nextTok, tok]
  simp [hc, hf, s5, mkf]
  rw [parse, nextTok]
  simp [tok, hc, hf, s6, mkf, hd]
  rw [parseBody, nextTok]
  simp [h1, h4]
  rw [parseLoop, parse, nextTok]
  simp [tok, hc, hf, s7, mk]

/-! ## Texts that are no expressions -/

/-- The arguments with any number of commas before each of them and `k` behind the last. -/
def looseToks (k : Nat) : List (Nat × Ex) → Toks
  | [] => List.replicate k tComma
  | (n, e) :: r => List.replicate n tComma ++ (toks e ++ looseToks k r)

theorem args_commas {E : Env U} {B} (hE : Ok E B) (acc : List Val) {ty w ts} (ht : ty ≠ COMMA) : ∀ (n : Nat) {s},
    After E B s (List.replicate n tComma ++ (ty, w) :: ts) →
    ∃ s1 d, (∀ m, 0 < m → parseArgs E (m + d) acc s = parseArgs E m acc s1) ∧
      Sees B s1 ((ty, w) :: ts) ∧ s1.usr = s.usr := by
  intro n
  induction n with
  | zero => intro s h; exact ⟨s, 0, fun m _ => rfl, h.sees ht, rfl⟩
  | succ n ih =>
    intro s h
    rw [List.replicate_succ, List.cons_append] at h
    rcases h with h | ⟨ts', h, h2⟩ | ⟨h, _⟩
    · obtain ⟨t, s1, a1, a2, a3, a4, a5, _⟩ := next_sees hE h
      obtain ⟨s2, d, b1, b2, b3⟩ := ih (.inl a4.sees)
      refine ⟨s2, d + 1, fun m hm => ?_, b2, b3.trans a5⟩
      rw [← b1 m hm, ← Nat.add_assoc]
      obtain ⟨j, hj⟩ : ∃ k, m + d = k + 1 := ⟨m + d - 1, by omega⟩
      rw [hj, parseArgs, parse, a1]
      simp [a2]
    · simp only [List.cons.injEq, true_and] at h
      rw [← h] at h2
      exact ih (.inl h2.sees)
    · cases h

theorem loose_head (k : Nat) (es : List (Nat × Ex)) (ts : Toks) :
    Follow (looseToks k es ++ tRpar :: ts) ∧ looseToks k es ++ tRpar :: ts ≠ [] := by
  have hr : ∀ n (r : Toks), (∀ ty w r', r = (ty, w) :: r' → ty ≠ COLON ∧ ty ≠ LPAR) →
      Follow (List.replicate n tComma ++ r) := by
    intro n r h
    cases n with
    | zero => exact h
    | succ n => rw [List.replicate_succ, List.cons_append]; exact Follow.cons (by decide) (by decide)
  refine ⟨?_, by simp⟩
  cases es with
  | nil =>
    rw [looseToks]
    exact hr _ _ (Follow.cons (by decide) (by decide))
  | cons p r =>
    obtain ⟨n, e⟩ := p
    obtain ⟨ty, w, r', h1, h2⟩ := head_toks e
    rw [looseToks, List.append_assoc, List.append_assoc, h1]
    exact hr _ _ (Follow.cons (starts_ne h2).1 (starts_ne h2).2.1)

theorem loose_args {E : Env U} {B} (hE : Ok E B) {q : Nat} : ∀ k {es s ts acc vs u},
    fitsAll (Back B.I) (es.map Prod.snd) → After E B s (looseToks q es ++ tRpar :: ts) →
    evalArgs E.real E.cb k (es.map Prod.snd) s.usr = some (some vs, u) →
    ∃ N s', (∀ m, N ≤ m → parseArgs E m acc s = some (some (acc ++ vs), s')) ∧ s'.usr = u ∧ Sees0 B s' ts := by
  intro k
  induction k with
  | zero => intro es s ts acc o u _ _ h; cases h
  | succ k ih =>
    intro es s ts acc vs u hf hs he
    cases es with
    | nil =>
      rw [List.map_nil, evalArgs] at he
      cases he
      rw [looseToks] at hs
      obtain ⟨s1, d, a1, a2, a3⟩ := args_commas hE acc (by decide) q hs
      obtain ⟨t, s2, b1, b2, b3, b4, b5, _⟩ := next_sees hE a2
      refine ⟨d + 2, s2, fun m hm => ?_, b5.trans a3, b4⟩
      obtain ⟨m, rfl⟩ : ∃ k, m = k + 2 + d := ⟨m - 2 - d, by omega⟩
      rw [a1 _ (by omega), parseArgs, parse, b1]
      simp [b2]
    | cons p es =>
      obtain ⟨n, e⟩ := p
      rw [List.map_cons, fitsAll] at hf
      rw [looseToks, List.append_assoc, List.append_assoc] at hs
      rw [List.map_cons, evalArgs] at he
      obtain ⟨ty, w, r', h1, h2⟩ := head_toks e
      obtain ⟨s0, d, z1, z2, z3⟩ := args_commas hE acc (starts_ne h2).2.2.1 n
        (ts := r' ++ (looseToks q es ++ tRpar :: ts)) (w := w) (s := s) (by rw [h1] at hs; exact hs)
      have z2 : Sees B s0 (toks e ++ (looseToks q es ++ tRpar :: ts)) := by rw [h1]; exact z2
      dsimp only at he
      cases he1 : eval E.real E.cb k e s.usr with
      | none => rw [he1] at he; cases he
      | some r1 =>
        obtain ⟨o1, u1⟩ := r1
        rw [he1] at he
        obtain ⟨N, rc, s1, a1, a2, a3⟩ := parses hE k e s0 _ o1 u1 hf.1 z2 (loose_head q es ts).1
          (by rw [z3]; exact he1)
        cases o1 with
        | none => cases he
        | some v =>
          obtain ⟨rfl, a3⟩ := a3
          have heof : s1.eof = false := by
            rcases a3 with (h | ⟨h, _⟩) | ⟨ts', _, h⟩ | ⟨h, _⟩
            · exact h.eof
            · exact h
            · exact h.eof
            · exact absurd h (loose_head q es ts).2
          dsimp only at he
          cases he2 : evalArgs E.real E.cb k (es.map Prod.snd) u1 with
          | none => rw [he2] at he; cases he
          | some r2 =>
            obtain ⟨o2, u2⟩ := r2
            rw [he2] at he
            cases o2 with
            | none => cases he
            | some ws =>
              cases he
              obtain ⟨N2, s3, c1, c2, c3⟩ := ih (acc := acc ++ [v]) hf.2 a3 (vs := ws) (u := u)
                (by rw [a2, he2])
              refine ⟨N + N2 + d + 1, s3, fun m hm => ?_, c2, c3⟩
              obtain ⟨m, rfl⟩ : ∃ k, m = k + 1 + d := ⟨m - 1 - d, by omega⟩
              rw [z1 _ (by omega), parseArgs, a1 m (by omega)]
              simp [heof, c1 m (by omega)]

/-- Commas in a call may stand anywhere and may be left out: the text is not refused but means the
call with the arguments in their order. -/
theorem loose_call {E : Env U} {T f q es k v u u'} (hE : OkMem E T)
    (hw : Written T ((.id, f) :: tLpar :: (looseToks q es ++ [tRpar]))) (hf : fitsAll True (es.map Prod.snd))
    (he : eval E.real E.cb k (.call [] f (es.map Prod.snd)) u = some (some v, u')) :
    ∃ N, ∀ m, N ≤ m → run E m T u = some (some v, u') := by
  have hs := hE.sees hw u
  have hE := hE.ok
  obtain ⟨t, s1, a1, a2, a3, a4, a5, _⟩ := next_sees hE hs.sees
  obtain ⟨t2, s2, b1, b2, b3, b4, b5⟩ := tok_sees hE a4
  cases k with
  | zero => cases he
  | succ k =>
    rw [eval] at he
    cases he1 : evalArgs E.real E.cb k (es.map Prod.snd) u with
    | none => rw [he1] at he; cases he
    | some r1 =>
      obtain ⟨o1, u1⟩ := r1
      rw [he1] at he
      cases o1 with
      | none => cases he
      | some vs =>
        dsimp only at he
        obtain ⟨N, s3, c1, c2, c3⟩ := loose_args hE (q := q) k (es := es) (acc := [])
          (by rw [back_mem]; exact hf) (.inl b4.sees) (by rw [b5, a5]; exact he1)
        rw [show nsName ([] : List (List Byte)) = none from rfl, Option.some_inj] at he
        obtain ⟨t4, l4, d1, d2, _⟩ := reads_end hE.quotes c3.reads
        have d1 : token E.cfg E.fuel s3.lex = some (some t4, l4) := d1
        have h1 := c3.next
        have h2 := c3.eof
        refine ⟨N + 3, fun m hm => ?_⟩
        obtain ⟨m, rfl⟩ : ∃ k, m = k + 3 := ⟨m - 3, by omega⟩
        rw [run, loop, parse, a1]
        simp [a2, b1, b2, c1 (m + 1) (by omega), a3, c2, he, h2]
        rw [loop, parse, nextTok]
        simp [h1, tok, d1, d2]

/-- A comma behind a variable is passed over … -/
theorem comma_var {E : Env U} {T x u u' v} (hE : OkMem E T) (hw : Written T [(.id, x), tComma])
    (hx : E.cb u none x none = (some v, u')) (m : Nat) : run E (m + 3) T u = some (some v, u') := by
  have hs := hE.sees hw u
  have hE := hE.ok
  obtain ⟨t, s1, a1, a2, a3, a4, a5, _⟩ := next_sees hE hs.sees
  obtain ⟨t2, s2, b1, b2, b3, b4, b5⟩ := tok_sees hE a4
  obtain ⟨t4, l4, d1, d2, _⟩ := reads_end hE.quotes b4.reads
  have d1 : token E.cfg E.fuel s2.lex = some (some t4, l4) := d1
  have h1 := b4.next
  have h2 := b4.eof
  have hu : s2.usr = u := by rw [b5, a5]
  rw [run, loop, parse, a1]
  simp [a2, b1, b2, a3, hu, hx, h2, h1]
  rw [loop, parse, nextTok]
  simp [tok, d1, d2]

/-- … and behind a constant it makes the text fail. -/
theorem comma_const {E : Env U} {T u} {c : Const} (hE : OkMem E T) (hf : c.fits) (hw : Written T [c.tok, tComma]) (m : Nat) :
    run E (m + 3) T u = some (none, u) := by
  have hs := hE.sees hw u
  have hE := hE.ok
  obtain ⟨t, s1, a1, a2, a3, a4, a5, _⟩ := next_sees hE (ty := c.tok.1) (w := c.tok.2) hs.sees
  obtain ⟨t2, s2, b1, b2, b3, b4, b5, _⟩ := next_sees hE a4.sees
  have h1 : t.type ≠ .eof ∧ t.type ≠ COLON ∧ t.type ≠ COMMA ∧ t.type ≠ RPAR ∧ t.type ≠ IF ∧ t.type ≠ LOOP ∧
      t.type ≠ .id := by
    rw [a2]; cases c <;> simp [Const.tok]
  have h2 := a4.eof
  have hu : s2.usr = u := by rw [b5, a5]
  rw [run, loop, parse, a1]
  simp [h1, valInit_const E.real hf a2 a3, h2]
  rw [loop, parse, b1]
  simp [b2, hu]

/-! ## Examples -/

/-- `if c then b fi ` with a false `c` (0 arguments): NULL. -/
example : run exEnv 40 [105#8, 102#8, 32#8, 97#8, 32#8, 116#8, 104#8, 101#8, 110#8, 32#8, 98#8, 32#8, 102#8, 105#8, 32#8]
    [[97#8], [97#8]] = some (none, [[97#8], [97#8], [97#8]]) := by decide +kernel
/-- `'x' ` gives a string of the pool. -/
example : run exEnv 40 [39#8, 120#8, 39#8, 32#8] [] = some (some (.str true [120#8]), []) := by decide +kernel
/-- `9999999999999999999 ` and `0xfffffffffffffffff `. -/
example : run exEnv 40 (List.replicate 19 57#8 ++ [32#8]) [] = some (some (.int (2 ^ 63 - 1)), []) := by decide +kernel
example : run exEnv 40 ([48#8, 120#8] ++ List.replicate 17 102#8 ++ [32#8]) [] = some (some (.int (-1)), []) := by
  decide +kernel
/-- `loop a do b end` without anything behind it. -/
example : run exEnv 40 loopText [] = some (none, [[97#8], [98#8]]) := by decide +kernel
/-- `f(,,a b) `. -/
example : run exEnv 40 [102#8, 40#8, 44#8, 44#8, 97#8, 32#8, 98#8, 41#8, 32#8] [] =
    some (some (.int 2), [[97#8], [98#8], [102#8]]) := by decide +kernel
/-- `b, ` and `1, `. -/
example : run exEnv 40 [98#8, 44#8, 32#8] [] = some (some (.int 0), [[98#8]]) ∧
    run exEnv 40 [49#8, 44#8, 32#8] [] = some (none, []) := by decide +kernel

end Verif.Expr
