import Verif.LangExpProps
/-!
# How statements of scripts are read, and how their brackets nest
-/
namespace Verif.LangExp
open Verif.Pg Verif.LangGram

/-! ## Specification

Statements, what they may be made of, and their text. -/

/-- The part of the grammar a tree belongs to: 101 statements, 107 a block, 102 the members of a set,
103 a function, 105 the cases of a `switch`. -/
def kind : Sm → Nat
  | .nil | .block _ _ | .func _ _ | .set _ _ _ | .label _ _ | .loop _ _ _ | .for3 _ _ _ _ _ | .switch _ _ _ => 101
  | .exp _ | .braces _ | .cont | .brk | .ret _ | .goto _ | .cond _ _ _ => 107
  | .setEnd | .setVar _ _ | .setFunc _ _ => 102
  | .fdef _ _ _ _ => 103
  | .caseEnd | .case _ _ _ => 105

/-- What may stand behind `case`: a name, a constant, an array. -/
def isFactor : Ex → Bool
  | .atom _ _ | .arr _ => true
  | _ => false

/-- A list of expressions that can be written as it is. -/
abbrev OkL (e : Ex) : Prop := Ok e ∧ IsList e

/-- A tree whose parts are of the right kinds. -/
def OkS : Sm → Prop
  | .nil | .cont | .brk | .goto _ | .setEnd | .caseEnd => True
  | .block b n => (OkS b ∧ kind b = 107) ∧ OkS n ∧ kind n = 101
  | .func f n => (OkS f ∧ kind f = 103) ∧ OkS n ∧ kind n = 101
  | .set _ b n => (OkS b ∧ kind b = 102) ∧ OkS n ∧ kind n = 101
  | .label _ n => OkS n ∧ kind n = 101
  | .loop c b n => OkL c ∧ (OkS b ∧ kind b = 107) ∧ OkS n ∧ kind n = 101
  | .for3 i c s b n => OkL i ∧ OkL c ∧ OkL s ∧ (OkS b ∧ kind b = 107) ∧ OkS n ∧ kind n = 101
  | .switch c k n => OkL c ∧ (OkS k ∧ kind k = 105) ∧ OkS n ∧ kind n = 101
  | .exp e => OkL e
  | .braces s => OkS s ∧ kind s = 101
  | .ret e => OkL e
  | .cond c t f => OkL c ∧ (OkS t ∧ kind t = 107) ∧ OkS f ∧ (f = .nil ∨ kind f = 107)
  | .setVar _ n => OkS n ∧ kind n = 102
  | .setFunc f n => (OkS f ∧ kind f = 103) ∧ OkS n ∧ kind n = 102
  | .fdef _ a u b => OkL a ∧ OkL u ∧ OkS b ∧ kind b = 101
  | .case k s n => (∀ e, k = some e → Ok e ∧ isFactor e = true) ∧ (OkS s ∧ kind s = 101) ∧ OkS n ∧ kind n = 105

/-- What is written in the script. -/
def text : Sm → List (Tok V)
  | .nil => []
  | .block b n => text b ++ text n
  | .func f n => text f ++ text n
  | .set x b n => [name x] ++ ([sign 2] ++ (text b ++ ([sign 3] ++ text n)))
  | .label x n => [name x] ++ ([sign 4] ++ text n)
  | .loop c b n => [sign 5] ++ ([sign 6] ++ (toks c ++ ([sign 7] ++ (text b ++ text n))))
  | .for3 i c s b n =>
    [sign 8] ++ ([sign 6] ++ (toks i ++ ([sign 9] ++ (toks c ++ ([sign 9] ++ (toks s ++ ([sign 7] ++ (text b ++ text n))))))))
  | .switch c k n => [sign 10] ++ ([sign 6] ++ (toks c ++ ([sign 7] ++ ([sign 2] ++ (text k ++ ([sign 3] ++ text n))))))
  | .exp e => toks e ++ [sign 9]
  | .braces s => [sign 2] ++ (text s ++ [sign 3])
  | .cont => [sign 15] ++ [sign 9]
  | .brk => [sign 16] ++ [sign 9]
  | .ret e => [sign 17] ++ (toks e ++ [sign 9])
  | .goto x => [sign 18] ++ ([name x] ++ [sign 9])
  | .cond c t f => [sign 19] ++ ([sign 6] ++ (toks c ++ ([sign 7] ++ (text t ++ (if f = .nil then [sign 21] else [sign 20] ++ text f)))))
  | .setEnd => []
  | .setVar x n => [name x] ++ ([sign 9] ++ text n)
  | .setFunc f n => text f ++ text n
  | .fdef x a u b =>
    [sign 11] ++ ([name x] ++ ([sign 6] ++ (toks a ++ ([sign 7] ++
      ((if u = .nil then [] else [sign 12] ++ ([sign 6] ++ (toks u ++ [sign 7]))) ++ ([sign 2] ++ (text b ++ [sign 3])))))))
  | .caseEnd => []
  | .case k s n => (match k with | none => [sign 13] | some e => [sign 14] ++ toks e) ++ ([sign 4] ++ (text s ++ text n))

/-- What the parser has for a tree: nothing for the three that are empty. -/
def smVal (s : Sm) : Option V := if s = .nil ∨ s = .setEnd ∨ s = .caseEnd then none else some (.sm s)

/-! ## Reading -/

theorem smVal_block {s : Sm} (h : kind s = 107) : smVal s = some (.sm s) := by
  cases s <;> simp [kind] at h <;> simp [smVal]

theorem smVal_func {s : Sm} (h : kind s = 103) : smVal s = some (.sm s) := by
  cases s <;> simp [kind] at h; simp [smVal]

theorem stmOf_val {s : Sm} (h : kind s = 101) : stmOf (smVal s) = s := by
  cases s <;> simp [kind] at h <;> simp [smVal, stmOf]

theorem membersOf_val {s : Sm} (h : kind s = 102) : membersOf (smVal s) = s := by
  cases s <;> simp [kind] at h <;> simp [smVal, membersOf]

theorem casesOf_val {s : Sm} (h : kind s = 105) : casesOf (smVal s) = s := by
  cases s <;> simp [kind] at h <;> simp [smVal, casesOf]

theorem factor_rd {e : Ex} (h : Ok e) (hf : isFactor e = true) : Rd 133 (toks e) (some (.ex e)) := by
  cases e <;> simp only [isFactor, Bool.false_eq_true] at hf
  · rename_i ty n
    have h' : ty = 1 ∨ (59 ≤ ty ∧ ty ≤ 66) := h
    have : ∃ i : Nat, grammar[i]? = some (⟨133, [ty]⟩ : Rule) ∧ acts[i]? = some (Act.factor ty) := by
      rcases h' with h' | ⟨h1, h2⟩
      · subst h'; exact ⟨99, rfl, rfl⟩
      · have : ty = 59 ∨ ty = 60 ∨ ty = 61 ∨ ty = 62 ∨ ty = 63 ∨ ty = 64 ∨ ty = 65 ∨ ty = 66 := by omega
        rcases this with e | e | e | e | e | e | e | e <;> subst e
        · exact ⟨96, rfl, rfl⟩
        · exact ⟨97, rfl, rfl⟩
        · exact ⟨98, rfl, rfl⟩
        · exact ⟨100, rfl, rfl⟩
        · exact ⟨101, rfl, rfl⟩
        · exact ⟨102, rfl, rfl⟩
        · exact ⟨103, rfl, rfl⟩
        · exact ⟨104, rfl, rfl⟩
    obtain ⟨i, h1, h2⟩ := this
    exact rd_rule i h1 h2 (seq1 (rd_tok ⟨ty, .tok n⟩)) rfl
  · rename_i l
    have hl := (good l h.1).2.2 h.2
    show Rd 133 ([sign 55] ++ (toks l ++ [sign 56])) (some (.ex (.arr l)))
    refine rd_rule 105 rfl rfl (seq3 (rd_sign 55) hl (rd_sign 56)) ?_
    simp only [Act.run, elemsOf_val]

/-- A tree is what the parser makes of its text. -/
theorem reads_text : ∀ (s : Sm), OkS s → Rd (kind s) (text s) (smVal s)
  | .nil, _ => rd_rule 8 rfl rfl seq0 rfl
  | .block b n, ⟨⟨hb, kb⟩, hn, kn⟩ => by
    have b1 := reads_text b hb
    have n1 := reads_text n hn
    rw [kb, smVal_block kb] at b1
    rw [kn] at n1
    refine rd_rule 1 rfl rfl (seq2 b1 n1) ?_
    simp only [Act.run, stmOf_val kn]; rfl
  | .func b n, ⟨⟨hb, kb⟩, hn, kn⟩ => by
    have b1 := reads_text b hb
    have n1 := reads_text n hn
    rw [kb, smVal_func kb] at b1
    rw [kn] at n1
    refine rd_rule 2 rfl rfl (seq2 b1 n1) ?_
    simp only [Act.run, stmOf_val kn]; rfl
  | .set x b n, ⟨⟨hb, kb⟩, hn, kn⟩ => by
    have b1 := reads_text b hb
    have n1 := reads_text n hn
    rw [kb] at b1
    rw [kn] at n1
    refine rd_rule 3 rfl rfl (.cons (rd_tok (name x)) (seq4 (rd_sign 2) b1 (rd_sign 3) n1)) ?_
    simp only [Act.run, stmOf_val kn, membersOf_val kb, name]; rfl
  | .label x n, ⟨hn, kn⟩ => by
    have n1 := reads_text n hn
    rw [kn] at n1
    refine rd_rule 4 rfl rfl (seq3 (rd_tok (name x)) (rd_sign 4) n1) ?_
    simp only [Act.run, stmOf_val kn, name]; rfl
  | .loop c b n, ⟨hc, ⟨hb, kb⟩, hn, kn⟩ => by
    have c1 := reads hc.1 hc.2
    have b1 := reads_text b hb
    have n1 := reads_text n hn
    rw [kb, smVal_block kb] at b1
    rw [kn] at n1
    refine rd_rule 5 rfl rfl (.cons (rd_sign 5) (.cons (rd_sign 6) (seq4 c1 (rd_sign 7) b1 n1))) ?_
    simp only [Act.run, stmOf_val kn, listOf_val]; rfl
  | .for3 i c s b n, ⟨hi, hc, hs, ⟨hb, kb⟩, hn, kn⟩ => by
    have i1 := reads hi.1 hi.2
    have c1 := reads hc.1 hc.2
    have s1 := reads hs.1 hs.2
    have b1 := reads_text b hb
    have n1 := reads_text n hn
    rw [kb, smVal_block kb] at b1
    rw [kn] at n1
    refine rd_rule 6 rfl rfl (.cons (rd_sign 8) (.cons (rd_sign 6) (.cons i1 (.cons (rd_sign 9) (.cons c1 (.cons (rd_sign 9) (seq4 s1 (rd_sign 7) b1 n1))))))) ?_
    simp only [Act.run, stmOf_val kn, listOf_val]; rfl
  | .switch c k n, ⟨hc, ⟨hk, kk⟩, hn, kn⟩ => by
    have c1 := reads hc.1 hc.2
    have k1 := reads_text k hk
    have n1 := reads_text n hn
    rw [kk] at k1
    rw [kn] at n1
    refine rd_rule 7 rfl rfl (.cons (rd_sign 10) (.cons (rd_sign 6) (.cons c1 (.cons (rd_sign 7) (seq4 (rd_sign 2) k1 (rd_sign 3) n1))))) ?_
    simp only [Act.run, stmOf_val kn, casesOf_val kk, listOf_val]; rfl
  | .exp e, he => by
    refine rd_rule 19 rfl rfl (seq2 (reads he.1 he.2) (rd_sign 9)) ?_
    simp only [Act.run, listOf_val]; rfl
  | .braces s, ⟨hs, ks⟩ => by
    have s1 := reads_text s hs
    rw [ks] at s1
    refine rd_rule 20 rfl rfl (seq3 (rd_sign 2) s1 (rd_sign 3)) ?_
    simp only [Act.run, stmOf_val ks]; rfl
  | .cont, _ => rd_rule 21 rfl rfl (seq2 (rd_sign 15) (rd_sign 9)) rfl
  | .brk, _ => rd_rule 22 rfl rfl (seq2 (rd_sign 16) (rd_sign 9)) rfl
  | .ret e, he => by
    refine rd_rule 23 rfl rfl (seq3 (rd_sign 17) (reads he.1 he.2) (rd_sign 9)) ?_
    simp only [Act.run, listOf_val]; rfl
  | .goto x, _ => rd_rule 24 rfl rfl (seq3 (rd_sign 18) (rd_tok (name x)) (rd_sign 9)) rfl
  | .cond c t f, ⟨hc, ⟨ht, kt⟩, hf, kf⟩ => by
    have c1 := reads hc.1 hc.2
    have t1 := reads_text t ht
    have f1 := reads_text f hf
    rw [kt, smVal_block kt] at t1
    have e1 : ∃ v, Rd 108 (if f = .nil then [sign 21] else [sign 20] ++ text f) v ∧ stmOf v = f := by
      by_cases h : f = .nil
      · rw [if_pos h, h]; exact ⟨none, rd_rule 27 rfl rfl (seq1 (rd_sign 21)) rfl, rfl⟩
      · rw [if_neg h]
        have kf := kf.resolve_left h
        rw [kf, smVal_block kf] at f1
        exact ⟨_, rd_rule 26 rfl rfl (seq2 (rd_sign 20) f1) rfl, rfl⟩
    obtain ⟨v, e1, hv⟩ := e1
    refine rd_rule 25 rfl rfl (.cons (rd_sign 19) (.cons (rd_sign 6) (seq4 c1 (rd_sign 7) t1 e1))) ?_
    simp only [Act.run, listOf_val, hv]; rfl
  | .setEnd, _ => rd_rule 11 rfl rfl seq0 rfl
  | .setVar x n, ⟨hn, kn⟩ => by
    have n1 := reads_text n hn
    rw [kn] at n1
    refine rd_rule 9 rfl rfl (seq3 (rd_tok (name x)) (rd_sign 9) n1) ?_
    simp only [Act.run, membersOf_val kn, name]; rfl
  | .setFunc f n, ⟨⟨hb, kb⟩, hn, kn⟩ => by
    have b1 := reads_text f hb
    have n1 := reads_text n hn
    rw [kb, smVal_func kb] at b1
    rw [kn] at n1
    refine rd_rule 10 rfl rfl (seq2 b1 n1) ?_
    simp only [Act.run, membersOf_val kn]; rfl
  | .fdef x a u b, ⟨ha, hu, hb, kb⟩ => by
    have a1 := reads ha.1 ha.2
    have b1 := reads_text b hb
    rw [kb] at b1
    have u1 : Rd 104 (if u = .nil then [] else [sign 12] ++ ([sign 6] ++ (toks u ++ [sign 7]))) (listVal u) := by
      by_cases h : u = .nil
      · rw [if_pos h, h]; exact rd_rule 14 rfl rfl seq0 rfl
      · rw [if_neg h]; exact rd_rule 13 rfl rfl (seq4 (rd_sign 12) (rd_sign 6) (reads hu.1 hu.2) (rd_sign 7)) rfl
    refine rd_rule 12 rfl rfl (.cons (rd_sign 11) (.cons (rd_tok (name x)) (.cons (rd_sign 6) (.cons a1 (.cons (rd_sign 7) (seq4 u1 (rd_sign 2) b1 (rd_sign 3))))))) ?_
    simp only [Act.run, listOf_val, stmOf_val kb, name]; rfl
  | .caseEnd, _ => rd_rule 16 rfl rfl seq0 rfl
  | .case k s n, ⟨hk, ⟨hs, ks⟩, hn, kn⟩ => by
    have s1 := reads_text s hs
    have n1 := reads_text n hn
    rw [ks] at s1
    rw [kn] at n1
    have k1 : ∃ v, Rd 106 (match k with | none => [sign 13] | some e => [sign 14] ++ toks e) v ∧ factorOf v = k := by
      cases k with
      | none => exact ⟨none, rd_rule 17 rfl rfl (seq1 (rd_sign 13)) rfl, rfl⟩
      | some e =>
        exact ⟨_, rd_rule 18 rfl rfl (seq2 (rd_sign 14) (factor_rd (hk e rfl).1 (hk e rfl).2)) rfl, rfl⟩
    obtain ⟨v, k1, hv⟩ := k1
    refine rd_rule 15 rfl rfl (seq4 k1 (rd_sign 4) s1 n1) ?_
    simp only [Act.run, stmOf_val ks, casesOf_val kn, hv]; rfl

theorem text_append {a b : List (Tok V)} (ha : Text a) (hb : Text b) : Text (a ++ b) := by
  intro t ht
  rcases List.mem_append.1 ht with h | h
  · exact ha t h
  · exact hb t h

theorem text_sign {n : Nat} (h : n < 100) : Text [sign n] := by
  intro t ht; rw [List.mem_singleton.1 ht]; exact h

theorem text_name (n : Nat) : Text [name n] := by
  intro t ht; rw [List.mem_singleton.1 ht]; simp only [name]; omega

theorem text_text : ∀ (s : Sm), OkS s → Text (text s)
  | .nil, _ => by intro t ht; simp [text] at ht
  | .block b n, ⟨⟨hb, _⟩, hn, _⟩ => text_append (text_text b hb) (text_text n hn)
  | .func b n, ⟨⟨hb, _⟩, hn, _⟩ => text_append (text_text b hb) (text_text n hn)
  | .set x b n, ⟨⟨hb, _⟩, hn, _⟩ =>
    text_append (text_name x) (text_append (text_sign (by omega)) (text_append (text_text b hb) (text_append (text_sign (by omega)) (text_text n hn))))
  | .label x n, ⟨hn, _⟩ => text_append (text_name x) (text_append (text_sign (by omega)) (text_text n hn))
  | .loop c b n, ⟨hc, ⟨hb, _⟩, hn, _⟩ =>
    text_append (text_sign (by omega)) (text_append (text_sign (by omega)) (text_append (toks_text c hc.1)
      (text_append (text_sign (by omega)) (text_append (text_text b hb) (text_text n hn)))))
  | .for3 i c s b n, ⟨hi, hc, hs, ⟨hb, _⟩, hn, _⟩ =>
    text_append (text_sign (by omega)) (text_append (text_sign (by omega)) (text_append (toks_text i hi.1)
      (text_append (text_sign (by omega)) (text_append (toks_text c hc.1) (text_append (text_sign (by omega)) (text_append (toks_text s hs.1)
      (text_append (text_sign (by omega)) (text_append (text_text b hb) (text_text n hn)))))))))
  | .switch c k n, ⟨hc, ⟨hk, _⟩, hn, _⟩ =>
    text_append (text_sign (by omega)) (text_append (text_sign (by omega)) (text_append (toks_text c hc.1)
      (text_append (text_sign (by omega)) (text_append (text_sign (by omega)) (text_append (text_text k hk)
      (text_append (text_sign (by omega)) (text_text n hn)))))))
  | .exp e, he => text_append (toks_text e he.1) (text_sign (by omega))
  | .braces s, ⟨hs, _⟩ => text_append (text_sign (by omega)) (text_append (text_text s hs) (text_sign (by omega)))
  | .cont, _ => text_append (text_sign (by omega)) (text_sign (by omega))
  | .brk, _ => text_append (text_sign (by omega)) (text_sign (by omega))
  | .ret e, he => text_append (text_sign (by omega)) (text_append (toks_text e he.1) (text_sign (by omega)))
  | .goto x, _ => text_append (text_sign (by omega)) (text_append (text_name x) (text_sign (by omega)))
  | .cond c t f, ⟨hc, ⟨ht, _⟩, hf, _⟩ => by
    refine text_append (text_sign (by omega)) (text_append (text_sign (by omega)) (text_append (toks_text c hc.1)
      (text_append (text_sign (by omega)) (text_append (text_text t ht) ?_))))
    split
    · exact text_sign (by omega)
    · exact text_append (text_sign (by omega)) (text_text f hf)
  | .setEnd, _ => by intro t ht; simp [text] at ht
  | .setVar x n, ⟨hn, _⟩ => text_append (text_name x) (text_append (text_sign (by omega)) (text_text n hn))
  | .setFunc b n, ⟨⟨hb, _⟩, hn, _⟩ => text_append (text_text b hb) (text_text n hn)
  | .fdef x a u b, ⟨ha, hu, hb, _⟩ => by
    refine text_append (text_sign (by omega)) (text_append (text_name x) (text_append (text_sign (by omega)) (text_append (toks_text a ha.1)
      (text_append (text_sign (by omega)) (text_append ?_ (text_append (text_sign (by omega)) (text_append (text_text b hb) (text_sign (by omega)))))))))
    split
    · intro t ht; simp at ht
    · exact text_append (text_sign (by omega)) (text_append (text_sign (by omega)) (text_append (toks_text u hu.1) (text_sign (by omega))))
  | .caseEnd, _ => by intro t ht; simp [text] at ht
  | .case k s n, ⟨hk, ⟨hs, _⟩, hn, _⟩ => by
    refine text_append ?_ (text_append (text_sign (by omega)) (text_append (text_text s hs) (text_text n hn)))
    cases k with
    | none => exact text_sign (by omega)
    | some e => exact text_append (text_sign (by omega)) (toks_text e (hk e rfl).1)

theorem text_script {s : Sm} (h : OkS s) : Text (text s ++ [sign 0]) := text_append (text_text s h) (text_sign (by omega))

/-- The readings of the text of a script: its tree, nothing else. -/
theorem script_iff {s : Sm} (h : OkS s) (hk : kind s = 101) (w : Option V) : Der grammar act true [stm] (text s) () [w] () ↔ w = smVal s := by
  have d := reads_text s h
  rw [hk] at d
  constructor
  · intro e
    exact (script_unique (text_script h) (e := sign 0) (e' := sign 0) (rest := []) (rest' := []) rfl rfl rfl rfl e d).2.1
  · intro e; rw [e]; exact d

theorem act_some (i : Nat) (vs : List (Option V)) (u : Unit) : (act i vs u).2 ≠ none := by simp [act]

/-- Whatever parser is made from the grammar: when it returns a value for the text of a script, the
value is the tree of the script. -/
theorem script_parsed {addr : Option Nat → Nat} {gfuel fuel : Nat} {tbl : Table} (ha : ∀ a b, addr a = addr b → a = b) (hg : generate grammar eof addr gfuel = some (some tbl))
    {s : Sm} (h : OkS s) (hk : kind s = 101) {d : Option V} (hp : parse tbl act fuel (text s ++ [sign 0]) () = .value d ()) : d = smVal s := by
  have r := reads_text s h
  rw [hk] at r
  exact (parser_reads ha hg act_some hp (text_script h) (e := sign 0) (rest := []) rfl rfl r).1

/-- Two different scripts are never written alike. -/
theorem script_text {s t : Sm} (hs : OkS s) (ht : OkS t) (ks : kind s = 101) (kt : kind t = 101) (h : text s = text t) : s = t := by
  have d := reads_text t ht
  rw [kt, ← h] at d
  have := (script_iff hs ks _).1 d
  have g := congrArg stmOf this
  rw [stmOf_val ks, stmOf_val kt] at g
  exact g.symm

/-- `if (c) if (d) t else f fi`: the `else` belongs to the second `if`, the `fi` to the first. -/
theorem nearest {c d : Ex} {t f : Sm} (hc : OkL c) (hd : OkL d) (ht : OkS t) (kt : kind t = 107) (hf : OkS f) (kf : kind f = 107) (w : Option V) :
    Der grammar act true [stm]
      ([sign 19, sign 6] ++ toks c ++ [sign 7, sign 19, sign 6] ++ toks d ++ [sign 7] ++ text t ++ [sign 20] ++ text f ++ [sign 21]) () [w] () ↔
    w = some (.sm (.block (.cond c (.cond d t f) .nil) .nil)) := by
  have := script_iff (s := .block (.cond c (.cond d t f) .nil) .nil) ⟨⟨⟨hc, ⟨⟨hd, ⟨ht, kt⟩, hf, Or.inr kf⟩, rfl⟩, trivial, Or.inl rfl⟩, rfl⟩, trivial, rfl⟩ rfl w
  have hn : f ≠ .nil := by intro h; rw [h] at kf; cases kf
  simpa [text, hn, smVal] using this

/-! ## Brackets

Specification: a stack on which `(`, `[`, `{` and `if` are put; `)`, `]`, `}` take their own kind from
it, `else` and `fi` an `if`. -/

/-- One token. -/
def push (ty : Nat) (st : List Nat) : Option (List Nat) :=
  if ty = 6 ∨ ty = 55 ∨ ty = 2 ∨ ty = 19 then some (ty :: st)
  else
    let want := if ty = 7 then some 6 else if ty = 56 then some 55 else if ty = 3 then some 2 else if ty = 20 ∨ ty = 21 ∨ ty = 108 then some 19 else none
    match want with
    | none => some st
    | some b => match st with
      | a :: r => if a = b then some r else none
      | [] => none

/-- All tokens: nothing is ever taken that is not on top. -/
def nest : List Nat → List Nat → Option (List Nat)
  | [], st => some st
  | ty :: r, st => (push ty st).bind (nest r)

theorem nest_append (a b st : List Nat) : nest (a ++ b) st = (nest a st).bind (nest b) := by
  induction a generalizing st with
  | nil => rfl
  | cons x r ih =>
    simp only [List.cons_append, nest]
    cases push x st with
    | none => rfl
    | some s => exact ih s

theorem push_more {ty : Nat} {st r : List Nat} (m : List Nat) (h : push ty st = some r) : push ty (st ++ m) = some (r ++ m) := by
  simp only [push] at h ⊢
  split at h
  · rename_i c; rw [if_pos c]; cases h; rfl
  · rename_i c
    rw [if_neg c]
    generalize (if ty = 7 then some 6 else if ty = 56 then some 55 else if ty = 3 then some 2 else if ty = 20 ∨ ty = 21 ∨ ty = 108 then some 19 else none : Option Nat) = want at h ⊢
    cases want with
    | none => cases h; rfl
    | some b =>
      cases st with
      | nil => cases h
      | cons a q =>
        dsimp only at h ⊢
        split at h
        · rename_i e; cases h; simp [e]
        · cases h

theorem nest_more {ts st r : List Nat} (m : List Nat) (h : nest ts st = some r) : nest ts (st ++ m) = some (r ++ m) := by
  induction ts generalizing st with
  | nil => cases h; rfl
  | cons x q ih =>
    simp only [nest] at h ⊢
    cases hp : push x st with
    | none => rw [hp] at h; cases h
    | some s =>
      rw [hp] at h
      rw [push_more m hp]
      exact ih h

/-- What a part of the grammar does to the stack does the right side of each of its rules. -/
theorem rules_nest (r : Rule) (h : r ∈ grammar) (st : List Nat) : nest r.rights st = nest [r.left] st := by
  by_cases h8 : r.left = 108
  · have : ∀ q ∈ grammar, q.left = 108 → q.rights = [20, 107] ∨ q.rights = [21] := by decide +kernel
    rw [h8]
    rcases this r h h8 with e | e <;> rw [e]
    · simp only [nest]
      have e1 : push 20 st = push 108 st := rfl
      rw [e1]
      cases push 108 st <;> rfl
    · rfl
  · have hc : ∀ q ∈ grammar, q.left ≠ 108 → nest q.rights [] = some [] ∧ nest [q.left] [] = some [] := by decide +kernel
    obtain ⟨a, b⟩ := hc r h h8
    have a' := nest_more st a
    have b' := nest_more st b
    rw [List.nil_append] at a' b'
    rw [a', b']

section
variable {D U : Type} {f : Nat → List (Option D) → U → U × Option (Option D)}

theorem der_nest {b : Bool} {xs : List Nat} {ts : List (Tok D)} {u : U} {vs : List (Option D)} {u' : U} (d : Der grammar f b xs ts u vs u') :
    ∀ st, nest (ts.map Tok.type) st = nest xs st := by
  induction d with
  | tok t u => intro st; rfl
  | rule hi _ _ ih =>
    intro st
    rw [ih st]
    exact rules_nest _ (List.mem_of_getElem? hi) st
  | nil u => intro st; rfl
  | @cons x xs ts us u v vs u' u'' d1 d2 ih1 ih2 =>
    intro st
    rw [List.map_append, nest_append, ih1 st]
    show _ = nest ([x] ++ xs) st
    rw [nest_append]
    cases nest [x] st with
    | none => rfl
    | some s => exact ih2 s

/-- The brackets of every script that has a reading nest, the `if` with its `else` or `fi` among them. -/
theorem nested {ts : List (Tok D)} {u u' : U} {v : Option D} (d : Der grammar f true [stm] ts u [v] u') : nest (ts.map Tok.type) [] = some [] :=
  der_nest d []

/-- Whatever parser is made from the grammar, and whatever its functions do: in each text for which it
returns a value the brackets nest, up to the end of the script. -/
theorem nested_parsed {addr : Option Nat → Nat} {gfuel fuel : Nat} {tbl : Table} (ha : ∀ a b, addr a = addr b → a = b) (hg : generate grammar eof addr gfuel = some (some tbl))
    (hf : ∀ i vs u, (f i vs u).2 ≠ none) {all : List (Tok D)} {u u1 : U} {d : Option D} (hp : parse tbl f fuel all u = .value d u1) :
    ∃ ts e rest, all = ts ++ e :: rest ∧ e.type = eof ∧ nest (ts.map Tok.type) [] = some [] := by
  obtain ⟨ts, e, rest, h1, he, d1⟩ := parse_value grammar_ok ha hg hf hp
  exact ⟨ts, e, rest, h1, he, nested d1⟩

theorem push_count {ty : Nat} {st r : List Nat} (hty : ty < 100) (h : push ty st = some r) :
    [ty].count 19 + st.count 19 = [ty].count 20 + [ty].count 21 + r.count 19 := by
  simp only [push] at h
  split at h
  · rename_i c
    cases h
    rcases c with c | c | c | c <;> subst c <;> simp +arith
  · rename_i c
    simp only [not_or] at c
    by_cases h7 : ty = 7
    · subst h7
      cases st with
      | nil => simp at h
      | cons a q => simp at h; obtain ⟨e, e'⟩ := h; subst e e'; simp
    · by_cases h56 : ty = 56
      · subst h56
        cases st with
        | nil => simp at h
        | cons a q => simp at h; obtain ⟨e, e'⟩ := h; subst e e'; simp
      · by_cases h3 : ty = 3
        · subst h3
          cases st with
          | nil => simp at h
          | cons a q => simp at h; obtain ⟨e, e'⟩ := h; subst e e'; simp
        · rw [if_neg h7, if_neg h56, if_neg h3] at h
          by_cases he : ty = 20 ∨ ty = 21
          · rw [if_pos (by omega)] at h
            cases st with
            | nil => simp at h
            | cons a q =>
              simp at h
              obtain ⟨e, e'⟩ := h
              subst e e'
              rcases he with he | he <;> subst he <;> simp +arith
          · rw [if_neg (by omega)] at h
            cases h
            simp only [List.count_cons, List.count_nil]
            have : ¬ ty = 20 ∧ ¬ ty = 21 ∧ ¬ ty = 19 := by omega
            simp [this]

theorem nest_count {ts st r : List Nat} (ht : ∀ t ∈ ts, t < 100) (h : nest ts st = some r) : ts.count 19 + st.count 19 = ts.count 20 + ts.count 21 + r.count 19 := by
  induction ts generalizing st with
  | nil => cases h; simp
  | cons x q ih =>
    simp only [nest] at h
    cases hp : push x st with
    | none => rw [hp] at h; cases h
    | some s =>
      rw [hp] at h
      have a := push_count (ht x (by simp)) hp
      have b := ih (fun t m => ht t (by simp [m])) h
      simp only [List.count_cons, List.count_nil] at a ⊢
      omega

/-- As many `if` as `else` and `fi` together: an `if` without either makes the script unreadable. -/
theorem ifs_closed {ts : List (Tok D)} {u u' : U} {v : Option D} (h : Text ts) (d : Der grammar f true [stm] ts u [v] u') :
    (ts.map Tok.type).count 19 = (ts.map Tok.type).count 20 + (ts.map Tok.type).count 21 := by
  have := nest_count (st := []) (r := []) (ts := ts.map Tok.type) (by
    intro t ht
    obtain ⟨x, hx, e⟩ := List.mem_map.1 ht
    rw [← e]; exact h x hx) (nested d)
  simpa using this

end

/-! ## Examples -/

/-- `while (a) { if (b) break; fi c: } @f(x)$(y){ return x; } s { m; }` -/
def demo : Sm :=
  .loop (.one (.atom 1 0)) (.braces (.block (.cond (.one (.atom 1 1)) .brk .nil) (.label 2 .nil)))
    (.func (.fdef 5 (.one (.atom 1 6)) (.one (.atom 1 7)) (.block (.ret (.one (.atom 1 6))) .nil)) (.set 8 (.setVar 9 .setEnd) .nil))

example : (text demo).map Tok.type = [5, 6, 1, 7, 2, 19, 6, 1, 7, 16, 9, 21, 1, 4, 3, 11, 1, 6, 1, 7, 12, 6, 1, 7, 2, 17, 1, 9, 3, 1, 2, 1, 9, 3] := by decide

theorem demo_ok : OkS demo := by simp [demo, OkS, OkL, IsList, kind, Ok, lv, isEl]

example (w : Option V) : Der grammar act true [stm] (text demo) () [w] () ↔ w = some (.sm demo) := script_iff demo_ok rfl w

/-- `switch (a) { default: b; case [1: 2]: continue; }` -/
def demo2 : Sm :=
  .switch (.one (.atom 1 0)) (.case none (.block (.exp (.one (.atom 1 1))) .nil) (.case (some (.arr (.elk (.atom 62 1) (.atom 62 2) .elEnd))) (.block .cont .nil) .caseEnd)) .nil

theorem demo2_ok : OkS demo2 := by simp [demo2, OkS, OkL, IsList, kind, Ok, lv, isEl, isFactor]

example (w : Option V) : Der grammar act true [stm] (text demo2) () [w] () ↔ w = some (.sm demo2) := script_iff demo2_ok rfl w

example : nest ((text demo2).map Tok.type) [] = some [] := by decide
example : nest [6, 55, 7, 56] [] = none := by decide
example : nest [2, 3, 3] [] = none := by decide
example : nest [2, 19] [] = some [19, 2] := by decide

/-- `if (a) b;` alone has no reading. -/
example (w : Option V) : ¬ Der grammar act true [stm] [sign 19, sign 6, name 0, sign 7, name 1, sign 9] () [w] () := fun d => by
  have := nested d
  revert this
  decide

end Verif.LangExp
