import Verif.LexPpProps
/-
What goes wrong in the preprocessor of the lexer.
-/
namespace Verif.Lex

/-! ## Calls that never return -/

theorem while_mono {p : Byte → Bool} : ∀ {n m c l r}, while_ p n c l = some r → n ≤ m → while_ p m c l = some r := by
  intro n
  induction n with
  | zero => intro m c l r h; cases h
  | succ n ih =>
    intro m c l r h hm
    obtain ⟨m, rfl⟩ : ∃ k, m = k + 1 := ⟨m - 1, by omega⟩
    rw [while_] at h ⊢
    split
    · rename_i hp
      rw [if_pos hp] at h
      exact ih h (by omega)
    · rename_i hp
      rw [if_neg hp] at h
      exact h

theorem lead_mono : ∀ {n m c l r}, lead n c l = some r → n ≤ m → lead m c l = some r := by
  intro n
  induction n with
  | zero => intro m c l r h; cases h
  | succ n ih =>
    intro m c l r h hm
    obtain ⟨m, rfl⟩ : ∃ k, m = k + 1 := ⟨m - 1, by omega⟩
    rw [lead] at h ⊢
    split
    · rename_i hp
      rw [if_pos hp] at h
      exact ih h (by omega)
    · rename_i hp
      rw [if_neg hp] at h
      split
      · rename_i hq
        rw [if_pos hq] at h
        exact ih h (by omega)
      · rename_i hq
        rw [if_neg hq] at h
        exact h

/-- `#` and a command, however long the call may take. -/
theorem hash_any {cfg : Cfg} (hh : cfg.hook 35#8 = .nums) {l : Lex} {ws w rest} (n) (hws : ∀ c ∈ ws, isWs c)
    (hw : IsName w) (hst : Stops isWord rest) (ht : text l = ws ++ 35#8 :: (w ++ rest)) (hc : Clean (text l)) :
    token cfg (n + 1) l = none ∨
    ∃ l2, token cfg (n + 1) l = (ppCommand cfg (token cfg n) n w l2).bind (finish (token cfg n)) ∧
      text l2 = rest ∧ Same l l2 := by
  obtain ⟨c, l1, s1, s2, s3, s4, -⟩ := start l (n := n + (text l).length + 1) (by omega)
  cases hl : lead n (getchar l).1 (getchar l).2 with
  | none =>
    left
    rw [token]
    simp only [hl, Option.bind_eq_bind, Option.bind_none]
  | some r =>
    have hr : r = (c, l1) := by
      have := lead_mono hl (m := n + (text l).length + 1) (by omega)
      rw [s1] at this
      cases this
      rfl
    subst hr
    have hlen : (text l).length = ws.length + (w.length + rest.length + 1) := by rw [ht]; simp
    have hcl : Clean (w ++ rest) := fun b hb => hc b (by rw [ht]; simp at hb ⊢; rcases hb with h | h <;> simp [h])
    rw [ht, (ws_skip hws (by intro y hy; cases hy; rfl)).1] at s2
    have e := pending_ne s2 (by simp)
    simp only [List.cons.injEq] at e
    obtain ⟨rfl, e⟩ := e
    rw [token_at hl (by decide) (by decide), dispatch, if_neg (by decide), if_neg (by decide), special,
      if_pos (by decide), hh]
    obtain ⟨g1, g2, g3, -⟩ := getchar_pending (put l1 35#8)
    have ht1 : text (put l1 35#8) = w ++ rest := e.symm
    rw [ht1] at g1
    obtain ⟨x, xs, rfl⟩ : ∃ x xs, w = x :: xs := by
      cases w with
      | nil => exact absurd rfl hw.1
      | cons x xs => exact ⟨x, xs, rfl⟩
    have e' := pending_ne g1 (by simp)
    simp only [List.cons_append, List.cons.injEq] at e'
    have hx : (getchar (put l1 35#8)).1 = x := e'.1.symm
    have hP : Pending (getchar (put l1 35#8)).1 (clean (getchar (put l1 35#8)).2) (x :: xs ++ rest) :=
      pending_of g1 rfl rfl
    obtain ⟨c', l1', l2, a1, a2, a3, a4, a5, a6, -⟩ := read_back (p := isWord) (n := n + (text l).length + 1) (by decide) hP
      (by simp only [List.length_append] at hlen ⊢; omega) hcl
    rw [takeWhile_app hw.2 hst] at a4
    rw [dropWhile_app hw.2 hst] at a5
    have a4' : l2.res = x :: xs := a4
    show (numsHandler cfg (token cfg n) n (put l1 35#8)).bind _ = _ ∨ ∃ l2,
      (numsHandler cfg (token cfg n) n (put l1 35#8)).bind _ = _ ∧ _
    rw [numsHandler]
    dsimp only
    rw [if_neg (by rw [hx]; exact (hcl x (by simp)).2),
      if_neg (by rw [hx]; simp [hw.2 x (by simp)])]
    cases hwh : while_ isWord n (getchar (put l1 35#8)).1 (clean (getchar (put l1 35#8)).2) with
    | none => left; rfl
    | some r =>
      have hr : r = (c', l1') := by
        have := while_mono hwh (m := n + (text l).length + 1) (by omega)
        rw [a1] at this
        cases this
        rfl
      subst hr
      right
      refine ⟨l2, ?_, a5, (s4.trans g3).trans a6⟩
      congr 1
      simp only [Option.bind_eq_bind, Option.bind_some]
      rw [if_neg a2, a3, Option.bind_some, a4']

theorem macroName_none {l : Lex} {n bl k} (hbl : ∀ c ∈ bl, isBlank c) (hk : IsName k)
    (ht : text l = bl ++ k) (hn : (text l).length < n) : macroName n l = none := by
  have hlen : (text l).length = bl.length + k.length := by rw [ht]; simp
  obtain ⟨y, ys, rfl⟩ : ∃ y ys, k = y :: ys := by
    cases k with
    | nil => exact absurd rfl hk.1
    | cons x xs => exact ⟨x, xs, rfl⟩
  have hyf : ∀ c : Byte, isWord c = true → isBlank c = false ∧ c ≠ 10#8 ∧ c ≠ EOF ∧ c ≠ ERR ∧
      (!isBlankNl c && decide (c ≠ ERR)) = true := by decide +kernel
  have hy := hk.2 y (by simp)
  obtain ⟨c, l1, a1, a2, a3, a4⟩ := blanks_pending bl (n := n) (l := l) ht hbl
    (by intro z hz; cases hz; exact (hyf y hy).1) (by omega)
  have e1 : c = y := by
    have := pending_ne a2 (by simp)
    simp only [List.cons.injEq] at this
    exact this.1.symm
  subst e1
  obtain ⟨l2, b1, b2, b3, b4, -⟩ := stepback_pending a2 (fun _ => (hyf c hy).2.2.1)
  obtain ⟨g1, g2, g3, -⟩ := getchar_pending (clean l2)
  have ht2 : text (clean l2) = c :: ys := b2
  rw [ht2] at g1
  have := while_none (p := fun c => !isBlankNl c && decide (c ≠ ERR)) (by decide) n g1
    (fun z hz => (hyf z (hk.2 z hz)).2.2.2.2)
  rw [macroName]
  simp only [a1, Option.bind_eq_bind, Option.bind_some]
  rw [if_neg (hyf c hy).2.2.2.1, if_neg (hyf c hy).2.2.1, if_neg (hyf c hy).2.1, if_neg (by rw [hy]; decide), b1]
  simp only [this, Option.bind_some, Option.bind_none]

/-- `#define k` or `#undef k` at the end of the input: the call never returns, whatever `k` is. -/
theorem define_hangs {cfg : Cfg} (hh : cfg.hook 35#8 = .nums) {l : Lex} {ws bl k cmd n} (hws : ∀ c ∈ ws, isWs c)
    (hcmd : cmd = sDefine ∨ cmd = sUndef) (hbl : IsGap bl) (hk : IsName k)
    (ht : text l = ws ++ 35#8 :: (cmd ++ (bl ++ k))) (hc : Clean (text l)) (hn : (text l).length + 1 < n) :
    token cfg n l = none := by
  obtain ⟨n, rfl⟩ : ∃ m, n = m + 1 := ⟨n - 1, by omega⟩
  have hname : IsName cmd := by rcases hcmd with rfl | rfl <;> exact ⟨by decide, by decide⟩
  obtain ⟨l2, h1, h2, h3⟩ := hash_step (n := n) hh hws hname (gap_stops hbl) ht hc (by omega)
  have hmn : macroName n (clean l2) = none := by
    apply macroName_none (l := clean l2) hbl.2 hk h2
    rw [show text (clean l2) = _ from h2]
    rw [ht] at hn
    simp at hn ⊢
    omega
  rw [h1]
  rcases hcmd with rfl | rfl
  · rw [pp_sDefine, ppDefine]
    simp only [hmn, Option.bind_eq_bind, Option.bind_none]
  · rw [pp_sUndef, ppUndef]
    simp only [hmn, Option.bind_eq_bind, Option.bind_none]

/-- A macro whose text is the macro itself: the call never returns. -/
theorem recursion_hangs {cfg : Cfg} (hh : cfg.hook 35#8 = .nums) {k : List Byte} (hk : IsName k)
    (hkw : k ∉ [sDefine, sInclude, sIf, sElse, sEndif, sUndef]) : ∀ (n : Nat) {l : Lex} {ws rest},
    (∀ c ∈ ws, isWs c) → text l = ws ++ 35#8 :: (k ++ rest) → Stops isWord rest → Clean (text l) →
    l.macros.lookup k = some (some (35#8 :: k)) → token cfg n l = none := by
  intro n
  induction n with
  | zero => intros; rfl
  | succ n ih =>
    intro l ws rest hws ht hst hc hlook
    rcases hash_any hh n hws hk hst ht hc with h | ⟨l2, h1, h2, h3⟩
    · exact h
    · have hlook2 : l2.macros.lookup k = some (some (35#8 :: k)) := by rw [h3.2.2.1]; exact hlook
      have ht' : text (clean (pushBuf l2 (35#8 :: k))) = [] ++ 35#8 :: (k ++ rest) := by
        show (35#8 :: k).drop 0 ++ [] ++ text l2 = _
        rw [h2]
        simp
      have := ih (l := clean (pushBuf l2 (35#8 :: k))) (ws := []) (by simp) ht' hst
        (by rw [ht']; intro b hb; exact hc b (by rw [ht]; simp at hb ⊢; tauto)) hlook2
      simp only [List.mem_cons, List.not_mem_nil, or_false, not_or] at hkw
      obtain ⟨k1, k2, k3, k4, k5, k6⟩ := hkw
      rw [h1, ppCommand, if_neg k1, if_neg k2, if_neg k3, if_neg k4, if_neg k5, if_neg k6, lookup_macro hlook2]
      dsimp only
      rw [this]
      rfl

/-! ## Branches that are not taken -/

/-- `#undef` is executed in every branch, taken or not. -/
theorem undef_always {cfg : Cfg} (hh : cfg.hook 35#8 = .nums) {l : Lex} {ws bl k e rest n}
    (hws : ∀ c ∈ ws, isWs c) (hbl : IsGap bl) (hk : IsName k) (he : isWs e = true)
    (ht : text l = ws ++ 35#8 :: (sUndef ++ (bl ++ (k ++ e :: rest)))) (hc : Clean (text l))
    (hn : (text l).length < n) :
    ∃ l1, token cfg (n + 1) l = (token cfg n l1).bind (finish (token cfg n)) ∧ text l1 = rest ∧
      l1.ignore = l.ignore ∧ l1.macros = l.macros.filter (fun m => m.1 ≠ k) := by
  obtain ⟨l2, h1, h2, h3⟩ := hash_step (n := n) hh hws (w := sUndef) ⟨by decide, by decide⟩ (gap_stops hbl) ht hc hn
  obtain ⟨l', c1, c2, c3, c4, -⟩ := macroName_ok (l := clean l2) (n := n) hbl.2 hk he h2
      (fun b hb => hc b (by rw [show text (clean l2) = _ from h2] at hb; rw [ht]; simp at hb ⊢; tauto))
      (by rw [show text (clean l2) = _ from h2]; rw [ht] at hn; simp at hn ⊢; omega)
  refine ⟨clean { l' with macros := l'.macros.filter (·.1 ≠ l'.res) }, ?_, c2, c4.2.1.trans h3.2.1, ?_⟩
  · rw [h1, pp_sUndef, ppUndef]
    simp only [c1, Option.bind_eq_bind, Option.bind_some]
  · show l'.macros.filter _ = _
    rw [c3, c4.2.2.1]
    show l2.macros.filter _ = _
    rw [h3.2.2.1]

/-- The settings with the preprocessor. -/
def pp : Cfg := { hook := fun b => if b = 35#8 then .nums else .plain }

/-- The text of a C string. -/
def bytes (s : String) : List Byte := s.toList.map (fun c => BitVec.ofNat 8 c.toNat)

/-- So a branch that is not taken has effects: `1` is no longer defined behind it and `a` is lost. -/
theorem ignored_undef : (token pp 60 (init (bytes "#if x\n#undef 1\n#endif\n#if 1\na \n#endif\n"))).map
    (fun r => r.1.map (·.type)) = some (some .eof) ∧
    (token pp 60 (init (bytes "#if x\n\n#endif\n#if 1\na \n#endif\n"))).map
    (fun r => r.1.map (·.type)) = some (some .id) := by decide +kernel

/-- Files are included in branches that are not taken: a file that does not exist is an error there. -/
theorem ignored_include : (token pp 60 (init (bytes "#if x\n#include \"f\"\n#endif\na "))).map
    (fun r => (r.1, r.2.err)) = some (none, .fpath) := by decide +kernel

/-- Macros are looked up in branches that are not taken. -/
theorem ignored_unknown : (token pp 60 (init (bytes "#if x\n#y\n#endif\na "))).map
    (fun r => (r.1, r.2.err)) = some (none, .unknownmacro) := by decide +kernel

/-! ## Errors and lines -/

/-- Defining a macro again fails, but no error is recorded. -/
theorem redefine {cfg : Cfg} (hh : cfg.hook 35#8 = .nums) {l : Lex} {ws bl k e rest n}
    (hws : ∀ c ∈ ws, isWs c) (hbl : IsGap bl) (hk : IsName k) (he : isWs e = true) (hi : l.ignore = false)
    (hd : k ∈ l.macros.map Prod.fst) (ht : text l = ws ++ 35#8 :: (sDefine ++ (bl ++ (k ++ e :: rest))))
    (hc : Clean (text l)) (hn : (text l).length < n) :
    ∃ l', token cfg (n + 1) l = some (none, l') ∧ l'.err = l.err := by
  obtain ⟨l2, h1, h2, h3⟩ := hash_step (n := n) hh hws (w := sDefine) ⟨by decide, by decide⟩ (gap_stops hbl) ht hc hn
  obtain ⟨l', c1, c2, c3, c4, -⟩ := macroName_ok (l := clean l2) (n := n) hbl.2 hk he h2
      (fun b hb => hc b (by rw [show text (clean l2) = _ from h2] at hb; rw [ht]; simp at hb ⊢; tauto))
      (by rw [show text (clean l2) = _ from h2]; rw [ht] at hn; simp at hn ⊢; omega)
  have hmac : (macro? l' k).isSome = true := by
    rw [macro_isSome, c4.2.2.1]
    show decide (k ∈ l2.macros.map _) = _
    rw [h3.2.2.1]
    simpa using hd
  refine ⟨l', ?_, ?_⟩
  · rw [h1, pp_sDefine, ppDefine]
    simp only [c1, Option.bind_eq_bind, Option.bind_some]
    rw [if_neg (by rw [c4.2.1, show (clean l2).ignore = l2.ignore from rfl, h3.2.1, hi]; decide), c3,
      if_pos hmac]
    rfl
  · exact c4.1.trans h3.1

/-- The newline that ends a command is not counted: `a` stands in line 2 and is reported in line 1. -/
theorem command_line : (token pp 60 (init (bytes "#if 1\na b"))).map (fun r => r.1.map (fun t => (t.text, t.line))) =
    some (some (bytes "a", 1)) ∧
    (token pp 60 (init (bytes "\na b"))).map (fun r => r.1.map (fun t => (t.text, t.line))) =
    some (some (bytes "a", 2)) := by decide +kernel

/-- With the preprocessor `#` on its own is reported as the token of `@`. -/
theorem hash_is_at : (token pp 60 (init (bytes "# a"))).map (fun r => r.1.map (·.type)) = some (some (.spec 64#8)) := by
  decide +kernel

/-! ## Cases -/

-- nested branches
example : Next [] (init []).macros [] (bytes "#if 1\n#if !1\na\n#else\nb\n#endif\n#else\nc\n#endif\n") .id (bytes "b")
    (bytes "\n#endif\n#else\nc\n#endif\n") (init []).macros [true, true] := by
  refine .if_ (ws := []) (bl := bytes " ") (neg := false) (k := bytes "1") (e := 10#8)
    (by simp) (by simp) ⟨by decide, by decide⟩ ⟨by decide, by decide⟩ (by decide)
    (rest := bytes "#if !1\na\n#else\nb\n#endif\n#else\nc\n#endif\n") ?_
  refine .if_ (ws := []) (bl := bytes " ") (neg := true) (k := bytes "1") (e := 10#8)
    (by decide) (by simp) ⟨by decide, by decide⟩ ⟨by decide, by decide⟩ (by decide)
    (rest := bytes "a\n#else\nb\n#endif\n#else\nc\n#endif\n") ?_
  refine .skip (ty := .id) (ws := []) (w := bytes "a") (rest := bytes "\n#else\nb\n#endif\n#else\nc\n#endif\n")
    (by decide) (by simp)
    (.id ⟨⟨97#8, [], by decide, by decide⟩, by decide⟩ (by decide) (by simp) (stops_cons (by decide))) (by simp) (by simp) ?_
  refine .else_ (ws := bytes "\n") (rest := bytes "\nb\n#endif\n#else\nc\n#endif\n") (by decide) (by decide)
    (stops_cons (by decide)) ?_
  exact .tok (ws := bytes "\n") (w := bytes "b") (rest := bytes "\n#endif\n#else\nc\n#endif\n") (by decide) (by decide)
    (.id ⟨⟨98#8, [], by decide, by decide⟩, by decide⟩ (by decide) (by simp) (stops_cons (by decide))) (by simp) (by simp)

example : (token pp 60 (init (bytes "#if 1\n#if !1\na\n#else\nb\n#endif\n#else\nc\n#endif\n"))).map
    (fun r => r.1.map (fun t => (t.type, t.text))) = some (some (.id, bytes "b")) := by decide +kernel
-- a macro with a text
example : (token pp 60 (init (bytes "#define a b+\n#a c "))).map
    (fun r => (r.1.map (·.text), text r.2)) = some (some (bytes "b"), bytes "+ c ") := by decide +kernel
-- `#define a #a`, then `#a`
example (n : Nat) : token pp n { init (bytes "#a\n") with macros := [(bytes "a", some (bytes "#a"))] } = none :=
  recursion_hangs (k := bytes "a") (ws := []) (rest := bytes "\n") rfl ⟨by decide, by decide⟩ (by decide) n (by simp)
    (by decide) (stops_cons (by decide)) (by unfold Clean; decide) (by decide)
-- `#define x` at the end
example : token pp 50 (init (bytes "#define x")) = none :=
  define_hangs (ws := []) (bl := bytes " ") (k := bytes "x") rfl (by simp) (.inl rfl) ⟨by decide, by decide⟩
    ⟨by decide, by decide⟩ (by decide) (by unfold Clean; decide) (by decide)

end Verif.Lex
