import Verif.LexProps
/-
Properties of the lexer: every call returns, all tokens of a text, lines, and what goes wrong.
-/
namespace Verif.Lex

/-! ## Every call returns -/

theorem numType_err {w e} (h : numType w = .error e) : e ≠ .succeed := by
  rintro rfl
  unfold numType octRest at h
  repeat' split at h
  all_goals cases h

/-- Some token stands next in the text `T`. -/
def Has (kws : List (List Byte)) (T : List Byte) : Prop :=
  ∃ ty ws w rest, T = ws ++ w ++ rest ∧ (∀ c ∈ ws, isWs c) ∧ Lexeme kws ty w rest

/-- Without preprocessor every call returns: a token if one stands next, else NULL with an error. -/
theorem token_total {cfg : Cfg} {l : Lex} {n} (hk : cfg.keywords.Nodup) (hh : ∀ b, cfg.hook b = .plain)
    (hr : l.res = []) (hi : l.ignore = false) (hc : Clean (text l)) (hn : (text l).length + 1 < n) :
    (Has cfg.keywords (text l) → ∃ t l', token cfg n l = some (some t, l')) ∧
    (¬ Has cfg.keywords (text l) → ∃ l', token cfg n l = some (none, l') ∧ l'.err ≠ .succeed) := by
  refine ⟨?_, ?_⟩
  · rintro ⟨ty, ws, w, rest, h1, h2, h3⟩
    obtain ⟨t, l', h, _⟩ := token_lexeme hk (fun b _ => hh b) hr hi h1 h2 h3 hc hn
    exact ⟨t, l', h⟩
  · intro hno
    obtain ⟨n, rfl⟩ : ∃ m, n = m + 1 := ⟨n - 1, by omega⟩
    obtain ⟨c, l1, s1, s2, s3, s4, -⟩ := start l (n := n) (by omega)
    obtain ⟨e0, ews⟩ := dropWhile_cases (p := isWs) (text l)
    have hlen : ((text l).dropWhile isWs).length ≤ (text l).length :=
      (List.dropWhile_sublist isWs).length_le
    have hsub : ∀ b ∈ (text l).dropWhile isWs, b ∈ text l := (List.dropWhile_sublist isWs).subset
    cases hT : (text l).dropWhile isWs with
    | nil =>
      refine absurd ⟨.eof, _, [], [], ?_, ews, .eof⟩ hno
      rw [List.append_nil, List.append_nil]
      rw [hT, List.append_nil] at e0
      exact e0
    | cons x xs =>
      have e := pending_ne s2 (by rw [hT]; simp)
      have hcx : c = x ∧ text l1 = xs := by
        rw [hT] at e
        simp only [List.cons.injEq] at e
        exact ⟨e.1.symm, e.2.symm⟩
      obtain ⟨rfl, h1⟩ := hcx
      have hcl := hc c (hsub c (by rw [hT]; simp))
      rw [token_at s1 hcl.2 hcl.1, dispatch]
      by_cases hl : isLetter c = true
      · -- a word always stands here
        exfalso
        apply hno
        obtain ⟨f0, fw⟩ := dropWhile_cases (p := isWord) (c :: xs)
        have hst := stops_drop (p := isWord) (c :: xs)
        have htw : (c :: xs).takeWhile isWord = c :: xs.takeWhile isWord := by
          rw [List.takeWhile_cons_of_pos (word_letter hl)]
        have hwt : IsWordText ((c :: xs).takeWhile isWord) := ⟨⟨c, _, htw, hl⟩, fw⟩
        have heq : text l = (text l).takeWhile isWs ++ (c :: xs).takeWhile isWord ++
            (c :: xs).dropWhile isWord := by
          rw [List.append_assoc, ← f0, ← hT]; exact e0
        by_cases hu : (c :: xs).takeWhile isWord = [95#8]
        · exact ⟨.spec 95#8, _, _, _, heq, ews, by rw [hu]; exact .under hst⟩
        · by_cases hm : (c :: xs).takeWhile isWord ∈ cfg.keywords
          · obtain ⟨i, hi⟩ := List.getElem?_of_mem hm
            exact ⟨.kw i, _, _, _, heq, ews, .kw hwt hu hi hst⟩
          · exact ⟨.id, _, _, _, heq, ews, .id hwt hu hm hst⟩
      · rw [if_neg hl]
        by_cases hd : isDigit c = true
        · rw [if_pos hd, number]
          obtain ⟨f0, fw⟩ := dropWhile_cases (p := isNum) (c :: xs)
          have hst := stops_drop (p := isNum) (c :: xs)
          have htw : (c :: xs).takeWhile isNum = c :: xs.takeWhile isNum := by
            rw [List.takeWhile_cons_of_pos (digit_facts c hd).2.2]
          obtain ⟨c', l1', l2, a1, a2, a3, a4, a5, a6, -⟩ := read_back (p := isNum) (n := n) (by decide) s2
            (by omega) (fun b hb => hc b (hsub b hb))
          rw [hT, s3, hr, List.nil_append] at a4
          simp only [a1, Option.bind_eq_bind, Option.bind_some]
          rw [if_neg a2, a3, Option.bind_some, a4]
          cases hnt : numType ((c :: xs).takeWhile isNum) with
          | ok ty =>
            exfalso
            apply hno
            have := (numType_iff htw hd).mp hnt
            refine ⟨ty, _, _, _, ?_, ews, .num this hst⟩
            rw [List.append_assoc, ← f0, ← hT]; exact e0
          | error er =>
            refine ⟨{ l2 with err := er }, ?_, numType_err hnt⟩
            rfl
        · rw [if_neg hd, special]
          by_cases hs : specials.elem c = true
          · exfalso
            apply hno
            have hm : c ∈ specials := by simpa [List.elem_eq_mem] using hs
            refine ⟨.spec c, _, [c], xs, ?_, ews, .spec hm ?_⟩
            · rw [List.append_assoc, List.singleton_append, ← hT]; exact e0
            · rintro rfl; exact hl rfl
          · rw [if_neg hs]
            exact ⟨_, rfl, by simp⟩

/-! ## All tokens of a text -/

/-- The text consists of the lexemes `ts`, with blanks around them. -/
inductive Lexes (kws : List (List Byte)) : List Byte → List (Ty × List Byte) → Prop
  | nil {ws} : (∀ c ∈ ws, isWs c) → Lexes kws ws []
  | cons {ty ws w rest ts} : (∀ c ∈ ws, isWs c) → Lexeme kws ty w rest → ty ≠ .eof → Lexes kws rest ts →
      Lexes kws (ws ++ w ++ rest) ((ty, w) :: ts)

/-- Call token until the end of the input or an error: the tokens before it. -/
def run (cfg : Cfg) (n : Nat) : Nat → Lex → Option (List Tok × Option Tok × Lex)
  | 0, _ => none
  | k + 1, l => do
    match ← token cfg n l with
    | (none, l) => some ([], none, l)
    | (some t, l) =>
      if t.type = .eof then some ([], some t, l)
      else do
        let (ts, r) ← run cfg n k l
        some (t :: ts, r)

/-- The tokens of a text are its lexemes, in their order, and nothing else. -/
theorem run_lexes {cfg : Cfg} (hk : cfg.keywords.Nodup) (hh : ∀ b, cfg.hook b = .plain) {T ts}
    (hx : Lexes cfg.keywords T ts) : ∀ {l : Lex} {n k}, text l = T → l.res = [] → l.ignore = false → Clean T →
      T.length + 1 < n → ts.length < k →
      ∃ tks e l', run cfg n k l = some (tks, some e, l') ∧ tks.map (fun t => (t.type, t.text)) = ts ∧
        e.type = .eof ∧ text l' = [] := by
  induction hx with
  | @nil ws hws =>
    intro l n k ht hr hi hc hn hk'
    obtain ⟨k, rfl⟩ : ∃ m, k = m + 1 := ⟨k - 1, by simp at hk'; omega⟩
    obtain ⟨t, l', h1, h2, -, h4, -⟩ := token_lexeme (ws := ws) hk (fun b _ => hh b) hr hi
      (by rw [ht]; simp) hws .eof (ht ▸ hc) (by rw [ht]; exact hn)
    refine ⟨[], t, l', ?_, rfl, h2, h4.text⟩
    rw [run, h1]
    simp [h2]
  | @cons ty ws w rest ts hws hlx hty _ ih =>
    intro l n k ht hr hi hc hn hk'
    obtain ⟨k, rfl⟩ : ∃ m, k = m + 1 := ⟨k - 1, by simp at hk'; omega⟩
    obtain ⟨t, l', h1, h2, h3, h4, -⟩ := token_lexeme hk (fun b _ => hh b) hr hi ht hws hlx (ht ▸ hc)
      (by rw [ht]; exact hn)
    obtain ⟨tks, e, l'', i1, i2, i3, i4⟩ := ih (l := l') (n := n) (k := k) h4.text h4.res
      (h4.ignore.trans hi) (fun b hb => hc b (by simp [hb]))
      (by simp only [List.length_append] at hn ⊢; omega) (by simpa using hk')
    refine ⟨t :: tks, e, l'', ?_, ?_, i3, i4⟩
    · rw [run, h1]
      simp only [Option.bind_eq_bind, Option.bind_some]
      rw [if_neg (by rw [h2]; exact hty), i1]
      rfl
    · simp only [List.map_cons, i2, h2, h3 hty]

/-! ## A program written with blanks is read back -/

/-- Lexemes that are not the end of the input. -/
def IsLexeme (kws : List (List Byte)) (x : Ty × List Byte) : Prop := Lexeme kws x.1 x.2 [32#8] ∧ x.1 ≠ .eof

/-- Write the lexemes with a blank behind each. -/
def write (ts : List (Ty × List Byte)) : List Byte := ts.flatMap (fun x => x.2 ++ [32#8])

theorem lexeme_rest {kws ty w rest} (h : Lexeme kws ty w [32#8]) : Lexeme kws ty w (32#8 :: rest) := by
  have hs : ∀ {p : Byte → Bool}, Stops p [32#8] → Stops p (32#8 :: rest) := by
    intro p h c hc
    exact h c (by simpa using hc)
  cases h with
  | id h1 h2 h3 h4 => exact .id h1 h2 h3 (hs h4)
  | kw h1 h2 h3 h4 => exact .kw h1 h2 h3 (hs h4)
  | under h => exact .under (hs h)
  | spec h1 h2 => exact .spec h1 h2
  | num h1 h2 => exact .num h1 (hs h2)

theorem write_lexes {kws} : ∀ {ts : List (Ty × List Byte)} {ws}, (∀ c ∈ ws, isWs c) →
    (∀ x ∈ ts, IsLexeme kws x) → Lexes kws (ws ++ write ts) ts := by
  intro ts
  induction ts with
  | nil => intro ws hws _; simpa [write] using Lexes.nil hws
  | cons x ts ih =>
    intro ws hws h
    obtain ⟨h1, h2⟩ := h x (by simp)
    have := ih (ws := [32#8]) (by intro c hc; simp at hc; subst hc; rfl) (fun y hy => h y (by simp [hy]))
    have h3 := Lexes.cons hws (lexeme_rest (rest := write ts) h1) h2 this
    simpa [write, List.append_assoc] using h3

/-- Any sequence of lexemes written with a blank behind each is read back. -/
theorem read_write {cfg : Cfg} (hk : cfg.keywords.Nodup) (hh : ∀ b, cfg.hook b = .plain)
    {ts : List (Ty × List Byte)} (h : ∀ x ∈ ts, IsLexeme cfg.keywords x) (hc : Clean (write ts)) {n k}
    (hn : (write ts).length + 1 < n) (hk' : ts.length < k) :
    ∃ tks e l', run cfg n k (init (write ts)) = some (tks, some e, l') ∧
      tks.map (fun t => (t.type, t.text)) = ts := by
  obtain ⟨tks, e, l', h1, h2, _⟩ := run_lexes hk hh (write_lexes (ws := []) (by simp) h) (l := init (write ts))
    (n := n) (k := k) (by simp [text, init, pushBuf, push, Input.rest]) rfl rfl hc hn hk'
  exact ⟨tks, e, l', h1, h2⟩

/-! ## Lines -/

/-- A token that something follows has the number of its line: newlines in front of it are counted from
the line where the last token was read. -/
theorem line_partial {cfg : Cfg} {l : Lex} {ty w ws rest n} (hk : cfg.keywords.Nodup)
    (hh : ∀ b, cfg.hook b = .plain) (hr : l.res = []) (hi : l.ignore = false)
    (ht : text l = ws ++ w ++ rest) (hws : ∀ c ∈ ws, isWs c) (hx : Lexeme cfg.keywords ty w rest)
    (hc : Clean (text l)) (hn : (text l).length + 1 < n) {b k} (hs : Single l b k) (hrest : rest ≠ []) :
    ∃ t l', token cfg n l = some (some t, l') ∧ t.line = l.line + ws.count 10#8 ∧ t.file = k ∧
      l'.line = t.line ∧ Single l' b k := by
  obtain ⟨t, l', h1, _, _, _, h5⟩ := token_lexeme hk (fun b _ => hh b) hr hi ht hws hx hc hn
  obtain ⟨a, b', c, _⟩ := h5 b k hs
  obtain ⟨d, e⟩ := c (.inl hrest)
  exact ⟨t, l', h1, d, e, b', a⟩

/-- A word or number that ends the input, and the end itself, get the line the input was entered from:
line 1 for a buffer, however many lines there are. -/
theorem last_line {cfg : Cfg} {ty w ws n} (hk : cfg.keywords.Nodup)
    (hh : ∀ b, cfg.hook b = .plain) (hws : ∀ c ∈ ws, isWs c) (hx : Lexeme cfg.keywords ty w [])
    (ha : ¬ Alone ty) (hc : Clean (ws ++ w)) (hn : (ws ++ w).length + 1 < n) :
    ∃ t l', token cfg n (init (ws ++ w)) = some (some t, l') ∧ t.type = ty ∧ t.line = 1 := by
  have ht : text (init (ws ++ w)) = ws ++ w ++ [] := by simp [text, init, pushBuf, push, Input.rest]
  have ht' : text (init (ws ++ w)) = ws ++ w := by rw [ht, List.append_nil]
  obtain ⟨t, l', h1, h2, _, _, h5⟩ := token_lexeme (l := init (ws ++ w)) hk (fun b _ => hh b) rfl rfl ht hws hx
    (ht'.symm ▸ hc) (by rw [ht']; exact hn)
  obtain ⟨_, _, _, d⟩ := h5 1 none (.inr ⟨_, rfl, rfl, rfl⟩)
  exact ⟨t, l', h1, h2, (d rfl ha (by simp [init, pushBuf, push])).1⟩

/-- So lines are wrong: a word in line 2 is reported in line 1. -/
theorem line_false : ∃ t l', token {} 10 (init [10#8, 97#8]) = some (some t, l') ∧ t.type = .id ∧ t.line = 1 := by
  exact ⟨_, _, rfl, rfl, rfl⟩

/-- The same for files: the name of the file is missing too. -/
theorem file_false : ∃ t l', token {} 10 (initFile [102#8] [10#8, 97#8]) = some (some t, l') ∧ t.type = .id ∧
    t.line = 1 ∧ t.file = none := by
  exact ⟨_, _, rfl, rfl, rfl, rfl⟩

/-! ## The bytes 255 and 254 -/

/-- The byte 255 is taken for the end of the input, wherever it stands; what follows is still there. -/
theorem eof_inside {cfg : Cfg} {l : Lex} {ws rest n} (hws : ∀ c ∈ ws, isWs c)
    (ht : text l = ws ++ 255#8 :: rest) (hn : (text l).length + 1 < n) :
    ∃ t l', token cfg n l = some (some t, l') ∧ t.type = .eof ∧ text l' = rest := by
  obtain ⟨n, rfl⟩ : ∃ m, n = m + 1 := ⟨n - 1, by omega⟩
  obtain ⟨c, l1, s1, s2, s3, s4, -⟩ := start l (n := n) (by omega)
  rw [ht, (ws_skip hws (by intro y hy; cases hy; rfl)).1] at s2
  have e := pending_ne s2 (by simp)
  simp only [List.cons.injEq] at e
  obtain ⟨rfl, e⟩ := e
  refine ⟨(new l1 .eof).1, (new l1 .eof).2, ?_, rfl, e.symm⟩
  rw [token]
  simp only [s1, Option.bind_eq_bind, Option.bind_some]
  rfl

/-- The byte 254 makes the call fail, but no error is recorded. -/
theorem err_inside {cfg : Cfg} {l : Lex} {ws rest n} (hws : ∀ c ∈ ws, isWs c)
    (ht : text l = ws ++ 254#8 :: rest) (hn : (text l).length + 1 < n) :
    ∃ l', token cfg n l = some (none, l') ∧ l'.err = l.err := by
  obtain ⟨n, rfl⟩ : ∃ m, n = m + 1 := ⟨n - 1, by omega⟩
  obtain ⟨c, l1, s1, s2, s3, s4, -⟩ := start l (n := n) (by omega)
  rw [ht, (ws_skip hws (by intro y hy; cases hy; rfl)).1] at s2
  have e := pending_ne s2 (by simp)
  simp only [List.cons.injEq] at e
  obtain ⟨rfl, e⟩ := e
  refine ⟨l1, ?_, s4.1⟩
  rw [token]
  simp only [s1, Option.bind_eq_bind, Option.bind_some]
  rfl

/-- The byte 255 behind a word disappears. -/
theorem eof_swallowed : ∃ t l', token {} 10 (init [97#8, 255#8, 98#8]) = some (some t, l') ∧
    t.text = [97#8] ∧ text l' = [98#8] := by
  exact ⟨_, _, rfl, rfl, rfl⟩

/-! ## Cases -/

-- ` if x1>0x1F  fi` with the keywords `if` and `fi`
example : (run { keywords := [[105#8, 102#8], [102#8, 105#8]] } 40 40
    (init [32#8, 105#8, 102#8, 32#8, 120#8, 49#8, 62#8, 48#8, 120#8, 49#8, 70#8, 10#8, 32#8, 102#8, 105#8, 32#8])).map
      (fun r => (r.1.map (fun t => (t.type, t.text, t.line)), r.2.1.map (·.type))) =
    some ([(.kw 0, [105#8, 102#8], 1), (.id, [120#8, 49#8], 1), (.spec 62#8, [62#8], 1),
      (.hex, [48#8, 120#8, 49#8, 70#8], 1), (.kw 1, [102#8, 105#8], 2)], some .eof) := by decide +kernel
-- `09` is no number
example : (run {} 40 40 (init [48#8, 57#8])).map (fun r => (r.1, r.2.1, r.2.2.err)) =
    some ([], none, .invoct) := by decide +kernel
-- but `09.5` is one, and `0x` is none
example : (run {} 40 40 (init [48#8, 57#8, 46#8, 53#8])).map (fun r => r.1.map (·.type)) = some [.real] := by
  decide +kernel
example : (run {} 40 40 (init [48#8, 120#8])).map (fun r => (r.2.1, r.2.2.err)) = some (none, .invhex) := by
  decide +kernel
-- a carriage return is no blank
example : (run {} 40 40 (init [97#8, 13#8, 10#8])).map (fun r => (r.1.map (·.text), r.2.1, r.2.2.err)) =
    some ([[97#8]], none, .invchar) := by decide +kernel

end Verif.Lex
