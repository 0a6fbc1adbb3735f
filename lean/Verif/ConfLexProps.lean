import Verif.Conf
import Verif.LexProps
import Mathlib.Algebra.Group.Nat.Even
/-
How a configuration file is read: every token is read as it is written, strings, characters, numbers
with a sign and comments included.
-/
namespace Verif.Conf
open Verif.Lex

/-! ## How tokens are written -/

/-- What may follow a backslash, and the byte it stands for. -/
def escapes : List (Byte × Byte) :=
  [(34#8, 34#8), (39#8, 39#8), (110#8, 10#8), (116#8, 9#8), (98#8, 8#8), (97#8, 7#8), (102#8, 12#8),
   (114#8, 13#8), (101#8, 27#8), (118#8, 11#8), (92#8, 92#8)]

/-- The text `w` between quotes stands for the string `s`. -/
inductive Body : List Byte → List Byte → Prop
  | nil : Body [] []
  | byte {c w s} : c ≠ 34#8 → c ≠ 92#8 → Body w s → Body (c :: w) (c :: s)
  | esc {n b w s} : (n, b) ∈ escapes → Body w s → Body (92#8 :: n :: w) (b :: s)

/-- The text `w`, followed by `rest`, is a token of type `ty` with the content `s`. -/
inductive Spell : Ty → List Byte → List Byte → List Byte → Prop
  | plain {ty w rest} : Lexeme keywords ty w rest → ty ≠ .eof → ty ≠ .spec 34#8 → ty ≠ .spec 39#8 →
      ty ≠ .spec 35#8 → ty ≠ SLASH → ty ≠ SUB → Spell ty w w rest
  | str {w s rest} : Body w s → Spell STRING s (34#8 :: w ++ [34#8]) rest
  | chr {c rest} : c.toNat < 128 → c ≠ 39#8 → c ≠ 92#8 → Spell CHAR [c] [39#8, c, 39#8] rest
  | chrEsc {n b rest} : (n, b) ∈ escapes → Spell CHAR [b] [39#8, 92#8, n, 39#8] rest

/-- The same with a sign, which belongs to the content. -/
inductive Signed : Ty → List Byte → List Byte → List Byte → Prop
  | pos {ty s w rest} : Spell ty s w rest → Signed ty s w rest
  | neg {ty s ws w rest} : ty = .dec ∨ ty = .real → (∀ c ∈ ws, isWs c) → Spell ty s w rest →
      Signed ty (45#8 :: s) (45#8 :: ws ++ w) rest

/-- How many stars the text ends in. -/
def stars (w : List Byte) : Nat := (w.reverse.takeWhile (· = 42#8)).length

/-- There is no `*/` in the text. -/
def Plain (w : List Byte) : Prop := ¬ [42#8, 47#8] <:+: w

/-- What stands between tokens: blanks, comments up to the end of the line, and comments `/* w */`
in which `*/` does not occur before and `w` ends in an even number of stars. -/
inductive Gap : List Byte → Prop
  | nil : Gap []
  | ws {c g} : isWs c → Gap g → Gap (c :: g)
  | line {w g} : 10#8 ∉ w → Gap g → Gap (47#8 :: 47#8 :: w ++ 10#8 :: g)
  | block {w g} : Plain w → Even (stars w) → Gap g → Gap (47#8 :: 42#8 :: w ++ 42#8 :: 47#8 :: g)

/-- What may stand at the end: the same, and a comment that goes on to the end of the file. -/
inductive Last : List Byte → Prop
  | gap {g} : Gap g → Last g
  | line {g w} : Gap g → 10#8 ∉ w → Last (g ++ 47#8 :: 47#8 :: w)
  | block {g w} : Gap g → Plain w → Last (g ++ 47#8 :: 42#8 :: w)

/-- The text consists of the tokens `ts`. -/
inductive Written : List Byte → List (Ty × List Byte) → Prop
  | nil {g} : Last g → Written g []
  | cons {ty s g w rest ts} : Gap g → Signed ty s w rest → Written rest ts →
      Written (g ++ w ++ rest) ((ty, s) :: ts)

/-! ## Comments -/

/-- What the loop over a comment reads without coming to an end. -/
inductive Block : List Byte → Prop
  | nil : Block []
  | byte {c w} : c ≠ 42#8 → Block w → Block (c :: w)
  | star {d w} : d ≠ 47#8 → Block w → Block (42#8 :: d :: w)

theorem takeWhile_snoc_all {p : Byte → Bool} {l : List Byte} {c : Byte} (h : ∀ x ∈ l, p x) (hc : p c = false) :
    (l ++ [c]).takeWhile p = l := by
  rw [List.takeWhile_append_of_pos h]
  simp [hc]

theorem stars_cons {c : Byte} {w : List Byte} (h : c ≠ 42#8) : stars (c :: w) = stars w := by
  unfold stars
  rw [List.reverse_cons]
  by_cases ha : ∀ x ∈ w.reverse, decide (x = 42#8) = true
  · rw [takeWhile_snoc_all ha (by simp [h]), List.takeWhile_eq_self_iff.mpr ha]
  · rw [List.takeWhile_append, if_neg]
    intro hl
    apply ha
    have := List.takeWhile_eq_self_iff.mp ((List.takeWhile_prefix _).eq_of_length hl)
    exact this

theorem stars_two {d : Byte} {w : List Byte} : Even (stars (42#8 :: d :: w)) → d ≠ 47#8 →
    Even (stars w) := by
  intro h _
  by_cases ha : ∀ x ∈ w.reverse, decide (x = 42#8) = true
  · by_cases hd : d = 42#8
    · subst hd
      have : stars (42#8 :: 42#8 :: w) = stars w + 2 := by
        unfold stars
        rw [List.reverse_cons, List.reverse_cons, List.append_assoc, List.takeWhile_append_of_pos ha,
          List.takeWhile_eq_self_iff.mpr ha]
        simp
      rw [this] at h
      exact (Nat.even_add.mp h).mpr (by decide)
    · have : stars (42#8 :: d :: w) = stars w := by
        unfold stars
        rw [List.reverse_cons, List.reverse_cons, List.append_assoc, List.takeWhile_append_of_pos ha,
          List.takeWhile_eq_self_iff.mpr ha]
        simp [hd]
      rwa [this] at h
  · have : stars (42#8 :: d :: w) = stars w := by
      unfold stars
      rw [List.reverse_cons, List.reverse_cons, List.append_assoc, List.takeWhile_append, if_neg]
      intro hl
      exact ha (List.takeWhile_eq_self_iff.mp ((List.takeWhile_prefix _).eq_of_length hl))
    rwa [this] at h

theorem plain_tail {c : Byte} {w : List Byte} (h : Plain (c :: w)) : Plain w :=
  fun hi => h (List.infix_cons hi)

theorem plain_star {d : Byte} {w : List Byte} (h : Plain (42#8 :: d :: w)) : d ≠ 47#8 := by
  rintro rfl
  exact h ⟨[], w, rfl⟩

theorem block_of : ∀ (n : Nat) {w : List Byte}, w.length ≤ n → Plain w → Even (stars w) → Block w
  | _, [], _, _, _ => .nil
  | 0, _ :: _, h, _, _ => by simp at h
  | n + 1, c :: w, hl, hp, he => by
    by_cases hc : c = 42#8
    · subst hc
      match w with
      | [] => exact absurd he (by decide)
      | d :: w =>
        have hd := plain_star hp
        exact .star hd (block_of n (by simp at hl ⊢; omega) (plain_tail (plain_tail hp)) (stars_two he hd))
    · exact .byte hc (block_of n (by simpa using hl) (plain_tail hp) (stars_cons hc ▸ he))

/-- Without `*/` the loop goes on to the end. -/
theorem block_open : ∀ (n : Nat) {w : List Byte}, w.length ≤ n → Plain w →
    Block w ∨ ∃ v, w = v ++ [42#8] ∧ Block v
  | _, [], _, _ => .inl .nil
  | 0, _ :: _, h, _ => by simp at h
  | n + 1, c :: w, hl, hp => by
    by_cases hc : c = 42#8
    · subst hc
      match w with
      | [] => exact .inr ⟨[], rfl, .nil⟩
      | d :: w =>
        have hd := plain_star hp
        rcases block_open n (w := w) (by simp at hl ⊢; omega) (plain_tail (plain_tail hp)) with h | ⟨v, rfl, h⟩
        · exact .inl (.star hd h)
        · exact .inr ⟨42#8 :: d :: v, rfl, .star hd h⟩
    · rcases block_open n (w := w) (by simpa using hl) (plain_tail hp) with h | ⟨v, rfl, h⟩
      · exact .inl (.byte hc h)
      · exact .inr ⟨c :: v, rfl, .byte hc h⟩

theorem getchar_cons {l : Lex} {c T} (h : text l = c :: T) :
    (getchar l).1 = c ∧ text (getchar l).2 = T ∧ (getchar l).2.res = l.res ∧
      (getchar l).2.ignore = l.ignore := by
  obtain ⟨h1, h2, h3, _⟩ := getchar_pending l
  have e := pending_ne h1 (by rw [h]; simp)
  rw [h] at e
  simp only [List.cons.injEq] at e
  exact ⟨e.1.symm, e.2.symm, h2, h3.2.1⟩

theorem getchar_nil {l : Lex} (h : text l = []) :
    (getchar l).1 = EOF ∧ text (getchar l).2 = [] ∧ (getchar l).2.res = l.res ∧
      (getchar l).2.ignore = l.ignore := by
  obtain ⟨h1, h2, h3, _⟩ := getchar_pending l
  rw [h] at h1
  rcases h1 with ⟨_, _, _, _, h1⟩ | ⟨_, h1, h4, h5⟩
  · cases h1
  · exact ⟨h1, by simp [text, h4, h5], h2, h3.2.1⟩

theorem text_nl (l : Lex) (c : Byte) : text (nl l c) = text l := by
  unfold nl; split <;> rfl
theorem ignore_nl (l : Lex) (c : Byte) : (nl l c).ignore = l.ignore := by
  unfold nl; split <;> rfl

/-- The outcome of a loop over a comment. -/
def Skips (o : Out) (l : Lex) (rest : List Byte) : Prop :=
  ∃ l2, o = ret l2 COMMENT ∧ text l2 = rest ∧ l2.ignore = l.ignore

theorem block_end {n l} (h : text l = []) (hn : 0 < n) : Skips (block n l) l [] := by
  obtain ⟨n, rfl⟩ : ∃ m, n = m + 1 := ⟨n - 1, by omega⟩
  obtain ⟨g1, g2, g3, g4⟩ := getchar_nil h
  refine ⟨(getchar l).2, ?_, g2, g4⟩
  rw [block]; dsimp only
  rw [g1, if_neg (by decide), if_pos rfl]
  simp [stepback]

theorem block_star_end {n l} (h : text l = [42#8]) (hn : 0 < n) : Skips (block n l) l [] := by
  obtain ⟨n, rfl⟩ : ∃ m, n = m + 1 := ⟨n - 1, by omega⟩
  obtain ⟨g1, g2, g3, g4⟩ := getchar_cons h
  have g2' : text (put (nl (getchar l).2 42#8) 42#8) = [] := (text_nl _ _).trans g2
  obtain ⟨k1, k2, k3, k4⟩ := getchar_nil g2'
  refine ⟨(getchar (put (nl (getchar l).2 42#8) 42#8)).2, ?_, k2, ?_⟩
  · rw [block]; dsimp only
    rw [g1, if_neg (by decide), if_neg (by decide), if_pos rfl, k1, if_neg (by decide), if_pos rfl]
    simp [stepback]
  · rw [k4]; exact (ignore_nl _ _).trans g4

theorem block_close {n l rest} (h : text l = 42#8 :: 47#8 :: rest) (hn : 0 < n) : Skips (block n l) l rest := by
  obtain ⟨n, rfl⟩ : ∃ m, n = m + 1 := ⟨n - 1, by omega⟩
  obtain ⟨g1, g2, g3, g4⟩ := getchar_cons h
  have g2' : text (put (nl (getchar l).2 42#8) 42#8) = 47#8 :: rest := (text_nl _ _).trans g2
  obtain ⟨k1, k2, k3, k4⟩ := getchar_cons g2'
  refine ⟨put (nl (getchar (put (nl (getchar l).2 42#8) 42#8)).2 47#8) 47#8, ?_, (text_nl _ _).trans k2, ?_⟩
  · rw [block]; dsimp only
    rw [g1, if_neg (by decide), if_neg (by decide), if_pos rfl, k1, if_neg (by decide), if_neg (by decide), if_pos rfl]
  · exact (ignore_nl _ _).trans (k4.trans ((ignore_nl _ _).trans g4))

/-- The loop reads what does not end it. -/
theorem block_run {w} (h : Block w) {rest r2 : List Byte} :
    ∀ {n l}, text l = w ++ rest → Clean (text l) → w.length < n →
    (∀ {n l}, text l = rest → Clean (text l) → 0 < n → Skips (block n l) l r2) → Skips (block n l) l r2 := by
  induction h with
  | nil =>
    intro n l ht hc hn hk
    exact hk ht hc hn
  | @byte c w hcs _ ih =>
    intro n l ht hc hn hk
    obtain ⟨n, rfl⟩ : ∃ m, n = m + 1 := ⟨n - 1, by simp at hn; omega⟩
    obtain ⟨g1, g2, g3, g4⟩ := getchar_cons ht
    have hcc := hc c (by rw [ht]; simp)
    have ht2 : text (put (nl (getchar l).2 c) c) = w ++ rest := (text_nl _ _).trans g2
    obtain ⟨l2, a1, a2, a3⟩ := ih (n := n) ht2
      (by rw [ht2]; intro b hb; exact hc b (by rw [ht]; simp [List.mem_append] at hb ⊢; tauto))
      (by simp at hn; omega) hk
    refine ⟨l2, ?_, a2, a3.trans ((ignore_nl _ _).trans g4)⟩
    rw [block]; dsimp only
    rw [g1, if_neg hcc.2, if_neg hcc.1, if_neg hcs, a1]
  | @star d w hd _ ih =>
    intro n l ht hc hn hk
    obtain ⟨n, rfl⟩ : ∃ m, n = m + 1 := ⟨n - 1, by simp at hn; omega⟩
    obtain ⟨g1, g2, g3, g4⟩ := getchar_cons ht
    have hcd := hc d (by rw [ht]; simp)
    have g2' : text (put (nl (getchar l).2 42#8) 42#8) = d :: (w ++ rest) := (text_nl _ _).trans g2
    obtain ⟨k1, k2, k3, k4⟩ := getchar_cons g2'
    have ht2 : text (put (nl (getchar (put (nl (getchar l).2 42#8) 42#8)).2 d) d) = w ++ rest :=
      (text_nl _ _).trans k2
    obtain ⟨l2, a1, a2, a3⟩ := ih (n := n) ht2
      (by rw [ht2]; intro b hb; exact hc b (by rw [ht]; simp [List.mem_append] at hb ⊢; tauto))
      (by simp at hn; omega) hk
    refine ⟨l2, ?_, a2, a3.trans ((ignore_nl _ _).trans (k4.trans ((ignore_nl _ _).trans g4)))⟩
    rw [block]; dsimp only
    rw [g1, if_neg (by decide), if_neg (by decide), if_pos rfl, k1, if_neg hcd.2, if_neg hcd.1, if_neg hd, a1]

theorem line_run {w rest : List Byte} (hr : rest = [] ∨ ∃ r, rest = 10#8 :: r) : 10#8 ∉ w → ∀ {n l}, text l = w ++ rest → Clean (text l) → w.length < n →
    Skips (lineComment n l) l rest := by
  induction w with
  | nil =>
    intro _ n l ht hc hn
    obtain ⟨n, rfl⟩ : ∃ m, n = m + 1 := ⟨n - 1, by simp at hn; omega⟩
    rcases hr with rfl | ⟨r, rfl⟩
    · obtain ⟨g1, g2, g3, g4⟩ := getchar_nil ht
      refine ⟨(getchar l).2, ?_, g2, g4⟩
      rw [lineComment]
      rw [g1, if_neg (by decide), if_pos (.inl rfl)]
      simp [stepback]
    · obtain ⟨h1, h2, h3, _⟩ := getchar_pending l
      obtain ⟨g1, g2, g3, g4⟩ := getchar_cons ht
      obtain ⟨l2, s1, s2, s3, s4, _⟩ := stepback_pending h1 (fun _ => by rw [g1]; decide)
      rw [g1] at s1
      refine ⟨l2, ?_, s2.trans ht, s4.2.1.trans g4⟩
      rw [lineComment]
      rw [g1, if_neg (by decide), if_pos (.inr rfl), s1]; rfl
  | cons c w ih =>
    intro hm n l ht hc hn
    obtain ⟨n, rfl⟩ : ∃ m, n = m + 1 := ⟨n - 1, by simp at hn; omega⟩
    obtain ⟨g1, g2, g3, g4⟩ := getchar_cons ht
    have hcc := hc c (by rw [ht]; simp)
    have ht2 : text (put (getchar l).2 c) = w ++ rest := g2
    obtain ⟨l2, a1, a2, a3⟩ := ih (fun h => hm (by simp [h])) (n := n) ht2
      (by rw [ht2]; intro b hb; exact hc b (by rw [ht]; simp [List.mem_append] at hb ⊢; tauto))
      (by simp at hn; omega)
    refine ⟨l2, ?_, a2, a3.trans g4⟩
    rw [lineComment]
    rw [g1, if_neg hcc.2, if_neg (by rintro (h | h); exacts [hcc.1 h, hm (by simp [h])]), a1]

/-! ## Tokens with a handler -/

/-- A byte with a handler: what the handler makes of the rest is the token. -/
theorem token_user {fs} {l : Lex} {q : Byte} {f : Nat → Lex → Out} {ws T rest : List Byte} {ty : Ty} {n : Nat}
    {P : List Byte → Prop}
    (hq : q = 34#8 ∨ q = 39#8 ∨ q = 47#8) (hf : (cfg fs).hook q = .user f) (hty : ty ≠ .eof)
    (hr : l.res = []) (hi : l.ignore = false) (ht : text l = ws ++ q :: T) (hws : ∀ c ∈ ws, isWs c)
    (hc : Clean (text l)) (hn : (text l).length < n)
    (h : ∀ l1, text l1 = T → Clean (text l1) → l1.res = [q] →
      ∃ l2, f n l1 = ret l2 ty ∧ text l2 = rest ∧ l2.ignore = l1.ignore ∧ P l2.res) :
    ∃ t l', token (cfg fs) (n + 1) l = some (some t, l') ∧ t.type = ty ∧ P t.text ∧ text l' = rest ∧
      l'.res = [] ∧ l'.ignore = false := by
  obtain ⟨x, l1, s1, s2, s3, s4, -⟩ := start l (n := n) hn
  have hqws : isWs q = false ∧ isLetter q = false ∧ isDigit q = false ∧
      specials.elem q = true ∧ q ≠ ERR ∧ q ≠ EOF := by
    rcases hq with rfl | rfl | rfl <;> decide
  rw [ht, (ws_skip hws (by intro y hy; cases hy; exact hqws.1)).1] at s2
  have e := pending_ne s2 (by simp)
  simp only [List.cons.injEq] at e
  obtain ⟨rfl, e⟩ := e
  have ht2 : text (put l1 q) = T := e.symm
  obtain ⟨l2, a1, a2, a3, a4⟩ := h (put l1 q) ht2
    (by rw [ht2]; intro b hb; exact hc b (by rw [ht]; simp [hb])) (by simp [put, s3, hr])
  have hig : l2.ignore = false := a3.trans (s4.2.1.trans hi)
  refine ⟨(new l2 ty).1, (new l2 ty).2, ?_, rfl, ?_, a2, rfl, hig⟩
  · have hk : special (cfg fs) (token (cfg fs) n) n (put l1 q) q = f n (put l1 q) := by
      rw [special, if_pos hqws.2.2.2.1, hf]
    rw [token_at s1 hqws.2.2.2.2.1 hqws.2.2.2.2.2, dispatch, if_neg (by simp [hqws.2.1]),
      if_neg (by simp [hqws.2.2.1]), hk, a1, finish_ret hig]
    rfl
  · show P (if ty = .eof then eofText else l2.res)
    rw [if_neg hty]; exact a4

theorem clean_tail {T R : List Byte} (h : Clean T) (hs : R <:+ T) : Clean R := fun b hb => h b (hs.subset hb)

/-- A comment up to the end of the line. -/
theorem token_line {fs} {l : Lex} {ws w rest : List Byte} {n : Nat} (hr : l.res = []) (hi : l.ignore = false)
    (ht : text l = ws ++ 47#8 :: 47#8 :: w ++ rest) (hws : ∀ c ∈ ws, isWs c) (hw : 10#8 ∉ w)
    (hrest : rest = [] ∨ ∃ r, rest = 10#8 :: r) (hc : Clean (text l)) (hn : (text l).length < n) :
    ∃ t l', token (cfg fs) (n + 1) l = some (some t, l') ∧ t.type = COMMENT ∧ text l' = rest ∧
      l'.res = [] ∧ l'.ignore = false := by
  have hl : (text l).length = ws.length + (w.length + rest.length + 2) := by
    rw [ht]; simp only [List.length_append, List.length_cons]; omega
  obtain ⟨t, l', h1, h2, _, h3⟩ := token_user (P := fun _ => True) (q := 47#8) (T := 47#8 :: w ++ rest) (rest := rest) (ty := COMMENT) (fs := fs) (n := n)
    (by simp) rfl (by simp) hr hi (by rw [ht]; simp) hws hc hn (by
      intro l1 t1 c1 _
      obtain ⟨g1, g2, g3, g4⟩ := getchar_cons t1
      obtain ⟨l2, k1, k2, k3⟩ := line_run (n := n) (l := put (getchar l1).2 47#8) hrest hw g2
        (by show Clean (text (getchar l1).2); rw [g2]; exact clean_tail c1 (by rw [t1]; simp)) (by omega)
      refine ⟨l2, ?_, k2, k3.trans g4, trivial⟩
      rw [slash]
      rw [g1, if_neg (by decide), if_neg (by decide), if_pos rfl, k1])
  exact ⟨t, l', h1, h2, h3⟩

/-- A comment of several lines: what the loop reads. -/
theorem token_block {fs} {l : Lex} {ws w rest r2 : List Byte} {n : Nat} (hr : l.res = []) (hi : l.ignore = false)
    (ht : text l = ws ++ 47#8 :: 42#8 :: w ++ rest) (hws : ∀ c ∈ ws, isWs c) (hw : Block w)
    (hend : ∀ {n l}, text l = rest → Clean (text l) → 0 < n → Skips (block n l) l r2)
    (hc : Clean (text l)) (hn : (text l).length < n) :
    ∃ t l', token (cfg fs) (n + 1) l = some (some t, l') ∧ t.type = COMMENT ∧ text l' = r2 ∧
      l'.res = [] ∧ l'.ignore = false := by
  have hl : (text l).length = ws.length + (w.length + rest.length + 2) := by
    rw [ht]; simp only [List.length_append, List.length_cons]; omega
  obtain ⟨t, l', h1, h2, _, h3⟩ := token_user (P := fun _ => True) (q := 47#8) (T := 42#8 :: w ++ rest) (rest := r2) (ty := COMMENT) (fs := fs) (n := n)
    (by simp) rfl (by simp) hr hi (by rw [ht]; simp) hws hc hn (by
      intro l1 t1 c1 _
      obtain ⟨g1, g2, g3, g4⟩ := getchar_cons t1
      obtain ⟨l2, k1, k2, k3⟩ := block_run hw (n := n) (l := put (getchar l1).2 42#8) g2
        (by show Clean (text (getchar l1).2); rw [g2]; exact clean_tail c1 (by rw [t1]; simp)) (by omega) hend
      refine ⟨l2, ?_, k2, k3.trans g4, trivial⟩
      rw [slash]
      rw [g1, if_neg (by decide), if_pos rfl, k1])
  exact ⟨t, l', h1, h2, h3⟩

theorem escape_mem : ∀ n b : Byte, (n, b) ∈ escapes → escape n = some b := by
  intro n b h
  simp only [escapes, List.mem_cons, List.not_mem_nil, Prod.mk.injEq, or_false] at h
  rcases h with ⟨rfl, rfl⟩ | ⟨rfl, rfl⟩ | ⟨rfl, rfl⟩ | ⟨rfl, rfl⟩ | ⟨rfl, rfl⟩ | ⟨rfl, rfl⟩ |
    ⟨rfl, rfl⟩ | ⟨rfl, rfl⟩ | ⟨rfl, rfl⟩ | ⟨rfl, rfl⟩ | ⟨rfl, rfl⟩ <;> rfl

/-- A backslash and what follows it. -/
theorem getEsc_esc {l : Lex} {m b : Byte} {T} (ht : text l = m :: T) (hc : Clean (text l))
    (hm : (m, b) ∈ escapes) :
    ∃ l2, getEsc l 92#8 = (true, l2) ∧ text l2 = T ∧ l2.res = l.res ++ [b] ∧ l2.ignore = l.ignore := by
  obtain ⟨g1, g2, g3, g4⟩ := getchar_cons ht
  have hcm := hc m (by rw [ht]; simp)
  refine ⟨put (getchar l).2 b, ?_, g2, by simp [put, g3], g4⟩
  rw [getEsc, if_pos rfl]; dsimp only
  rw [g1, if_neg hcm.2, escape_mem _ _ hm]

theorem dblq_body {w s} (h : Body w s) :
    ∀ {n l rest}, text l = w ++ 34#8 :: rest → Clean (text l) → w.length < n →
    ∃ l2, dblq n l = ret l2 STRING ∧ text l2 = rest ∧ l2.res = l.res ++ s ∧ l2.ignore = l.ignore := by
  induction h with
  | nil =>
    intro n l rest ht hc hn
    obtain ⟨n, rfl⟩ : ∃ m, n = m + 1 := ⟨n - 1, by simp at hn; omega⟩
    obtain ⟨g1, g2, g3, g4⟩ := getchar_cons ht
    refine ⟨(getchar l).2, ?_, g2, by rw [g3, List.append_nil], g4⟩
    rw [dblq]; dsimp only
    rw [g1, if_neg (by decide), if_neg (by decide), if_pos rfl]
  | @byte c w s hcq hc92 _ ih =>
    intro n l rest ht hc hn
    obtain ⟨n, rfl⟩ : ∃ m, n = m + 1 := ⟨n - 1, by simp at hn; omega⟩
    obtain ⟨g1, g2, g3, g4⟩ := getchar_cons ht
    have hcc := hc c (by rw [ht]; simp)
    have ht2 : text (put (getchar l).2 c) = w ++ 34#8 :: rest := g2
    obtain ⟨l2, a1, a2, a3, a4⟩ := ih (n := n) ht2
      (by rw [ht2]; exact clean_tail hc (by rw [ht]; simp)) (by simp at hn; omega)
    refine ⟨l2, ?_, a2, ?_, a4.trans g4⟩
    · rw [dblq]; dsimp only
      rw [g1, if_neg hcc.2, if_neg hcc.1, if_neg hcq, getEsc, if_neg hc92]
      exact a1
    · rw [a3]; simp [put, g3]
  | @esc m b w s hm _ ih =>
    intro n l rest ht hc hn
    obtain ⟨n, rfl⟩ : ∃ m, n = m + 1 := ⟨n - 1, by simp at hn; omega⟩
    obtain ⟨g1, g2, g3, g4⟩ := getchar_cons ht
    have hcl2 : Clean (text (getchar l).2) := by rw [g2]; exact clean_tail hc (by rw [ht]; exact List.suffix_cons _ _)
    obtain ⟨l3, k1, k2, k3, k4⟩ := getEsc_esc g2 hcl2 hm
    have ht2 : text l3 = w ++ 34#8 :: rest := k2
    obtain ⟨l2, a1, a2, a3, a4⟩ := ih (n := n) ht2
      (by rw [ht2]; exact clean_tail hc (by rw [ht]; exact ⟨[92#8, m], by simp⟩)) (by simp at hn; omega)
    refine ⟨l2, ?_, a2, ?_, a4.trans (k4.trans g4)⟩
    · rw [dblq]; dsimp only
      rw [g1, if_neg (by decide), if_neg (by decide), if_neg (by decide), k1]
      exact a1
    · rw [a3]; simp [g3, k3]

theorem keywords_nodup : keywords.Nodup := by decide

/-- Every token is read as it is written. -/
theorem token_spell {fs} {l : Lex} {ty s ws w rest n} (hr : l.res = []) (hi : l.ignore = false)
    (ht : text l = ws ++ w ++ rest) (hws : ∀ c ∈ ws, isWs c) (hx : Spell ty s w rest)
    (hc : Clean (text l)) (hn : (text l).length < n) :
    ∃ t l', token (cfg fs) (n + 1) l = some (some t, l') ∧ t.type = ty ∧ t.text = s ∧ text l' = rest ∧
      l'.res = [] ∧ l'.ignore = false := by
  cases hx with
  | plain h1 h2 h3 h4 h5 h6 h7 =>
    obtain ⟨t, l', a1, a2, a3, a4, _⟩ := token_lexeme (cfg := cfg fs) keywords_nodup
      (fun b hb => by
        have e1 : b ≠ 34#8 := by rintro rfl; exact h3 hb
        have e2 : b ≠ 39#8 := by rintro rfl; exact h4 hb
        have e3 : b ≠ 35#8 := by rintro rfl; exact h5 hb
        have e4 : b ≠ 47#8 := by rintro rfl; exact h6 hb
        simp [cfg, e1, e2, e3, e4])
      hr hi ht hws h1 hc (Nat.succ_lt_succ hn)
    exact ⟨t, l', a1, a2, a3 h2, a4.text, a4.res, a4.ignore.trans hi⟩
  | @str w _ _ hb =>
    have hl : (text l).length = ws.length + (w.length + rest.length + 2) := by rw [ht]; simp; omega
    exact token_user (P := (· = s)) (q := 34#8) (T := w ++ 34#8 :: rest) (f := fun n l => dblq n (clean l)) (by simp)
      (by simp [cfg]) (by simp) hr hi (by rw [ht]; simp) hws hc hn (by
        intro l1 t1 c1 _
        obtain ⟨l2, a1, a2, a3, a4⟩ := dblq_body hb (n := n) (l := clean l1) t1 c1 (by omega)
        exact ⟨l2, a1, a2, a4, by rw [a3]; rfl⟩)
  | @chr c _ h1 h2 h3 =>
    exact token_user (P := (· = [c])) (q := 39#8) (T := c :: 39#8 :: rest) (f := fun _ l => sglq l) (by simp)
      (by simp [cfg]) (by simp) hr hi (by rw [ht]; simp) hws hc hn (by
        intro l1 t1 c1 _
        obtain ⟨g1, g2, g3, g4⟩ := getchar_cons (l := clean l1) t1
        have g2' : text (put (getchar (clean l1)).2 c) = 39#8 :: rest := g2
        obtain ⟨k1, k2, k3, k4⟩ := getchar_cons g2'
        refine ⟨_, ?_, k2, k4.trans g4, ?_⟩
        · rw [sglq]; dsimp only
          rw [g1, if_neg (c1 c (by rw [t1]; simp)).2, if_neg (by rintro (h | h); omega; exact h2 h), getEsc, if_neg h3]
          dsimp only
          rw [k1, if_neg (by decide), if_neg (by decide), if_neg (by decide)]
        · rw [k3]; show (getchar (clean l1)).2.res ++ [c] = _; rw [g3]; rfl)
  | @chrEsc m b _ hm =>
    exact token_user (P := (· = [b])) (q := 39#8) (T := 92#8 :: m :: 39#8 :: rest) (f := fun _ l => sglq l) (by simp)
      (by simp [cfg]) (by simp) hr hi (by rw [ht]; simp) hws hc hn (by
        intro l1 t1 c1 _
        obtain ⟨g1, g2, g3, g4⟩ := getchar_cons (l := clean l1) t1
        obtain ⟨l3, e1, e2, e3, e4⟩ := getEsc_esc g2 (by rw [g2]; exact clean_tail c1 (by rw [t1]; exact List.suffix_cons _ _)) hm
        obtain ⟨k1, k2, k3, k4⟩ := getchar_cons e2
        refine ⟨_, ?_, k2, k4.trans (e4.trans g4), ?_⟩
        · rw [sglq]; dsimp only
          rw [g1, if_neg (by decide), if_neg (by decide), e1]
          dsimp only
          rw [k1, if_neg (by decide), if_neg (by decide), if_neg (by decide)]
        · rw [k3, e3, g3]; rfl)

theorem spell_ne {ty s w rest} (h : Spell ty s w rest) : w ≠ [] := by
  cases h with
  | plain h h1 =>
    cases h with
    | eof => exact absurd rfl h1
    | id h => obtain ⟨⟨c, cs, rfl, _⟩, _⟩ := h; simp
    | kw h => obtain ⟨⟨c, cs, rfl, _⟩, _⟩ := h; simp
    | under => simp
    | spec => simp
    | num h => obtain ⟨⟨c, cs, rfl, _⟩, _⟩ := number_shape h; simp
  | str => simp
  | chr => simp
  | chrEsc => simp

theorem kw_lt {w i rest} (h : Lexeme keywords (.kw i) w rest) : i < 2 := by
  cases h with
  | kw _ _ h => exact (List.getElem?_eq_some_iff.mp h).1
  | num h => simp [IsNumber] at h

theorem spell_type {ty s w rest} (h : Spell ty s w rest) : ty ≠ .eof ∧ ty ≠ COMMENT ∧ ty ≠ SUB := by
  cases h with
  | plain h h1 _ _ _ _ h2 =>
    refine ⟨h1, ?_, h2⟩
    rintro rfl
    exact absurd (kw_lt h) (by omega)
  | str => simp
  | chr => simp
  | chrEsc => simp

/-! ## Gaps and signs -/

/-- Comments before a token are read away. -/
theorem gap_skip {fs F g} (h : Gap g) : ∀ {pre : List Byte} {l rest n}, (∀ c ∈ pre, isWs c) →
    text l = pre ++ g ++ rest → Clean (text l) → l.res = [] → l.ignore = false → (text l).length + 1 < F →
    (text l).length < n →
    ∃ ws l1 m, confToken fs F n false l = confToken fs F m false l1 ∧ text l1 = ws ++ rest ∧
      (∀ c ∈ ws, isWs c) ∧ l1.res = [] ∧ l1.ignore = false ∧ text l1 <:+ text l ∧
      n + (text l1).length ≤ m + (text l).length := by
  induction h with
  | nil =>
    intro pre l rest n hp ht hc hr hi hF hn
    exact ⟨pre, l, n, rfl, by simpa using ht, hp, hr, hi, List.suffix_refl _, le_refl _⟩
  | @ws c g hcw _ ih =>
    intro pre l rest n hp ht hc hr hi hF hn
    exact ih (pre := pre ++ [c]) (by simp; rintro x (hx | rfl); exacts [hp x hx, hcw]) (by rw [ht]; simp) hc hr hi hF hn
  | @line w g hw _ ih =>
    intro pre l rest n hp ht hc hr hi hF hn
    obtain ⟨F, rfl⟩ : ∃ m, F = m + 1 := ⟨F - 1, by omega⟩
    obtain ⟨n, rfl⟩ : ∃ m, n = m + 1 := ⟨n - 1, by omega⟩
    have ht' : text l = pre ++ 47#8 :: 47#8 :: w ++ (10#8 :: (g ++ rest)) := by rw [ht]; simp
    obtain ⟨t, l', a1, a2, a3, a4, a5⟩ := token_line (fs := fs) (n := F) hr hi ht' hp hw (.inr ⟨_, rfl⟩) hc (by omega)
    have hs : text l' <:+ text l := by rw [a3, ht']; exact List.suffix_append _ _
    have hle : (text l').length + (pre.length + w.length + 2) = (text l).length := by
      rw [a3, ht']; simp only [List.length_append, List.length_cons]; omega
    obtain ⟨ws, l1, m, b1, b2, b3, b4, b5, b6, b7⟩ := ih (pre := [10#8]) (l := l') (rest := rest) (n := n)
      (by simp; decide) (by rw [a3]; simp) (clean_tail hc hs) a4 a5 (by omega) (by omega)
    refine ⟨ws, l1, m, ?_, b2, b3, b4, b5, b6.trans hs, by omega⟩
    rw [confToken, a1]
    simp only [Option.bind_eq_bind, Option.bind_some]
    rw [if_pos a2, if_neg (by decide), b1]
  | @block w g hw he _ ih =>
    intro pre l rest n hp ht hc hr hi hF hn
    obtain ⟨F, rfl⟩ : ∃ m, F = m + 1 := ⟨F - 1, by omega⟩
    obtain ⟨n, rfl⟩ : ∃ m, n = m + 1 := ⟨n - 1, by omega⟩
    have ht' : text l = pre ++ 47#8 :: 42#8 :: w ++ (42#8 :: 47#8 :: (g ++ rest)) := by rw [ht]; simp
    obtain ⟨t, l', a1, a2, a3, a4, a5⟩ := token_block (fs := fs) (n := F) (r2 := g ++ rest) hr hi ht' hp
      (block_of _ (le_refl _) hw he) (fun h _ h' => block_close h h') hc (by omega)
    have hs : text l' <:+ text l := by
      rw [a3, ht']; exact ⟨pre ++ 47#8 :: 42#8 :: w ++ [42#8, 47#8], by simp⟩
    have hle : (text l').length + (pre.length + w.length + 4) = (text l).length := by
      rw [a3, ht']; simp only [List.length_append, List.length_cons]; omega
    obtain ⟨ws, l1, m, b1, b2, b3, b4, b5, b6, b7⟩ := ih (pre := []) (l := l') (rest := rest) (n := n)
      (by simp) (by rw [a3]; simp) (clean_tail hc hs) a4 a5 (by omega) (by omega)
    refine ⟨ws, l1, m, ?_, b2, b3, b4, b5, b6.trans hs, by omega⟩
    rw [confToken, a1]
    simp only [Option.bind_eq_bind, Option.bind_some]
    rw [if_pos a2, if_neg (by decide), b1]

/-- A token with blanks before it. -/
theorem conf_signed {fs F n} {l : Lex} {ty s ws w rest} (hr : l.res = []) (hi : l.ignore = false)
    (ht : text l = ws ++ w ++ rest) (hws : ∀ c ∈ ws, isWs c) (hx : Signed ty s w rest)
    (hc : Clean (text l)) (hF : (text l).length + 1 < F) (hn : (text l).length + 1 < n) :
    ∃ t l', confToken fs F n false l = some (some t, l') ∧ t.type = ty ∧ t.text = s ∧ text l' = rest ∧
      l'.res = [] ∧ l'.ignore = false := by
  obtain ⟨F, rfl⟩ : ∃ m, F = m + 1 := ⟨F - 1, by omega⟩
  obtain ⟨n, rfl⟩ : ∃ m, n = m + 1 := ⟨n - 1, by omega⟩
  cases hx with
  | pos h =>
    obtain ⟨t, l', a1, a2, a3, a4, a5⟩ := token_spell (fs := fs) (n := F) hr hi ht hws h hc (by omega)
    obtain ⟨_, h2, h3⟩ := spell_type h
    refine ⟨t, l', ?_, a2, a3, a4, a5⟩
    rw [confToken, a1]
    simp only [Option.bind_eq_bind, Option.bind_some]
    rw [if_neg (by rw [a2]; exact h2), if_neg (by rw [a2]; exact h3), if_pos trivial]
  | @neg s ws2 w _ hty hws2 h =>
    obtain ⟨t, l', a1, a2, a3, a4, a5⟩ := token_lexeme (cfg := cfg fs) (n := F + 1) (l := l) (ty := SUB) (ws := ws) (w := [45#8])
      (rest := ws2 ++ w ++ rest) keywords_nodup (fun b hb => by cases hb; rfl) hr hi (by rw [ht]; simp) hws
      (.spec (by decide) (by decide)) hc (by omega)
    have hs : text l' <:+ text l := by
      rw [a4.text, ht]; exact ⟨ws ++ [45#8], by simp⟩
    have hle : (text l').length + (ws.length + 1) = (text l).length := by
      rw [a4.text, ht]; simp only [List.length_append, List.length_cons]; omega
    obtain ⟨t2, l2, b1, b2, b3, b4, b5⟩ := token_spell (fs := fs) (n := F) a4.res (a4.ignore.trans hi) a4.text hws2 h
      (clean_tail hc hs) (by omega)
    obtain ⟨_, h2, h3⟩ := spell_type h
    obtain ⟨n, rfl⟩ : ∃ m, n = m + 1 := ⟨n - 1, by omega⟩
    refine ⟨{ t2 with text := 45#8 :: t2.text }, l2, ?_, b2, by simp [b3], b4, b5⟩
    rw [confToken, a1]
    simp only [Option.bind_eq_bind, Option.bind_some]
    rw [if_neg (by rw [a2]; decide), if_pos a2, if_neg (by decide), confToken, b1]
    simp only [Option.bind_eq_bind, Option.bind_some]
    rw [if_neg (by rw [b2]; exact h2), if_neg (by rw [b2]; exact h3), if_neg (by decide), if_pos (by rw [b2]; exact hty)]

/-- Only blanks are left. -/
theorem conf_end {fs F n} {l : Lex} (hr : l.res = []) (hi : l.ignore = false) (hws : ∀ c ∈ text l, isWs c)
    (hc : Clean (text l)) (hF : (text l).length + 1 < F) (hn : 0 < n) :
    ∃ t l', confToken fs F n false l = some (some t, l') ∧ t.type = .eof ∧ text l' = [] ∧
      l'.res = [] ∧ l'.ignore = false := by
  obtain ⟨n, rfl⟩ : ∃ m, n = m + 1 := ⟨n - 1, by omega⟩
  obtain ⟨t, l', a1, a2, a3, a4, _⟩ := token_lexeme (cfg := cfg fs) (l := l) (ws := text l) (w := []) (rest := [])
    keywords_nodup (fun b hb => by cases hb) hr hi (by simp) hws .eof hc hF
  refine ⟨t, l', ?_, a2, a4.text, a4.res, a4.ignore.trans hi⟩
  rw [confToken, a1]
  simp only [Option.bind_eq_bind, Option.bind_some]
  rw [if_neg (by rw [a2]; decide), if_neg (by rw [a2]; decide), if_pos trivial]

/-- The end, with comments before it. -/
theorem conf_last {fs F n} {l : Lex} (hr : l.res = []) (hi : l.ignore = false) (h : Last (text l))
    (hc : Clean (text l)) (hF : (text l).length + 1 < F) (hn : (text l).length + 1 < n) :
    ∃ t l', confToken fs F n false l = some (some t, l') ∧ t.type = .eof ∧ text l' = [] ∧
      l'.res = [] ∧ l'.ignore = false := by
  generalize hT : text l = T at h
  cases h with
  | gap hg =>
    obtain ⟨ws, l1, m, b1, b2, b3, b4, b5, b6, b7⟩ := gap_skip (fs := fs) hg (pre := []) (l := l) (rest := []) (n := n) (by simp) (by simp [hT])
      hc hr hi hF (by omega)
    rw [b1]
    rw [List.append_nil] at b2
    have := b6.length_le
    exact conf_end b4 b5 (b2.symm ▸ b3) (clean_tail hc b6) (by omega) (by omega)
  | @line g w hg hw =>
    obtain ⟨ws, l1, m, b1, b2, b3, b4, b5, b6, b7⟩ := gap_skip (fs := fs) hg (pre := []) (l := l) (n := n) (by simp) (by simpa using hT)
      hc hr hi hF (by omega)
    have := b6.length_le
    obtain ⟨F, rfl⟩ : ∃ m, F = m + 1 := ⟨F - 1, by omega⟩
    obtain ⟨m, rfl⟩ : ∃ k, m = k + 1 := ⟨m - 1, by omega⟩
    obtain ⟨t, l2, a1, a2, a3, a4, a5⟩ := token_line (fs := fs) (n := F) (rest := []) b4 b5 (by rw [b2]; simp) b3 hw (.inl rfl)
      (clean_tail hc b6) (by omega)
    have h1 : 0 < (text l1).length := by rw [b2]; simp; omega
    obtain ⟨t2, l3, c1, c2⟩ := conf_end (fs := fs) (F := F + 1) (n := m) a4 a5 (by simp [a3]) (by simp [a3, Clean])
      (by simp [a3]; omega) (by omega)
    refine ⟨t2, l3, ?_, c2⟩
    rw [b1, confToken, a1]
    simp only [Option.bind_eq_bind, Option.bind_some]
    rw [if_pos a2, if_neg (by decide), c1]
  | @block g w hg hw =>
    obtain ⟨ws, l1, m, b1, b2, b3, b4, b5, b6, b7⟩ := gap_skip (fs := fs) hg (pre := []) (l := l) (n := n) (by simp) (by simpa using hT)
      hc hr hi hF (by omega)
    have := b6.length_le
    obtain ⟨F, rfl⟩ : ∃ m, F = m + 1 := ⟨F - 1, by omega⟩
    obtain ⟨m, rfl⟩ : ∃ k, m = k + 1 := ⟨m - 1, by omega⟩
    have hb : ∃ t l', token (cfg fs) (F + 1) l1 = some (some t, l') ∧ t.type = COMMENT ∧ text l' = [] ∧
        l'.res = [] ∧ l'.ignore = false := by
      rcases block_open _ (le_refl _) hw with hw | ⟨v, rfl, hv⟩
      · exact token_block (rest := []) b4 b5 (by rw [b2]; simp) b3 hw (fun h _ h' => block_end h h') (clean_tail hc b6) (by omega)
      · exact token_block (rest := [42#8]) b4 b5 (by rw [b2]; simp) b3 hv (fun h _ h' => block_star_end h h') (clean_tail hc b6) (by omega)
    obtain ⟨t, l2, a1, a2, a3, a4, a5⟩ := hb
    have h1 : 0 < (text l1).length := by rw [b2]; simp; omega
    obtain ⟨t2, l3, c1, c2⟩ := conf_end (fs := fs) (F := F + 1) (n := m) a4 a5 (by simp [a3]) (by simp [a3, Clean])
      (by simp [a3]; omega) (by omega)
    refine ⟨t2, l3, ?_, c2⟩
    rw [b1, confToken, a1]
    simp only [Option.bind_eq_bind, Option.bind_some]
    rw [if_pos a2, if_neg (by decide), c1]

/-! ## Texts -/

theorem signed_ne {ty s w rest} (h : Signed ty s w rest) : w ≠ [] := by
  cases h with
  | pos h => exact spell_ne h
  | neg => simp

theorem signed_type {ty s w rest} (h : Signed ty s w rest) : ty ≠ .eof := by
  cases h with
  | pos h => exact (spell_type h).1
  | neg _ _ h => exact (spell_type h).1

theorem written_length {T ts} (h : Written T ts) : ts.length ≤ T.length := by
  induction h with
  | nil => simp
  | cons _ h _ ih =>
    have := List.length_pos_iff.mpr (signed_ne h)
    simp
    omega

/-- The lexer has still the tokens `ts` to read. -/
structure Reads (E : Env) (l : Lex) (ts : List (Ty × List Byte)) : Prop where
  written : Written (text l) ts
  res : l.res = []
  ignore : l.ignore = false
  clean : Clean (text l)
  small : (text l).length + 1 < E.fuel

/-- The next token. -/
theorem reads_token {E : Env} {l ty s ts} (h : Reads E l ((ty, s) :: ts)) :
    ∃ t l', E.token l = some (some t, l') ∧ t.type = ty ∧ t.text = s ∧ Reads E l' ts := by
  obtain ⟨hw, hr, hi, hcl, hlen⟩ := h
  generalize hT : text l = T at hw
  cases hw with
  | @cons _ _ g w rest _ hg hx hw =>
    obtain ⟨ws, l1, m, b1, b2, b3, b4, b5, b6, b7⟩ := gap_skip (fs := E.fs) hg (pre := []) (l := l) (n := E.fuel) (F := E.fuel) (rest := w ++ rest)
      (by simp) (by rw [hT]; simp) hcl hr hi hlen (by omega)
    have := b6.length_le
    obtain ⟨t, l', a1, a2, a3, a4, a5, a6⟩ := conf_signed (fs := E.fs) (F := E.fuel) (n := m) b4 b5
      (by rw [b2, List.append_assoc]) b3 hx (clean_tail hcl b6) (by omega) (by omega)
    have hs : text l' <:+ text l1 := by rw [a4, b2]; exact ⟨ws ++ w, by simp⟩
    have := hs.length_le
    exact ⟨t, l', b1.trans a1, a2, a3, ⟨a4 ▸ hw, a5, a6, clean_tail hcl (hs.trans b6), by omega⟩⟩

/-- The end. -/
theorem reads_end {E : Env} {l} (h : Reads E l []) :
    ∃ t l', E.token l = some (some t, l') ∧ t.type = .eof ∧ Reads E l' [] := by
  obtain ⟨hw, hr, hi, hcl, hlen⟩ := h
  generalize hT : text l = T at hw
  cases hw with
  | nil hg =>
    obtain ⟨t, l', a1, a2, a3, a4, a5⟩ := conf_last (fs := E.fs) (F := E.fuel) (n := E.fuel) hr hi (hT ▸ hg) hcl hlen hlen
    exact ⟨t, l', a1, a2, ⟨a3 ▸ .nil (.gap .nil), a4, a5, by simp [a3, Clean], by rw [a3]; simp; omega⟩⟩

theorem reads_file {E : Env} {path T ts} (h : Written T ts) (hc : Clean T) (hn : T.length + 1 < E.fuel) :
    Reads E (initFile path T) ts := by
  have e : text (initFile path T) = T := by simp [text, initFile, pushFile, push, Input.rest]
  exact ⟨e.symm ▸ h, rfl, rfl, e.symm ▸ hc, e.symm ▸ hn⟩

end Verif.Conf
