import Verif.Lex
import Mathlib.Data.List.TakeWhile
/-
Properties of the lexer without preprocessor: the tokens are exactly the lexemes of the text.
-/
namespace Verif.Lex

/-! ## What is left to read -/

def Input.rest (i : Input) : List Byte := i.buf.drop i.pos ++ i.left

/-- The bytes not read yet. -/
def text (l : Lex) : List Byte := (l.cur.toList ++ l.stack).flatMap Input.rest

/-- The fields that reading leaves alone. -/
def Same (l l' : Lex) : Prop :=
  l'.err = l.err ∧ l'.ignore = l.ignore ∧ l'.macros = l.macros ∧ l'.level = l.level ∧
  l'.matched = l.matched

theorem Same.refl (l : Lex) : Same l l := ⟨rfl, rfl, rfl, rfl, rfl⟩
theorem Same.trans {a b c : Lex} (h : Same a b) (k : Same b c) : Same a c :=
  ⟨k.1.trans h.1, k.2.1.trans h.2.1, k.2.2.1.trans h.2.2.1, k.2.2.2.1.trans h.2.2.2.1,
   k.2.2.2.2.trans h.2.2.2.2⟩

/-- There is at most one input; its line to go back to is `b` and its path `k`. -/
def Single (l : Lex) (b : Nat) (k : Option (List Byte)) : Prop :=
  l.cur.toList ++ l.stack = [] ∨ ∃ i, l.cur.toList ++ l.stack = [i] ∧ i.line = b ∧ i.path = k

/-- `c` is the next byte of `T`, it has been read and the lexer `l` can step back; or `T` is empty and
`c` is the end. -/
def Pending (c : Byte) (l : Lex) (T : List Byte) : Prop :=
  (∃ i, l.cur = some i ∧ 0 < i.pos ∧ i.buf.drop (i.pos - 1) = c :: i.buf.drop i.pos ∧ T = c :: text l) ∨
  (T = [] ∧ c = EOF ∧ l.cur = none ∧ l.stack = [])

theorem getTop_spec : ∀ (is : List Input) (line : Nat),
    (∀ b bs, is.flatMap Input.rest = b :: bs →
      (getTop line is).1 = b ∧
      (∃ i, (getTop line is).2.1 = some i ∧ 0 < i.pos ∧
        i.buf.drop (i.pos - 1) = b :: i.buf.drop i.pos ∧
        i.rest ++ (getTop line is).2.2.1.flatMap Input.rest = bs ∧
        (∀ j, is = [j] → (getTop line is).2.2.1 = [] ∧ i.line = j.line ∧ i.path = j.path ∧
          (getTop line is).2.2.2 = line))) ∧
    (is.flatMap Input.rest = [] →
      (getTop line is).1 = EOF ∧ (getTop line is).2.1 = none ∧ (getTop line is).2.2.1 = [] ∧
      (is = [] → (getTop line is).2.2.2 = line) ∧
      (∀ j, is = [j] → (getTop line is).2.2.2 = j.line)) := by
  intro is
  induction is with
  | nil => intro line; exact ⟨by intro b bs h; simp at h, fun _ => ⟨rfl, rfl, rfl, fun _ => rfl, by intro j h; cases h⟩⟩
  | cons i st ih =>
    intro line
    rw [getTop]
    cases hd : i.buf.drop i.pos with
    | cons x xs =>
      refine ⟨?_, ?_⟩
      · intro b bs h
        simp only [List.flatMap_cons, Input.rest, hd, List.cons_append, List.cons.injEq] at h
        obtain ⟨rfl, h⟩ := h
        refine ⟨rfl, _, rfl, Nat.succ_pos _, ?_, ?_, ?_⟩
        · simp only [Nat.add_sub_cancel]
          rw [hd, ← List.drop_drop, hd]
          rfl
        · rw [← h]
          simp only [Input.rest]
          rw [← List.drop_drop, hd]
          rfl
        · intro j hj
          cases hj
          exact ⟨rfl, rfl, rfl, rfl⟩
      · intro h
        simp [Input.rest, hd] at h
    | nil =>
      cases hl : i.left with
      | cons x xs =>
        refine ⟨?_, ?_⟩
        · intro b bs h
          simp only [List.flatMap_cons, Input.rest, hd, hl, List.nil_append, List.cons_append, List.cons.injEq] at h
          obtain ⟨rfl, h⟩ := h
          refine ⟨rfl, _, rfl, Nat.one_pos, ?_, ?_, ?_⟩
          · rfl
          · rw [← h]
            simp only [Input.rest]
            show (List.drop 1 (x :: List.take 4094 xs) ++ List.drop 4094 xs) ++ _ = _
            simp
          · intro j hj
            cases hj
            exact ⟨rfl, rfl, rfl, rfl⟩
        · intro h
          simp [Input.rest, hl] at h
      | nil =>
        have h0 : (i :: st).flatMap Input.rest = st.flatMap Input.rest := by simp [Input.rest, hd, hl]
        rw [h0]
        obtain ⟨h1, h2⟩ := ih i.line
        refine ⟨?_, ?_⟩
        · intro b bs h
          obtain ⟨a1, i', a2, a3, a4, a5, _⟩ := h1 b bs h
          refine ⟨a1, i', a2, a3, a4, a5, ?_⟩
          intro j hj
          cases hj
          simp at h
        · intro h
          obtain ⟨a1, a2, a3, a4, _⟩ := h2 h
          refine ⟨a1, a2, a3, (by intro h; cases h), ?_⟩
          intro j hj
          cases hj
          exact a4 rfl

/-- Reading: the next byte is pending. -/
theorem getchar_pending (l : Lex) :
    Pending (getchar l).1 (getchar l).2 (text l) ∧ (getchar l).2.res = l.res ∧ Same l (getchar l).2 ∧
    ∀ b k, Single l b k → Single (getchar l).2 b k ∧
      (text l ≠ [] → (getchar l).2.line = l.line ∧ (getchar l).2.cur.bind (·.path) = k) ∧
      (text l = [] → (getchar l).2.line = if l.cur.toList ++ l.stack = [] then l.line else b) := by
  obtain ⟨h1, h2⟩ := getTop_spec (l.cur.toList ++ l.stack) l.line
  refine ⟨?_, rfl, Same.refl _, ?_⟩
  · cases ht : text l with
    | nil =>
      obtain ⟨a1, a2, a3, _⟩ := h2 ht
      exact .inr ⟨rfl, a1, a2, a3⟩
    | cons x xs =>
      obtain ⟨a1, i, a2, a3, a4, a5, _⟩ := h1 x xs ht
      refine .inl ⟨i, a2, a3, ?_, ?_⟩
      · show _ = (getTop l.line (l.cur.toList ++ l.stack)).1 :: _
        rw [a1]; exact a4
      · show _ = (getTop l.line (l.cur.toList ++ l.stack)).1 :: _
        rw [a1]
        congr 1
        rw [← a5]
        simp [text, getchar, a2]
  · intro b k hs
    cases ht : text l with
    | nil =>
      obtain ⟨_, a2, a3, a4, a5⟩ := h2 ht
      refine ⟨.inl ?_, by simp, ?_⟩
      · simp [getchar, a2, a3]
      · intro _
        rcases hs with hs | ⟨i, hs, hb, _⟩
        · rw [if_pos hs]; exact a4 hs
        · rw [if_neg (by simp [hs])]
          rw [← hb]
          exact a5 i hs
    | cons x xs =>
      obtain ⟨a1, i, a2, a3, a4, a5, a6⟩ := h1 x xs ht
      rcases hs with hs | ⟨j, hs, hb, hk⟩
      · rw [text, hs] at ht; simp at ht
      · obtain ⟨b1, b2, b3, b4⟩ := a6 j hs
        refine ⟨.inr ⟨i, ?_, b2.trans hb, b3.trans hk⟩, ?_, by simp⟩
        · simp [getchar, a2, b1]
        · intro _
          refine ⟨b4, ?_⟩
          simp [getchar, a2, b3, hk]

theorem pending_text {c l T} (h : Pending c l T) : text l = T.tail := by
  rcases h with ⟨i, _, _, _, rfl⟩ | ⟨rfl, _, h1, h2⟩
  · rfl
  · simp [text, h1, h2]

theorem pending_ne {c l T} (h : Pending c l T) (hT : T ≠ []) : T = c :: text l := by
  rcases h with ⟨i, _, _, _, rfl⟩ | ⟨rfl, _⟩
  · rfl
  · exact absurd rfl hT

/-- Changes that do not touch the inputs. -/
theorem pending_of {c l l' T} (h : Pending c l T) (h1 : l'.cur = l.cur) (h2 : l'.stack = l.stack) :
    Pending c l' T := by
  rcases h with ⟨i, a, b, d, rfl⟩ | ⟨rfl, a, b, d⟩
  · exact .inl ⟨i, by rw [h1, a], b, d, by simp [text, h1, h2]⟩
  · exact .inr ⟨rfl, a, by rw [h1, b], by rw [h2, d]⟩

/-- A byte that has been read can be given back. -/
theorem stepback_pending {c l T} (h : Pending c l T) (hc : T ≠ [] → c ≠ EOF) :
    ∃ l', stepback l c = some l' ∧ text l' = T ∧ l'.res = l.res ∧ Same l l' ∧ l'.line = l.line ∧
      l'.cur.bind (·.path) = l.cur.bind (·.path) ∧ ∀ b k, Single l b k → Single l' b k := by
  rcases h with ⟨i, a, b, d, rfl⟩ | ⟨rfl, a, b, d⟩
  · have hne := hc (by simp)
    rw [stepback, if_neg hne, a]
    dsimp only
    rw [if_neg (by omega)]
    refine ⟨_, rfl, ?_, rfl, Same.refl _, rfl, ?_, ?_⟩
    · simp only [text, Option.toList_some, List.cons_append, List.nil_append, List.flatMap_cons]
      rw [a]
      simp only [Option.toList_some, List.cons_append, List.nil_append, List.flatMap_cons, Input.rest, d]
    · simp
    · intro b' k hs
      rcases hs with hs | ⟨j, hs, h1, h2⟩
      · simp [a] at hs
      · right
        rw [a] at hs
        simp only [Option.toList_some, List.cons_append, List.nil_append, List.cons.injEq] at hs
        refine ⟨{ i with pos := i.pos - 1 }, ?_, ?_, ?_⟩
        · simp [hs.2]
        · rw [← h1, ← hs.1]
        · rw [← h2, ← hs.1]
  · rw [stepback, if_pos a]
    exact ⟨l, rfl, by simp [text, b, d], rfl, Same.refl _, rfl, rfl, fun _ _ h => h⟩

/-! ## Loops -/

theorem while_pending {p : Byte → Bool} (hp : p EOF = false) : ∀ n c l T, Pending c l T → T.length < n →
    ∃ c' l', while_ p n c l = some (c', l') ∧ Pending c' l' (T.dropWhile p) ∧
      l'.res = l.res ++ T.takeWhile p ∧ Same l l' ∧
      ∀ b k, Single l b k → Single l' b k ∧
        (T.dropWhile p ≠ [] → l'.line = l.line ∧ l'.cur.bind (·.path) = l.cur.bind (·.path)) ∧
        (T.dropWhile p = [] → T ≠ [] → l'.line = b) := by
  intro n
  induction n with
  | zero => intro c l T _ h; omega
  | succ n ih =>
    intro c l T hP hn
    rw [while_]
    by_cases hc : p c = true
    · rw [if_pos hc]
      have hT : T ≠ [] := by
        rintro rfl
        rcases hP with ⟨i, _, _, _, h⟩ | ⟨_, h, _⟩
        · cases h
        · rw [h, hp] at hc; cases hc
      have e := pending_ne hP hT
      obtain ⟨g1, g2, g3, g4⟩ := getchar_pending (put l c)
      have et : text (put l c) = text l := rfl
      rw [et] at g1 g4
      obtain ⟨c', l', a1, a2, a3, a4, a5⟩ := ih _ _ _ g1 (by rw [e] at hn; simp at hn; omega)
      refine ⟨c', l', a1, ?_, ?_, g3.trans a4, ?_⟩
      · rw [e, List.dropWhile_cons_of_pos hc]; exact a2
      · rw [a3, g2, e, List.takeWhile_cons_of_pos hc]
        simp [put]
      · intro b k hs
        obtain ⟨b1, b2, b3⟩ := g4 b k hs
        obtain ⟨d1, d2, d3⟩ := a5 b k b1
        rw [e, List.dropWhile_cons_of_pos hc]
        refine ⟨d1, ?_, ?_⟩
        · intro h
          have ht : text l ≠ [] := by intro h0; rw [h0] at h; exact h rfl
          obtain ⟨e1, e2⟩ := d2 h
          obtain ⟨f1, f2⟩ := b2 ht
          refine ⟨e1.trans f1, ?_⟩
          rw [e2, f2]
          rcases hP with ⟨i, hi, _⟩ | ⟨h, _⟩
          · rcases hs with hs | ⟨j, hs, _, hk⟩
            · simp [hi] at hs
            · rw [hi] at hs
              simp only [Option.toList_some, List.cons_append, List.nil_append, List.cons.injEq] at hs
              rw [hi, ← hk, hs.1]
              rfl
          · exact absurd h hT
        · intro h _
          by_cases ht : text l = []
          · rw [ht] at g1
            rw [show text (put l c) = text l from rfl] at *
            have : l' = (getchar (put l c)).2 := by
              have hw : while_ p n (getchar (put l c)).1 (getchar (put l c)).2 = some (c', l') := a1
              rcases g1 with ⟨i, _, _, _, h⟩ | ⟨_, hE, _⟩
              · cases h
              · cases n with
                | zero => cases hw
                | succ n =>
                  rw [while_, hE, if_neg (by rw [hp]; decide)] at hw
                  cases hw
                  rfl
            rw [this, b3 ht, if_neg]
            rcases hP with ⟨i, hi, _⟩ | ⟨h, _⟩
            · show ¬ l.cur.toList ++ l.stack = []
              simp [hi]
            · exact absurd h hT
          · exact d3 h ht
    · rw [if_neg hc]
      have ed : T.dropWhile p = T := by
        cases T with
        | nil => rfl
        | cons x xs =>
          have := pending_ne hP (by simp)
          simp only [List.cons.injEq] at this
          rw [List.dropWhile_cons_of_neg (by rw [this.1]; exact hc)]
      have et : T.takeWhile p = [] := by
        cases T with
        | nil => rfl
        | cons x xs =>
          have := pending_ne hP (by simp)
          simp only [List.cons.injEq] at this
          rw [List.takeWhile_cons_of_neg (by rw [this.1]; exact hc)]
      rw [ed, et]
      exact ⟨c, l, rfl, hP, by simp, Same.refl _, fun b k hs => ⟨hs, fun _ => ⟨rfl, rfl⟩, fun h1 h2 => absurd h1 h2⟩⟩

/-- Newlines, blanks and tabulators. -/
def isWs (c : Byte) : Bool := c = 10#8 || c = 32#8 || c = 9#8

theorem lead_pending : ∀ n c l T, Pending c l T → T.length < n →
    ∃ c' l', lead n c l = some (c', l') ∧ Pending c' l' (T.dropWhile isWs) ∧
      l'.res = l.res ∧ Same l l' ∧
      ∀ b k, Single l b k → Single l' b k ∧
        (T.dropWhile isWs ≠ [] → l'.line = l.line + (T.takeWhile isWs).count 10#8 ∧
          l'.cur.bind (·.path) = l.cur.bind (·.path)) ∧
        (T.dropWhile isWs = [] → T ≠ [] → l'.line = b) := by
  intro n
  induction n with
  | zero => intro c l T _ h; omega
  | succ n ih =>
    intro c l T hP hn
    -- one step: `m` newlines are counted
    have step : ∀ m, isWs c = true → (if c = 10#8 then 1 else 0) = m →
        lead (n + 1) c l = lead n (getchar { l with line := l.line + m }).1
          (getchar { l with line := l.line + m }).2 →
        ∃ c' l', lead (n + 1) c l = some (c', l') ∧ Pending c' l' (T.dropWhile isWs) ∧
          l'.res = l.res ∧ Same l l' ∧
          ∀ b k, Single l b k → Single l' b k ∧
            (T.dropWhile isWs ≠ [] → l'.line = l.line + (T.takeWhile isWs).count 10#8 ∧
              l'.cur.bind (·.path) = l.cur.bind (·.path)) ∧
            (T.dropWhile isWs = [] → T ≠ [] → l'.line = b) := by
      intro m hc hm hl
      have hT : T ≠ [] := by
        rintro rfl
        rcases hP with ⟨i, _, _, _, h⟩ | ⟨_, h, _⟩
        · cases h
        · rw [h] at hc; revert hc; decide
      have e := pending_ne hP hT
      obtain ⟨g1, g2, g3, g4⟩ := getchar_pending { l with line := l.line + m }
      have et : text { l with line := l.line + m } = text l := rfl
      rw [et] at g1 g4
      obtain ⟨c', l', a1, a2, a3, a4, a5⟩ := ih _ _ _ g1 (by rw [e] at hn; simp at hn; omega)
      refine ⟨c', l', hl.trans a1, ?_, ?_, ?_, ?_⟩
      · rw [e, List.dropWhile_cons_of_pos hc]; exact a2
      · rw [a3, g2]
      · exact Same.trans (b := (getchar { l with line := l.line + m }).2) g3 a4
      · intro b k hs
        obtain ⟨b1, b2, b3⟩ := g4 b k hs
        obtain ⟨d1, d2, d3⟩ := a5 b k b1
        rw [e, List.dropWhile_cons_of_pos hc, List.takeWhile_cons_of_pos hc]
        refine ⟨d1, ?_, ?_⟩
        · intro h
          have ht : text l ≠ [] := by intro h0; rw [h0] at h; exact h rfl
          obtain ⟨e1, e2⟩ := d2 h
          obtain ⟨f1, f2⟩ := b2 ht
          refine ⟨?_, ?_⟩
          · rw [e1, f1, List.count_cons]
            show l.line + m + _ = _
            rw [← hm]
            simp only [beq_iff_eq]
            omega
          · rw [e2, f2]
            rcases hP with ⟨i, hi, _⟩ | ⟨h, _⟩
            · rcases hs with hs | ⟨j, hs, _, hk⟩
              · simp [hi] at hs
              · rw [hi] at hs
                simp only [Option.toList_some, List.cons_append, List.nil_append, List.cons.injEq] at hs
                rw [hi, ← hk, hs.1]
                rfl
            · exact absurd h hT
        · intro h _
          by_cases ht : text l = []
          · have : l' = (getchar { l with line := l.line + m }).2 := by
              have hw := a1
              rw [ht] at g1
              rcases g1 with ⟨i, _, _, _, h⟩ | ⟨_, hE, _⟩
              · cases h
              · cases n with
                | zero => cases hw
                | succ n =>
                  rw [lead, hE, if_neg (by decide), if_neg (by decide)] at hw
                  cases hw
                  rfl
            rw [this, b3 ht, if_neg]
            rcases hP with ⟨i, hi, _⟩ | ⟨h, _⟩
            · show ¬ l.cur.toList ++ l.stack = []
              simp [hi]
            · exact absurd h hT
          · exact d3 h ht
    by_cases h10 : c = 10#8
    · exact step 1 (by simp [isWs, h10]) (by rw [if_pos h10]) (by rw [lead, if_pos h10])
    · by_cases hb : c = 32#8 ∨ c = 9#8
      · exact step 0 (by rcases hb with rfl | rfl <;> rfl) (by rw [if_neg h10])
          (by rw [lead, if_neg h10, if_pos hb]; rfl)
      · have hc : isWs c = false := by
          simp only [not_or] at hb
          simp [isWs, h10, hb.1, hb.2]
        have ed : T.dropWhile isWs = T ∧ T.takeWhile isWs = [] := by
          cases T with
          | nil => exact ⟨rfl, rfl⟩
          | cons x xs =>
            have := pending_ne hP (by simp)
            simp only [List.cons.injEq] at this
            have hx : ¬ isWs x = true := by rw [this.1, hc]; decide
            exact ⟨List.dropWhile_cons_of_neg hx, List.takeWhile_cons_of_neg hx⟩
        rw [ed.1, ed.2]
        refine ⟨c, l, ?_, hP, rfl, Same.refl _, fun b k hs => ⟨hs, fun _ => ⟨rfl, rfl⟩, fun h1 h2 => absurd h1 h2⟩⟩
        rw [lead, if_neg h10, if_neg hb]

/-! ## Specification: lexemes -/

/-- The numbers. -/
def IsNumber : Ty → List Byte → Prop
  | .dec, w => w ≠ [] ∧ (∀ c ∈ w, isDigit c) ∧ (w.head? = some 48#8 → w = [48#8])
  | .oct, w => ∃ os, w = 48#8 :: os ∧ os ≠ [] ∧ ∀ c ∈ os, isOct c
  | .hex, w => ∃ hs, w = 48#8 :: 120#8 :: hs ∧ hs ≠ [] ∧ ∀ c ∈ hs, isHex c
  | .real, w => ∃ a b, w = a ++ 46#8 :: b ∧ a ≠ [] ∧ (∀ c ∈ a, isDigit c) ∧ ∀ c ∈ b, isDigit c
  | _, _ => False

/-- The text does not go on with a byte that satisfies `p`. -/
def Stops (p : Byte → Bool) (rest : List Byte) : Prop := ∀ c, rest.head? = some c → p c = false

/-- A letter or underscore, then letters, underscores and digits. -/
def IsWordText (w : List Byte) : Prop := (∃ c cs, w = c :: cs ∧ isLetter c) ∧ ∀ c ∈ w, isWord c

/-- The text `w`, followed by `rest`, is a token of type `ty`. -/
inductive Lexeme (kws : List (List Byte)) : Ty → List Byte → List Byte → Prop
  | eof : Lexeme kws .eof [] []
  | id {w rest} : IsWordText w → w ≠ [95#8] → w ∉ kws → Stops isWord rest → Lexeme kws .id w rest
  | kw {i w rest} : IsWordText w → w ≠ [95#8] → kws[i]? = some w → Stops isWord rest →
      Lexeme kws (.kw i) w rest
  | under {rest} : Stops isWord rest → Lexeme kws (.spec 95#8) [95#8] rest
  | spec {b rest} : b ∈ specials → b ≠ 95#8 → Lexeme kws (.spec b) [b] rest
  | num {ty w rest} : IsNumber ty w → Stops isNum rest → Lexeme kws ty w rest

/-! ## Numbers -/

/-- The kinds of bytes in the specification, byte by byte. -/
theorem byte_kinds : ∀ c : Byte,
    (isDigit c ↔ c ∈ [48#8, 49#8, 50#8, 51#8, 52#8, 53#8, 54#8, 55#8, 56#8, 57#8]) ∧
    (isOct c ↔ c ∈ [48#8, 49#8, 50#8, 51#8, 52#8, 53#8, 54#8, 55#8]) ∧
    (isHex c ↔ isDigit c ∨ c ∈ [97#8, 98#8, 99#8, 100#8, 101#8, 102#8, 65#8, 66#8, 67#8, 68#8, 69#8, 70#8]) ∧
    (isAlpha c ↔ 97 ≤ c.toNat ∧ c.toNat < 97 + 26 ∨ 65 ≤ c.toNat ∧ c.toNat < 65 + 26) ∧
    (isLetter c ↔ isAlpha c ∨ c = 95#8) ∧ (isWord c ↔ isLetter c ∨ isDigit c) ∧
    (isNum c ↔ isAlpha c ∨ isDigit c ∨ c = 46#8) ∧ (isWs c ↔ c ∈ [32#8, 9#8, 10#8]) := by decide +kernel

theorem digit_ne_dot {c : Byte} (h : isDigit c = true) : c ≠ 46#8 := by rintro rfl; revert h; decide
theorem oct_digit {c : Byte} (h : isOct c = true) : isDigit c = true := by
  simp only [isOct, isDigit, Bool.and_eq_true, decide_eq_true_eq] at *
  omega

theorem dropWhile_all {p : Byte → Bool} {w : List Byte} (h : ∀ c ∈ w, p c) : w.dropWhile p = [] :=
  List.dropWhile_eq_nil_iff.mpr h

theorem dropWhile_app {p : Byte → Bool} {w r : List Byte} (h : ∀ c ∈ w, p c) (hr : Stops p r) :
    (w ++ r).dropWhile p = r := by
  induction w with
  | nil =>
    cases r with
    | nil => rfl
    | cons x xs => exact List.dropWhile_cons_of_neg (by rw [hr x rfl]; decide)
  | cons x xs ih =>
    rw [List.cons_append, List.dropWhile_cons_of_pos (h x (by simp))]
    exact ih (fun c hc => h c (by simp [hc]))

theorem takeWhile_app {p : Byte → Bool} {w r : List Byte} (h : ∀ c ∈ w, p c) (hr : Stops p r) :
    (w ++ r).takeWhile p = w := by
  induction w with
  | nil =>
    cases r with
    | nil => rfl
    | cons x xs => exact List.takeWhile_cons_of_neg (by rw [hr x rfl]; decide)
  | cons x xs ih =>
    rw [List.cons_append, List.takeWhile_cons_of_pos (h x (by simp)), ih (fun c hc => h c (by simp [hc]))]

theorem stops_drop {p : Byte → Bool} (r : List Byte) : Stops p (r.dropWhile p) := by
  intro c hc
  have := List.head?_dropWhile_not p r
  rw [hc] at this
  simpa using this

/-- A text of digits and exactly one point. -/
theorem one_dot {w : List Byte} (h : ∀ c ∈ w, isDigit c ∨ c = 46#8) (hc : w.count 46#8 = 1) :
    ∃ a b, w = a ++ 46#8 :: b ∧ (∀ c ∈ a, isDigit c) ∧ ∀ c ∈ b, isDigit c := by
  induction w with
  | nil => simp at hc
  | cons x xs ih =>
    rcases h x (by simp) with hx | rfl
    · rw [List.count_cons_of_ne (digit_ne_dot hx)] at hc
      obtain ⟨a, b, rfl, h1, h2⟩ := ih (fun c hc => h c (by simp [hc])) hc
      exact ⟨x :: a, b, rfl, by intro c hc; rcases List.mem_cons.mp hc with rfl | hc; exacts [hx, h1 c hc], h2⟩
    · rw [List.count_cons_self] at hc
      refine ⟨[], xs, rfl, by simp, ?_⟩
      intro c hm
      rcases h c (by simp [hm]) with h1 | rfl
      · exact h1
      · have := List.count_pos_iff.mpr hm
        omega

theorem dot_count {a b : List Byte} (ha : ∀ c ∈ a, isDigit c) (hb : ∀ c ∈ b, isDigit c) :
    (a ++ 46#8 :: b).count 46#8 = 1 := by
  have h : ∀ {l : List Byte}, (∀ c ∈ l, isDigit c) → l.count 46#8 = 0 := by
    intro l hl
    refine List.count_eq_zero.mpr (fun hm => ?_)
    have := hl _ hm
    revert this; decide
  rw [List.count_append, List.count_cons_self, h ha, h hb]

theorem octRest_ok {w ty} : octRest w = .ok ty ↔
    ty = .real ∧ ∃ a b, w = a ++ 46#8 :: b ∧ (∀ c ∈ a, isDigit c) ∧ ∀ c ∈ b, isDigit c := by
  unfold octRest
  constructor
  · intro h
    split at h
    · cases h
    · rename_i h1
      split at h
      · cases h
      · split at h
        · cases h
        · cases h
          refine ⟨rfl, one_dot ?_ (by omega)⟩
          intro c hc
          have := List.all_eq_true.mp (Classical.not_not.mp h1) c hc
          simpa using this
  · rintro ⟨rfl, a, b, rfl, ha, hb⟩
    have hc := dot_count ha hb
    rw [if_neg, if_neg (by omega), if_neg (by omega)]
    rw [Classical.not_not, List.all_eq_true]
    intro c hm
    rcases List.mem_append.mp hm with hm | hm
    · simp [ha c hm]
    · rcases List.mem_cons.mp hm with rfl | hm
      · simp
      · simp [hb c hm]

theorem dropWhile_cases {p : Byte → Bool} (w : List Byte) :
    w = w.takeWhile p ++ w.dropWhile p ∧ ∀ c ∈ w.takeWhile p, p c :=
  ⟨(List.takeWhile_append_dropWhile).symm, fun _ h => List.mem_takeWhile_imp h⟩

/-- The check of a number accepts exactly the numbers, with their type. -/
theorem numType_iff {w : List Byte} {c cs ty} (hw : w = c :: cs) (hc : isDigit c) :
    numType w = .ok ty ↔ IsNumber ty w := by
  subst hw
  rw [numType]
  by_cases h0 : c = 48#8 ∧ cs ≠ []
  · obtain ⟨rfl, hne⟩ := h0
    rw [if_pos ⟨rfl, hne⟩]
    by_cases hx : cs.head? = some 120#8
    · rw [if_pos hx]
      cases cs with
      | nil => cases hx
      | cons x hs =>
        simp only [List.head?_cons, Option.some.injEq] at hx
        subst hx
        change (if hs = [] then Except.error Err.invhex
          else if hs.all isHex then .ok .hex else .error .invhex) = .ok ty ↔ _
        have hnd : ¬ isDigit 120#8 = true := by decide
        have hno : ¬ isOct 120#8 = true := by decide
        constructor
        · intro h
          split at h
          · cases h
          · rename_i h1
            split at h
            · rename_i h2
              cases h
              exact ⟨hs, rfl, h1, List.all_eq_true.mp h2⟩
            · cases h
        · intro h
          cases ty <;> simp only [IsNumber] at h
          · obtain ⟨os, h1, _, h2⟩ := h
            cases h1
            exact absurd (h2 _ (by simp)) hno
          · exact absurd (h.2.1 120#8 (by simp)) hnd
          · obtain ⟨hs', h1, h2, h3⟩ := h
            cases h1
            rw [if_neg h2, if_pos (List.all_eq_true.mpr h3)]
          · obtain ⟨a, b, h1, h2, h3, h4⟩ := h
            have hm : (120#8 : Byte) ∈ a ++ 46#8 :: b := by rw [← h1]; simp
            rcases List.mem_append.mp hm with hm | hm
            · exact absurd (h3 _ hm) hnd
            · rcases List.mem_cons.mp hm with hm | hm
              · cases hm
              · exact absurd (h4 _ hm) hnd
    · rw [if_neg hx]
      obtain ⟨e1, e2⟩ := dropWhile_cases (p := isOct) cs
      cases hd : cs.dropWhile isOct with
      | nil =>
        rw [hd, List.append_nil] at e1
        have ho : ∀ c ∈ cs, isOct c := by rw [e1]; exact e2
        constructor
        · intro h
          cases h
          exact ⟨cs, rfl, hne, ho⟩
        · intro h
          cases ty <;> simp only [IsNumber] at h
          · rfl
          · have := h.2.2 rfl
            cases this
            exact absurd rfl hne
          · obtain ⟨hs', h1, _⟩ := h
            cases h1
            exact absurd rfl hx
          · obtain ⟨a, b, h1, h2, h3, h4⟩ := h
            have hm : (46#8 : Byte) ∈ 48#8 :: cs := by rw [h1]; simp
            rcases List.mem_cons.mp hm with hm | hm
            · cases hm
            · have := ho _ hm
              revert this; decide
      | cons d ds =>
        dsimp only
        rw [octRest_ok]
        have hdo : isOct d = false := by
          have := stops_drop (p := isOct) cs d (by rw [hd]; rfl)
          exact this
        rw [hd] at e1
        constructor
        · rintro ⟨rfl, a, b, h1, h2, h3⟩
          refine ⟨48#8 :: (cs.takeWhile isOct ++ a), b, ?_, by simp, ?_, h3⟩
          · rw [List.cons_append, List.append_assoc, ← h1, ← e1]
          · intro c hm
            rcases List.mem_cons.mp hm with rfl | hm
            · exact hc
            · rcases List.mem_append.mp hm with hm | hm
              · exact oct_digit (e2 c hm)
              · exact h2 c hm
        · intro h
          cases ty <;> simp only [IsNumber] at h
          · obtain ⟨os, h1, _, h2⟩ := h
            cases h1
            rw [dropWhile_all h2] at hd
            cases hd
          · have := h.2.2 rfl
            cases this
            exact absurd rfl hne
          · obtain ⟨hs', h1, _⟩ := h
            cases h1
            exact absurd rfl hx
          · obtain ⟨a, b, h1, h2, h3, h4⟩ := h
            refine ⟨rfl, a.tail.dropWhile isOct, b, ?_, ?_, h4⟩
            · cases a with
              | nil => exact absurd rfl h2
              | cons y ys =>
                simp only [List.cons_append, List.cons.injEq] at h1
                rw [← hd, h1.2]
                simp only [List.tail_cons]
                obtain ⟨f1, f2⟩ := dropWhile_cases (p := isOct) ys
                conv_lhs => rw [f1, List.append_assoc]
                refine dropWhile_app f2 ?_
                intro c hcc
                cases hys : ys.dropWhile isOct with
                | nil => rw [hys] at hcc; cases hcc; decide
                | cons z zs =>
                  rw [hys] at hcc
                  cases hcc
                  exact stops_drop (p := isOct) ys _ (by rw [hys]; rfl)
            · intro c hm
              exact h3 c (List.mem_of_mem_tail ((List.dropWhile_sublist _).subset hm))
  · rw [if_neg h0]
    obtain ⟨e1, e2⟩ := dropWhile_cases (p := isDigit) (c :: cs)
    have hz : c = 48#8 → cs = [] := by
      intro h
      by_contra hn
      exact h0 ⟨h, hn⟩
    have noOct : ¬ IsNumber .oct (c :: cs) := by
      rintro ⟨os, h1, h2, _⟩
      cases h1
      exact h2 (hz rfl)
    have noHex : ¬ IsNumber .hex (c :: cs) := by
      rintro ⟨os, h1, h2, _⟩
      cases h1
      exact absurd (hz rfl) (by simp)
    cases hd : (c :: cs).dropWhile isDigit with
    | nil =>
      rw [hd, List.append_nil] at e1
      have ho : ∀ x ∈ c :: cs, isDigit x := by rw [e1]; exact e2
      constructor
      · intro h
        cases h
        refine ⟨by simp, ho, ?_⟩
        intro h
        simp only [List.head?_cons, Option.some.injEq] at h
        rw [h, hz h]
      · intro h
        cases ty
        case oct => exact absurd h noOct
        case hex => exact absurd h noHex
        case dec => rfl
        case real =>
          obtain ⟨a, b, h1, h2, h3, h4⟩ := h
          have := ho 46#8 (by rw [h1]; simp)
          revert this; decide
        all_goals exact absurd h (by simp [IsNumber])
    | cons d ds =>
      dsimp only
      rw [hd] at e1
      have hne : (c :: cs).takeWhile isDigit ≠ [] := by rw [List.takeWhile_cons_of_pos hc]; simp
      have hdd : isDigit d = false := stops_drop (p := isDigit) (c :: cs) d (by rw [hd]; rfl)
      constructor
      · intro h
        split at h
        · rename_i h1
          split at h
          · rename_i h2
            cases h
            subst h1
            exact ⟨_, ds, e1, hne, e2, List.all_eq_true.mp h2⟩
          · cases h
        · cases h
      · intro h
        cases ty
        case oct => exact absurd h noOct
        case hex => exact absurd h noHex
        case dec =>
          have := dropWhile_all h.2.1
          rw [this] at hd
          cases hd
        case real =>
          obtain ⟨a, b, h1, h2, h3, h4⟩ := h
          have hst : Stops isDigit (46#8 :: b) := by intro x hx; cases hx; decide
          have := dropWhile_app h3 hst
          rw [← h1, hd] at this
          cases this
          rw [if_pos rfl, if_pos (List.all_eq_true.mpr h4)]
        all_goals exact absurd h (by simp [IsNumber])

/-! ## Tokens -/

/-- Bytes that are told from the end of the input and from errors. -/
def Clean (T : List Byte) : Prop := ∀ b ∈ T, b ≠ EOF ∧ b ≠ ERR

/-- After a token: what is left to read, and what reading leaves alone. -/
structure Step (l l' : Lex) (rest : List Byte) : Prop where
  text : text l' = rest
  res : l'.res = []
  err : l'.err = .succeed
  ignore : l'.ignore = l.ignore
  macros : l'.macros = l.macros
  level : l'.level = l.level
  matched : l'.matched = l.matched

/-- The beginning of token: blanks are skipped. -/
theorem start (l : Lex) {n} (hn : (text l).length < n) :
    ∃ c l1, lead n (getchar l).1 (getchar l).2 = some (c, l1) ∧ Pending c l1 ((text l).dropWhile isWs) ∧
      l1.res = l.res ∧ Same l l1 ∧
      ∀ b k, Single l b k → Single l1 b k ∧
        ((text l).dropWhile isWs ≠ [] → l1.line = l.line + ((text l).takeWhile isWs).count 10#8 ∧
          l1.cur.bind (·.path) = k) ∧
        ((text l).dropWhile isWs = [] → l.cur.toList ++ l.stack ≠ [] → l1.line = b) := by
  obtain ⟨g1, g2, g3, g4⟩ := getchar_pending l
  obtain ⟨c, l1, a1, a2, a3, a4, a5⟩ := lead_pending n _ _ _ g1 hn
  refine ⟨c, l1, a1, a2, a3.trans g2, g3.trans a4, ?_⟩
  intro b k hs
  obtain ⟨b1, b2, b3⟩ := g4 b k hs
  obtain ⟨d1, d2, d3⟩ := a5 b k b1
  refine ⟨d1, ?_, ?_⟩
  · intro h
    have ht : text l ≠ [] := by intro h0; rw [h0] at h; exact h rfl
    obtain ⟨e1, e2⟩ := d2 h
    obtain ⟨f1, f2⟩ := b2 ht
    exact ⟨by rw [e1, f1], by rw [e2, f2]⟩
  · intro h hne
    by_cases ht : text l = []
    · have : l1 = (getchar l).2 := by
        rw [ht] at g1
        rcases g1 with ⟨i, _, _, _, h⟩ | ⟨_, hE, _⟩
        · cases h
        · cases n with
          | zero => cases a1
          | succ n =>
            rw [lead, hE, if_neg (by decide), if_neg (by decide)] at a1
            cases a1
            rfl
      rw [this, b3 ht, if_neg hne]
    · exact d3 h ht

theorem token_at {cfg : Cfg} {n l c l1} (h : lead n (getchar l).1 (getchar l).2 = some (c, l1))
    (h1 : c ≠ ERR) (h2 : c ≠ EOF) :
    token cfg (n + 1) l = (dispatch cfg (token cfg n) n c l1).bind (finish (token cfg n)) := by
  rw [token]
  simp only [h, Option.bind_eq_bind, Option.bind_some]
  rw [if_neg h1, if_neg h2]

theorem finish_ret {tk : Lex → Out} {l ty} (h : l.ignore = false) :
    (ret l ty).bind (finish tk) = ret l ty := by
  rw [ret, Option.bind_some, finish, if_pos]
  exact .inr h

/-- Reading while `p` holds and giving back the byte that ends it. -/
theorem read_back {p : Byte → Bool} (hp : p EOF = false) {n c l T} (hP : Pending c l T) (hn : T.length < n)
    (hT : Clean T) :
    ∃ c' l1 l', while_ p n c l = some (c', l1) ∧ c' ≠ ERR ∧ stepback l1 c' = some l' ∧
      l'.res = l.res ++ T.takeWhile p ∧ text l' = T.dropWhile p ∧ Same l l' ∧
      ∀ b k, Single l b k → Single l' b k ∧
        (T.dropWhile p ≠ [] → l'.line = l.line ∧ l'.cur.bind (·.path) = l.cur.bind (·.path)) ∧
        (T.dropWhile p = [] → T ≠ [] → l'.line = b ∧ l'.cur.bind (·.path) = none) := by
  obtain ⟨c', l1, a1, a2, a3, a4, a5⟩ := while_pending hp n c l T hP hn
  have hcl : T.dropWhile p ≠ [] → c' ≠ EOF ∧ c' ≠ ERR := by
    intro h
    have e := pending_ne a2 h
    have hm : c' ∈ T := (List.dropWhile_sublist p).subset (by rw [e]; simp)
    exact hT c' hm
  obtain ⟨l', b1, b2, b3, b4, b5, b6, b7⟩ := stepback_pending a2 (fun h => (hcl h).1)
  refine ⟨c', l1, l', a1, ?_, b1, b3.trans a3, b2, a4.trans b4, ?_⟩
  · by_cases h : T.dropWhile p = []
    · rw [h] at a2
      rcases a2 with ⟨i, _, _, _, h⟩ | ⟨_, hE, _⟩
      · cases h
      · rw [hE]; decide
    · exact (hcl h).2
  · intro b k hs
    obtain ⟨d1, d2, d3⟩ := a5 b k hs
    refine ⟨b7 _ _ d1, ?_, ?_⟩
    · intro h
      exact ⟨b5.trans (d2 h).1, b6.trans (d2 h).2⟩
    · intro h ht
      refine ⟨b5.trans (d3 h ht), b6.trans ?_⟩
      rw [h] at a2
      rcases a2 with ⟨i, _, _, _, h⟩ | ⟨_, _, hc, _⟩
      · cases h
      · rw [hc]; rfl

theorem word_letter {c : Byte} (h : isLetter c = true) : isWord c = true := by simp [isWord, h]
theorem letter_facts : ∀ c : Byte, isLetter c = true → isWs c = false ∧ isDigit c = false := by decide +kernel
theorem digit_facts : ∀ c : Byte, isDigit c = true → isWs c = false ∧ isLetter c = false ∧ isNum c = true := by
  decide +kernel
theorem special_facts : ∀ c : Byte, c ∈ specials → c ≠ 95#8 →
    isWs c = false ∧ isLetter c = false ∧ isDigit c = false := by decide +kernel
theorem hex_num : ∀ c : Byte, isHex c = true → isNum c = true := by decide +kernel

theorem number_shape {ty w} (h : IsNumber ty w) :
    (∃ c cs, w = c :: cs ∧ isDigit c) ∧ (∀ c ∈ w, isNum c) ∧ ty ≠ .eof ∧ ∀ b, ty ≠ .spec b := by
  have hd : ∀ c, isDigit c = true → isNum c = true := fun c h => (digit_facts c h).2.2
  cases ty <;> simp only [IsNumber] at h
  · obtain ⟨os, rfl, h1, h2⟩ := h
    refine ⟨⟨_, _, rfl, rfl⟩, ?_, by simp, by simp⟩
    intro c hc
    rcases List.mem_cons.mp hc with rfl | hc
    · rfl
    · exact hd c (oct_digit (h2 c hc))
  · obtain ⟨h1, h2, h3⟩ := h
    cases w with
    | nil => exact absurd rfl h1
    | cons c cs => exact ⟨⟨c, cs, rfl, h2 c (by simp)⟩, fun x hx => hd x (h2 x hx), by simp, by simp⟩
  · obtain ⟨hs, rfl, h1, h2⟩ := h
    refine ⟨⟨_, _, rfl, rfl⟩, ?_, by simp, by simp⟩
    intro c hc
    rcases List.mem_cons.mp hc with rfl | hc
    · rfl
    · rcases List.mem_cons.mp hc with rfl | hc
      · rfl
      · exact hex_num c (h2 c hc)
  · obtain ⟨a, b, rfl, h1, h2, h3⟩ := h
    cases a with
    | nil => exact absurd rfl h1
    | cons c cs =>
      refine ⟨⟨c, _, rfl, h2 c (by simp)⟩, ?_, by simp, by simp⟩
      intro x hx
      rcases List.mem_append.mp hx with hx | hx
      · exact hd x (h2 x hx)
      · rcases List.mem_cons.mp hx with rfl | hx
        · rfl
        · exact hd x (h3 x hx)

theorem ws_skip {ws T : List Byte} (h : ∀ c ∈ ws, isWs c) (hT : Stops isWs T) :
    (ws ++ T).dropWhile isWs = T ∧ (ws ++ T).takeWhile isWs = ws :=
  ⟨dropWhile_app h hT, takeWhile_app h hT⟩

theorem keyword_kw {cfg : Cfg} (hk : cfg.keywords.Nodup) {i w} (h : cfg.keywords[i]? = some w) :
    keyword cfg w = .kw i := by
  unfold keyword
  have : cfg.keywords.findIdx? (fun x => decide (x = w)) = some i := by
    rw [List.findIdx?_eq_some_iff_getElem]
    obtain ⟨hi, hw⟩ := List.getElem?_eq_some_iff.mp h
    refine ⟨hi, by simp [hw], ?_⟩
    intro j hj
    simp only [decide_eq_true_eq]
    intro he
    have := List.pairwise_iff_getElem.mp hk j i (by omega) hi hj
    exact this (he.trans hw.symm)
  rw [this]

theorem keyword_id {cfg : Cfg} {w} (h : w ∉ cfg.keywords) : keyword cfg w = .id := by
  unfold keyword
  have : cfg.keywords.findIdx? (fun x => decide (x = w)) = none := by
    rw [List.findIdx?_eq_none_iff]
    intro x hx
    simp only [decide_eq_false_iff_not]
    rintro rfl
    exact h hx
  rw [this]

/-- A special character that is read on its own. -/
def Alone (ty : Ty) : Prop := ∃ b, ty = .spec b ∧ b ≠ 95#8

/-- What is done with a token of type `ty`: the end of the input is given back in any case. -/
def fin (tk : Lex → Out) (ty : Ty) (r : Option Tok × Lex) : Out := if ty = .eof then some r else finish tk r

/-- Every lexeme is read as the token it is, and nothing else is consumed. -/
theorem token_lexeme0 {cfg : Cfg} {l : Lex} {ty w ws rest n} (hk : cfg.keywords.Nodup)
    (hh : ∀ b, ty = .spec b → cfg.hook b = .plain) (hr : l.res = [])
    (ht : text l = ws ++ w ++ rest) (hws : ∀ c ∈ ws, isWs c) (hx : Lexeme cfg.keywords ty w rest)
    (hc : Clean (text l)) (hn : (text l).length < n) :
    ∃ t l', token cfg (n + 1) l = fin (token cfg n) ty (some t, l') ∧ t.type = ty ∧ (ty ≠ .eof → t.text = w) ∧ Step l l' rest ∧
      ∀ b k, Single l b k → Single l' b k ∧ l'.line = t.line ∧
        (rest ≠ [] ∨ Alone ty → t.line = l.line + ws.count 10#8 ∧ t.file = k) ∧
        (rest = [] → ¬ Alone ty → l.cur.toList ++ l.stack ≠ [] → t.line = b ∧ t.file = none) := by
  rw [List.append_assoc] at ht
  obtain ⟨c, l1, s1, s2, s3, s4, s5⟩ := start l (n := n) (by omega)
  -- words and numbers
  have words : ∀ {p : Byte → Bool} (hp : p EOF = false), (∃ x xs, w = x :: xs ∧ isWs x = false) →
      (∀ c ∈ w, p c) → Stops p rest → ¬ Alone ty →
      (∀ l2 : Lex, l2.res = w → (∀ c' l1', while_ p n c l1 = some (c', l1') → c' ≠ ERR →
        stepback l1' c' = some l2 → dispatch cfg (token cfg n) n c l1 = ret l2 ty)) →
      ty ≠ .eof →
      ∃ t l', token cfg (n + 1) l = fin (token cfg n) ty (some t, l') ∧ t.type = ty ∧ (ty ≠ .eof → t.text = w) ∧ Step l l' rest ∧
      ∀ b k, Single l b k → Single l' b k ∧ l'.line = t.line ∧
        (rest ≠ [] ∨ Alone ty → t.line = l.line + ws.count 10#8 ∧ t.file = k) ∧
        (rest = [] → ¬ Alone ty → l.cur.toList ++ l.stack ≠ [] → t.line = b ∧ t.file = none) := by
    intro p hp hw hall hst hal hd hty
    obtain ⟨x, xs, rfl, hxw⟩ := hw
    have hstop : Stops isWs (x :: xs ++ rest) := by intro y hy; cases hy; exact hxw
    obtain ⟨e1, e2⟩ := ws_skip hws hstop
    rw [← ht] at e1 e2
    rw [e1] at s2 s5
    rw [e2] at s5
    have hcl : Clean (x :: xs ++ rest) := fun b hb => hc b (by rw [ht]; exact List.mem_append_right _ hb)
    have hlen : (x :: xs ++ rest).length < n := by
      have : (text l).length = ws.length + (x :: xs ++ rest).length := by rw [ht, List.length_append]
      omega
    obtain ⟨c', l1', l2, a1, a2, a3, a4, a5, a6, a7⟩ := read_back hp s2 hlen hcl
    rw [takeWhile_app hall hst, s3, hr, List.nil_append] at a4
    rw [dropWhile_app hall hst] at a5 a7
    have hcx : c = x := by
      have := pending_ne s2 (by simp)
      simp only [List.cons_append, List.cons.injEq] at this
      exact this.1.symm
    have hxc := hcl x (by simp)
    have hdis := hd l2 a4 c' l1' a1 a2 a3
    have htok : token cfg (n + 1) l = fin (token cfg n) ty (some (new l2 ty).1, (new l2 ty).2) := by
      rw [token_at s1 (by rw [hcx]; exact hxc.2) (by rw [hcx]; exact hxc.1), hdis, fin, if_neg hty]
      rfl
    refine ⟨_, _, htok, rfl, ?_, ?_, ?_⟩
    · intro _
      show (if ty = .eof then eofText else l2.res) = _
      rw [if_neg hty, a4]
    · refine ⟨a5, rfl, rfl, ?_, ?_, ?_, ?_⟩
      · exact a6.2.1.trans s4.2.1
      · exact a6.2.2.1.trans s4.2.2.1
      · exact a6.2.2.2.1.trans s4.2.2.2.1
      · exact a6.2.2.2.2.trans s4.2.2.2.2
    · intro b k hs
      obtain ⟨b1, b2, b3⟩ := s5 b k hs
      obtain ⟨d1, d2, d3⟩ := a7 b k b1
      refine ⟨d1, rfl, ?_, ?_⟩
      · intro h
        rcases h with h | h
        · obtain ⟨f1, f2⟩ := b2 (by simp)
          obtain ⟨g1, g2⟩ := d2 h
          exact ⟨g1.trans f1, g2.trans f2⟩
        · exact absurd h hal
      · intro h _ _
        exact d3 h (by simp)
  cases hx with
  | eof =>
    have hall : (text l).dropWhile isWs = [] := by
      rw [ht]
      exact dropWhile_all (by simpa using hws)
    rw [hall] at s2 s5
    have hce : c = EOF ∧ l1.cur = none ∧ l1.stack = [] := by
      rcases s2 with ⟨i, _, _, _, h⟩ | ⟨_, h⟩
      · cases h
      · exact h
    refine ⟨(new l1 .eof).1, (new l1 .eof).2, ?_⟩
    · refine ⟨?_, rfl, by simp, ?_, ?_⟩
      · rw [token]
        simp only [s1, Option.bind_eq_bind, Option.bind_some]
        rw [if_neg (by rw [hce.1]; decide), if_pos hce.1]
        rfl
      · exact ⟨by simp [text, new, hce.2.1, hce.2.2], rfl, rfl, s4.2.1, s4.2.2.1, s4.2.2.2.1, s4.2.2.2.2⟩
      · intro b k hs
        obtain ⟨b1, b2, b3⟩ := s5 b k hs
        refine ⟨b1, rfl, ?_, ?_⟩
        · rintro (h | ⟨b, h, _⟩)
          · exact absurd rfl h
          · cases h
        · intro _ _ hne
          exact ⟨b3 rfl hne, by simp [new, hce.2.1]⟩
  | id hw h1 h2 h3 =>
    obtain ⟨⟨x, xs, rfl, hx⟩, hall⟩ := hw
    refine words (p := isWord) (by decide) ⟨x, xs, rfl, (letter_facts x hx).1⟩ hall h3
      (by rintro ⟨b, h, _⟩; cases h) ?_ (by simp)
    intro l2 hres c' l1' hwh hne hsb
    have hcx : c = x := by
      have hstop : Stops isWs (x :: xs ++ rest) := by intro y hy; cases hy; exact (letter_facts x hx).1
      rw [ht, (ws_skip hws hstop).1] at s2
      have := pending_ne s2 (by simp)
      simp only [List.cons_append, List.cons.injEq] at this
      exact this.1.symm
    rw [dispatch, if_pos (by rw [hcx]; exact hx), word]
    simp only [hwh, Option.bind_eq_bind, Option.bind_some]
    rw [if_neg hne, hsb, Option.bind_some, if_neg (by rw [hres]; exact h1), hres, keyword_id h2]
  | kw hw h1 h2 h3 =>
    obtain ⟨⟨x, xs, rfl, hx⟩, hall⟩ := hw
    refine words (p := isWord) (by decide) ⟨x, xs, rfl, (letter_facts x hx).1⟩ hall h3
      (by rintro ⟨b, h, _⟩; cases h) ?_ (by simp)
    intro l2 hres c' l1' hwh hne hsb
    have hcx : c = x := by
      have hstop : Stops isWs (x :: xs ++ rest) := by intro y hy; cases hy; exact (letter_facts x hx).1
      rw [ht, (ws_skip hws hstop).1] at s2
      have := pending_ne s2 (by simp)
      simp only [List.cons_append, List.cons.injEq] at this
      exact this.1.symm
    rw [dispatch, if_pos (by rw [hcx]; exact hx), word]
    simp only [hwh, Option.bind_eq_bind, Option.bind_some]
    rw [if_neg hne, hsb, Option.bind_some, if_neg (by rw [hres]; exact h1), hres, keyword_kw hk h2]
  | under h3 =>
    refine words (p := isWord) (by decide) ⟨95#8, [], rfl, rfl⟩ (by simp; rfl) h3
      (by rintro ⟨b, h, hb⟩; cases h; exact hb rfl) ?_ (by simp)
    intro l2 hres c' l1' hwh hne hsb
    have hcx : c = 95#8 := by
      have hstop : Stops isWs ([95#8] ++ rest) := by intro y hy; cases hy; rfl
      rw [ht, (ws_skip hws hstop).1] at s2
      have := pending_ne s2 (by simp)
      simp only [List.cons_append, List.nil_append, List.cons.injEq] at this
      exact this.1.symm
    rw [dispatch, if_pos (by rw [hcx]; rfl), word]
    simp only [hwh, Option.bind_eq_bind, Option.bind_some]
    rw [if_neg hne, hsb, Option.bind_some, if_pos hres, special, if_pos (by decide), hh _ rfl]
  | num hw h3 =>
    obtain ⟨⟨x, xs, rfl, hx⟩, hall, hne1, hne2⟩ := number_shape hw
    refine words (p := isNum) (by decide) ⟨x, xs, rfl, (digit_facts x hx).1⟩ hall h3
      (by rintro ⟨b, h, hb⟩; exact hne2 b h) ?_ hne1
    intro l2 hres c' l1' hwh hne hsb
    have hcx : c = x := by
      have hstop : Stops isWs (x :: xs ++ rest) := by intro y hy; cases hy; exact (digit_facts x hx).1
      rw [ht, (ws_skip hws hstop).1] at s2
      have := pending_ne s2 (by simp)
      simp only [List.cons_append, List.cons.injEq] at this
      exact this.1.symm
    rw [dispatch, if_neg (by rw [hcx, (digit_facts x hx).2.1]; decide), if_pos (by rw [hcx]; exact hx), number]
    simp only [hwh, Option.bind_eq_bind, Option.bind_some]
    rw [if_neg hne, hsb, Option.bind_some, hres, (numType_iff rfl hx).mpr hw]
  | @spec x _ hm hne =>
    obtain ⟨f1, f2, f3⟩ := special_facts x hm hne
    have hstop : Stops isWs ([x] ++ rest) := by intro y hy; cases hy; exact f1
    obtain ⟨e1, e2⟩ := ws_skip hws hstop
    rw [← ht] at e1 e2
    rw [e1] at s2 s5
    rw [e2] at s5
    have e := pending_ne s2 (by simp)
    simp only [List.cons_append, List.nil_append, List.cons.injEq] at e
    obtain ⟨rfl, e⟩ := e
    have hcl := hc x (by rw [ht]; simp)
    have htok : token cfg (n + 1) l = fin (token cfg n) (.spec x) (some (new (put l1 x) (.spec x)).1,
        (new (put l1 x) (.spec x)).2) := by
      rw [token_at s1 hcl.2 hcl.1, dispatch, if_neg (by rw [f2]; decide), if_neg (by rw [f3]; decide),
        special, if_pos (by rw [List.elem_eq_mem]; simpa using hm), hh x rfl, fin, if_neg (by simp)]
      rfl
    refine ⟨_, _, htok, rfl, ?_, ?_, ?_⟩
    · intro _
      show (if Ty.spec x = .eof then eofText else l1.res ++ [x]) = _
      rw [if_neg (by simp), s3, hr]
      rfl
    · exact ⟨e.symm, rfl, rfl, s4.2.1, s4.2.2.1, s4.2.2.2.1, s4.2.2.2.2⟩
    · intro b k hs
      obtain ⟨b1, b2, b3⟩ := s5 b k hs
      obtain ⟨g1, g2⟩ := b2 (by simp)
      refine ⟨b1, rfl, fun _ => ⟨g1, g2⟩, ?_⟩
      intro _ h
      exact absurd ⟨x, rfl, hne⟩ h

/-- Outside what is ignored, the token is given back. -/
theorem token_lexeme {cfg : Cfg} {l : Lex} {ty w ws rest n} (hk : cfg.keywords.Nodup)
    (hh : ∀ b, ty = .spec b → cfg.hook b = .plain) (hr : l.res = []) (hi : l.ignore = false)
    (ht : text l = ws ++ w ++ rest) (hws : ∀ c ∈ ws, isWs c) (hx : Lexeme cfg.keywords ty w rest)
    (hc : Clean (text l)) (hn : (text l).length + 1 < n) :
    ∃ t l', token cfg n l = some (some t, l') ∧ t.type = ty ∧ (ty ≠ .eof → t.text = w) ∧ Step l l' rest ∧
      ∀ b k, Single l b k → Single l' b k ∧ l'.line = t.line ∧
        (rest ≠ [] ∨ Alone ty → t.line = l.line + ws.count 10#8 ∧ t.file = k) ∧
        (rest = [] → ¬ Alone ty → l.cur.toList ++ l.stack ≠ [] → t.line = b ∧ t.file = none) := by
  obtain ⟨n, rfl⟩ : ∃ m, n = m + 1 := ⟨n - 1, by omega⟩
  obtain ⟨t, l', h1, h2, h3, h4, h5⟩ := token_lexeme0 (n := n) hk hh hr ht hws hx hc (by omega)
  refine ⟨t, l', ?_, h2, h3, h4, h5⟩
  have hf : finish (token cfg n) (some t, l') = some (some t, l') := by
    rw [finish, if_pos (.inr (h4.ignore.trans hi))]
  rw [h1, fin, hf, ite_self]

end Verif.Lex
