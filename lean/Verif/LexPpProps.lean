import Verif.LexProps
/-
Properties of the preprocessor of the lexer: conditional compilation, macros, and what goes wrong.
-/
namespace Verif.Lex

/-! ## Specification: the next token -/

def isBlank (c : Byte) : Bool := c = 32#8 || c = 9#8

/-- Macros: names and texts. -/
abbrev Macros := List (List Byte × Option (List Byte))

/-- The branches around: the innermost comes first, `true` is a branch that is taken. -/
abbrev Branches := List Bool

/-- With `!` if `neg`. -/
def bang (neg : Bool) : List Byte := if neg then [33#8] else []

/-- Names in conditions. -/
def IsName (k : List Byte) : Prop := k ≠ [] ∧ ∀ c ∈ k, isWord c

/-- What stands behind a command of the preprocessor before its argument. -/
def IsGap (bl : List Byte) : Prop := bl ≠ [] ∧ ∀ c ∈ bl, isBlank c

/-- The lines `x` give the text `v` of a macro: a backslash at the end of a line joins it with the
next one, the first line without it is the last. -/
inductive Lines : List Byte → List Byte → Prop
  | last {v} : v ≠ [] → 10#8 ∉ v → v.getLast? ≠ some 92#8 → Lines (v ++ [10#8]) v
  | more {a x v} : 10#8 ∉ a → Lines x v → Lines (a ++ 92#8 :: 10#8 :: x) (a ++ v)

/-- The next token of the text `T` is `w` of type `ty`; then `rest` is left, with the macros and
branches behind it. -/
inductive Next (kws : List (List Byte)) : Macros → Branches → List Byte → Ty → List Byte →
    List Byte → Macros → Branches → Prop
  /-- the end of the text -/
  | eof {ms s ws} : (∀ c ∈ ws, isWs c) → Next kws ms s ws .eof [] [] ms s
  /-- a token where every branch is taken -/
  | tok {ms s ty ws w rest} : false ∉ s → (∀ c ∈ ws, isWs c) → Lexeme kws ty w rest → ty ≠ .eof →
      ty ≠ .spec 35#8 → Next kws ms s (ws ++ w ++ rest) ty w rest ms s
  /-- a token in a branch that is not taken -/
  | skip {ms s ty ws w rest ty' w' rest' ms' s'} : false ∈ s → (∀ c ∈ ws, isWs c) → Lexeme kws ty w rest →
      ty ≠ .eof → ty ≠ .spec 35#8 → Next kws ms s rest ty' w' rest' ms' s' →
      Next kws ms s (ws ++ w ++ rest) ty' w' rest' ms' s'
  /-- `#if k` and `#if !k` -/
  | if_ {ms s ws bl neg k e rest ty' w' rest' ms' s'} : false ∉ s → (∀ c ∈ ws, isWs c) → IsGap bl → IsName k →
      isWs e → Next kws ms ((decide (k ∈ ms.map Prod.fst) != neg) :: s) rest ty' w' rest' ms' s' →
      Next kws ms s (ws ++ 35#8 :: (sIf ++ (bl ++ (bang neg ++ (k ++ e :: rest))))) ty' w' rest' ms' s'
  /-- `#if` in a branch that is not taken: none of its branches is taken -/
  | ifSkip {ms s ws rest ty' w' rest' ms' s'} : false ∈ s → (∀ c ∈ ws, isWs c) → Stops isWord rest →
      Next kws ms (false :: s) rest ty' w' rest' ms' s' →
      Next kws ms s (ws ++ 35#8 :: (sIf ++ rest)) ty' w' rest' ms' s'
  /-- `#else` -/
  | else_ {ms b s ws rest ty' w' rest' ms' s'} : false ∉ s → (∀ c ∈ ws, isWs c) → Stops isWord rest →
      Next kws ms ((!b) :: s) rest ty' w' rest' ms' s' →
      Next kws ms (b :: s) (ws ++ 35#8 :: (sElse ++ rest)) ty' w' rest' ms' s'
  /-- `#else` inside a branch that is not taken -/
  | elseSkip {ms b s ws rest ty' w' rest' ms' s'} : false ∈ s → (∀ c ∈ ws, isWs c) → Stops isWord rest →
      Next kws ms (b :: s) rest ty' w' rest' ms' s' →
      Next kws ms (b :: s) (ws ++ 35#8 :: (sElse ++ rest)) ty' w' rest' ms' s'
  /-- `#endif` -/
  | endif {ms b s ws rest ty' w' rest' ms' s'} : (∀ c ∈ ws, isWs c) → Stops isWord rest →
      Next kws ms s rest ty' w' rest' ms' s' →
      Next kws ms (b :: s) (ws ++ 35#8 :: (sEndif ++ rest)) ty' w' rest' ms' s'
  /-- `#define k` -/
  | define {ms s ws bl k rest ty' w' rest' ms' s'} : false ∉ s → (∀ c ∈ ws, isWs c) → IsGap bl → IsName k →
      k ∉ ms.map Prod.fst → Next kws (ms ++ [(k, none)]) s rest ty' w' rest' ms' s' →
      Next kws ms s (ws ++ 35#8 :: (sDefine ++ (bl ++ (k ++ 10#8 :: rest)))) ty' w' rest' ms' s'
  /-- `#define k v` -/
  | defineAs {ms s ws bl k bl2 x v rest ty' w' rest' ms' s'} : false ∉ s → (∀ c ∈ ws, isWs c) → IsGap bl →
      IsName k → k ∉ ms.map Prod.fst → IsGap bl2 → Stops isBlank x → Lines x v →
      Next kws (ms ++ [(k, some v)]) s rest ty' w' rest' ms' s' →
      Next kws ms s (ws ++ 35#8 :: (sDefine ++ (bl ++ (k ++ (bl2 ++ (x ++ rest)))))) ty' w' rest' ms' s'
  /-- `#define` in a branch that is not taken does nothing -/
  | defineSkip {ms s ws bl k e rest ty' w' rest' ms' s'} : false ∈ s → (∀ c ∈ ws, isWs c) → IsGap bl →
      IsName k → isWs e → Next kws ms s rest ty' w' rest' ms' s' →
      Next kws ms s (ws ++ 35#8 :: (sDefine ++ (bl ++ (k ++ e :: rest)))) ty' w' rest' ms' s'
  /-- `#undef k` -/
  | undef {ms s ws bl k e rest ty' w' rest' ms' s'} : false ∉ s → (∀ c ∈ ws, isWs c) → IsGap bl →
      IsName k → isWs e → Next kws (ms.filter (fun m => m.1 ≠ k)) s rest ty' w' rest' ms' s' →
      Next kws ms s (ws ++ 35#8 :: (sUndef ++ (bl ++ (k ++ e :: rest)))) ty' w' rest' ms' s'
  /-- `#k` for a macro without text -/
  | empty {ms s ws k rest ty' w' rest' ms' s'} : (∀ c ∈ ws, isWs c) → IsName k →
      k ∉ [sDefine, sInclude, sIf, sElse, sEndif, sUndef] → ms.lookup k = some none → Stops isWord rest →
      Next kws ms s rest ty' w' rest' ms' s' →
      Next kws ms s (ws ++ 35#8 :: (k ++ rest)) ty' w' rest' ms' s'
  /-- `#k` for a macro with a text: the text is read in its place -/
  | expand {ms s ws k v rest ty' w' rest' ms' s'} : (∀ c ∈ ws, isWs c) → IsName k →
      k ∉ [sDefine, sInclude, sIf, sElse, sEndif, sUndef] → ms.lookup k = some (some v) → Stops isWord rest →
      Next kws ms s (v ++ rest) ty' w' rest' ms' s' →
      Next kws ms s (ws ++ 35#8 :: (k ++ rest)) ty' w' rest' ms' s'

/-! ## The levels -/

/-- The branches as the lexer keeps them. -/
def Refines (s : Branches) (l : Lex) : Prop :=
  ∃ a b, s = List.replicate a false ++ List.replicate b true ∧ l.level = a + b ∧ l.matched = b ∧
    l.ignore = decide (0 < a)

theorem refines_init (bs : List Byte) : Refines [] (init bs) := ⟨0, 0, rfl, rfl, rfl, rfl⟩

theorem refines_ignore {s l} (h : Refines s l) : l.ignore = decide (false ∈ s) := by
  obtain ⟨a, b, rfl, -, -, h4⟩ := h
  rw [h4]
  congr 1
  simp [Nat.pos_iff_ne_zero]

theorem refines_congr {s} {l l' : Lex} (h : Refines s l) (h1 : l'.level = l.level) (h2 : l'.matched = l.matched)
    (h3 : l'.ignore = l.ignore) : Refines s l' := by
  obtain ⟨a, b, h⟩ := h
  exact ⟨a, b, h.1, h1.trans h.2.1, h2.trans h.2.2.1, h3.trans h.2.2.2⟩

theorem refines_alive {s l} (h : Refines s l) (hs : false ∉ s) : ∃ b, s = List.replicate b true ∧
    l.level = b ∧ l.matched = b ∧ l.ignore = false := by
  obtain ⟨a, b, rfl, h2, h3, h4⟩ := h
  have : a = 0 := by
    by_contra h
    exact hs (by simp [h])
  subst this
  exact ⟨b, rfl, by omega, h3, h4⟩

theorem refines_else {s b} {l : Lex} (h : Refines (b :: s) l) (hs : false ∉ s) :
    Refines ((!b) :: s) (elseLevels l) := by
  obtain ⟨a, m, e, h2, h3, h4⟩ := h
  unfold elseLevels
  cases a with
  | zero =>
    cases m with
    | zero => cases e
    | succ m =>
      simp only [List.replicate_zero, List.nil_append, List.replicate_succ, List.cons.injEq] at e
      obtain ⟨rfl, rfl⟩ := e
      rw [if_pos (by omega)]
      exact ⟨1, m, rfl, by show l.level = _; omega, by show l.matched - 1 = _; omega, rfl⟩
  | succ a =>
    simp only [List.replicate_succ, List.cons_append, List.cons.injEq] at e
    obtain ⟨rfl, rfl⟩ := e
    have : a = 0 := by
      by_contra h
      exact hs (by simp [h])
    subst this
    rw [if_neg (by omega), if_pos (by omega)]
    exact ⟨0, m + 1, by simp [List.replicate_succ], by show l.level = _; omega, by show l.matched + 1 = _; omega, rfl⟩

theorem refines_elseSkip {s b} {l : Lex} (h : Refines (b :: s) l) (hs : false ∈ s) :
    Refines (b :: s) (elseLevels l) := by
  obtain ⟨a, m, e, h2, h3, h4⟩ := h
  unfold elseLevels
  cases a with
  | zero =>
    exfalso
    cases m with
    | zero => cases e
    | succ m =>
      simp only [List.replicate_zero, List.nil_append, List.replicate_succ, List.cons.injEq] at e
      obtain ⟨rfl, rfl⟩ := e
      simp at hs
  | succ a =>
    have ha : 0 < a := by
      simp only [List.replicate_succ, List.cons_append, List.cons.injEq] at e
      obtain ⟨rfl, rfl⟩ := e
      simp at hs
      omega
    rw [if_neg (by omega), if_neg (by omega)]
    exact ⟨a + 1, m, e, h2, h3, h4⟩

theorem refines_endif {s b} {l : Lex} (h : Refines (b :: s) l) : Refines s (endifLevels l) := by
  obtain ⟨a, m, e, h2, h3, h4⟩ := h
  unfold endifLevels
  cases a with
  | zero =>
    cases m with
    | zero => cases e
    | succ m =>
      simp only [List.replicate_zero, List.nil_append, List.replicate_succ, List.cons.injEq] at e
      obtain ⟨rfl, rfl⟩ := e
      rw [if_pos (by omega)]
      refine ⟨0, m, rfl, by show l.level - 1 = _; omega, by show l.matched - 1 = _; omega, ?_⟩
      show decide (l.matched - 1 ≠ l.level - 1) = _
      simp
      omega
  | succ a =>
    simp only [List.replicate_succ, List.cons_append, List.cons.injEq] at e
    obtain ⟨rfl, rfl⟩ := e
    rw [if_neg (by omega)]
    refine ⟨a, m, rfl, by show l.level - 1 = _; omega, by show l.matched = _; omega, ?_⟩
    show decide (l.matched ≠ l.level - 1) = _
    congr 1
    simp
    omega

theorem refines_if {s} {l : Lex} (h : Refines s l) (hs : false ∉ s) (v : Bool) :
    Refines (v :: s) (if v then { l with level := l.level + 1, matched := l.matched + 1, ignore := false }
      else { l with level := l.level + 1, ignore := true }) := by
  obtain ⟨b, rfl, h2, h3, h4⟩ := refines_alive h hs
  cases v
  · exact ⟨1, b, rfl, by show l.level + 1 = _; omega, h3, rfl⟩
  · exact ⟨0, b + 1, rfl, by show l.level + 1 = _; omega, by show l.matched + 1 = _; omega, rfl⟩

theorem refines_ifSkip {s} {l : Lex} (h : Refines s l) (hs : false ∈ s) :
    Refines (false :: s) { l with level := l.level + 1 } := by
  obtain ⟨a, b, rfl, h2, h3, h4⟩ := h
  refine ⟨a + 1, b, rfl, by show l.level + 1 = _; omega, h3, ?_⟩
  show l.ignore = _
  rw [h4]
  simp at hs ⊢
  omega

/-! ## Reading -/

theorem blank_facts : ∀ c : Byte, isBlank c = true ↔ c = 32#8 ∨ c = 9#8 := by decide +kernel

theorem blanks_pending : ∀ (bl : List Byte) {n : Nat} {l : Lex} {T}, text l = bl ++ T → (∀ c ∈ bl, isBlank c) →
    Stops isBlank T → bl.length < n →
    ∃ c l', blanks n l = some (c, l') ∧ Pending c l' T ∧ l'.res = l.res ∧ Same l l' := by
  intro bl
  induction bl with
  | nil =>
    intro n l T ht _ hs hn
    obtain ⟨n, rfl⟩ : ∃ m, n = m + 1 := ⟨n - 1, by simp at hn; omega⟩
    obtain ⟨g1, g2, g3, -⟩ := getchar_pending l
    rw [ht, List.nil_append] at g1
    refine ⟨(getchar l).1, (getchar l).2, ?_, g1, g2, g3⟩
    rw [blanks]
    rw [if_neg]
    rw [← blank_facts]
    by_cases hT : T = []
    · subst hT
      rcases g1 with ⟨i, _, _, _, h⟩ | ⟨_, hE, _⟩
      · cases h
      · rw [hE]; decide
    · have := hs (getchar l).1 (by rw [pending_ne g1 hT]; rfl)
      rw [this]; decide
  | cons b bl ih =>
    intro n l T ht hb hs hn
    obtain ⟨n, rfl⟩ : ∃ m, n = m + 1 := ⟨n - 1, by simp at hn; omega⟩
    obtain ⟨g1, g2, g3, -⟩ := getchar_pending l
    rw [ht] at g1
    have e := pending_ne g1 (by simp)
    simp only [List.cons_append, List.cons.injEq] at e
    obtain ⟨e1, e2⟩ := e
    obtain ⟨c, l', a1, a2, a3, a4⟩ := ih (n := n) (l := (getchar l).2) e2.symm (fun c hc => hb c (by simp [hc])) hs
      (by simpa using hn)
    refine ⟨c, l', ?_, a2, a3.trans g2, g3.trans a4⟩
    rw [blanks]
    rw [if_pos ((blank_facts _).mp (by rw [← e1]; exact hb b (by simp)))]
    exact a1

/-- Reading up to a byte that ends the loop. -/
theorem while_stop {p : Byte → Bool} : ∀ (w : List Byte) {n : Nat} {c : Byte} {l : Lex} {e rest},
    Pending c l (w ++ e :: rest) → (∀ c ∈ w, p c) → p e = false → w.length < n →
    ∃ l', while_ p n c l = some (e, l') ∧ Pending e l' (e :: rest) ∧ l'.res = l.res ++ w ∧ Same l l' := by
  intro w
  induction w with
  | nil =>
    intro n c l e rest hP _ he hn
    obtain ⟨n, rfl⟩ : ∃ m, n = m + 1 := ⟨n - 1, by simp at hn; omega⟩
    have h := pending_ne hP (by simp)
    simp only [List.nil_append, List.cons.injEq] at h
    obtain ⟨rfl, h⟩ := h
    refine ⟨l, ?_, hP, by simp, Same.refl _⟩
    rw [while_, he]
    rfl
  | cons b w ih =>
    intro n c l e rest hP hw he hn
    obtain ⟨n, rfl⟩ : ∃ m, n = m + 1 := ⟨n - 1, by simp at hn; omega⟩
    have h := pending_ne hP (by simp)
    simp only [List.cons_append, List.cons.injEq] at h
    obtain ⟨rfl, h⟩ := h
    obtain ⟨g1, g2, g3, -⟩ := getchar_pending (put l b)
    have ht : text (put l b) = w ++ e :: rest := h.symm
    rw [ht] at g1
    obtain ⟨l', a1, a2, a3, a4⟩ := ih (n := n) g1 (fun c hc => hw c (by simp [hc])) he (by simpa using hn)
    refine ⟨l', ?_, a2, ?_, g3.trans a4⟩
    · rw [while_, if_pos (hw b (by simp))]
      exact a1
    · rw [a3, g2]
      simp [put]

/-- A loop that the end of the input does not end never returns. -/
theorem while_none {p : Byte → Bool} (hp : p EOF = true) : ∀ (n : Nat) {c : Byte} {l : Lex} {T},
    Pending c l T → (∀ c ∈ T, p c) → while_ p n c l = none := by
  intro n
  induction n with
  | zero => intros; rfl
  | succ n ih =>
    intro c l T hP hT
    have hc : p c = true := by
      rcases hP with ⟨i, _, _, _, h⟩ | ⟨_, hE, _⟩
      · exact hT c (by rw [h]; simp)
      · rw [hE]; exact hp
    rw [while_, if_pos hc]
    obtain ⟨g1, -, -, -⟩ := getchar_pending (put l c)
    have ht : text (put l c) = T.tail := pending_text hP
    rw [ht] at g1
    exact ih g1 (fun b hb => hT b (List.mem_of_mem_tail hb))

theorem pending_eof {c l} (h : Pending c l []) : c = EOF := by
  rcases h with ⟨i, _, _, _, h⟩ | ⟨_, hE, _⟩
  · cases h
  · exact hE

/-- `#` and a command. -/
theorem hash_step {cfg : Cfg} (hh : cfg.hook 35#8 = .nums) {l : Lex} {ws w rest n} (hws : ∀ c ∈ ws, isWs c)
    (hw : IsName w) (hst : Stops isWord rest) (ht : text l = ws ++ 35#8 :: (w ++ rest)) (hc : Clean (text l))
    (hn : (text l).length < n) :
    ∃ l2, token cfg (n + 1) l = (ppCommand cfg (token cfg n) n w l2).bind (finish (token cfg n)) ∧
      text l2 = rest ∧ Same l l2 := by
  obtain ⟨c, l1, s1, s2, s3, s4, -⟩ := start l (n := n) hn
  have hlen : (text l).length = ws.length + (w.length + rest.length + 1) := by rw [ht]; simp
  have hcl : Clean (w ++ rest) := fun b hb => hc b (by rw [ht]; simp at hb ⊢; rcases hb with h | h <;> simp [h])
  rw [ht, (ws_skip hws (by intro y hy; cases hy; rfl)).1] at s2
  have e := pending_ne s2 (by simp)
  simp only [List.cons.injEq] at e
  obtain ⟨rfl, e⟩ := e
  rw [token_at s1 (by decide) (by decide), dispatch, if_neg (by decide), if_neg (by decide), special,
    if_pos (by decide), hh]
  obtain ⟨g1, g2, g3, -⟩ := getchar_pending (put l1 35#8)
  have ht1 : text (put l1 35#8) = w ++ rest := e.symm
  rw [ht1] at g1
  obtain ⟨x, xs, rfl⟩ : ∃ x xs, w = x :: xs := by
    cases w with
    | nil => exact absurd rfl hw.1
    | cons x xs => exact ⟨x, xs, rfl⟩
  have e' := pending_ne g1 (by simp)
  simp only [List.cons_append, List.cons.injEq] at e'
  have hx : (getchar (put l1 35#8)).1 = x := e'.1.symm
  have hP : Pending (getchar (put l1 35#8)).1 (clean (getchar (put l1 35#8)).2) (x :: xs ++ rest) :=
    pending_of g1 rfl rfl
  obtain ⟨c', l1', l2, a1, a2, a3, a4, a5, a6, -⟩ := read_back (p := isWord) (n := n) (by decide) hP
    (by simp only [List.length_append] at hlen ⊢; omega) hcl
  rw [takeWhile_app hw.2 hst] at a4
  rw [dropWhile_app hw.2 hst] at a5
  have a4' : l2.res = x :: xs := a4
  refine ⟨l2, ?_, a5, (s4.trans g3).trans a6⟩
  show (numsHandler cfg (token cfg n) n (put l1 35#8)).bind _ = _
  congr 1
  rw [numsHandler]
  dsimp only
  rw [if_neg (by rw [hx]; exact (hcl x (by simp)).2),
    if_neg (by rw [hx]; simp [hw.2 x (by simp)])]
  simp only [a1, Option.bind_eq_bind, Option.bind_some]
  rw [if_neg a2, a3, Option.bind_some, a4']

/-- The condition behind #if. -/
theorem condition_ok {l : Lex} {n bl neg k e rest} (hbl : IsGap bl) (hk : IsName k) (he : isWs e = true)
    (ht : text l = bl ++ (bang neg ++ (k ++ e :: rest))) (hc : Clean (text l)) (hn : (text l).length < n) :
    ∃ l', condition n l = some (some ((macro? l k).isSome != neg), l') ∧ text l' = rest ∧ l'.res = [] ∧
      Same l l' := by
  have hlen : (text l).length = bl.length + ((bang neg).length + (k.length + (rest.length + 1))) := by
    rw [ht]; simp
  have hcl : Clean (bang neg ++ (k ++ e :: rest)) := fun b hb => hc b (by rw [ht]; exact List.mem_append_right _ hb)
  obtain ⟨y, ys, rfl⟩ : ∃ y ys, k = y :: ys := by
    cases k with
    | nil => exact absurd rfl hk.1
    | cons x xs => exact ⟨x, xs, rfl⟩
  have hy : isWord y = true := hk.2 y (by simp)
  have hyf : ∀ c : Byte, isWord c = true → isBlank c = false ∧ c ≠ 10#8 ∧ c ≠ 33#8 := by decide +kernel
  obtain ⟨x, X, hX, hx1, hx2⟩ : ∃ x X, bang neg ++ (y :: ys ++ e :: rest) = x :: X ∧ isBlank x = false ∧ x ≠ 10#8 := by
    cases neg
    · exact ⟨y, ys ++ e :: rest, rfl, (hyf y hy).1, (hyf y hy).2.1⟩
    · exact ⟨33#8, _, rfl, rfl, by decide⟩
  have hxc := hcl x (by rw [hX]; simp)
  obtain ⟨c, l1, a1, a2, a3, a4⟩ := blanks_pending bl (n := n) (l := clean l) ht hbl.2
    (by rw [hX]; intro z hz; cases hz; exact hx1) (by omega)
  have e1 : c = x := by
    have := pending_ne a2 (by rw [hX]; simp)
    rw [hX] at this
    simp only [List.cons.injEq] at this
    exact this.1.symm
  subst e1
  obtain ⟨l2, b1, b2, b3, b4, -⟩ := stepback_pending a2 (fun _ => hxc.1)
  obtain ⟨g1, g2, g3, -⟩ := getchar_pending l2
  rw [b2] at g1
  have e2 : (getchar l2).1 = c := by
    have := pending_ne g1 (by rw [hX]; simp)
    rw [hX] at this
    simp only [List.cons.injEq] at this
    exact this.1.symm
  have hne : (getchar l2).1 ≠ EOF := by rw [e2]; exact hxc.1
  have hef : ∀ c : Byte, isWs c = true → isWord c = false ∧ (c = 32#8 ∨ c = 9#8 ∨ c = 10#8 ∨ c = EOF) ∧ c ≠ ERR := by
    decide +kernel
  obtain ⟨l3, d1, d2, d3, d4⟩ : ∃ l3, (if (getchar l2).1 = 33#8 then some (getchar l2).2
      else stepback (getchar l2).2 (getchar l2).1) = some l3 ∧ text l3 = y :: ys ++ e :: rest ∧
      l3.res = [] ∧ Same l l3 := by
    cases neg
    · have : c = y := by simp only [bang, List.cons_append] at hX; cases hX; rfl
      rw [if_neg (by rw [e2, this]; exact (hyf y hy).2.2)]
      obtain ⟨l3, f1, f2, f3, f4, -⟩ := stepback_pending g1 (fun _ => hne)
      exact ⟨l3, f1, f2, f3.trans (g2.trans (b3.trans a3)), ((Same.trans a4 b4).trans g3).trans f4⟩
    · have : c = 33#8 := by simp only [bang] at hX; cases hX; rfl
      rw [if_pos (by rw [e2, this])]
      refine ⟨_, rfl, ?_, g2.trans (b3.trans a3), (Same.trans a4 b4).trans g3⟩
      rw [pending_text g1]
      rfl
  obtain ⟨k1, k2, k3, -⟩ := getchar_pending l3
  rw [d2] at k1
  obtain ⟨l4, m1, m2, m3, m4⟩ := while_stop (p := isWord) (y :: ys) (n := n) k1 hk.2 (hef e he).1 (by omega)
  have hres : l4.res = y :: ys := by rw [m3, k2, d3]; rfl
  have hsame : Same l l4 := (d4.trans k3).trans m4
  refine ⟨clean l4, ?_, ?_, rfl, hsame⟩
  · rw [condition]
    simp only [a1, Option.bind_eq_bind, Option.bind_some]
    rw [if_neg hxc.2, if_neg hx2, if_neg hxc.1, b1]
    simp only [Option.bind_some]
    rw [if_neg (by rw [e2]; exact hxc.2)]
    have h1 : macro? l4 (y :: ys) = macro? l (y :: ys) := by unfold macro?; rw [hsame.2.2.1]
    have h2 : decide ((getchar l2).1 = 33#8) = neg := by
      cases neg
      · have : c = y := by simp only [bang, List.cons_append] at hX; cases hX; rfl
        rw [e2, this]
        simpa using (hyf y hy).2.2
      · have : c = 33#8 := by simp only [bang] at hX; cases hX; rfl
        rw [e2, this]
        rfl
    have hfin : (if e = ERR then some (none, l4)
        else if e = 32#8 ∨ e = 9#8 ∨ e = 10#8 ∨ e = EOF then
          some (some ((macro? l4 l4.res).isSome != decide ((getchar l2).1 = 33#8)), clean l4)
        else some (none, { l4 with err := .invchar })) = some (some ((macro? l (y :: ys)).isSome != neg), clean l4) := by
      rw [if_neg (hef e he).2.2, if_pos (hef e he).2.1, hres, h1, h2]
    by_cases hb : (getchar l2).1 = 33#8
    · rw [if_pos hb] at d1 ⊢
      cases d1
      simp only [m1, Option.bind_some]
      exact hfin
    · rw [if_neg hb] at d1 ⊢
      rw [d1]
      simp only [m1, Option.bind_some]
      exact hfin
  · have := pending_text m2
    exact this

/-- The name behind #define and #undef. -/
theorem macroName_ok {l : Lex} {n bl k e rest} (hbl : ∀ c ∈ bl, isBlank c) (hk : IsName k) (he : isWs e = true)
    (ht : text l = bl ++ (k ++ e :: rest)) (hc : Clean (text l)) (hn : (text l).length < n) :
    ∃ l', macroName n l = some (some e, l') ∧ text l' = rest ∧ l'.res = k ∧ Same l l' ∧
      Pending e l' (e :: rest) := by
  have hlen : (text l).length = bl.length + (k.length + (rest.length + 1)) := by
    rw [ht]; simp
  have hcl : Clean (k ++ e :: rest) := fun b hb => hc b (by rw [ht]; exact List.mem_append_right _ hb)
  obtain ⟨y, ys, rfl⟩ : ∃ y ys, k = y :: ys := by
    cases k with
    | nil => exact absurd rfl hk.1
    | cons x xs => exact ⟨x, xs, rfl⟩
  have hyf : ∀ c : Byte, isWord c = true → isBlank c = false ∧ c ≠ 10#8 ∧ c ≠ EOF ∧ c ≠ ERR ∧
      (!isBlankNl c && decide (c ≠ ERR)) = true := by decide +kernel
  have hef : ∀ c : Byte, isWs c = true → (!isBlankNl c && decide (c ≠ ERR)) = false ∧ c ≠ ERR := by decide +kernel
  have hy := hk.2 y (by simp)
  obtain ⟨c, l1, a1, a2, a3, a4⟩ := blanks_pending bl (n := n) (l := l) ht hbl
    (by intro z hz; cases hz; exact (hyf y hy).1) (by omega)
  have e1 : c = y := by
    have := pending_ne a2 (by simp)
    simp only [List.cons_append, List.cons.injEq] at this
    exact this.1.symm
  subst e1
  obtain ⟨l2, b1, b2, b3, b4, -⟩ := stepback_pending a2 (fun _ => (hyf c hy).2.2.1)
  obtain ⟨g1, g2, g3, -⟩ := getchar_pending (clean l2)
  have ht2 : text (clean l2) = c :: ys ++ e :: rest := b2
  rw [ht2] at g1
  obtain ⟨l4, m1, m2, m3, m4⟩ := while_stop (p := fun c => !isBlankNl c && decide (c ≠ ERR)) (c :: ys) (n := n) g1
    (fun z hz => (hyf z (hk.2 z hz)).2.2.2.2) (hef e he).1 (by omega)
  refine ⟨l4, ?_, ?_, ?_, (Same.trans a4 b4).trans (Same.trans g3 m4), m2⟩
  · rw [macroName]
    simp only [a1, Option.bind_eq_bind, Option.bind_some]
    rw [if_neg (hyf c hy).2.2.2.1, if_neg (hyf c hy).2.2.1, if_neg (hyf c hy).2.1, if_neg (by rw [hy]; decide), b1]
    simp only [m1, Option.bind_some]
    rw [if_neg (hef e he).2]
  · have := pending_text m2
    simpa using this
  · rw [m3, g2]; rfl

theorem lines_ne {x v} (h : Lines x v) : x ≠ [] ∧ v ≠ [] ∧ 10#8 ≠ x.head? ∧ ∀ b ∈ v, b ∈ x := by
  induction h with
  | @last v h1 h2 h3 =>
    obtain ⟨c, cs, rfl⟩ := List.exists_cons_of_ne_nil h1
    refine ⟨by simp, h1, ?_, fun b hb => List.mem_append_left _ hb⟩
    intro h
    simp at h
    subst h
    simp at h2
  | @more a x v h1 h2 ih =>
    refine ⟨by simp, by simp [ih.2.1], ?_, ?_⟩
    · cases a with
      | nil => simp
      | cons c cs =>
        intro h
        simp at h
        subst h
        simp at h1
    · intro b hb
      rcases List.mem_append.mp hb with hb | hb
      · simp [hb]
      · have := ih.2.2.2 b hb
        simp [this]

/-- The lines of a macro. -/
theorem macroValue_ok {x v} (hx : Lines x v) : ∀ {l : Lex} {n rest}, text l = x ++ rest → Clean x →
    (text l).length < n →
    ∃ l', macroValue n l = some (some (some (l.res ++ v)), l') ∧ text l' = rest ∧ Same l l' := by
  have hline : ∀ (w : List Byte) {l : Lex} {n r}, 10#8 ∉ w → Clean w → text l = w ++ 10#8 :: r →
      (text l).length < n + 1 → ∃ l4,
      while_ (fun c => decide (c ≠ ERR) && decide (c ≠ EOF) && decide (c ≠ 10#8)) n (getchar l).1 (getchar l).2 =
        some (10#8, l4) ∧ text l4 = r ∧ l4.res = l.res ++ w ∧ Same l l4 := by
    intro w l n r h10 hcl ht hn
    obtain ⟨g1, g2, g3, -⟩ := getchar_pending l
    rw [ht] at g1
    have hlen : (text l).length = w.length + (r.length + 1) := by rw [ht]; simp
    obtain ⟨l4, m1, m2, m3, m4⟩ := while_stop
      (p := fun c => decide (c ≠ ERR) && decide (c ≠ EOF) && decide (c ≠ 10#8)) w (n := n) g1
      (by
        intro z hz
        have := hcl z hz
        have h2 : z ≠ 10#8 := by rintro rfl; exact h10 hz
        simp [this.1, this.2, h2]) (by decide) (by omega)
    refine ⟨l4, m1, ?_, by rw [m3, g2], Same.trans g3 m4⟩
    have := pending_text m2
    simpa using this
  induction hx with
  | @last v h1 h2 h3 =>
    intro l n rest ht hc hn
    obtain ⟨n, rfl⟩ : ∃ m, n = m + 1 := ⟨n - 1, by omega⟩
    obtain ⟨l4, m1, m2, m3, m4⟩ := hline v (r := rest) h2 (fun b hb => hc b (by simp [hb])) (by rw [ht]; simp) hn
    refine ⟨l4, ?_, m2, m4⟩
    rw [macroValue]
    simp only [m1, Option.bind_eq_bind, Option.bind_some]
    obtain ⟨y, ys, rfl⟩ := List.exists_cons_of_ne_nil h1
    rw [if_neg (by decide), m3, if_neg (by simp), if_neg]
    rwa [List.getLast?_append_of_ne_nil _ (by simp)]
  | @more a x v h1 h2 ih =>
    intro l n rest ht hc hn
    obtain ⟨n, rfl⟩ : ∃ m, n = m + 1 := ⟨n - 1, by omega⟩
    have hlen : (text l).length = a.length + ((x ++ rest).length + 2) := by rw [ht]; simp
    obtain ⟨l4, m1, m2, m3, m4⟩ := hline (a ++ [92#8]) (r := x ++ rest) (by simp [h1])
      (fun b hb => hc b (by simp at hb ⊢; tauto)) (by rw [ht]; simp) hn
    obtain ⟨l5, k1, k2, k3⟩ := ih (l := { l4 with res := l4.res.dropLast }) (n := n) (rest := rest) m2
      (fun b hb => hc b (by simp [hb])) (by show (text l4).length < n; rw [m2]; omega)
    refine ⟨l5, ?_, k2, Same.trans m4 k3⟩
    rw [macroValue]
    simp only [m1, Option.bind_eq_bind, Option.bind_some]
    rw [if_neg (by decide), if_neg (by rw [m3]; simp), if_pos (by rw [m3, ← List.append_assoc]; simp), k1]
    simp [m3, ← List.append_assoc]

/-- The text behind the name in #define. -/
theorem macroBody_ok {l : Lex} {n b bl x v rest} (hb : b ≠ 10#8) (hbl : ∀ c ∈ bl, isBlank c)
    (hs : Stops isBlank x) (hx : Lines x v)
    (ht : text l = bl ++ (x ++ rest)) (hc : Clean (text l)) (hn : (text l).length < n) :
    ∃ l', macroBody n b l = some (some (some v), l') ∧ text l' = rest ∧ Same l l' := by
  have hlen : (text l).length = bl.length + (x ++ rest).length := by
    rw [ht]; simp
  have hcl : Clean x := fun b hb => hc b (by rw [ht]; simp [hb])
  obtain ⟨hne, -, h10, -⟩ := lines_ne hx
  obtain ⟨y, ys, rfl⟩ := List.exists_cons_of_ne_nil hne
  obtain ⟨c, l1, a1, a2, a3, a4⟩ := blanks_pending bl (n := n) (l := clean l) ht hbl
    (by intro z hz; cases hz; exact hs y rfl) (by omega)
  have e1 : c = y := by
    have := pending_ne a2 (by simp)
    simp only [List.cons_append, List.cons.injEq] at this
    exact this.1.symm
  subst e1
  have hxc := hcl c (by simp)
  have hc10 : c ≠ 10#8 := by rintro rfl; exact h10 rfl
  obtain ⟨l2, b1, b2, b3, b4, -⟩ := stepback_pending a2 (fun _ => hxc.1)
  obtain ⟨l4, m1, m2, m4⟩ := macroValue_ok hx (n := n) b2 hcl (by rw [b2]; omega)
  refine ⟨l4, ?_, m2, (Same.trans a4 b4).trans m4⟩
  rw [macroBody, if_neg hb]
  simp only [a1, Option.bind_eq_bind, Option.bind_some]
  rw [if_neg hxc.2, if_neg (by simp [hxc.1, hc10]), b1, Option.bind_some, m1]
  rw [b3, a3]
  rfl

/-! ## The next token -/

/-- What a call of token gives. -/
structure Good (ty : Ty) (w rest : List Byte) (ms : Macros) (s : Branches) (t : Tok) (l : Lex) : Prop where
  type : t.type = ty
  txt : ty ≠ .eof → t.text = w
  left : text l = rest
  res : l.res = []
  macros : l.macros = ms
  levels : Refines s l
  alive : ty ≠ .eof → false ∉ s
  done : ty = .eof → rest = []

theorem finish_good {cfg : Cfg} (hk : cfg.keywords.Nodup) {n ty w rest ms s t l}
    (hg : Good ty w rest ms s t l) (hn : 2 ≤ n) :
    ∃ t' l', finish (token cfg n) (some t, l) = some (some t', l') ∧ Good ty w rest ms s t' l' := by
  by_cases hi : l.ignore = false
  · exact ⟨t, l, by rw [finish, if_pos (.inr hi)], hg⟩
  · by_cases he : ty = .eof
    · subst he
      obtain ⟨n, rfl⟩ : ∃ m, n = m + 1 := ⟨n - 1, by omega⟩
      have ht := hg.left.trans (hg.done rfl)
      obtain ⟨t', l', h1, h2, h3, h4, -⟩ := token_lexeme0 (cfg := cfg) (l := l) (ws := []) (n := n) hk
        (by intro b h; cases h) hg.res (by rw [ht]; rfl) (by simp) .eof (by rw [ht]; intro b hb; cases hb)
        (by rw [ht]; simp; omega)
      refine ⟨t', l', ?_, h2, by simp, h4.text.trans (hg.done rfl).symm, h4.res, h4.macros.trans hg.macros,
        refines_congr hg.levels h4.level h4.matched h4.ignore, hg.alive, hg.done⟩
      rw [finish, if_neg (by simp [hi]), h1, fin, if_pos rfl]
    · have := refines_ignore hg.levels
      exact absurd (by rw [this]; simpa using hg.alive he) hi

theorem lookup_find {k : List Byte} {v} : ∀ {ms : Macros}, ms.lookup k = some v →
    ms.find? (fun m => decide (m.1 = k)) = some (k, v) := by
  intro ms
  induction ms with
  | nil => intro h; cases h
  | cons m ms ih =>
    intro h
    obtain ⟨k', v'⟩ := m
    rw [List.lookup_cons] at h
    by_cases hkk : k = k'
    · subst hkk
      simp at h
      subst h
      simp
    · rw [beq_false_of_ne hkk] at h
      rw [List.find?_cons_of_neg (by simp; exact fun h => hkk h.symm)]
      exact ih h

theorem lookup_macro {l : Lex} {k : List Byte} {v} (h : l.macros.lookup k = some v) : macro? l k = some (k, v) :=
  lookup_find h

theorem macro_isSome {l : Lex} {k : List Byte} : (macro? l k).isSome = decide (k ∈ l.macros.map Prod.fst) := by
  unfold macro?
  rw [Bool.eq_iff_iff, List.find?_isSome]
  simp

/-- The macros hold no byte 254 or 255. -/
def CleanMs (ms : Macros) : Prop := ∀ k v, (k, some v) ∈ ms → Clean v

theorem cleanMs_init (bs : List Byte) : CleanMs (init bs).macros := by
  intro k v h
  simp [init, pushBuf, push, macros0] at h

theorem lookup_mem : ∀ {ms : Macros} {k v}, ms.lookup k = some v → (k, v) ∈ ms := by
  intro ms
  induction ms with
  | nil => intro k v h; cases h
  | cons m ms ih =>
    intro k v h
    obtain ⟨k', v'⟩ := m
    rw [List.lookup_cons] at h
    by_cases hkk : k = k'
    · subst hkk
      simp at h
      subst h
      simp
    · rw [beq_false_of_ne hkk] at h
      simp [ih h]

theorem stops_cons {p : Byte → Bool} {b rest} (h : p b = false) : Stops p (b :: rest) := by
  intro c hc
  cases hc
  exact h

theorem gap_stops {bl rest} (h : IsGap bl) : Stops isWord (bl ++ rest) := by
  obtain ⟨h1, h2⟩ := h
  cases bl with
  | nil => exact absurd rfl h1
  | cons b bl =>
    have : ∀ c : Byte, isBlank c = true → isWord c = false := by decide +kernel
    exact stops_cons (this b (h2 b (by simp)))

theorem pp_sDefine (cfg : Cfg) (tk : Lex → Out) (n l) : ppCommand cfg tk n sDefine l = ppDefine tk n (clean l) := by
  rw [ppCommand, if_pos rfl]
theorem pp_sInclude (cfg : Cfg) (tk : Lex → Out) (n l) : ppCommand cfg tk n sInclude l = ppInclude cfg tk n (clean l) := by
  rw [ppCommand, if_neg (by decide), if_pos rfl]
theorem pp_sIf (cfg : Cfg) (tk : Lex → Out) (n l) : ppCommand cfg tk n sIf l = ppIf tk n (clean l) := by
  rw [ppCommand, if_neg (by decide), if_neg (by decide), if_pos rfl]
theorem pp_sElse (cfg : Cfg) (tk : Lex → Out) (n l) : ppCommand cfg tk n sElse l = ppElse tk (clean l) := by
  rw [ppCommand, if_neg (by decide), if_neg (by decide), if_neg (by decide), if_pos rfl]
theorem pp_sEndif (cfg : Cfg) (tk : Lex → Out) (n l) : ppCommand cfg tk n sEndif l = ppEndif tk (clean l) := by
  rw [ppCommand, if_neg (by decide), if_neg (by decide), if_neg (by decide), if_neg (by decide), if_pos rfl]
theorem pp_sUndef (cfg : Cfg) (tk : Lex → Out) (n l) : ppCommand cfg tk n sUndef l = ppUndef tk n (clean l) := by
  rw [ppCommand, if_neg (by decide), if_neg (by decide), if_neg (by decide), if_neg (by decide), if_neg (by decide), if_pos rfl]

set_option maxHeartbeats 1000000 in
/-- A call of token gives the next token of the specification. -/
theorem pp_next {cfg : Cfg} (hk : cfg.keywords.Nodup) (hh : cfg.hook 35#8 = .nums)
    (hp : ∀ b, b ≠ 35#8 → cfg.hook b = .plain) {ms s T ty w rest ms' s'}
    (hx : Next cfg.keywords ms s T ty w rest ms' s') : Clean T → CleanMs ms → ∃ N, ∀ n ≥ N, ∀ l : Lex,
      text l = T → l.res = [] → l.macros = ms → Refines s l →
      ∃ t l', token cfg n l = some (some t, l') ∧ Good ty w rest ms' s' t l' := by
  -- a command: the token behind it
  have via : ∀ {ms s T0 ws cmd arg ms1 s1 T1 ty w rest ms' s'}, T0 = ws ++ 35#8 :: (cmd ++ arg) →
      (∀ c ∈ ws, isWs c) → IsName cmd → Stops isWord arg → Clean T0 → (Clean T1) → CleanMs ms1 →
      (∀ n > T0.length, ∀ l : Lex, text l = arg → l.macros = ms → Refines s l → ∃ l1,
        ppCommand cfg (token cfg n) n cmd l = token cfg n l1 ∧ text l1 = T1 ∧ l1.res = [] ∧ l1.macros = ms1 ∧
        Refines s1 l1) →
      (Clean T1 → CleanMs ms1 → ∃ N, ∀ n ≥ N, ∀ l : Lex, text l = T1 → l.res = [] → l.macros = ms1 → Refines s1 l →
        ∃ t l', token cfg n l = some (some t, l') ∧ Good ty w rest ms' s' t l') →
      ∃ N, ∀ n ≥ N, ∀ l : Lex, text l = T0 → l.res = [] → l.macros = ms → Refines s l →
        ∃ t l', token cfg n l = some (some t, l') ∧ Good ty w rest ms' s' t l' := by
    intro ms s T0 ws cmd arg ms1 s1 T1 ty w rest ms' s' hT hws hcmd hst hc hc1 hm1 hstep ih
    obtain ⟨N, hN⟩ := ih hc1 hm1
    refine ⟨N + T0.length + 3, ?_⟩
    intro n hn l ht hr hm hs
    obtain ⟨n, rfl⟩ : ∃ m, n = m + 1 := ⟨n - 1, by omega⟩
    obtain ⟨l2, h1, h2, h3⟩ := hash_step (n := n) hh hws hcmd hst (ht.trans hT) (ht ▸ hc) (by rw [ht]; omega)
    obtain ⟨l1, h4, h5, h6, h7, h8⟩ := hstep n (by omega) l2 h2 (h3.2.2.1.trans hm)
      (refines_congr hs h3.2.2.2.1 h3.2.2.2.2 h3.2.1)
    obtain ⟨t, l', h9, hg⟩ := hN n (by omega) l1 h5 h6 h7 h8
    obtain ⟨t', l'', h10, hg'⟩ := finish_good hk hg (n := n) (by omega)
    refine ⟨t', l'', ?_, hg'⟩
    rw [h1, h4, h9, Option.bind_some, h10]
  have wordF : ∀ k ∈ [sDefine, sInclude, sIf, sElse, sEndif, sUndef], IsName k := by
    intro k hk
    simp only [List.mem_cons, List.not_mem_nil, or_false] at hk
    rcases hk with rfl | rfl | rfl | rfl | rfl | rfl <;> exact ⟨by decide, by decide⟩
  have wsW : ∀ c : Byte, isWs c = true → isWord c = false := by decide +kernel
  induction hx with
  | @eof ms s ws hws =>
    intro hc hm
    refine ⟨ws.length + 2, ?_⟩
    intro n hn l ht hr hm hs
    obtain ⟨n, rfl⟩ : ∃ m, n = m + 1 := ⟨n - 1, by omega⟩
    obtain ⟨t, l', h1, h2, h3, h4, -⟩ := token_lexeme0 (cfg := cfg) (l := l) (ws := ws) (n := n) hk
      (by intro b h; cases h) hr (by rw [ht]; simp) hws .eof (ht ▸ hc) (by rw [ht]; omega)
    refine ⟨t, l', ?_, h2, h3, h4.text, h4.res, h4.macros.trans hm,
      refines_congr hs h4.level h4.matched h4.ignore, by simp, by simp⟩
    rw [h1, fin, if_pos rfl]
  | @tok ms s ty ws w rest hs hws hlx hty h35 =>
    intro hc hm
    refine ⟨(ws ++ w ++ rest).length + 2, ?_⟩
    intro n hn l ht hr hm href
    have hi : l.ignore = false := by rw [refines_ignore href]; simpa using hs
    obtain ⟨t, l', h1, h2, h3, h4, -⟩ := token_lexeme (n := n) hk (fun b hb => hp b (by rintro rfl; exact h35 hb)) hr hi
      ht hws hlx (ht ▸ hc) (by rw [ht]; omega)
    exact ⟨t, l', h1, h2, h3, h4.text, h4.res, h4.macros.trans hm,
      refines_congr href h4.level h4.matched h4.ignore, fun _ => hs, fun h => absurd h hty⟩
  | @skip ms s ty ws w rest ty' w' rest' ms' s' hs hws hlx hty h35 _ ih =>
    intro hc hm
    obtain ⟨N, hN⟩ := ih (fun b hb => hc b (by simp [hb])) hm
    refine ⟨N + (ws ++ w ++ rest).length + 2, ?_⟩
    intro n hn l ht hr hm href
    obtain ⟨n, rfl⟩ : ∃ m, n = m + 1 := ⟨n - 1, by omega⟩
    have hi : l.ignore = true := by rw [refines_ignore href]; simpa using hs
    obtain ⟨t, l', h1, h2, h3, h4, -⟩ := token_lexeme0 (n := n) hk (fun b hb => hp b (by rintro rfl; exact h35 hb)) hr
      ht hws hlx (ht ▸ hc) (by rw [ht]; omega)
    have hi' : l'.ignore = true := h4.ignore.trans hi
    rw [h1, fin, if_neg hty, finish, if_neg (by simp [hi'])]
    exact hN n (by omega) l' h4.text h4.res (h4.macros.trans hm) (refines_congr href h4.level h4.matched h4.ignore)
  | @if_ ms s ws bl neg k e rest ty' w' rest' ms' s' hs hws hbl hk' he _ ih =>
    intro hc hm
    refine via (ms1 := ms) (T1 := rest) rfl hws (wordF sIf (by simp)) (gap_stops hbl) hc
      (fun b hb => hc b (by simp [hb])) hm ?_ ih
    intro n hn l ht hml href
    have hlen : (bl ++ (bang neg ++ (k ++ e :: rest))).length < n := by simp at hn ⊢; omega
    obtain ⟨l', c1, c2, c3, c4⟩ := condition_ok (l := { clean (clean l) with level := l.level + 1 }) (n := n) hbl hk' he
      ht (fun b hb => hc b (by rw [show text { clean (clean l) with level := l.level + 1 } = _ from ht] at hb; simp at hb ⊢; tauto))
      (by rw [show text { clean (clean l) with level := l.level + 1 } = _ from ht]; exact hlen)
    have hi : l.ignore = false := by rw [refines_ignore href]; simpa using hs
    have hv : (macro? { clean (clean l) with level := l.level + 1 } k).isSome = decide (k ∈ ms.map Prod.fst) := by
      rw [macro_isSome]
      show decide (k ∈ l.macros.map _) = _
      rw [hml]
    rw [hv] at c1
    have hpp := pp_sIf cfg (token cfg n) n l
    rw [hpp, ppIf]
    rw [if_neg (by show ¬ (l.ignore = true); rw [hi]; decide)]
    erw [c1]
    have hrif := refines_if href hs (decide (k ∈ ms.map Prod.fst) != neg)
    cases hvv : (decide (k ∈ ms.map Prod.fst) != neg) with
    | false =>
      rw [hvv] at hrif
      refine ⟨clean { l' with ignore := true }, rfl, c2, rfl, c4.2.2.1.trans hml, ?_⟩
      exact refines_congr hrif c4.2.2.2.1 c4.2.2.2.2 rfl
    | true =>
      rw [hvv] at hrif
      refine ⟨clean { l' with matched := l'.matched + 1, ignore := false }, rfl, c2, rfl, c4.2.2.1.trans hml, ?_⟩
      refine refines_congr hrif c4.2.2.2.1 ?_ rfl
      show l'.matched + 1 = l.matched + 1
      rw [c4.2.2.2.2]
      rfl
  | @ifSkip ms s ws rest ty' w' rest' ms' s' hs hws hst _ ih =>
    intro hc hm
    refine via (ms1 := ms) (T1 := rest) rfl hws (wordF sIf (by simp)) hst hc
      (fun b hb => hc b (by simp [hb])) hm ?_ ih
    intro n hn l ht hml href
    have hi : (clean l).ignore = true := by show l.ignore = true; rw [refines_ignore href]; simpa using hs
    have hpp := pp_sIf cfg (token cfg n) n l
    refine ⟨{ clean (clean l) with level := l.level + 1 }, ?_, ht, rfl, hml, refines_ifSkip href hs⟩
    rw [hpp, ppIf, if_pos (by show l.ignore = true; exact hi)]
    rfl
  | @else_ ms b s ws rest ty' w' rest' ms' s' hs hws hst _ ih =>
    intro hc hm
    refine via (ms1 := ms) (T1 := rest) rfl hws (wordF sElse (by simp)) hst hc
      (fun b hb => hc b (by simp [hb])) hm ?_ ih
    intro n hn l ht hml href
    have hpp := pp_sElse cfg (token cfg n) n l
    have hr := refines_else (refines_congr (l' := clean (clean l)) href rfl rfl rfl) hs
    have hlev : (clean l).level ≠ 0 := by
      obtain ⟨a, m, e, h2, _⟩ := href
      intro h0
      have : a = 0 ∧ m = 0 := by have : l.level = 0 := h0; omega
      rw [this.1, this.2] at e
      cases e
    refine ⟨elseLevels (clean (clean l)), ?_, ?_, ?_, ?_, hr⟩
    · rw [hpp, ppElse, if_neg hlev]
    · rw [← ht]; unfold elseLevels; split
      · rfl
      · split <;> rfl
    · unfold elseLevels; split
      · rfl
      · split <;> rfl
    · rw [← hml]; unfold elseLevels; split
      · rfl
      · split <;> rfl
  | @elseSkip ms b s ws rest ty' w' rest' ms' s' hs hws hst _ ih =>
    intro hc hm
    refine via (ms1 := ms) (T1 := rest) rfl hws (wordF sElse (by simp)) hst hc
      (fun b hb => hc b (by simp [hb])) hm ?_ ih
    intro n hn l ht hml href
    have hpp := pp_sElse cfg (token cfg n) n l
    have hr := refines_elseSkip (refines_congr (l' := clean (clean l)) href rfl rfl rfl) hs
    have hlev : (clean l).level ≠ 0 := by
      obtain ⟨a, m, e, h2, _⟩ := href
      intro h0
      have : a = 0 ∧ m = 0 := by have : l.level = 0 := h0; omega
      rw [this.1, this.2] at e
      cases e
    refine ⟨elseLevels (clean (clean l)), ?_, ?_, ?_, ?_, hr⟩
    · rw [hpp, ppElse, if_neg hlev]
    · rw [← ht]; unfold elseLevels; split
      · rfl
      · split <;> rfl
    · unfold elseLevels; split
      · rfl
      · split <;> rfl
    · rw [← hml]; unfold elseLevels; split
      · rfl
      · split <;> rfl
  | @endif ms b s ws rest ty' w' rest' ms' s' hws hst _ ih =>
    intro hc hm
    refine via (ms1 := ms) (T1 := rest) rfl hws (wordF sEndif (by simp)) hst hc
      (fun b hb => hc b (by simp [hb])) hm ?_ ih
    intro n hn l ht hml href
    have hpp := pp_sEndif cfg (token cfg n) n l
    have hr := refines_endif (refines_congr (l' := clean l) href rfl rfl rfl)
    have hlev : (clean l).level ≠ 0 := by
      obtain ⟨a, m, e, h2, _⟩ := href
      intro h0
      have : a = 0 ∧ m = 0 := by have : l.level = 0 := h0; omega
      rw [this.1, this.2] at e
      cases e
    refine ⟨clean (endifLevels (clean l)), ?_, ht, rfl, hml, refines_congr hr rfl rfl rfl⟩
    rw [hpp, ppEndif, if_neg hlev]
  | @define ms s ws bl k rest ty' w' rest' ms' s' hs hws hbl hk' hnew _ ih =>
    intro hc hm
    refine via (ms1 := ms ++ [(k, none)]) (T1 := rest) rfl hws (wordF sDefine (by simp)) (gap_stops hbl) hc
      (fun b hb => hc b (by simp [hb]))
      (by
        intro k' v' h
        simp only [List.mem_append, List.mem_singleton, Prod.mk.injEq, reduceCtorEq, and_false, or_false] at h
        exact hm k' v' h) ?_ ih
    intro n hn l ht hml href
    obtain ⟨l', c1, c2, c3, c4, -⟩ := macroName_ok (l := clean l) (n := n) hbl.2 hk' rfl ht
      (fun b hb => hc b (by rw [show text (clean l) = _ from ht] at hb; simp at hb ⊢; tauto))
      (by rw [show text (clean l) = _ from ht]; simp at hn ⊢; omega)
    have hi : l.ignore = false := by rw [refines_ignore href]; simpa using hs
    have hmac : (macro? l' k).isSome = false := by
      rw [macro_isSome, c4.2.2.1]
      show decide (k ∈ l.macros.map _) = _
      rw [hml]
      simpa using hnew
    refine ⟨clean { l' with macros := l'.macros ++ [(k, none)] }, ?_, c2, rfl, ?_, refines_congr href c4.2.2.2.1 c4.2.2.2.2 c4.2.1⟩
    · have hpp := pp_sDefine cfg (token cfg n) n l
      rw [hpp, ppDefine]
      simp only [c1, Option.bind_eq_bind, Option.bind_some]
      rw [if_neg (by rw [c4.2.1, show (clean l).ignore = false from hi]; decide), c3, if_neg (by rw [hmac]; decide)]
      rfl
    · show l'.macros ++ _ = _
      rw [c4.2.2.1]
      show l.macros ++ _ = _
      rw [hml]
  | @defineAs ms s ws bl k bl2 x v rest ty' w' rest' ms' s' hs hws hbl hk' hnew hbl2 hst hx _ ih =>
    intro hc hm
    have hcv : Clean v := fun b hb => hc b (by simp [(lines_ne hx).2.2.2 b hb])
    refine via (ms1 := ms ++ [(k, some v)]) (T1 := rest) rfl hws (wordF sDefine (by simp)) (gap_stops hbl) hc
      (fun b hb => hc b (by simp [hb]))
      (by
        intro k' v' h
        simp only [List.mem_append, List.mem_singleton, Prod.mk.injEq, Option.some.injEq] at h
        rcases h with h | ⟨_, rfl⟩
        · exact hm k' v' h
        · exact hcv) ?_ ih
    intro n hn l ht hml href
    obtain ⟨e, bl3, rfl⟩ : ∃ e bl3, bl2 = e :: bl3 := by
      cases bl2 with
      | nil => exact absurd rfl hbl2.1
      | cons e bl3 => exact ⟨e, bl3, rfl⟩
    have heb := hbl2.2 e (by simp)
    have hef : ∀ c : Byte, isBlank c = true → isWs c = true ∧ c ≠ 10#8 := by decide +kernel
    obtain ⟨l', c1, c2, c3, c4, -⟩ := macroName_ok (l := clean l) (n := n) hbl.2 hk' (hef e heb).1 ht
      (fun b hb => hc b (by rw [show text (clean l) = _ from ht] at hb; simp at hb ⊢; tauto))
      (by rw [show text (clean l) = _ from ht]; simp at hn ⊢; omega)
    have hi : l.ignore = false := by rw [refines_ignore href]; simpa using hs
    have hmac : (macro? l' k).isSome = false := by
      rw [macro_isSome, c4.2.2.1]
      show decide (k ∈ l.macros.map _) = _
      rw [hml]
      simpa using hnew
    obtain ⟨l3, d1, d2, d3⟩ := macroBody_ok (l := l') (n := n) (hef e heb).2 (fun c h => hbl2.2 c (by simp [h])) hst hx
      c2 (fun b hb => hc b (by rw [show text l' = _ from c2] at hb; simp at hb ⊢; tauto))
      (by rw [c2]; simp at hn ⊢; omega)
    refine ⟨clean { l3 with macros := l3.macros ++ [(k, some v)] }, ?_, d2, rfl, ?_,
      refines_congr href (d3.2.2.2.1.trans c4.2.2.2.1) (d3.2.2.2.2.trans c4.2.2.2.2) (d3.2.1.trans c4.2.1)⟩
    · have hpp := pp_sDefine cfg (token cfg n) n l
      rw [hpp, ppDefine]
      simp only [c1, Option.bind_eq_bind, Option.bind_some]
      rw [if_neg (by rw [c4.2.1, show (clean l).ignore = false from hi]; decide), c3, if_neg (by rw [hmac]; decide)]
      simp only [d1, Option.bind_some]
    · show l3.macros ++ _ = _
      rw [d3.2.2.1, c4.2.2.1]
      show l.macros ++ _ = _
      rw [hml]
  | @defineSkip ms s ws bl k e rest ty' w' rest' ms' s' hs hws hbl hk' he _ ih =>
    intro hc hm
    refine via (ms1 := ms) (T1 := rest) rfl hws (wordF sDefine (by simp)) (gap_stops hbl) hc
      (fun b hb => hc b (by simp [hb])) hm ?_ ih
    intro n hn l ht hml href
    obtain ⟨l', c1, c2, c3, c4, -⟩ := macroName_ok (l := clean l) (n := n) hbl.2 hk' he ht
      (fun b hb => hc b (by rw [show text (clean l) = _ from ht] at hb; simp at hb ⊢; tauto))
      (by rw [show text (clean l) = _ from ht]; simp at hn ⊢; omega)
    have hi : l.ignore = true := by rw [refines_ignore href]; simpa using hs
    refine ⟨clean l', ?_, c2, rfl, c4.2.2.1.trans hml, refines_congr href c4.2.2.2.1 c4.2.2.2.2 c4.2.1⟩
    have hpp := pp_sDefine cfg (token cfg n) n l
    rw [hpp, ppDefine]
    simp only [c1, Option.bind_eq_bind, Option.bind_some]
    rw [if_pos (by rw [c4.2.1]; exact hi)]
  | @undef ms s ws bl k e rest ty' w' rest' ms' s' hs hws hbl hk' he _ ih =>
    intro hc hm
    refine via (ms1 := ms.filter (fun m => m.1 ≠ k)) (T1 := rest) rfl hws (wordF sUndef (by simp)) (gap_stops hbl) hc
      (fun b hb => hc b (by simp [hb])) (fun k' v' h => hm k' v' (List.mem_of_mem_filter h)) ?_ ih
    intro n hn l ht hml href
    obtain ⟨l', c1, c2, c3, c4, -⟩ := macroName_ok (l := clean l) (n := n) hbl.2 hk' he ht
      (fun b hb => hc b (by rw [show text (clean l) = _ from ht] at hb; simp at hb ⊢; tauto))
      (by rw [show text (clean l) = _ from ht]; simp at hn ⊢; omega)
    refine ⟨clean { l' with macros := l'.macros.filter (·.1 ≠ l'.res) }, ?_, c2, rfl, ?_,
      refines_congr href c4.2.2.2.1 c4.2.2.2.2 c4.2.1⟩
    · have hpp := pp_sUndef cfg (token cfg n) n l
      rw [hpp, ppUndef]
      simp only [c1, Option.bind_eq_bind, Option.bind_some]
    · show l'.macros.filter _ = _
      rw [c3, c4.2.2.1]
      show l.macros.filter _ = _
      rw [hml]
  | @empty ms s ws k rest ty' w' rest' ms' s' hws hk' hkw hlook hst _ ih =>
    intro hc hm
    refine via (ms1 := ms) (T1 := rest) rfl hws hk' hst hc
      (fun b hb => hc b (by simp [hb])) hm ?_ ih
    intro n hn l ht hml href
    refine ⟨clean l, ?_, ht, rfl, hml, refines_congr href rfl rfl rfl⟩
    simp only [List.mem_cons, List.not_mem_nil, or_false, not_or] at hkw
    obtain ⟨k1, k2, k3, k4, k5, k6⟩ := hkw
    rw [ppCommand, if_neg k1, if_neg k2, if_neg k3, if_neg k4, if_neg k5, if_neg k6,
      lookup_macro (by rw [hml]; exact hlook)]
  | @expand ms s ws k v rest ty' w' rest' ms' s' hws hk' hkw hlook hst _ ih =>
    intro hc hm
    refine via (ms1 := ms) (T1 := v ++ rest) rfl hws hk' hst hc
      (by
        intro b hb
        rcases List.mem_append.mp hb with h | h
        · exact hm k v (lookup_mem hlook) b h
        · exact hc b (by simp [h])) hm ?_ ih
    intro n hn l ht hml href
    refine ⟨clean (pushBuf l v), ?_, ?_, rfl, hml, refines_congr href rfl rfl rfl⟩
    · simp only [List.mem_cons, List.not_mem_nil, or_false, not_or] at hkw
      obtain ⟨k1, k2, k3, k4, k5, k6⟩ := hkw
      rw [ppCommand, if_neg k1, if_neg k2, if_neg k3, if_neg k4, if_neg k5, if_neg k6,
        lookup_macro (by rw [hml]; exact hlook)]
    · show v.drop 0 ++ [] ++ text l = _
      rw [ht]
      simp

end Verif.Lex
