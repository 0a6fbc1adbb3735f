import Verif.Expr
import Verif.LexProps
/-
How the lexer of mln_expr_run reads a text: the tokens are those written there, strings included, and
a snapshot brings the lexer back to where it was taken.
-/
namespace Verif.Expr
open Verif.Lex

/-! ## The buffer stays -/

/-- The input of mln_expr_run at the place `p`. -/
def inp (B : List Byte) (p : Nat) : Input := { buf := B, pos := p }

/-- The only input is the text `B`, or everything has been read. -/
def Buf (B : List Byte) (l : Lex) : Prop :=
  l.cur.toList ++ l.stack = [] ∨ ∃ p, l.cur.toList ++ l.stack = [inp B p]

theorem buf_of {B l l'} (h : Buf B l) (h1 : l'.cur = l.cur) (h2 : l'.stack = l.stack) : Buf B l' := by
  rw [Buf, h1, h2]; exact h

theorem buf_getchar {B l} (h : Buf B l) : Buf B (getchar l).2 := by
  rcases h with h | ⟨p, h⟩
  · left
    simp [getchar, h, getTop]
  · by_cases hp : ∃ b bs, B.drop p = b :: bs
    · obtain ⟨b, bs, hp⟩ := hp
      right
      refine ⟨p + 1, ?_⟩
      simp [getchar, h, getTop, inp, hp]
    · left
      have : B.drop p = [] := by
        cases hd : B.drop p with
        | nil => rfl
        | cons b bs => exact absurd ⟨b, bs, hd⟩ hp
      simp [getchar, h, getTop, inp, this]

theorem buf_stepback {B l c l'} (h : Buf B l) (hs : stepback l c = some l') : Buf B l' := by
  rw [stepback] at hs
  split at hs
  · cases hs; exact h
  · split at hs
    · cases hs
    · rename_i i hi
      split at hs
      · cases hs
      · cases hs
        rcases h with h | ⟨p, h⟩
        · simp [hi] at h
        · right
          rw [hi] at h
          simp only [Option.toList_some, List.cons_append, List.nil_append, List.cons.injEq] at h
          refine ⟨p - 1, ?_⟩
          simp [h.1, h.2, inp]

theorem buf_lead {B} : ∀ n c l r, Buf B l → lead n c l = some r → Buf B r.2 := by
  intro n
  induction n with
  | zero => intro c l r _ h; cases h
  | succ n ih =>
    intro c l r hb h
    rw [lead] at h
    split at h
    · refine ih _ _ _ ?_ h; exact buf_getchar (buf_of hb rfl rfl)
    · split at h
      · refine ih _ _ _ ?_ h; exact buf_getchar hb
      · cases h; exact hb

theorem buf_while {B p} : ∀ n c l r, Buf B l → while_ p n c l = some r → Buf B r.2 := by
  intro n
  induction n with
  | zero => intro c l r _ h; cases h
  | succ n ih =>
    intro c l r hb h
    rw [while_] at h
    split at h
    · refine ih _ _ _ ?_ h; exact buf_getchar (buf_of hb rfl rfl)
    · cases h; exact hb

theorem buf_quoted {B q} : ∀ n l r, Buf B l → quoted q n l = some r → Buf B r.2 := by
  intro n
  induction n with
  | zero => intro l r _ h; cases h
  | succ n ih =>
    intro l r hb h
    have hg := buf_getchar hb
    rw [quoted] at h
    dsimp only at h
    split at h
    · cases h; exact hg
    · split at h
      · cases h; exact buf_of hg rfl rfl
      · split at h
        · cases h; exact buf_of hg rfl rfl
        · split at h
          · split at h
            · cases h; exact buf_getchar hg
            · split at h
              · cases h; exact buf_of (buf_getchar hg) rfl rfl
              · refine ih _ _ ?_ h; exact buf_of (buf_getchar hg) rfl rfl
          · refine ih _ _ ?_ h; exact buf_of hg rfl rfl

theorem buf_special {B tk n l c r} (hb : Buf B l) (h : special cfg tk n l c = some r) : Buf B r.2 := by
  rw [special] at h
  split at h
  · simp only [cfg] at h
    split at h
    · cases h; exact buf_of hb rfl rfl
    · rename_i hh
      split at hh
      · cases hh
      · split at hh <;> cases hh
    · rename_i f hh
      split at hh
      · cases hh; exact buf_quoted n (clean l) _ (buf_of hb rfl rfl) h
      · split at hh
        · cases hh; exact buf_quoted n (clean l) _ (buf_of hb rfl rfl) h
        · cases hh
  · cases h; exact buf_of hb rfl rfl

theorem buf_dispatch {B tk n l c r} (hb : Buf B l) (h : dispatch cfg tk n c l = some r) : Buf B r.2 := by
  rw [dispatch] at h
  split at h
  · rw [word] at h
    simp only [Option.bind_eq_bind, Option.bind_eq_some_iff] at h
    obtain ⟨⟨c', l1⟩, h1, h⟩ := h
    have b1 := buf_while _ _ _ _ hb h1
    dsimp only at h b1
    split at h
    · cases h; exact b1
    · rw [Option.bind_eq_some_iff] at h
      obtain ⟨l2, h2, h⟩ := h
      have b2 := buf_stepback b1 h2
      split at h
      · exact buf_special b2 h
      · cases h; exact buf_of b2 rfl rfl
  · split at h
    · rw [Verif.Lex.number] at h
      simp only [Option.bind_eq_bind, Option.bind_eq_some_iff] at h
      obtain ⟨⟨c', l1⟩, h1, h⟩ := h
      have b1 := buf_while _ _ _ _ hb h1
      dsimp only at h b1
      split at h
      · cases h; exact b1
      · rw [Option.bind_eq_some_iff] at h
        obtain ⟨l2, h2, h⟩ := h
        have b2 := buf_stepback b1 h2
        split at h
        · cases h; exact buf_of b2 rfl rfl
        · cases h; exact buf_of b2 rfl rfl
    · refine buf_special ?_ h; exact buf_of hb rfl rfl

theorem buf_token {B} : ∀ n l r, Buf B l → token cfg n l = some r → Buf B r.2 := by
  intro n
  induction n with
  | zero => intro l r _ h; cases h
  | succ n ih =>
    intro l r hb h
    rw [token] at h
    simp only [Option.bind_eq_bind, Option.bind_eq_some_iff] at h
    obtain ⟨⟨c, l1⟩, h1, h⟩ := h
    have b1 := buf_lead _ _ _ _ (buf_getchar hb) h1
    dsimp only at h b1
    split at h
    · cases h; exact b1
    · split at h
      · cases h; exact buf_of b1 rfl rfl
      · rw [Option.bind_eq_some_iff] at h
        obtain ⟨r1, h2, h⟩ := h
        have b2 := buf_dispatch b1 h2
        rw [finish] at h
        split at h
        · cases h; exact b2
        · exact ih _ _ b2 h

theorem buf_text {B l} (h : Buf B l) : text l = [] ∨ ∃ p, text l = B.drop p ∧
    l.cur.toList ++ l.stack = [inp B p] ∧ (text l ≠ [] → p < B.length) := by
  rcases h with h | ⟨p, h⟩
  · left; simp [text, h]
  · right
    have e : text l = B.drop p := by simp [text, h, inp, Input.rest]
    refine ⟨p, e, h, ?_⟩
    intro hne
    rw [e] at hne
    by_contra hp
    exact hne (List.drop_eq_nil_of_le (by omega))

/-- Going back to a place where something was left to read. -/
theorem apply_snapshot {B l l'} (h : Buf B l) (h' : Buf B l') (hl : text l ≠ []) (hl' : text l' ≠ []) :
    text (apply l' (snapshot l)) = text l ∧ Buf B (apply l' (snapshot l)) ∧
    (apply l' (snapshot l)).res = l'.res ∧ (apply l' (snapshot l)).ignore = l'.ignore := by
  rcases buf_text h with h | ⟨p, e, hp, hlt⟩
  · exact absurd h hl
  rcases buf_text h' with h' | ⟨p', e', hp', _⟩
  · exact absurd h' hl'
  have hlt := hlt hl
  have hs : snapshot l = some p := by simp [snapshot, hp, place, inp]
  rw [hs]
  rw [e]
  cases hc : l'.cur with
  | some i =>
    rw [hc] at hp'
    simp only [Option.toList_some, List.cons_append, List.nil_append, List.cons.injEq] at hp'
    have : apply l' (some p) = { l' with cur := some (inp B p) } := by
      simp [apply, hc, hp'.1, rewind, inp, hlt]
    rw [this]
    refine ⟨?_, .inr ⟨p, ?_⟩, rfl, rfl⟩
    · simp [text, hp'.2, inp, Input.rest]
    · simp [hp'.2]
  | none =>
    rw [hc] at hp'
    simp only [Option.toList_none, List.nil_append] at hp'
    have : apply l' (some p) = { l' with stack := [inp B p] } := by
      simp [apply, hc, hp', rewind, inp, hlt]
    rw [this]
    refine ⟨?_, .inr ⟨p, ?_⟩, rfl, rfl⟩
    · simp [text, hc, inp, Input.rest]
    · simp [hc]

/-- In a file one comes back to a place that is still in the buffer, with everything behind it. -/
theorem rewind_file {i j : Input} {f : List Byte} (hp : i.path = some f) (h1 : j.path = i.path) (h2 : j.buf = i.buf)
    (h3 : j.left = i.left) (h4 : i.pos < i.buf.length) : (rewind j (place i)).rest = i.rest := by
  have e : place i = i.left.length + (i.buf.length - i.pos) := by simp [place, hp]
  rw [e]
  simp only [rewind, h1, hp]
  rw [if_neg (by rw [h3, h2]; omega)]
  simp only [Input.rest, h2, h3, List.drop_length, List.nil_append]
  rw [show i.left.length + i.buf.length - (i.left.length + (i.buf.length - i.pos)) = i.pos by omega]

/-- A place before the buffer or behind it is not gone back to. -/
theorem rewind_outside {j : Input} {f : List Byte} {d : Nat} (hp : j.path = some f)
    (h : d ≤ j.left.length ∨ j.left.length + j.buf.length < d) : rewind j d = j := by
  simp only [rewind, hp]
  rw [if_pos (by omega)]

/-! ## How a token is written -/

/-- What may follow a backslash, and the byte it stands for. -/
def escapes : List (Byte × Byte) :=
  [(34#8, 34#8), (39#8, 39#8), (110#8, 10#8), (116#8, 9#8), (98#8, 8#8), (97#8, 7#8), (102#8, 12#8),
   (114#8, 13#8), (118#8, 11#8), (92#8, 92#8)]

/-- The text `w` between quotes `q` stands for the string `s`. -/
inductive Body (q : Byte) : List Byte → List Byte → Prop
  | nil : Body q [] []
  | byte {c w s} : c ≠ q → c ≠ 92#8 → Body q w s → Body q (c :: w) (c :: s)
  | esc {n b w s} : (n, b) ∈ escapes → Body q w s → Body q (92#8 :: n :: w) (b :: s)

/-- The text `w`, followed by `rest`, is a token of type `ty` with the content `s`. -/
inductive Spell : Ty → List Byte → List Byte → List Byte → Prop
  | plain {ty w rest} : Lexeme keywords ty w rest → ty ≠ .eof → ty ≠ .spec 34#8 → ty ≠ .spec 39#8 →
      ty ≠ .spec 35#8 → Spell ty w w rest
  | str {q w s rest} : q = 34#8 ∨ q = 39#8 → Body q w s → Spell STRING s (q :: w ++ [q]) rest

theorem escape_mem : ∀ n b : Byte, (n, b) ∈ escapes → escape n = some b := by
  intro n b h
  simp only [escapes, List.mem_cons, List.not_mem_nil, Prod.mk.injEq, or_false] at h
  rcases h with ⟨rfl, rfl⟩ | ⟨rfl, rfl⟩ | ⟨rfl, rfl⟩ | ⟨rfl, rfl⟩ | ⟨rfl, rfl⟩ | ⟨rfl, rfl⟩ |
    ⟨rfl, rfl⟩ | ⟨rfl, rfl⟩ | ⟨rfl, rfl⟩ | ⟨rfl, rfl⟩ <;> rfl

theorem getchar_cons {l : Lex} {c T} (h : text l = c :: T) :
    (getchar l).1 = c ∧ text (getchar l).2 = T ∧ (getchar l).2.res = l.res ∧
      (getchar l).2.ignore = l.ignore := by
  obtain ⟨h1, h2, h3, _⟩ := getchar_pending l
  have e := pending_ne h1 (by rw [h]; simp)
  rw [h] at e
  simp only [List.cons.injEq] at e
  exact ⟨e.1.symm, e.2.symm, h2, h3.2.1⟩

theorem quoted_body {q w s} (hq : q ≠ 92#8) (h : Body q w s) :
    ∀ {n l rest}, text l = w ++ q :: rest → Clean (text l) → w.length < n →
    ∃ l2, quoted q n l = ret l2 STRING ∧ text l2 = rest ∧ l2.res = l.res ++ s ∧ l2.ignore = l.ignore := by
  induction h with
  | nil =>
    intro n l rest ht hc hn
    obtain ⟨n, rfl⟩ : ∃ m, n = m + 1 := ⟨n - 1, by simp at hn; omega⟩
    obtain ⟨g1, g2, g3, g4⟩ := getchar_cons ht
    have hcq := hc q (by rw [ht]; simp)
    refine ⟨(getchar l).2, ?_, g2, by rw [g3, List.append_nil], g4⟩
    rw [quoted]; dsimp only
    rw [g1, if_neg hcq.2, if_neg hcq.1, if_pos rfl]
  | @byte c w s hcq hc92 _ ih =>
    intro n l rest ht hc hn
    obtain ⟨n, rfl⟩ : ∃ m, n = m + 1 := ⟨n - 1, by simp at hn; omega⟩
    obtain ⟨g1, g2, g3, g4⟩ := getchar_cons ht
    have hcc := hc c (by rw [ht]; simp)
    have ht2 : text (put (getchar l).2 c) = w ++ q :: rest := g2
    obtain ⟨l2, a1, a2, a3, a4⟩ := ih (n := n) ht2
      (by rw [ht2]; intro b hb; exact hc b (by rw [ht]; simp [List.mem_append] at hb ⊢; tauto))
      (by simp at hn; omega)
    refine ⟨l2, ?_, a2, ?_, a4.trans g4⟩
    · rw [quoted]; dsimp only
      rw [g1, if_neg hcc.2, if_neg hcc.1, if_neg hcq, if_neg hc92, a1]
    · rw [a3]; simp [put, g3]
  | @esc m b w s hm _ ih =>
    intro n l rest ht hc hn
    obtain ⟨n, rfl⟩ : ∃ m, n = m + 1 := ⟨n - 1, by simp at hn; omega⟩
    obtain ⟨g1, g2, g3, g4⟩ := getchar_cons ht
    obtain ⟨k1, k2, k3, k4⟩ := getchar_cons g2
    have hcm := hc m (by rw [ht]; simp)
    have ht2 : text (put (getchar (getchar l).2).2 b) = w ++ q :: rest := k2
    obtain ⟨l2, a1, a2, a3, a4⟩ := ih (n := n) ht2
      (by rw [ht2]; intro b hb; exact hc b (by rw [ht]; simp [List.mem_append] at hb ⊢; tauto))
      (by simp at hn; omega)
    refine ⟨l2, ?_, a2, ?_, a4.trans (k4.trans g4)⟩
    · rw [quoted]; dsimp only
      rw [g1, if_neg (by decide), if_neg (by decide), if_neg (Ne.symm hq), if_pos rfl, k1,
        if_neg hcm.2, escape_mem _ _ hm]
      dsimp only
      rw [a1]
    · rw [a3]; simp [put, g3, k3]

theorem keywords_nodup : keywords.Nodup := by decide

/-- The settings read strings and keywords as mln_expr_run does; only `#` may be different. -/
structure Quotes (c : Cfg) : Prop where
  keywords : c.keywords = keywords
  plain : ∀ b, b ≠ 34#8 → b ≠ 39#8 → b ≠ 35#8 → c.hook b = .plain
  dbl : c.hook 34#8 = .user (fun n l => quoted 34#8 n (clean l))
  sgl : c.hook 39#8 = .user (fun n l => quoted 39#8 n (clean l))

theorem quotes_cfg : Quotes cfg :=
  ⟨rfl, fun b h1 h2 _ => by simp [cfg, h1, h2], rfl, rfl⟩
theorem quotes_file (fs : List Byte → Option (List Byte)) : Quotes (cfgFile fs) :=
  ⟨rfl, fun b h1 h2 h3 => by simp [cfgFile, cfg, h1, h2, h3], rfl, rfl⟩

/-- Every token is read as it is written. -/
theorem token_spell {c : Cfg} (hq : Quotes c) {l : Lex} {ty s ws w rest n} (hr : l.res = []) (hi : l.ignore = false)
    (ht : text l = ws ++ w ++ rest) (hws : ∀ c ∈ ws, isWs c) (hx : Spell ty s w rest)
    (hc : Clean (text l)) (hn : (text l).length + 1 < n) :
    ∃ t l', token c n l = some (some t, l') ∧ t.type = ty ∧ t.text = s ∧ text l' = rest ∧
      l'.res = [] ∧ l'.ignore = false := by
  cases hx with
  | plain h1 h2 h3 h4 h5 =>
    obtain ⟨t, l', a1, a2, a3, a4, _⟩ := token_lexeme (cfg := c) (by rw [hq.keywords]; exact keywords_nodup)
      (fun b hb => hq.plain b (by rintro rfl; exact h3 hb) (by rintro rfl; exact h4 hb) (by rintro rfl; exact h5 hb))
      hr hi ht hws (by rw [hq.keywords]; exact h1) hc hn
    exact ⟨t, l', a1, a2, a3 h2, a4.text, a4.res, a4.ignore.trans hi⟩
  | @str q w _ _ hq' hb =>
    obtain ⟨n, rfl⟩ : ∃ m, n = m + 1 := ⟨n - 1, by omega⟩
    obtain ⟨x, l1, s1, s2, s3, s4, -⟩ := start l (n := n) (by omega)
    have hqws : isWs q = false ∧ q ≠ 92#8 ∧ isLetter q = false ∧ isDigit q = false ∧
        specials.elem q = true ∧ q ≠ ERR ∧ q ≠ EOF := by
      rcases hq' with rfl | rfl <;> decide
    rw [List.append_assoc] at ht
    rw [ht, (ws_skip hws (by intro y hy; cases hy; exact hqws.1)).1] at s2
    have e := pending_ne s2 (by simp)
    simp only [List.cons_append, List.append_assoc, List.cons.injEq, List.nil_append] at e
    obtain ⟨rfl, e⟩ := e
    have hlen : (text l).length = ws.length + (w.length + 1 + 1 + rest.length) := by
      rw [ht]; simp; omega
    have ht2 : text (clean (put l1 q)) = w ++ q :: rest := e.symm
    obtain ⟨l2, a1, a2, a3, a4⟩ := quoted_body (n := n) hqws.2.1 hb ht2
      (by rw [ht2]; intro b hb; exact hc b (by rw [ht]; simp [List.mem_append] at hb ⊢; tauto)) (by omega)
    have hig : l2.ignore = false := a4.trans (s4.2.1.trans hi)
    refine ⟨(new l2 STRING).1, (new l2 STRING).2, ?_, rfl, ?_, a2, rfl, hig⟩
    · have hk : special c (token c n) n (put l1 q) q = quoted q n (clean (put l1 q)) := by
        rw [special, if_pos hqws.2.2.2.2.1]
        rcases hq' with rfl | rfl
        · rw [hq.dbl]
        · rw [hq.sgl]
      rw [token_at s1 hqws.2.2.2.2.2.1 hqws.2.2.2.2.2.2, dispatch, if_neg (by simp [hqws.2.2.1]),
        if_neg (by simp [hqws.2.2.2.1]), hk, a1, finish_ret hig]
      rfl
    · show (if STRING = .eof then eofText else l2.res) = _
      rw [if_neg (by decide), a3]
      rfl

theorem spell_ne {ty s w rest} (h : Spell ty s w rest) : w ≠ [] := by
  cases h with
  | plain h h1 =>
    cases h with
    | eof => exact absurd rfl h1
    | id h => obtain ⟨⟨c, cs, rfl, _⟩, _⟩ := h; simp
    | kw h => obtain ⟨⟨c, cs, rfl, _⟩, _⟩ := h; simp
    | under => simp
    | spec => simp
    | num h => obtain ⟨⟨c, cs, rfl, _⟩, _⟩ := number_shape h; simp
  | str => simp

theorem spell_eof {ty s w rest} (h : Spell ty s w rest) : ty ≠ .eof := by
  cases h with
  | plain _ h => exact h
  | str => simp

/-! ## Texts -/

/-- The text consists of the tokens `ts`, with blanks before them and at least one at the end. -/
inductive Written : List Byte → List (Ty × List Byte) → Prop
  | nil {ws} : ws ≠ [] → (∀ c ∈ ws, isWs c) → Written ws []
  | cons {ty s ws w rest ts} : (∀ c ∈ ws, isWs c) → Spell ty s w rest → Written rest ts →
      Written (ws ++ w ++ rest) ((ty, s) :: ts)

theorem written_ne {T ts} (h : Written T ts) : T ≠ [] := by
  cases h with
  | nil h => exact h
  | cons _ h => simp [spell_ne h]

theorem written_length {T ts} (h : Written T ts) : ts.length < T.length := by
  induction h with
  | nil h => exact List.length_pos_iff.mpr h
  | cons _ h _ ih =>
    have := List.length_pos_iff.mpr (spell_ne h)
    simp
    omega

/-- What the lexer reads from: something that tokens keep, and the fuel. -/
structure Src where
  I : Lex → Prop
  fuel : Nat

/-- The lexer has still the tokens `ts` to read. -/
structure Reads (B : Src) (l : Lex) (ts : List (Ty × List Byte)) : Prop where
  written : Written (text l) ts
  res : l.res = []
  ignore : l.ignore = false
  inv : B.I l
  clean : Clean (text l)
  small : (text l).length + 1 < B.fuel

theorem reads_token {c : Cfg} (hq : Quotes c) {B l ty s ts} (h : Reads B l ((ty, s) :: ts))
    (hI : ∀ l r, B.I l → token c B.fuel l = some r → B.I r.2) :
    ∃ t l', token c B.fuel l = some (some t, l') ∧ t.type = ty ∧ t.text = s ∧ Reads B l' ts := by
  obtain ⟨hw, hr, hi, hb, hcl, hlen⟩ := h
  generalize hT : text l = T at hw
  cases hw with
  | @cons _ _ ws w rest _ hws hx hw =>
    obtain ⟨t, l', a1, a2, a3, a4, a5, a6⟩ := token_spell hq hr hi hT hws hx hcl hlen
    refine ⟨t, l', a1, a2, a3, ⟨a4 ▸ hw, a5, a6, hI _ _ hb a1, ?_, ?_⟩⟩
    · rw [a4]
      exact fun b hb => hcl b (by rw [hT]; exact List.mem_append_right _ hb)
    · rw [hT] at hlen
      simp only [List.length_append] at hlen
      rw [a4]; omega

/-- The next token is the end. -/
def AtEnd (c : Cfg) (n : Nat) (l : Lex) : Prop := ∃ t l', token c n l = some (some t, l') ∧ t.type = .eof ∧
  l'.ignore = false ∧ l'.res = [] ∧ text l' = []

theorem blank_end {c : Cfg} (hq : Quotes c) {l : Lex} {n} (hw : ∀ c ∈ text l, isWs c) (hr : l.res = [])
    (hi : l.ignore = false) (hn : (text l).length + 1 < n) : AtEnd c n l := by
  have hws : ∀ c : Byte, isWs c = true → c ≠ EOF ∧ c ≠ ERR := by decide +kernel
  obtain ⟨t, l', a1, a2, a3, a4, _⟩ := token_lexeme (cfg := c) (l := l) (ws := text l) (w := []) (rest := [])
    (by rw [hq.keywords]; exact keywords_nodup)
    (fun b hb => by cases hb) hr hi (by simp) hw .eof (fun b hb => hws b (hw b hb)) hn
  exact ⟨t, l', a1, a2, a4.ignore.trans hi, a4.res, a4.text⟩

theorem reads_end {c : Cfg} (hq : Quotes c) {B l} (h : Reads B l []) : AtEnd c B.fuel l := by
  obtain ⟨hw, hr, hi, hb, _, hlen⟩ := h
  generalize hT : text l = T at hw
  cases hw with
  | nil h1 h2 => exact blank_end hq (hT ▸ h2) hr hi hlen

/-- One can go back to a place where something was left to read. -/
def Back (I : Lex → Prop) : Prop := ∀ l l', I l → I l' → text l ≠ [] → text l' ≠ [] →
  text (apply l' (snapshot l)) = text l ∧ I (apply l' (snapshot l)) ∧
  (apply l' (snapshot l)).res = l'.res ∧ (apply l' (snapshot l)).ignore = l'.ignore

theorem reads_apply {B : Src} (hB : Back B.I) {l l' ts ts'} (h : Reads B l ts) (h' : Reads B l' ts') :
    Reads B (apply l' (snapshot l)) ts := by
  obtain ⟨a1, a2, a3, a4⟩ := hB _ _ h.inv h'.inv (written_ne h.written) (written_ne h'.written)
  exact ⟨a1 ▸ h.written, a3.trans h'.res, a4.trans h'.ignore, a2, a1 ▸ h.clean, a1 ▸ h.small⟩

theorem buf_back (B : List Byte) : Back (Buf B) := fun _ _ h h' hl hl' => apply_snapshot h h' hl hl'

/-- The source of mln_expr_run: the text in memory. -/
def mem (T : List Byte) (n : Nat) : Src := ⟨Buf T, n⟩
/-- The source of mln_expr_run_file: nothing is known about it. -/
def file (n : Nat) : Src := ⟨fun _ => True, n⟩

theorem reads_init {T ts n} (h : Written T ts) (hc : Clean T) (hn : T.length + 1 < n) :
    Reads (mem T n) (init T) ts := by
  have e : text (init T) = T := by simp [text, init, pushBuf, push, Input.rest]
  exact ⟨e.symm ▸ h, rfl, rfl, .inr ⟨0, rfl⟩, e.symm ▸ hc, e.symm ▸ hn⟩

theorem reads_file {path T ts n} (h : Written T ts) (hc : Clean T) (hn : T.length + 1 < n) :
    Reads (file n) (initFile path T) ts := by
  have e : text (initFile path T) = T := by simp [text, initFile, pushFile, push, Input.rest]
  exact ⟨e.symm ▸ h, rfl, rfl, trivial, e.symm ▸ hc, e.symm ▸ hn⟩

end Verif.Expr
