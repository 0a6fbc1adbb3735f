import Verif.ExprFailProps
/-
Texts that end inside of an expression: calls, conditions and loops that are not closed are refused, a
namespace without a name is not.
-/
namespace Verif.Expr
open Verif.Lex

variable {U : Type}

/-- Everything has been read. -/
def Done (E : Env U) (s : St U) : Prop := s.next = none ∧ s.eof = false ∧ AtEnd E.cfg E.fuel s.lex

theorem after_done {E : Env U} {B s} (hE : Ok E B) (h : After E B s []) : Done E s := by
  rcases h with (h | ⟨_, t, ts', _, h, _⟩) | ⟨ts', h, _⟩ | ⟨_, h⟩
  · exact ⟨h.next, h.eof, hE.fuel ▸ reads_end hE.quotes h.reads⟩
  · cases h
  · cases h
  · exact h

theorem done_next {E : Env U} {s} (h : Done E s) :
    ∃ t s', nextTok E s = some (some t, s') ∧ t.type = .eof ∧ s'.usr = s.usr := by
  obtain ⟨h1, _, t, l', h3, h4, _⟩ := h
  exact ⟨t, { s with lex := l' }, by simp [nextTok, h1, tok, h3], h4, rfl⟩

theorem done_parse {E : Env U} {s} (h : Done E s) (ns : Option (List Byte)) :
    ∃ s', (∀ m, parse E (m + 1) ns s = some (.ok .null, s')) ∧ s'.usr = s.usr ∧ s'.eof = true := by
  obtain ⟨t, s', h1, h2, h3⟩ := done_next h
  refine ⟨{ s' with eof := true }, fun m => ?_, h3, rfl⟩
  rw [parse, h1]
  simp [h2]

/-- A loop over a sequence fails at the end of the text. -/
def FailsAtEnd (E : Env U) (L : Nat → Val → St U → Option (Rc × St U)) : Prop :=
  ∀ n r s t s1, nextTok E s = some (some t, s1) → t.type = .eof →
    L (n + 2) r s = some (.err, { s1 with next := none, eof := true })

theorem then_end (E : Env U) : FailsAtEnd E (parseThen E) := by
  intro n r s t s1 h ht
  rw [parseThen, h]
  simp [ht, parse, nextTok]
theorem else_end (E : Env U) : FailsAtEnd E (parseElse E) := by
  intro n r s t s1 h ht
  rw [parseElse, h]
  simp [ht, parse, nextTok]
theorem body_end (E : Env U) : FailsAtEnd E (parseBody E) := by
  intro n r s t s1 h ht
  rw [parseBody, h]
  simp [ht, parse, nextTok]

theorem follow_seq (es : List Ex) : Follow (seqToks es) := by
  cases es with
  | nil => rw [seqToks]; intro _ _ _ h; cases h
  | cons e' es' =>
    obtain ⟨ty, w, r', h1, h2⟩ := head_toks e'
    rw [seqToks, h1]
    exact Follow.cons (starts_ne h2).1 (starts_ne h2).2.1

/-- A sequence at the end of the text. -/
theorem seq_open {E : Env U} {B} (hE : Ok E B) {L} (hL : SeqLoop E L) (hL2 : FailsAtEnd E L) : ∀ k {es s r o u},
    fitsAll (Back B.I) es → After E B s (seqToks es) → evalSeq E.real E.cb k es r s.usr = some (o, u) →
    ∃ N s', (∀ m, N ≤ m → L m r s = some (.err, s')) ∧ s'.usr = u := by
  intro k
  induction k with
  | zero => intro es s r o u _ _ h; cases h
  | succ k ih =>
    intro es s r o u hf hs he
    cases es with
    | nil =>
      rw [evalSeq] at he
      cases he
      rw [seqToks] at hs
      obtain ⟨t, s1, h1, h2, h3⟩ := done_next (after_done hE hs)
      refine ⟨2, { s1 with next := none, eof := true }, fun m hm => ?_, h3⟩
      obtain ⟨m, rfl⟩ : ∃ k, m = k + 2 := ⟨m - 2, by omega⟩
      exact hL2 m r s t s1 h1 h2
    | cons e es =>
      rw [fitsAll] at hf
      rw [seqToks] at hs
      rw [evalSeq] at he
      obtain ⟨ty', w', r', h1, h2⟩ := head_toks e
      rw [h1, List.cons_append] at hs
      obtain ⟨t, s1, a1, a2, a3, a4, a5, a6, _⟩ := next_sees hE (hs.sees (starts_ne h2).2.2.1)
      have a7 : Sees B { s1 with next := some t } (toks e ++ seqToks es) := by
        rw [h1]; exact a6
      cases he1 : eval E.real E.cb k e s.usr with
      | none => rw [he1] at he; cases he
      | some r1 =>
        obtain ⟨o1, u1⟩ := r1
        rw [he1] at he
        obtain ⟨N, rc, s2, b1, b2, b3⟩ := parses hE k e { s1 with next := some t } _ o1 u1 hf.1 a7
          (follow_seq es) (by rw [← he1]; exact congrArg _ a5)
        cases o1 with
        | none =>
          cases he
          dsimp only at b3
          subst b3
          refine ⟨N + 1, s2, fun m hm => ?_, b2⟩
          obtain ⟨m, rfl⟩ : ∃ k, m = k + 1 := ⟨m - 1, by omega⟩
          rw [hL m r s t s1 a1 (a2 ▸ h2), b1 m (by omega)]
          rfl
        | some v =>
          obtain ⟨rfl, b3⟩ := b3
          have heof : s2.eof = false := by
            rcases b3 with (h | ⟨h, _⟩) | ⟨ts', _, h⟩ | ⟨_, _, h, _⟩
            exacts [h.eof, h, h.eof, h]
          dsimp only at he
          obtain ⟨N2, s3, c1, c2⟩ := ih (r := v) hf.2 b3 (o := o) (u := u) (by rw [b2]; exact he)
          refine ⟨N + N2 + 1, s3, fun m hm => ?_, c2⟩
          obtain ⟨m, rfl⟩ : ∃ k, m = k + 1 := ⟨m - 1, by omega⟩
          rw [hL m r s t s1 a1 (a2 ▸ h2), b1 m (by omega)]
          simp [heof]
          exact c1 m (by omega)

theorem sees_nil {E : Env U} {B s} (hE : Ok E B) (h : Sees B s []) : Done E s := after_done hE (.inl h)

theorem skipElse_open {E : Env U} {B s es} (hE : Ok E B) (h : Sees B s (seqToks es)) :
    ∃ s', skipElse E E.fuel 0 s = some (false, s') ∧ s'.usr = s.usr := by
  have hl := sees_length hE h
  obtain ⟨s1, a1, a2, a3⟩ := skipElse_bal hE (bal_seq es) (count := 0) (ts := []) (by decide) (by simpa using h)
  obtain ⟨t, s2, b1, b2, b3⟩ := done_next (sees_nil hE a2)
  obtain ⟨n, hn⟩ : ∃ n, E.fuel = n + 1 + (seqToks es).length := ⟨E.fuel - 1 - (seqToks es).length, by omega⟩
  refine ⟨s2, ?_, b3.trans a3⟩
  rw [hn, a1, skipElse, b1]
  simp [b2]

theorem skipEnd_open {E : Env U} {B s es} (hE : Ok E B) (h : Sees B s (seqToks es)) :
    ∃ s', skipEnd E E.fuel 0 s = some (false, s') ∧ s'.usr = s.usr := by
  have hl := sees_length hE h
  obtain ⟨s1, a1, a2, a3⟩ := skipEnd_bal hE (bal_seq es) (count := 0) (ts := []) (by simpa using h)
  obtain ⟨t, s2, b1, b2, b3⟩ := done_next (sees_nil hE a2)
  obtain ⟨n, hn⟩ : ∃ n, E.fuel = n + 1 + (seqToks es).length := ⟨E.fuel - 1 - (seqToks es).length, by omega⟩
  refine ⟨s2, ?_, b3.trans a3⟩
  rw [hn, a1, skipEnd, b1]
  simp [b2]

theorem skipFi_open {E : Env U} {B s es} (hE : Ok E B) (h : Sees0 B s (seqToks es)) :
    ∃ s', skipFi E E.fuel 0 s = some (false, s') ∧ s'.usr = s.usr := by
  have hl := sees_length hE h.sees
  obtain ⟨s1, a1, a2, a3⟩ := skipFi_bal hE (bal_seq es) (count := 0) (ts := []) (by simpa using h)
  obtain ⟨_, _, t, l', h3, h4, _⟩ := sees_nil hE a2.sees
  obtain ⟨n, hn⟩ : ∃ n, E.fuel = n + 1 + (seqToks es).length := ⟨E.fuel - 1 - (seqToks es).length, by omega⟩
  refine ⟨{ s1 with lex := l' }, ?_, a3⟩
  rw [hn, a1, skipFi, tok, h3]
  simp [h4]

/-! ## Conditions -/

/-- `if c` without `then`. -/
theorem if_open {E : Env U} {T c k o u u'} (hE : OkMem E T) (hw : Written T (tIf :: toks c)) (hf : fits True c)
    (he : eval E.real E.cb k c u = some (o, u')) :
    ∃ N, ∀ m, N ≤ m → run E m T u = some (none, u') := by
  have hs := hE.sees hw u
  have hE := hE.ok
  obtain ⟨t0, s0, a1, a2, a3, a4, a5, _⟩ := next_sees hE hs.sees
  obtain ⟨N, rc, s1, b1, b2, b3⟩ := parses hE k c s0 [] _ u' (by rw [back_mem]; exact hf) (by simpa using a4.sees)
    (by intro _ _ _ h; cases h) (by rw [a5]; exact he)
  refine ⟨N + 3, fun m hm => ?_⟩
  obtain ⟨m, rfl⟩ : ∃ k, m = k + 3 := ⟨m - 3, by omega⟩
  rw [run, loop, parse, a1]
  simp only [Option.bind_eq_bind, Option.bind_some, a2]
  rw [if_neg (by decide), if_neg (by decide), if_neg (by decide), if_neg (by decide), if_pos (by decide)]
  rw [parseIf, b1 m (by omega)]
  cases o with
  | none =>
    dsimp only at b3
    subst b3
    simp [b2]
  | some v =>
    obtain ⟨rfl, b3⟩ := b3
    have hd := after_done hE b3
    obtain ⟨t, s2, c1, c2, c3⟩ := done_next hd
    have := hd.2.1
    simp [this, c1, c2, c3, b2]

/-- `if c then t` without `fi`: `t` is run if the condition holds, and the text fails. -/
theorem then_open {E : Env U} {T c t k v u u' o u''} (hE : OkMem E T)
    (hw : Written T (tIf :: (toks c ++ tThen :: seqToks t))) (hf : fits True c) (hft : fitsAll True t)
    (he : eval E.real E.cb k c u = some (some v, u'))
    (ht : if Falsy v then u'' = u' else evalSeq E.real E.cb k t .null u' = some (o, u'')) :
    ∃ N, ∀ m, N ≤ m → run E m T u = some (none, u'') := by
  have hs := hE.sees hw u
  have hE := hE.ok
  obtain ⟨N, s2, a1, a2, a3⟩ := upto_then hE (by rw [back_mem]; exact hf) hs.sees he
  by_cases hv : Falsy v
  · rw [if_pos hv] at ht
    subst ht
    obtain ⟨s3, b1, b2⟩ := skipElse_open hE a2.sees
    refine ⟨N + 3, fun m hm => ?_⟩
    obtain ⟨m, rfl⟩ : ∃ k, m = k + 3 := ⟨m - 3, by omega⟩
    rw [run, loop, a1 m (by omega), falsy_truth hv, b1]
    simp [b2, a3]
  · rw [if_neg hv] at ht
    obtain ⟨N2, s3, b1, b2⟩ := seq_open hE (then_loop E) (then_end E) k (r := .null) (by rw [back_mem]; exact hft)
      (.inl a2.sees) (by rw [a3]; exact ht)
    refine ⟨N + N2 + 3, fun m hm => ?_⟩
    obtain ⟨m, rfl⟩ : ∃ k, m = k + 3 := ⟨m - 3, by omega⟩
    rw [run, loop, a1 m (by omega), (truth_iff v).mpr hv, if_pos rfl, b1 m (by omega)]
    simp [b2]

/-- `if c then t else e` without `fi`: the branch is run, and the text fails. -/
theorem else_open {E : Env U} {T c t e k v u u' o u''} (hE : OkMem E T)
    (hw : Written T (tIf :: (toks c ++ tThen :: (seqToks t ++ tElse :: seqToks e)))) (hf : fits True c)
    (hft : fitsAll True t) (hfe : fitsAll True e)
    (he : eval E.real E.cb k c u = some (some v, u'))
    (ht : evalSeq E.real E.cb k (if Falsy v then e else t) .null u' = some (o, u'')) :
    ∃ N, ∀ m, N ≤ m → run E m T u = some (none, u'') := by
  have hs := hE.sees hw u
  have hE := hE.ok
  obtain ⟨N, s2, a1, a2, a3⟩ := upto_then hE (by rw [back_mem]; exact hf) hs.sees he
  by_cases hv : Falsy v
  · rw [if_pos hv] at ht
    obtain ⟨s3, b1, b2, b3⟩ := skipElse_seq hE a2.sees
    obtain ⟨N2, s4, c1, c2⟩ := seq_open hE (else_loop E) (else_end E) k (r := .null) (by rw [back_mem]; exact hfe)
      (.inl b2.sees) (by rw [b3, a3]; exact ht)
    refine ⟨N + N2 + 3, fun m hm => ?_⟩
    obtain ⟨m, rfl⟩ : ∃ k, m = k + 3 := ⟨m - 3, by omega⟩
    rw [run, loop, a1 m (by omega), falsy_truth hv, b1]
    simp [c1 m (by omega), c2]
  · rw [if_neg hv] at ht
    obtain ⟨N2, s3, b1, b2⟩ := parse_seq hE (then_loop E) k (fun j _ => parses hE j) (r := .null)
      (by rw [back_mem]; exact hft) a2.sees (by decide) (by decide) (by decide) (o := o) (u := u'')
      (by rw [a3]; exact ht)
    cases o with
    | none =>
      dsimp only at b2
      refine ⟨N + N2 + 3, fun m hm => ?_⟩
      obtain ⟨m, rfl⟩ : ∃ k, m = k + 3 := ⟨m - 3, by omega⟩
      rw [run, loop, a1 m (by omega), (truth_iff v).mpr hv, if_pos rfl, b2 m (by omega)]
      simp [b1]
    | some w =>
      obtain ⟨b2, b3⟩ := b2
      obtain ⟨t4, s4, c1, c2, _, c4, c5, _⟩ := next_sees hE b3
      obtain ⟨s5, d1, d2⟩ := skipFi_open hE c4
      refine ⟨N + N2 + t.length + 4, fun m hm => ?_⟩
      obtain ⟨m, rfl⟩ : ∃ k, m = k + 1 + t.length + 3 := ⟨m - 4 - t.length, by omega⟩
      rw [run, loop, a1 _ (by omega), (truth_iff v).mpr hv, if_pos rfl, b2 _ (by omega), parseThen, c1]
      simp [c2, d1, d2, c5, b1]

/-! ## Loops -/

/-- `loop c do b` without `end`: `b` is run once if the condition holds, and the text fails. -/
theorem loop_open {E : Env U} {T c b k v u u' o u''} (hE : OkMem E T)
    (hw : Written T (tLoop :: (toks c ++ tDo :: seqToks b))) (hf : fits True c) (hfb : fitsAll True b)
    (he : eval E.real E.cb k c u = some (some v, u'))
    (ht : if Falsy v then u'' = u' else evalSeq E.real E.cb k b .null u' = some (o, u'')) :
    ∃ N, ∀ m, N ≤ m → run E m T u = some (none, u'') := by
  have hs := hE.sees hw u
  have hE := hE.ok
  obtain ⟨t0, s0, a1, a2, a3, a4, a5, _⟩ := next_sees hE hs.sees
  obtain ⟨N, rc, s1, b1, b2, b3⟩ := parses hE k c s0 _ _ u' (by rw [back_mem]; exact hf) a4.sees
    (Follow.cons (by decide) (by decide)) (by rw [a5]; exact he)
  obtain ⟨rfl, b3⟩ := b3
  have b4 := b3.sees (by decide)
  have heof : s1.eof = false := by
    rcases b4 with h | ⟨h, _⟩
    exacts [h.eof, h]
  obtain ⟨t1, s2, c1, c2, _, c4, c5, _⟩ := next_sees hE b4
  have hgo : ∀ m, N ≤ m → run E (m + 3) T u =
      ((if truth v then (parseBody E m .null s2).bind (fun x => match x.1 with
          | .ok r => parseLoop E m (snapshot s0.lex) r { x.2 with lex := apply x.2.lex (snapshot s0.lex) }
          | rc => some (rc, x.2))
        else (skipEnd E E.fuel 0 s2).bind (fun x => if x.1 then some (.ok .null, x.2) else some (.err, x.2))).bind
      (fun x => match x.1 with
        | .ok v => if x.2.eof then some (some .null, x.2.usr) else loop E (m + 2) (some v) x.2
        | _ => some (none, x.2.usr))) := by
    intro m hm
    rw [run, loop, parse, a1]
    simp only [Option.bind_eq_bind, Option.bind_some, a2]
    rw [if_neg (by decide), if_neg (by decide), if_neg (by decide), if_neg (by decide), if_neg (by decide),
      if_pos (by decide), parseLoop, b1 m hm]
    simp only [Option.bind_eq_bind, Option.bind_some, heof, c1, c2]
    rw [if_neg (by decide), if_neg (by decide)]
    rfl
  by_cases hv : Falsy v
  · rw [if_pos hv] at ht
    subst ht
    obtain ⟨s3, d1, d2⟩ := skipEnd_open hE c4.sees
    refine ⟨N + 3, fun m hm => ?_⟩
    obtain ⟨m, rfl⟩ : ∃ k, m = k + 3 := ⟨m - 3, by omega⟩
    rw [hgo m (by omega), falsy_truth hv, d1]
    simp [d2, c5, b2]
  · rw [if_neg hv] at ht
    obtain ⟨N2, s3, d1, d2⟩ := seq_open hE (body_loop E) (body_end E) k (r := .null) (by rw [back_mem]; exact hfb)
      (.inl c4.sees) (by rw [c5, b2]; exact ht)
    refine ⟨N + N2 + 3, fun m hm => ?_⟩
    obtain ⟨m, rfl⟩ : ∃ k, m = k + 3 := ⟨m - 3, by omega⟩
    rw [hgo m (by omega), (truth_iff v).mpr hv, d1 m (by omega)]
    simp [d2]

/-! ## Calls -/

theorem args_open {E : Env U} {B} (hE : Ok E B) : ∀ k {es s acc o u},
    fitsAll (Back B.I) es → After E B s (argToks es) → evalArgs E.real E.cb k es s.usr = some (o, u) →
    ∃ N s', (∀ m, N ≤ m → parseArgs E m acc s = some (none, s')) ∧ s'.usr = u := by
  intro k
  induction k with
  | zero => intro es s acc o u _ _ h; cases h
  | succ k ih =>
    intro es s acc o u hf hs he
    cases es with
    | nil =>
      rw [evalArgs] at he
      cases he
      rw [argToks] at hs
      obtain ⟨s', h1, h2, h3⟩ := done_parse (after_done hE hs) none
      refine ⟨2, s', fun m hm => ?_, h2⟩
      obtain ⟨m, rfl⟩ : ∃ k, m = k + 2 := ⟨m - 2, by omega⟩
      rw [parseArgs, h1 m]
      simp [h3]
    | cons e es =>
      rw [fitsAll] at hf
      rw [argToks] at hs
      rw [evalArgs] at he
      obtain ⟨ty', w', r', h1, h2⟩ := head_toks e
      have hs' : Sees B s (toks e ++ argRest es) := by
        rw [h1, List.cons_append] at hs ⊢
        exact hs.sees (starts_ne h2).2.2.1
      have hfo : Follow (argRest es) := by
        cases es with
        | nil => rw [argRest]; intro _ _ _ h; cases h
        | cons e es => rw [argRest]; exact Follow.cons (by decide) (by decide)
      cases he1 : eval E.real E.cb k e s.usr with
      | none => rw [he1] at he; cases he
      | some r1 =>
        obtain ⟨o1, u1⟩ := r1
        rw [he1] at he
        obtain ⟨N, rc, s1, a1, a2, a3⟩ := parses hE k e s _ o1 u1 hf.1 hs' hfo he1
        cases o1 with
        | none =>
          cases he
          dsimp only at a3
          subst a3
          refine ⟨N + 1, s1, fun m hm => ?_, a2⟩
          obtain ⟨m, rfl⟩ : ∃ k, m = k + 1 := ⟨m - 1, by omega⟩
          rw [parseArgs, a1 m (by omega)]
          rfl
        | some v =>
          obtain ⟨rfl, a3⟩ := a3
          have heof : s1.eof = false := by
            rcases a3 with (h | ⟨h, _⟩) | ⟨ts', _, h⟩ | ⟨_, _, h, _⟩
            exacts [h.eof, h, h.eof, h]
          have hcom : ∃ s2 d, (∀ m, 0 < m → parseArgs E (m + d) (acc ++ [v]) s1 = parseArgs E m (acc ++ [v]) s2) ∧
              After E B s2 (argToks es) ∧ s2.usr = s1.usr := by
            cases es with
            | nil => exact ⟨s1, 0, fun m _ => rfl, by rw [argRest] at a3; rw [argToks]; exact a3, rfl⟩
            | cons e' es' =>
              rw [argRest] at a3
              rw [argToks]
              rcases a3 with h | ⟨ts', h, h2⟩ | ⟨h, _⟩
              · obtain ⟨t, s2, b1, b2, b3, b4, b5, _⟩ := next_sees hE h
                refine ⟨s2, 1, fun m hm => ?_, .inl b4.sees, b5⟩
                obtain ⟨m, rfl⟩ : ∃ k, m = k + 1 := ⟨m - 1, by omega⟩
                rw [parseArgs, parse, b1]
                simp [b2]
              · simp only [List.cons.injEq, true_and] at h
                rw [← h] at h2
                exact ⟨s1, 0, fun m _ => rfl, .inl h2.sees, rfl⟩
              · cases h
          obtain ⟨s2, d, b1, b2, b3⟩ := hcom
          dsimp only at he
          cases he2 : evalArgs E.real E.cb k es u1 with
          | none => rw [he2] at he; cases he
          | some r2 =>
            obtain ⟨o2, u2⟩ := r2
            rw [he2] at he
            have hu : u2 = u := by
              cases o2 <;> cases he <;> rfl
            obtain ⟨N2, s3, c1, c2⟩ := ih (acc := acc ++ [v]) hf.2 b2 (o := o2) (u := u2) (by rw [b3, a2, he2])
            refine ⟨N + N2 + d + 2, s3, fun m hm => ?_, c2.trans hu⟩
            obtain ⟨m, rfl⟩ : ∃ k, m = k + d + 1 := ⟨m - 1 - d, by omega⟩
            rw [parseArgs, a1 _ (by omega)]
            simp only [Option.bind_eq_bind, Option.bind_some, heof]
            rw [if_neg (by decide), b1 m (by omega), c1 m (by omega)]

/-- A call that is not closed: the arguments are evaluated, the callback is not asked for the call, and
the text fails. -/
theorem call_open {E : Env U} {T path f es k o u u'} (hE : OkMem E T)
    (hw : Written T (pathToks path ++ ((.id, f) :: tLpar :: argToks es))) (hf : fitsAll True es)
    (he : evalArgs E.real E.cb k es u = some (o, u')) :
    ∃ N, ∀ m, N ≤ m → run E m T u = some (none, u') := by
  have hs := hE.sees hw u
  have hE := hE.ok
  obtain ⟨s0, z1, z2, z3⟩ := parse_path hE path (acc := none) hs.sees
  obtain ⟨t, s1, a1, a2, a3, a4, a5, _⟩ := next_sees hE z2
  obtain ⟨t2, s2, b1, b2, b3, b4, b5⟩ := tok_sees hE a4
  obtain ⟨N, s3, c1, c2⟩ := args_open hE k (acc := []) (by rw [back_mem]; exact hf) (.inl b4.sees)
    (by rw [b5, a5, z3]; exact he)
  refine ⟨N + path.length + 2, fun m hm => ?_⟩
  obtain ⟨m, rfl⟩ : ∃ k, m = k + 1 + path.length + 1 := ⟨m - 2 - path.length, by omega⟩
  rw [run, loop, z1, parse, a1]
  simp [a2, b1, b2, c1 m (by omega), c2]

/-- A namespace without a name is no expression, but the text is not refused: its value is null, and the
callback is not asked. -/
theorem ns_open {E : Env U} {T path u} (hE : OkMem E T) (hw : Written T (pathToks path)) (m : Nat) :
    run E (m + path.length + 2) T u = some (some .null, u) := by
  have hs := hE.sees hw u
  have hE := hE.ok
  obtain ⟨s0, z1, z2, z3⟩ := parse_path hE path (acc := none) (ts := []) (by simpa using hs.sees)
  obtain ⟨s1, a1, a2, a3⟩ := done_parse (sees_nil hE z2)
    (path.foldl (fun a x => some (concat a x [58#8])) none)
  rw [run, loop, show m + path.length + 1 = m + 1 + path.length from by omega, z1, a1]
  simp [a3, a2, z3]

/-! ## Examples -/

/-- `f(a ` -/
example : run exEnv 40 [102#8, 40#8, 97#8, 32#8] [] = some (none, [[97#8]]) := by decide +kernel
/-- `if a then b ` -/
example : run exEnv 40 [105#8, 102#8, 32#8, 97#8, 32#8, 116#8, 104#8, 101#8, 110#8, 32#8, 98#8, 32#8] [] =
    some (none, [[97#8], [98#8]]) := by decide +kernel
/-- `loop a do b ` -/
example : run exEnv 40 [108#8, 111#8, 111#8, 112#8, 32#8, 97#8, 32#8, 100#8, 111#8, 32#8, 98#8, 32#8] [] =
    some (none, [[97#8], [98#8]]) := by decide +kernel
/-- `a: ` -/
example : run exEnv 40 [97#8, 58#8, 32#8] [] = some (some .null, []) := by decide +kernel

end Verif.Expr
