import Verif.HttpProps
/-
Properties of the generator of src/mln_http.c: it writes the message in buffers of at most 1024
bytes, and the parser reads back what was written.
-/
namespace Verif.Http

/-! ## Specification -/

def CRLF : List Byte := [13#8, 10#8]

/-- The target of a request. -/
def target (h : Http) : List Byte :=
  h.uri.getD (b! "/") ++ (match h.args with | none => [] | some a => b! "?" ++ a)

/-- The first line of a message without its end, if there is one. -/
inductive StartLine (h : Http) : List Byte → Prop
  | request {m v} : h.type = REQUEST → methods[h.method]? = some m → versions[h.version]? = some v →
      StartLine h (m ++ b! " " ++ target h ++ b! " " ++ v)
  | response {v c t} : h.type = RESPONSE → versions[h.version]? = some v →
      (h.status, c, t) ∈ statuses → StartLine h (v ++ b! " " ++ c ++ b! " " ++ t)

/-- A header field. -/
def fieldLine (e : List Byte × Option (List Byte)) : List Byte := e.1 ++ b! ": " ++ e.2.getD []

/-- A message with first line `s`. -/
def message (s : List Byte) (h : Http) : List Byte :=
  s ++ CRLF ++ h.fields.flatMap (fun e => fieldLine e ++ CRLF) ++ CRLF

/-- Buffers of 1024 bytes, the last one perhaps shorter but not empty. -/
def Chunked (l : List (List Byte)) : Prop :=
  (∀ x ∈ l.dropLast, x.length = 1024) ∧ ∀ x, l.getLast? = some x → 0 < x.length ∧ x.length ≤ 1024

/-! ## Writing -/

/-- The state between two writes, after `base`. -/
def Inv (base new : List (List Byte)) (hc : Hc) : Prop :=
  hc.out = base ++ new ∧ Chunked new ∧
    hc.left = (match new.getLast? with | none => 0 | some x => 1024 - x.length) ∧
    hc.tail = if base ++ new = [] then none else some ((base ++ new).length - 1)

theorem modify_last (l : List (List Byte)) (x : List Byte) (f : List Byte → List Byte) :
    (l ++ [x]).modify l.length f = l ++ [f x] := by
  induction l with
  | nil => rfl
  | cons a l ih => simp [ih]

theorem inv_fill {base new : List (List Byte)} {x hc n buf}
    (hi : Inv base (new ++ [x]) hc) (hn : n ≤ hc.left) (hb : n ≤ buf.length) :
    Inv base (new ++ [x ++ buf.take n]) (fill hc n buf) := by
  obtain ⟨h1, h2, h3, h4⟩ := hi
  have ht : hc.tail = some (base ++ new).length := by
    rw [h4, if_neg (by simp)]
    simp only [List.length_append, List.length_cons, List.length_nil]
    congr 1
  simp only [List.getLast?_append, List.getLast?_singleton, Option.some_or] at h3
  have hx := h2.2 x (by simp)
  have hlen : (buf.take n).length = n := by rw [List.length_take]; omega
  unfold fill
  rw [ht]
  refine ⟨?_, ⟨?_, ?_⟩, ?_, ?_⟩
  · dsimp only
    rw [h1, ← List.append_assoc, modify_last, List.append_assoc]
  · simpa using h2.1
  · intro y hy
    simp only [List.getLast?_append, List.getLast?_singleton, Option.some_or, Option.some.injEq] at hy
    subst hy
    rw [List.length_append, hlen]
    omega
  · simp only [List.getLast?_append, List.getLast?_singleton, Option.some_or]
    rw [List.length_append, hlen, h3]
    omega
  · rw [if_neg (by simp)]
    simp only [List.length_append, List.length_cons, List.length_nil]
    congr 1

theorem inv_new {base new : List (List Byte)} {hc buf} (hi : Inv base new hc) (hl : hc.left = 0)
    (hb : buf ≠ []) : ∃ hc', newBuf hc = some hc' ∧ hc'.left = 1024 ∧
      Inv base (new ++ [buf.take (min buf.length 1024)]) (fill hc' (min buf.length 1024) buf) := by
  obtain ⟨h1, h2, h3, h4⟩ := hi
  have hpos := List.length_pos_of_ne_nil hb
  have hlen : (buf.take (min buf.length 1024)).length = min buf.length 1024 := by
    rw [List.length_take]; omega
  have hch : Chunked (new ++ [buf.take (min buf.length 1024)]) := by
    constructor
    · intro y hy
      rw [List.dropLast_concat] at hy
      cases hl2 : new.getLast? with
      | none => rw [List.getLast?_eq_none_iff] at hl2; subst hl2; cases hy
      | some z =>
        rw [hl2] at h3
        have hz := h2.2 z hl2
        have hz' : z.length = 1024 := by simp only at h3; omega
        obtain ⟨w, rfl⟩ := List.getLast?_eq_some_iff.1 hl2
        simp only [List.mem_append, List.mem_singleton] at hy
        rcases hy with hy | rfl
        · exact h2.1 y (by simpa using hy)
        · exact hz'
    · intro y hy
      simp only [List.getLast?_append, List.getLast?_singleton, Option.some_or, Option.some.injEq] at hy
      subst hy
      rw [hlen]
      omega
  unfold newBuf
  by_cases ho : hc.out = []
  · rw [if_pos ho]
    refine ⟨_, rfl, rfl, ?_⟩
    rw [ho] at h1
    have hbn := List.append_eq_nil_iff.1 h1.symm
    obtain ⟨rfl, rfl⟩ := hbn
    refine ⟨?_, hch, ?_, ?_⟩
    · simp [fill]
    · simp only [fill, List.getLast?_append, List.getLast?_singleton, Option.some_or]
      rw [hlen]
    · simp [fill]
  · rw [if_neg ho]
    rw [← h1, if_neg ho] at h4
    rw [h4]
    refine ⟨_, rfl, rfl, ?_⟩
    have ho' := List.length_pos_of_ne_nil ho
    have e1 : hc.out.length - 1 + 1 = hc.out.length := by omega
    rw [e1, List.take_length]
    refine ⟨?_, hch, ?_, ?_⟩
    · simp only [fill]
      rw [modify_last, h1, List.append_assoc]
      simp
    · simp only [fill, List.getLast?_append, List.getLast?_singleton, Option.some_or]
      rw [hlen]
    · simp only [fill]
      rw [if_neg (by simp), h1]
      have h1' := congrArg List.length h1
      simp only [List.length_append] at h1'
      simp only [List.length_append, List.length_cons, List.length_nil]
      congr 1

theorem write_spec (ok : Nat → Bool) (base) : ∀ n new hc buf, Inv base new hc → buf.length < n →
    ∃ r hc' new', write ok n hc buf = some (r, hc') ∧ ((∀ i, ok i = true) → r = true) ∧
      (r = true → Inv base new' hc' ∧ new'.flatten = new.flatten ++ buf) := by
  intro n
  induction n with
  | zero => intro _ _ _ _ h; omega
  | succ n ih =>
    intro new hc buf hi hn
    rw [write]
    by_cases hb : buf = []
    · rw [if_pos hb]
      exact ⟨true, hc, new, rfl, fun _ => rfl, fun _ => ⟨hi, by simp [hb]⟩⟩
    · rw [if_neg hb]
      have hpos := List.length_pos_of_ne_nil hb
      by_cases hl : hc.left = 0
      · rw [if_pos hl]
        by_cases ho : ok hc.out.length = true
        · rw [if_pos ho]
          obtain ⟨hc', e1, e2, e3⟩ := inv_new hi hl hb
          rw [e1]
          simp only [Option.bind_eq_bind, Option.bind_some]
          rw [e2]
          obtain ⟨r, hc2, new2, f1, f2, f3⟩ := ih _ _ (buf.drop (min buf.length 1024)) e3
            (by rw [List.length_drop]; omega)
          refine ⟨r, hc2, new2, f1, f2, fun hr => ⟨(f3 hr).1, ?_⟩⟩
          rw [(f3 hr).2]
          simp only [List.flatten_append, List.flatten_cons, List.flatten_nil, List.append_nil,
            List.append_assoc, List.take_append_drop]
        · rw [if_neg ho]
          exact ⟨false, hc, new, rfl, fun h => absurd (h _) ho, fun h => nomatch h⟩
      · rw [if_neg hl]
        have hi' := hi
        obtain ⟨h1, h2, h3, h4⟩ := hi
        cases hl2 : new.getLast? with
        | none => rw [hl2] at h3; exact absurd h3 hl
        | some x =>
          obtain ⟨w, rfl⟩ := List.getLast?_eq_some_iff.1 hl2
          have e3 := inv_fill (n := min buf.length hc.left) (buf := buf) hi' (by omega) (by omega)
          obtain ⟨r, hc2, new2, f1, f2, f3⟩ := ih _ _ (buf.drop (min buf.length hc.left)) e3
            (by rw [List.length_drop]; omega)
          refine ⟨r, hc2, new2, f1, f2, fun hr => ⟨(f3 hr).1, ?_⟩⟩
          rw [(f3 hr).2]
          simp only [List.flatten_append, List.flatten_cons, List.flatten_nil, List.append_nil,
            List.append_assoc, List.take_append_drop]

theorem writeAll_spec (ok : Nat → Bool) (base) : ∀ ps new hc, Inv base new hc →
    ∃ r hc' new', writeAll ok hc ps = some (r, hc') ∧ ((∀ i, ok i = true) → r = true) ∧
      (r = true → Inv base new' hc' ∧ new'.flatten = new.flatten ++ ps.flatten) := by
  intro ps
  induction ps with
  | nil =>
    intro new hc hi
    exact ⟨true, hc, new, rfl, fun _ => rfl, fun _ => ⟨hi, by simp⟩⟩
  | cons p ps ih =>
    intro new hc hi
    obtain ⟨r, hc1, new1, e1, e2, e3⟩ := write_spec ok base (p.length + 1) new hc p hi (by omega)
    rw [writeAll, e1]
    simp only [Option.bind_eq_bind, Option.bind_some]
    cases r with
    | false =>
      exact ⟨false, hc1, new1, rfl, e2, fun h => nomatch h⟩
    | true =>
      obtain ⟨i1, i2⟩ := e3 rfl
      obtain ⟨r, hc2, new2, f1, f2, f3⟩ := ih new1 hc1 i1
      refine ⟨r, hc2, new2, f1, f2, fun hr => ⟨(f3 hr).1, ?_⟩⟩
      rw [(f3 hr).2, i2]
      simp

theorem statuses_find {st : Nat} {c t : List Byte} (h : (st, c, t) ∈ statuses) :
    statuses.find? (fun s => decide (s.1 = st)) = some (st, c, t) := by
  have key : ∀ s ∈ statuses, statuses.find? (fun s' => decide (s'.1 = s.1)) = some s := by
    decide +kernel
  exact key _ h

theorem headPieces_spec {h s} (hs : StartLine h s) : ∃ ps, headPieces h = (ps, none) ∧ ps.flatten = s := by
  unfold headPieces
  cases hs with
  | request ht hm hv =>
    rw [if_neg (by rw [ht]; decide), hm]
    dsimp only
    rw [hv]
    refine ⟨_, rfl, ?_⟩
    unfold uriPieces target
    cases h.uri <;> cases h.args <;> simp
  | response ht hv hst =>
    rw [if_pos ht, hv]
    dsimp only
    rw [statuses_find hst]
    exact ⟨_, rfl, by simp⟩

theorem tailPieces_flatten (h) :
    (tailPieces h).flatten = h.fields.flatMap (fun e => fieldLine e ++ CRLF) ++ CRLF := by
  unfold tailPieces
  generalize h.fields = es
  rw [List.flatten_append]
  congr 1
  induction es with
  | nil => rfl
  | cons e es ih =>
    rw [List.flatMap_cons, List.flatMap_cons, List.flatten_append, ih]
    congr 1
    unfold fieldPieces fieldLine CRLF
    obtain ⟨n, v⟩ := e
    cases v <;> simp

/-- The generator: with a type, method, version and status it knows, it appends to the chain
exactly the message, in buffers of 1024 bytes, and then the body; or memory ran out, and then the
chain is gone. -/
theorem generate_spec {ok h base s} (hs : StartLine h s) :
    (∃ new, generate ok none h base (some (base.length - 1)) =
        some (DONE, { h with body := [], done := false, error := 200 }, base ++ new ++ h.body,
          if h.body = [] then none else some ((base ++ new ++ h.body).length - 1)) ∧
      new.flatten = message s h ∧ Chunked new) ∨
    ((∃ i, ok i = false) ∧ ∃ d, generate ok none h base (some (base.length - 1)) =
        some (ERROR, { h with error := INTERNAL, done := d }, [], none)) := by
  have ht : ¬ h.type = UNKNOWN := by
    cases hs with
    | request ht => rw [ht]; decide
    | response ht => rw [ht]; decide
  have hinv : Inv base [] { out := base, tail := if base = [] then none else some (base.length - 1), left := 0 } :=
    ⟨by simp, ⟨by simp, by simp⟩, rfl, by simp⟩
  have key : ∀ h : Http, StartLine h s →
      (∃ new, genWrite ok h { out := base, tail := if base = [] then none else some (base.length - 1), left := 0 } =
        some (DONE, { h with body := [], done := false, error := 200 }, base ++ new ++ h.body,
          if h.body = [] then none else some ((base ++ new ++ h.body).length - 1)) ∧
      new.flatten = message s h ∧ Chunked new) ∨
      ((∃ i, ok i = false) ∧
        genWrite ok h { out := base, tail := if base = [] then none else some (base.length - 1), left := 0 } =
        some (genErr { h with error := INTERNAL })) := by
    intro h hs
    obtain ⟨ps, e1, e2⟩ := headPieces_spec hs
    obtain ⟨r, hc, new, f1, f2, f3⟩ := writeAll_spec ok base (ps ++ [b! "\r\n"] ++ tailPieces h) [] _ hinv
    unfold genWrite
    rw [e1]
    dsimp only
    rw [f1]
    simp only [Option.bind_eq_bind, Option.bind_some]
    cases r with
    | false =>
      refine .inr ⟨?_, rfl⟩
      by_contra hc
      push Not at hc
      exact absurd (f2 fun i => by simpa using hc i) (by simp)
    | true =>
      obtain ⟨⟨i1, i2, i3, i4⟩, i5⟩ := f3 rfl
      have hmsg : new.flatten = message s h := by
        rw [i5]
        simp only [List.flatten_append, e2, tailPieces_flatten, message, CRLF, List.flatten_nil,
          List.nil_append, List.flatten_cons, List.append_nil, List.append_assoc]
      have hne : new ≠ [] := by
        intro hc
        rw [hc] at hmsg
        have := congrArg List.length hmsg
        simp [message, CRLF] at this
      have hpos := List.length_pos_of_ne_nil hne
      refine .inl ⟨new, ?_, hmsg, i2⟩
      have ho : ¬ hc.out = [] := by rw [i1]; simp [hne]
      unfold genEnd
      rw [if_pos rfl, if_neg ho, i4, if_neg (by simp [hne])]
      dsimp only
      have e3 : (base ++ new).length - 1 + 1 = (base ++ new).length := by
        rw [List.length_append]; omega
      rw [e3, i1, List.take_length]
      congr 4
      by_cases hb : h.body = []
      · rw [if_pos hb, if_pos hb]
      · rw [if_neg hb, if_neg hb]
        congr 1
        simp only [List.length_append]
        omega
  have hgen : generate ok none h base (some (base.length - 1)) =
      genWrite ok (if h.done then h else { h with done := true })
        { out := base, tail := if base = [] then none else some (base.length - 1), left := 0 } := by
    unfold generate
    rw [if_neg ht]
    dsimp only
    by_cases hd : h.done = true
    · rw [if_neg (by simp [hd]), if_pos hd]
    · rw [if_pos (by simp [hd]), if_neg hd]
  rw [hgen]
  by_cases hd : h.done = true
  · rw [if_pos hd]
    rcases key h hs with k | ⟨k1, k2⟩
    · exact .inl k
    · exact .inr ⟨k1, h.done, k2⟩
  · rw [if_neg hd]
    have hs' : StartLine { h with done := true } s := by
      cases hs with
      | request a b c => exact .request a b c
      | response a b c => exact .response a b c
    rcases key _ hs' with k | ⟨k1, k2⟩
    · exact .inl k
    · exact .inr ⟨k1, true, k2⟩

/-- After a message without a body the tail of the chain is NULL, so that a second message cannot
be put behind it: the NULL pointer is followed. -/
theorem generate_twice {ok h h2 base s s2 g} (hs : StartLine h s) (hs2 : StartLine h2 s2)
    (hb : h.body = []) (hg : generate ok none h base (some (base.length - 1)) = some g)
    (hd : g.1 = DONE) (hok : ∀ i, ok i = true) : generate ok none h2 g.2.2.1 g.2.2.2 = none := by
  rcases generate_spec (ok := ok) (base := base) hs with ⟨new, e, hm, _⟩ | ⟨⟨i, hi⟩, _⟩
  · rw [e] at hg
    simp only [Option.some.injEq] at hg
    subst hg
    dsimp only
    rw [if_pos hb]
    have hne : new ≠ [] := by
      intro hc
      rw [hc] at hm
      have := congrArg List.length hm
      simp [message, CRLF] at this
    have hout : ¬ (base ++ new ++ h.body) = [] := by simp [hne]
    have ht : ¬ h2.type = UNKNOWN := by
      cases hs2 with
      | request ht => rw [ht]; decide
      | response ht => rw [ht]; decide
    have key : ∀ h' : Http, StartLine h' s2 →
        genWrite ok h' { out := base ++ new ++ h.body, tail := none, left := 0 } = none := by
      intro h' hs'
      have hp : ∃ p ps e, p ≠ [] ∧ headPieces h' = (p :: ps, e) := by
        unfold headPieces
        cases hs' with
        | request ht hm hv =>
          rw [if_neg (by rw [ht]; decide), hm]
          dsimp only
          rw [hv]
          refine ⟨_, _, _, ?_, rfl⟩
          have : ∀ m ∈ methods, m ≠ [] := by decide +kernel
          exact this _ (List.mem_of_getElem? hm)
        | response ht hv hst =>
          rw [if_pos ht, hv]
          dsimp only
          rw [statuses_find hst]
          refine ⟨_, _, _, ?_, rfl⟩
          have : ∀ m ∈ versions, m ≠ [] := by decide +kernel
          exact this _ (List.mem_of_getElem? hv)
      obtain ⟨p, ps, e, hp, he⟩ := hp
      have hw : ∀ ps', writeAll ok { out := base ++ new ++ h.body, tail := none, left := 0 } (p :: ps') = none := by
        intro ps'
        rw [writeAll, write, if_neg hp, if_pos rfl, if_pos (hok _)]
        unfold newBuf
        rw [if_neg hout]
        rfl
      unfold genWrite
      rw [he]
      cases e with
      | none => dsimp only; rw [List.cons_append, List.cons_append, hw]; rfl
      | some e => dsimp only; rw [hw]; rfl
    unfold generate
    rw [if_neg ht]
    dsimp only
    rw [if_neg hout]
    by_cases hdn : h2.done = true
    · rw [if_neg (by simp [hdn])]
      exact key _ hs2
    · rw [if_pos (by simp [hdn])]
      refine key _ ?_
      cases hs2 with
      | request a b c => exact .request a b c
      | response a b c => exact .response a b c
  · rw [hok i] at hi; cases hi

end Verif.Http
