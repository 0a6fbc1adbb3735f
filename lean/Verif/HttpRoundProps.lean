import Verif.HttpGenProps
import Mathlib.Tactic.FinCases
import Mathlib.Data.Fintype.Basic
/-
What the generator of src/mln_http.c writes, the parser reads back; a field value with a line end
in it adds fields; a status is read modulo 2^32.
-/
namespace Verif.Http

/-! ## Specification -/

/-- A name of a field that can be sent. -/
def GoodName (n : List Byte) : Prop := n ≠ [] ∧ ∀ b ∈ n, blank b = false ∧ b ≠ 58#8 ∧ b ≠ 10#8

/-- A value of a field that can be sent: none, or not empty, on one line, not beginning with a
blank. -/
def GoodValue : Option (List Byte) → Prop
  | none => True
  | some v => v ≠ [] ∧ 10#8 ∉ v ∧ ∀ b, v.head? = some b → blank b = false

/-- A target that can be sent. -/
def GoodTarget (h : Http) : Prop :=
  target h ≠ [] ∧
    (∀ u, h.uri = some u → ∀ b ∈ u, blank b = false ∧ b ≠ 63#8 ∧ b ≠ 10#8) ∧
    (∀ a, h.args = some a → a ≠ [] ∧ ∀ b ∈ a, blank b = false ∧ b ≠ 10#8)

/-- What can be sent. -/
def Sendable (h : Http) : Prop :=
  (h.type = REQUEST → GoodTarget h) ∧ ∀ e ∈ h.fields, GoodName e.1 ∧ GoodValue e.2

/-- What arrives: the parts that are in the message. -/
def arrives (h : Http) : Http :=
  if h.type = REQUEST then
    { type := REQUEST, method := h.method, version := h.version, uri := some (h.uri.getD (b! "/")),
      args := h.args, fields := h.fields }
  else
    { type := RESPONSE, version := h.version, status := h.status,
      msg := (statuses.find? (fun s => s.1 = h.status)).map (·.2.2), fields := h.fields }

/-! ## Lines -/

theorem trimZeros_end (l : List Byte) (c : Byte) (h : c ≠ 0#8) : trimZeros (l ++ [c]) = l ++ [c] := by
  cases l with
  | nil => rfl
  | cons a l =>
    rw [List.cons_append, trimZeros]
    congr 1
    rw [List.reverse_append]
    simp [h]

theorem lineStep_line {h line} (hl : line ≠ []) : lineStep {} h (line ++ [13#8]) =
    if h.type = UNKNOWN then parseHeadline {} h line else parseField {} h line := by
  unfold lineStep
  rw [if_neg (by simp)]
  dsimp only
  rw [trimZeros_end _ _ (by decide), if_neg]
  · rw [if_pos (show (line ++ [13#8]).getLast? = some 13#8 by simp), List.dropLast_concat]
  · rintro (h | h)
    · simp at h
    · exact hl (by simpa using h)

theorem parseB_line {n h line rest} (hd : h.done = false) (hl : 10#8 ∉ line) :
    parseB none (n + 1) [] h (line ++ CRLF ++ rest) =
      if (lineStep {} h (line ++ [13#8])).1 = ERROR then
        some (1, (lineStep {} h (line ++ [13#8])).2, rest)
      else parseB none n [] (lineStep {} h (line ++ [13#8])).2 rest := by
  have e : line ++ CRLF ++ rest = (line ++ [13#8]) ++ 10#8 :: rest := by simp [CRLF]
  have ht : ((line ++ [13#8]) ++ 10#8 :: rest).takeWhile (fun x => decide (x ≠ 10#8)) = line ++ [13#8] := by
    rw [List.takeWhile_append_of_pos]
    · simp
    · intro x hx
      simp only [List.mem_append, List.mem_singleton] at hx
      rcases hx with hx | rfl
      · simp only [decide_eq_true_eq]
        rintro rfl
        exact hl hx
      · decide
  have hdr : ((line ++ [13#8]) ++ 10#8 :: rest).dropWhile (fun x => decide (x ≠ 10#8)) = 10#8 :: rest := by
    rw [List.dropWhile_append_of_pos]
    · simp
    · intro x hx
      simp only [List.mem_append, List.mem_singleton] at hx
      rcases hx with hx | rfl
      · simp only [decide_eq_true_eq]
        rintro rfl
        exact hl hx
      · decide
  rw [e, parseB, if_neg (by simp [hd]), if_pos (by simp)]
  dsimp only
  rw [ht]
  have hr : lineRest (([] : List Al).headD {}) ((line ++ [13#8]) ++ 10#8 :: rest) = rest := by
    unfold lineRest
    rw [if_neg (by simp), hdr]
    rfl
  rw [hr]
  rfl

theorem takeWhile_stop {p : Byte → Bool} {l : List Byte} {c m} (hl : ∀ b ∈ l, p b = true) (hc : p c = false) :
    (l ++ c :: m).takeWhile p = l ∧ (l ++ c :: m).dropWhile p = c :: m := by
  rw [List.takeWhile_append_of_pos hl, List.dropWhile_append_of_pos hl]
  simp [hc]

theorem takeWhile_end {p : Byte → Bool} {l : List Byte} (hl : ∀ b ∈ l, p b = true) :
    l.takeWhile p = l ∧ l.dropWhile p = [] :=
  ⟨List.takeWhile_eq_self_iff.2 hl, List.dropWhile_eq_nil_iff.2 hl⟩

theorem dropWhile_head {l : List Byte} (hl : ∀ b, l.head? = some b → blank b = false) :
    l.dropWhile blank = l := by
  cases l with
  | nil => rfl
  | cons a l => simp [hl a rfl]

/-! ## Fields -/

theorem parseField_line {h e} (hn : GoodName e.1) (hv : GoodValue e.2) :
    parseField {} h (fieldLine e) = (OK, { h with fields := h.fields ++ [e] }) := by
  obtain ⟨n, v⟩ := e
  obtain ⟨n0, hn⟩ := hn
  dsimp only at n0 hn hv
  have hh : (fieldLine (n, v)).dropWhile blank = fieldLine (n, v) := by
    apply dropWhile_head
    intro b hb
    cases n with
    | nil => exact absurd rfl n0
    | cons a n =>
      simp only [fieldLine, List.cons_append, List.head?_cons, Option.some.injEq] at hb
      subst hb
      exact (hn a (by simp)).1
  have hne : fieldLine (n, v) ≠ [] := by simp [fieldLine]
  have hf : fieldLine (n, v) = n ++ 58#8 :: 32#8 :: v.getD [] := by simp [fieldLine]
  have hname : (fieldLine (n, v)).takeWhile (fun b => !blank b && decide (b ≠ 58#8)) = n := by
    rw [hf]
    refine (takeWhile_stop ?_ ?_).1
    · intro b hb
      simp [(hn b hb).1, (hn b hb).2.1]
    · decide
  have hdrop : (fieldLine (n, v)).drop n.length = 58#8 :: 32#8 :: v.getD [] := by
    rw [hf]; simp
  unfold parseField
  dsimp only
  rw [hh, if_neg hne, hname, if_neg n0, if_neg (by simp), hdrop]
  rw [show (58#8 :: 32#8 :: v.getD []).dropWhile blank = 58#8 :: 32#8 :: v.getD [] from
    List.dropWhile_cons_of_neg (by decide)]
  dsimp only
  rw [if_neg (by simp)]
  rw [show (32#8 :: v.getD []).dropWhile blank = (v.getD []).dropWhile blank from
    List.dropWhile_cons_of_pos (by decide)]
  cases v with
  | none => rfl
  | some v =>
    obtain ⟨v1, v2, v3⟩ := hv
    simp only [Option.getD_some]
    rw [dropWhile_head v3, if_neg v1]
    rfl

theorem fieldLine_nl {e} (hn : GoodName e.1) (hv : GoodValue e.2) : 10#8 ∉ fieldLine e := by
  obtain ⟨n, v⟩ := e
  intro hc
  simp only [fieldLine, List.mem_append] at hc
  rcases hc with (hc | hc) | hc
  · exact (hn.2 _ hc).2.2 rfl
  · exact absurd hc (by decide)
  · cases v with
    | none => cases hc
    | some v => exact hv.2.1 hc

theorem parseB_fields : ∀ es n h rest, h.done = false → h.type ≠ UNKNOWN → es.length + 2 ≤ n →
    (∀ e ∈ es, GoodName e.1 ∧ GoodValue e.2) →
    parseB none n [] h (es.flatMap (fun e => fieldLine e ++ CRLF) ++ CRLF ++ rest) =
      some (DONE, { h with fields := h.fields ++ es, done := false }, rest) := by
  intro es
  induction es with
  | nil =>
    intro n h rest hd ht hn _
    obtain ⟨n, rfl⟩ : ∃ m, n = m + 2 := ⟨n - 2, by simp only [List.length_nil] at hn; omega⟩
    have := parseB_line (n := n + 1) (h := h) (line := []) (rest := rest) hd (by simp)
    simp only [List.nil_append] at this
    rw [List.flatMap_nil, List.nil_append, this]
    rw [show lineStep {} h [13#8] = (OK, { h with done := true }) from rfl]
    rw [if_neg (show ¬ OK = ERROR by decide), parseB, if_pos rfl]
    simp [finB]
  | cons e es ih =>
    intro n h rest hd ht hn hg
    simp only [List.length_cons] at hn
    obtain ⟨n, rfl⟩ : ∃ m, n = m + 1 := ⟨n - 1, by omega⟩
    obtain ⟨g1, g2⟩ := hg e (by simp)
    have hne : fieldLine e ≠ [] := by simp [fieldLine]
    rw [List.flatMap_cons]
    have e1 : fieldLine e ++ CRLF ++ es.flatMap (fun e => fieldLine e ++ CRLF) ++ CRLF ++ rest =
        fieldLine e ++ CRLF ++ (es.flatMap (fun e => fieldLine e ++ CRLF) ++ CRLF ++ rest) := by
      simp only [List.append_assoc]
    rw [e1, parseB_line hd (fieldLine_nl g1 g2), lineStep_line hne, if_neg ht,
      parseField_line g1 g2, if_neg (show ¬ OK = ERROR by decide), ih n _ rest (by exact hd) (by exact ht) (by omega)
        (fun e he => hg e (by simp [he]))]
    simp

/-! ## First lines -/

theorem methods_index {m s} (h : methods[m]? = some s) :
    indexOf versions s = none ∧ indexOf methods s = some m ∧ s ≠ [] ∧ ∀ b ∈ s, blank b = false ∧ b ≠ 10#8 := by
  have hm : m < 8 := by
    have := (List.getElem?_eq_some_iff.1 h).1
    simpa [methods] using this
  have key : ∀ m : Fin 8, ∀ s, methods[m.val]? = some s →
      indexOf versions s = none ∧ indexOf methods s = some m.val ∧ s ≠ [] ∧
        ∀ b ∈ s, blank b = false ∧ b ≠ 10#8 := by
    intro m s hs
    fin_cases m <;> (simp only [methods] at hs; cases hs) <;> decide +kernel
  exact key ⟨m, hm⟩ s h

theorem versions_index {m s} (h : versions[m]? = some s) :
    indexOf versions s = some m ∧ s ≠ [] ∧ ∀ b ∈ s, blank b = false ∧ b ≠ 10#8 := by
  have hm : m < 2 := by
    have := (List.getElem?_eq_some_iff.1 h).1
    simpa [versions] using this
  have key : ∀ m : Fin 2, ∀ s, versions[m.val]? = some s →
      indexOf versions s = some m.val ∧ s ≠ [] ∧ ∀ b ∈ s, blank b = false ∧ b ≠ 10#8 := by
    intro m s hs
    fin_cases m <;> (simp only [versions] at hs; cases hs) <;> decide +kernel
  exact key ⟨m, hm⟩ s h

theorem dropWhile_word {w m : List Byte} (hw : w ≠ []) (hb : ∀ b ∈ w, blank b = false) :
    (w ++ m).dropWhile blank = w ++ m := by
  apply dropWhile_head
  intro b h
  cases w with
  | nil => exact absurd rfl hw
  | cons a w =>
    simp only [List.cons_append, List.head?_cons, Option.some.injEq] at h
    subst h
    exact hb a (by simp)

theorem blank_word {w m : List Byte} (hw : w ≠ []) (hb : ∀ b ∈ w, blank b = false) :
    (32#8 :: (w ++ m)).dropWhile blank = w ++ m := by
  rw [List.dropWhile_cons_of_pos (by decide), dropWhile_word hw hb]

theorem target_bytes {h} (hg : GoodTarget h) : ∀ b ∈ target h, blank b = false ∧ b ≠ 10#8 := by
  obtain ⟨_, h1, h2⟩ := hg
  intro b hb
  simp only [target, List.mem_append] at hb
  rcases hb with hb | hb
  · cases hu : h.uri with
    | none =>
      rw [hu] at hb
      simp only [Option.getD_none, List.mem_singleton] at hb
      subst hb; decide
    | some u =>
      rw [hu] at hb
      have := h1 u hu b hb
      exact ⟨this.1, this.2.2⟩
  · cases ha : h.args with
    | none => rw [ha] at hb; cases hb
    | some a =>
      rw [ha] at hb
      simp only [List.mem_append, List.mem_singleton] at hb
      rcases hb with rfl | hb
      · decide
      · exact (h2 a ha).2 b hb

theorem target_cut {h} (hg : GoodTarget h) :
    (target h).takeWhile (fun b => decide (b ≠ 63#8)) = h.uri.getD (b! "/") ∧
      (target h).dropWhile (fun b => decide (b ≠ 63#8)) =
        (match h.args with | none => [] | some a => 63#8 :: a) := by
  obtain ⟨_, h1, h2⟩ := hg
  have hu : ∀ b ∈ h.uri.getD (b! "/"), decide (b ≠ 63#8) = true := by
    intro b hb
    cases hu : h.uri with
    | none =>
      rw [hu] at hb
      simp only [Option.getD_none, List.mem_singleton] at hb
      subst hb; decide
    | some u =>
      rw [hu] at hb
      simpa using (h1 u hu b hb).2.1
  unfold target
  cases ha : h.args with
  | none => simpa using takeWhile_end hu
  | some a => exact takeWhile_stop (m := a) hu (by decide)

theorem headline_request {h m v} (ht : h.type = REQUEST) (hg : GoodTarget h)
    (hm : methods[h.method]? = some m) (hv : versions[h.version]? = some v) :
    parseHeadline {} {} (m ++ b! " " ++ target h ++ b! " " ++ v) =
      (OK, { arrives h with fields := [] }) := by
  obtain ⟨m1, m2, m3, m4⟩ := methods_index hm
  obtain ⟨v1, v2, v3⟩ := versions_index hv
  have hline : m ++ b! " " ++ target h ++ b! " " ++ v = m ++ 32#8 :: (target h ++ 32#8 :: v) := by simp
  have hnb : ∀ b ∈ m, (!blank b) = true := fun b hb => by simp [(m4 b hb).1]
  have htb : ∀ b ∈ target h, (!blank b) = true := fun b hb => by simp [(target_bytes hg b hb).1]
  obtain ⟨c1, c2⟩ := target_cut hg
  rw [hline]
  unfold parseHeadline
  dsimp only
  rw [dropWhile_word m3 (fun b hb => (m4 b hb).1), if_neg (by simp [m3]),
    (takeWhile_stop hnb (by decide)).1, (takeWhile_stop hnb (by decide)).2, m1, m2]
  dsimp only
  unfold headSecond
  dsimp only
  rw [blank_word hg.1 (fun b hb => (target_bytes hg b hb).1), if_neg (by simp), if_pos rfl]
  unfold headUri
  dsimp only
  rw [(takeWhile_stop htb (by decide)).1, (takeWhile_stop htb (by decide)).2, c1, c2]
  have third : ∀ h' : Http, h'.type = REQUEST →
      headThird {} h' (32#8 :: v) = (OK, { h' with version := h.version }) := by
    intro h' ht'
    unfold headThird
    dsimp only
    have := blank_word (m := []) v2 (fun b hb => (v3 b hb).1)
    rw [List.append_nil] at this
    rw [this, if_neg v2, if_pos ht', v1]
  unfold arrives
  rw [if_pos ht]
  cases ha : h.args with
  | none =>
    rw [if_pos (by simp), if_neg (by simp), third _ rfl]
  | some a =>
    have hane := (hg.2.2 a ha).1
    have := List.length_pos_of_ne_nil hane
    rw [if_neg (by simp only [List.length_cons]; omega), if_neg (by simp), if_neg (by simp), third _ rfl]
    simp

theorem statuses_atou {st c t} (h : (st, c, t) ∈ statuses) :
    atou 0 c = some st ∧ c ≠ [] ∧ t ≠ [] ∧ (∀ b ∈ c, blank b = false ∧ b ≠ 10#8) ∧
      10#8 ∉ t ∧ ∀ b, t.head? = some b → blank b = false := by
  have key : ∀ s ∈ statuses, atou 0 s.2.1 = some s.1 ∧ s.2.1 ≠ [] ∧ s.2.2 ≠ [] ∧
      (∀ b ∈ s.2.1, blank b = false ∧ b ≠ 10#8) ∧ 10#8 ∉ s.2.2 ∧
      (s.2.2.head?.map blank) = some false := by
    decide +kernel
  obtain ⟨a1, a2, a3, a4, a5, a6⟩ := key _ h
  refine ⟨a1, a2, a3, a4, a5, ?_⟩
  intro b hb
  dsimp only at a6
  rw [hb] at a6
  simpa using a6

theorem headline_response {h v c t} (ht : h.type = RESPONSE) (hv : versions[h.version]? = some v)
    (hs : (h.status, c, t) ∈ statuses) :
    parseHeadline {} {} (v ++ b! " " ++ c ++ b! " " ++ t) = (OK, { arrives h with fields := [] }) := by
  obtain ⟨v1, v2, v3⟩ := versions_index hv
  obtain ⟨s1, s2, s3, s4, s5, s6⟩ := statuses_atou hs
  have hline : v ++ b! " " ++ c ++ b! " " ++ t = v ++ 32#8 :: (c ++ 32#8 :: t) := by simp
  have hnb : ∀ b ∈ v, (!blank b) = true := fun b hb => by simp [(v3 b hb).1]
  have hcb : ∀ b ∈ c, (!blank b) = true := fun b hb => by simp [(s4 b hb).1]
  rw [hline]
  unfold parseHeadline
  dsimp only
  rw [dropWhile_word v2 (fun b hb => (v3 b hb).1), if_neg (by simp),
    (takeWhile_stop hnb (by decide)).1, (takeWhile_stop hnb (by decide)).2, v1]
  dsimp only
  unfold headSecond
  dsimp only
  rw [blank_word s2 (fun b hb => (s4 b hb).1), if_neg (by simp),
    if_neg (show ¬ RESPONSE = REQUEST by decide)]
  unfold headStatus
  rw [(takeWhile_stop hcb (by decide)).1, (takeWhile_stop hcb (by decide)).2, s1]
  dsimp only
  unfold headThird
  dsimp only
  rw [List.dropWhile_cons_of_pos (by decide), dropWhile_head s6, if_neg s3,
    if_neg (show ¬ RESPONSE = REQUEST by decide), if_neg (by simp)]
  unfold arrives
  rw [if_neg (by rw [ht]; decide), statuses_find hs]
  rfl

theorem startLine_nl {h s} (hs : StartLine h s) (hg : h.type = REQUEST → GoodTarget h) :
    10#8 ∉ s ∧ s ≠ [] := by
  cases hs with
  | request ht hm hv =>
    have m4 := (methods_index hm).2.2.2
    have v3 := (versions_index hv).2.2
    refine ⟨?_, by simp⟩
    intro hc
    simp only [List.mem_append] at hc
    rcases hc with (((hc | hc) | hc) | hc) | hc
    · exact (m4 _ hc).2 rfl
    · exact absurd hc (by decide)
    · exact (target_bytes (hg ht) _ hc).2 rfl
    · exact absurd hc (by decide)
    · exact (v3 _ hc).2 rfl
  | response ht hv hst =>
    have v3 := (versions_index hv).2.2
    obtain ⟨_, _, _, s4, s5, _⟩ := statuses_atou hst
    refine ⟨?_, by simp⟩
    intro hc
    simp only [List.mem_append] at hc
    rcases hc with (((hc | hc) | hc) | hc) | hc
    · exact (v3 _ hc).2 rfl
    · exact absurd hc (by decide)
    · exact (s4 _ hc).2 rfl
    · exact absurd hc (by decide)
    · exact s5 hc

/-- What was sent arrives: a chain with the bytes of a message and more, cut in any way, is parsed
to the message; what follows is left. -/
theorem parse_message {h s c rest n} (hs : StartLine h s) (hg : Sendable h)
    (hc : flat c = message s h ++ rest) (hn : h.fields.length + 3 ≤ n) :
    ∃ c', parse none n [] {} c = some (DONE, arrives h, c') ∧ flat c' = rest := by
  have hb := parse_bytes none (by intro f hf; cases hf) n [] {} c
  obtain ⟨n, rfl⟩ : ∃ m, n = m + 1 := ⟨n - 1, by omega⟩
  obtain ⟨h1, h2⟩ := startLine_nl hs hg.1
  have hd : (arrives h).done = false ∧ (arrives h).type ≠ UNKNOWN ∧ (arrives h).fields = h.fields := by
    unfold arrives
    split
    · exact ⟨rfl, by simp [REQUEST, UNKNOWN], rfl⟩
    · exact ⟨rfl, by simp [RESPONSE, UNKNOWN], rfl⟩
  have e1 : flat c = s ++ CRLF ++ (h.fields.flatMap (fun e => fieldLine e ++ CRLF) ++ CRLF ++ rest) := by
    rw [hc, message]
    simp only [List.append_assoc]
  have hhead : parseHeadline {} {} s = (OK, { arrives h with fields := [] }) := by
    cases hs with
    | request ht hm hv => exact headline_request ht (hg.1 ht) hm hv
    | response ht hv hst => exact headline_response ht hv hst
  rw [show (Option.map onBytes (none : Option Handler)) = none from rfl, e1, parseB_line rfl h1,
    lineStep_line h2, if_pos (show ({} : Http).type = UNKNOWN from rfl), hhead,
    if_neg (show ¬ OK = ERROR by decide),
    parseB_fields h.fields n _ rest (by exact hd.1) (by exact hd.2.1) (by omega) hg.2] at hb
  have e2 : ({ ({ arrives h with fields := [] } : Http) with
      fields := ({ arrives h with fields := [] } : Http).fields ++ h.fields, done := false } : Http) = arrives h := by
    have := hd.2.2
    have := hd.1
    cases hx : arrives h
    simp_all
  rw [e2] at hb
  cases hp : parse none (n + 1) [] {} c with
  | none => rw [hp] at hb; simp at hb
  | some r =>
    rw [hp] at hb
    obtain ⟨r1, r2, r3⟩ := r
    simp only [Option.map_some, Option.some.injEq, Prod.mk.injEq] at hb
    obtain ⟨b1, b2, b3⟩ := hb
    exact ⟨r3, by rw [b1, b2], b3⟩

/-- The chain of buffers in memory. -/
def inMemory (l : List (List Byte)) : Chain := l.map fun x => some { inFile := false, left := x }

theorem flat_inMemory (l) : flat (inMemory l) = l.flatten := by
  induction l with
  | nil => rfl
  | cons a l ih =>
    rw [List.flatten_cons, ← ih]
    simp [inMemory, flat]

/-- Generating and then parsing gives the message back, with the body behind it. -/
theorem round_trip {h s} (hs : StartLine h s) (hg : Sendable h) :
    ∃ out tail h' c', generate (fun _ => true) none h [] none = some (DONE, h', out, tail) ∧
      parse none (h.fields.length + 3) [] {} (inMemory out) = some (DONE, arrives h, c') ∧
      flat c' = h.body.flatten := by
  have e0 : generate (fun _ => true) none h [] (some 0) = generate (fun _ => true) none h [] none := rfl
  rcases generate_spec (ok := fun _ => true) (base := []) hs with ⟨new, e, hm, _⟩ | ⟨⟨i, hi⟩, _⟩
  · have hf : flat (inMemory (new ++ h.body)) = message s h ++ h.body.flatten := by
      rw [flat_inMemory, List.flatten_append, hm]
    obtain ⟨c', p1, p2⟩ := parse_message hs hg hf (Nat.le_refl _)
    exact ⟨_, _, _, c', by rw [← e0]; exact e, by simpa using p1, p2⟩
  · cases hi

/-- A value with a line end in it makes a message with more fields: it is the same message as
that with the fields apart, so whoever chooses the value chooses fields. -/
theorem value_splits (s : List Byte) (h : Http) (l r n v n2 v2) :
    message s { h with fields := l ++ (n, some (v ++ CRLF ++ n2 ++ b! ": " ++ v2)) :: r } =
      message s { h with fields := l ++ (n, some v) :: (n2, some v2) :: r } := by
  unfold message fieldLine
  simp [List.flatMap_append]

/-- For every field that is good, a value that the parser takes for two fields. -/
theorem value_injects {h s n v n2 v2} (hs : StartLine h s) (hg : Sendable h)
    (h1 : GoodName n) (h2 : GoodValue (some v)) (h3 : GoodName n2) (h4 : GoodValue (some v2)) :
    ∃ out tail h' c', generate (fun _ => true) none
        { h with fields := h.fields ++ [(n, some (v ++ CRLF ++ n2 ++ b! ": " ++ v2))] } [] none =
          some (DONE, h', out, tail) ∧
      parse none (h.fields.length + 5) [] {} (inMemory out) =
        some (DONE, arrives { h with fields := h.fields ++ [(n, some v), (n2, some v2)] }, c') := by
  have st : ∀ fs, StartLine { h with fields := fs } s := by
    intro fs
    cases hs with
    | request a b c => exact .request a b c
    | response a b c => exact .response a b c
  rcases generate_spec (ok := fun _ => true) (base := [])
      (st (h.fields ++ [(n, some (v ++ CRLF ++ n2 ++ b! ": " ++ v2))])) with ⟨new, e, hm, _⟩ | ⟨⟨i, hi⟩, _⟩
  · rw [value_splits] at hm
    have hf : flat (inMemory (new ++ h.body)) = message s { h with
        fields := h.fields ++ [(n, some v), (n2, some v2)] } ++ h.body.flatten := by
      rw [flat_inMemory, List.flatten_append, hm]
    have hgood : Sendable { h with fields := h.fields ++ [(n, some v), (n2, some v2)] } := by
      refine ⟨hg.1, ?_⟩
      intro x hx
      simp only [List.mem_append, List.mem_cons, List.not_mem_nil, or_false] at hx
      rcases hx with hx | rfl | rfl
      · exact hg.2 x hx
      · exact ⟨h1, h2⟩
      · exact ⟨h3, h4⟩
    obtain ⟨c', p1, p2⟩ := parse_message (n := h.fields.length + 5) (st _) hgood hf (by simp)
    exact ⟨_, _, _, c', e, by simpa using p1⟩
  · cases hi

/-! ## The status -/

/-- The number that a list of digits stands for. -/
def decimal (ds : List Byte) : Nat := ds.foldl (fun a b => a * 10 + (b.toNat - 48)) 0

theorem atou_spec : ∀ ds a b, (∀ d ∈ ds, 48 ≤ d.toNat ∧ d.toNat ≤ 57) → a = b % 2 ^ 32 →
    atou a ds = some ((ds.foldl (fun a b => a * 10 + (b.toNat - 48)) b) % 2 ^ 32) := by
  intro ds
  induction ds with
  | nil => intro a b _ h; rw [atou, h]; rfl
  | cons d ds ih =>
    intro a b hd h
    rw [atou, if_pos (hd d (by simp)), List.foldl_cons]
    apply ih _ _ (fun x hx => hd x (by simp [hx]))
    rw [h]
    omega

/-- The status read is the number modulo 2^32, so every number has others that are taken for it. -/
theorem status_wraps (ds : List Byte) (hd : ∀ d ∈ ds, 48 ≤ d.toNat ∧ d.toNat ≤ 57) :
    atou 0 ds = some (decimal ds % 2 ^ 32) := atou_spec ds 0 0 hd rfl

/-- The number 4294967496 is read as 200. -/
theorem status_wrong : ∃ c', parse none 3 [] {}
      [some { inFile := false, left := b! "HTTP/1.1 4294967496 OK\r\n\r\n" }] =
    some (DONE, { type := RESPONSE, version := 1, status := 200, msg := some (b! "OK") }, c') := by
  refine ⟨[some { inFile := false, left := [] }], ?_⟩
  decide +kernel

/-! ## Examples -/

/-- A request. -/
def exReq : Http :=
  { type := REQUEST, method := 1, version := 1, uri := some (b! "/a"), args := some (b! "x=1"),
    fields := [(b! "Host", some (b! "h")), (b! "E", none)], body := [b! "abc"] }

example : StartLine exReq (b! "POST /a?x=1 HTTP/1.1") :=
  StartLine.request (h := exReq) (m := b! "POST") (v := b! "HTTP/1.1") rfl rfl rfl

example : (generate (fun _ => true) none exReq [] none).map (fun g => (g.1, g.2.2)) =
    some (DONE, [b! "POST /a?x=1 HTTP/1.1\r\nHost: h\r\nE: \r\n\r\n", b! "abc"], some 1) := by
  decide +kernel

example : parse none 9 [] {} [some { inFile := false, left := b! "POST /a?x=1 HT" }, none,
      some { inFile := false, left := b! "TP/1.1\r\nHost: h\r\nE: \r\n\r\nabc" }] =
    some (DONE, { exReq with body := [] }, [some { inFile := false, left := b! "abc" }]) := by
  decide +kernel

example : parse none 9 [] {} [some { inFile := false, left := b! "GIT / HTTP/1.1\r\nrest" }] =
    some (DONE, { error := 400 }, [some { inFile := false, left := b! "rest" }]) := by decide +kernel

end Verif.Http
