import Verif.Http
import Verif.StrMiscProps
/-
Properties of the parser of src/mln_http.c: only the bytes count, not how they are cut into
buffers or calls; a line that cannot be parsed is reported as the end of the message.
-/
namespace Verif.Http

/-! ## Specification -/

/-- The bytes of a chain: those of its buffers in memory. -/
def flat (c : Chain) : List Byte :=
  c.flatMap fun
    | some b => if b.inFile then [] else b.left
    | none => []

/-- A handler that looks at the bytes of the chain only. -/
def Fair (f : Handler) : Prop :=
  ∀ h c c', flat c = flat c' →
    (f h c).1 = (f h c').1 ∧ (f h c).2.1 = (f h c').2.1 ∧ flat (f h c).2.2 = flat (f h c').2.2

/-- Two outcomes that differ at most in how the bytes left are cut into buffers. -/
def Alike (x y : Option (Nat × Http × Chain)) : Prop :=
  x.map (fun r => (r.1, r.2.1, flat r.2.2)) = y.map (fun r => (r.1, r.2.1, flat r.2.2))

/-! ## Lines -/

theorem flat_cons_none (c) : flat (none :: c) = flat c := rfl
theorem flat_cons_some (b c) : flat (some b :: c) = (if b.inFile then [] else b.left) ++ flat c := rfl
theorem flat_append (c d : Chain) : flat (c ++ d) = flat c ++ flat d := by simp [flat]

theorem takeWhile_all {p : Byte → Bool} {l : List Byte} (h : (l.takeWhile p).length = l.length) :
    l.takeWhile p = l ∧ ∀ x ∈ l, p x = true := by
  have e : l.takeWhile p = l := (List.takeWhile_prefix p).eq_of_length h
  refine ⟨e, ?_⟩
  intro x hx
  rw [← e] at hx
  exact (List.mem_takeWhile_imp hx)

theorem takeWhile_cut {p : Byte → Bool} {l m : List Byte} (h : (l.takeWhile p).length ≠ l.length) :
    (l ++ m).takeWhile p = l.takeWhile p ∧
      (l ++ m).dropWhile p = l.dropWhile p ++ m ∧ l.dropWhile p ≠ [] ∧
      ∃ x ∈ l, p x = false := by
  induction l with
  | nil => simp at h
  | cons a l ih =>
    by_cases ha : p a = true
    · have h' : (l.takeWhile p).length ≠ l.length := by
        intro hc
        apply h
        simp [ha, hc]
      obtain ⟨i1, i2, i3, x, hx, hp⟩ := ih h'
      refine ⟨by simp [ha, i1], by simp [ha, i2], by simpa [ha] using i3, x, by simp [hx], hp⟩
    · refine ⟨by simp [ha], by simp [ha], by simp [ha], a, by simp, by simpa using ha⟩

theorem drop_takeWhile (p : Byte → Bool) (l : List Byte) :
    l.drop (l.takeWhile p).length = l.dropWhile p := by
  conv_lhs => rw [← List.takeWhile_append_dropWhile (p := p) (l := l)]
  rw [List.takeWhile_append_dropWhile]
  induction l with
  | nil => rfl
  | cons a l ih => by_cases h : p a = true <;> simp [h, ih]

theorem lineLength_flat : ∀ (c : Chain) (n : Nat), lineLength c n =
    if 10#8 ∈ flat c then some (n + ((flat c).takeWhile (fun x => x ≠ 10#8)).length) else none := by
  intro c
  induction c with
  | nil => intro n; rfl
  | cons b c ih =>
    intro n
    cases b with
    | none => rw [lineLength, ih, flat_cons_none]
    | some b =>
      rw [lineLength, flat_cons_some]
      by_cases h1 : b.inFile = true ∨ b.left = []
      · rw [if_pos h1, ih]
        have : (if b.inFile = true then ([] : List Byte) else b.left) = [] := by
          rcases h1 with h | h <;> simp [h]
        rw [this, List.nil_append]
      · rw [if_neg h1]
        have hf : ¬ b.inFile = true := fun hc => h1 (.inl hc)
        simp only [hf, if_false, Bool.false_eq_true]
        by_cases hl : (b.left.takeWhile (fun x => decide (x ≠ 10#8))).length = b.left.length
        · rw [if_pos hl, ih]
          obtain ⟨e, hall⟩ := takeWhile_all hl
          have hn : 10#8 ∉ b.left := by
            intro hc
            have := hall _ hc
            simp at this
          have hall' : ∀ x ∈ b.left, decide (x ≠ 10#8) = true := hall
          rw [List.takeWhile_append, if_pos hl, hl]
          simp only [List.mem_append, hn, false_or, List.length_append]
          split
          · congr 1; omega
          · rfl
        · rw [if_neg hl]
          obtain ⟨e1, _, _, x, hx, hp⟩ := takeWhile_cut (m := flat c) hl
          have hm : 10#8 ∈ b.left := by
            have : x = 10#8 := by simpa using hp
            rw [← this]; exact hx
          rw [if_pos (by simp [hm]), e1]

theorem copyLine_flat : ∀ (c : Chain),
    (copyLine c).1 = (flat c).takeWhile (fun x => x ≠ 10#8) ∧
    flat (copyLine c).2 = ((flat c).dropWhile (fun x => x ≠ 10#8)).drop 1 := by
  intro c
  induction c with
  | nil => exact ⟨rfl, rfl⟩
  | cons b c ih =>
    cases b with
    | none => rw [copyLine, flat_cons_none]; exact ih
    | some b =>
      rw [copyLine, flat_cons_some]
      by_cases h1 : b.inFile = true ∨ b.left = []
      · rw [if_pos h1]
        have : (if b.inFile = true then ([] : List Byte) else b.left) = [] := by
          rcases h1 with h | h <;> simp [h]
        rw [this, List.nil_append]
        exact ih
      · rw [if_neg h1]
        have hf : ¬ b.inFile = true := fun hc => h1 (.inl hc)
        simp only [hf, if_false, Bool.false_eq_true]
        by_cases hl : (b.left.takeWhile (fun x => decide (x ≠ 10#8))).length = b.left.length
        · rw [if_pos hl]
          obtain ⟨e, hall⟩ := takeWhile_all hl
          constructor
          · rw [List.takeWhile_append, if_pos hl, ih.1, e]
          · have hd : b.left.dropWhile (fun x => decide (x ≠ 10#8)) = [] := by
              have := List.takeWhile_append_dropWhile (p := fun x => decide (x ≠ 10#8)) (l := b.left)
              rw [e] at this
              simpa using this
            rw [List.dropWhile_append, hd]
            simpa using ih.2
        · rw [if_neg hl]
          obtain ⟨e1, e2, e3, _⟩ := takeWhile_cut (m := flat c) hl
          refine ⟨e1.symm, ?_⟩
          rw [e2, List.drop_append_of_le_length (by
            have := List.length_pos_of_ne_nil e3; omega)]
          rw [flat_cons_some]
          simp only [hf, if_false, Bool.false_eq_true]
          congr 1
          rw [← List.drop_drop, drop_takeWhile]

/-! ## The parser on bytes -/

/-- What a line does to the message; lines 215-237. -/
def lineStep (a : Al) (h : Http) (line : List Byte) : Nat × Http :=
  if !a.buf then (ERROR, { h with error := INTERNAL })
  else
    let line := trimZeros line
    if line = [] ∨ line = [13#8] then (OK, { h with done := true })
    else
      let line := if line.getLast? = some 13#8 then line.dropLast else line
      if h.type = UNKNOWN then parseHeadline a h line else parseField a h line

/-- What is left after a line; nothing is read if there is no memory for it. -/
def lineRest (a : Al) (bs : List Byte) : List Byte :=
  if !a.buf then bs else (bs.dropWhile (fun x => x ≠ 10#8)).drop 1

theorem processLine_flat (a : Al) (h : Http) (c : Chain) :
    (processLine a h c ((flat c).takeWhile (fun x => x ≠ 10#8)).length).map
        (fun r => (r.1, r.2.1, flat r.2.2)) =
      some ((lineStep a h ((flat c).takeWhile (fun x => x ≠ 10#8))).1,
        (lineStep a h ((flat c).takeWhile (fun x => x ≠ 10#8))).2, lineRest a (flat c)) := by
  obtain ⟨e1, e2⟩ := copyLine_flat c
  unfold processLine lineStep lineRest
  by_cases hb : (!a.buf) = true
  · rw [if_pos hb, if_pos hb, if_pos hb]; rfl
  · rw [if_neg hb, if_neg hb, if_neg hb]
    simp only [e1, ne_eq, not_true, if_false]
    split
    · simp [e2]
    · simp [e2]

/-- The end of the parser on bytes. -/
def finB (hd : Option (Http → List Byte → Nat × Http × List Byte)) (h : Http) (bs : List Byte) :
    Nat × Http × List Byte :=
  match hd with
  | some f => if (f h bs).1 = DONE then ((f h bs).1, { (f h bs).2.1 with done := false }, (f h bs).2.2)
      else f h bs
  | none => (DONE, { h with done := false }, bs)

/-- The parser on bytes. -/
def parseB (hd : Option (Http → List Byte → Nat × Http × List Byte)) :
    Nat → List Al → Http → List Byte → Option (Nat × Http × List Byte)
  | 0, _, _, _ => none
  | n + 1, as, h, bs =>
    if h.done then some (finB hd h bs)
    else if 10#8 ∈ bs then
      let a := as.headD {}
      let r := lineStep a h (bs.takeWhile (fun x => x ≠ 10#8))
      if r.1 = ERROR then some (1, r.2, lineRest a bs) else parseB hd n as.tail r.2 (lineRest a bs)
    else some (OK, h, bs)

/-- A chain with given bytes. -/
def ofBytes (bs : List Byte) : Chain := [some { inFile := false, left := bs }]

theorem flat_ofBytes (bs) : flat (ofBytes bs) = bs := by simp [flat, ofBytes]

/-- The handler on bytes that a fair handler stands for. -/
def onBytes (f : Handler) (h : Http) (bs : List Byte) : Nat × Http × List Byte :=
  let r := f h (ofBytes bs)
  (r.1, r.2.1, flat r.2.2)

theorem parse_bytes (hd : Option Handler) (hf : ∀ f, hd = some f → Fair f) : ∀ (n as h c),
    (parse hd n as h c).map (fun r => (r.1, r.2.1, flat r.2.2)) =
      parseB (hd.map onBytes) n as h (flat c) := by
  intro n
  induction n with
  | zero => intro _ _ _; rfl
  | succ n ih =>
    intro as h c
    rw [parse, parseB]
    by_cases hdn : h.done = true
    · rw [if_pos hdn, if_pos hdn]
      unfold finish finB
      cases hd with
      | none => simp [DONE]
      | some f =>
        obtain ⟨f1, f2, f3⟩ := hf f rfl h c (ofBytes (flat c)) (by rw [flat_ofBytes])
        simp only [Option.map_some, onBytes, ← f1, ← f2, ← f3]
        split <;> rfl
    · rw [if_neg hdn, if_neg hdn, lineLength_flat]
      by_cases hm : 10#8 ∈ flat c
      · rw [if_pos hm, if_pos hm]
        have hp := processLine_flat (as.headD {}) h c
        simp only [Nat.zero_add]
        cases hx : processLine (as.headD {}) h c ((flat c).takeWhile (fun x => x ≠ 10#8)).length with
        | none => rw [hx] at hp; simp at hp
        | some r =>
          rw [hx] at hp
          simp only [Option.map_some, Option.some.injEq, Prod.mk.injEq] at hp
          obtain ⟨p1, p2, p3⟩ := hp
          simp only [Option.bind_eq_bind, Option.bind_some, ← p1, ← p2, ← p3]
          by_cases he : r.1 = ERROR
          · rw [if_pos he, if_pos he]; rfl
          · rw [if_neg he, if_neg he]
            exact ih _ _ _
      · rw [if_neg hm, if_neg hm]; rfl

/-- How the bytes are cut into buffers does not matter. -/
theorem parse_chunks {hd : Option Handler} (hf : ∀ f, hd = some f → Fair f) {n as h c c'}
    (hc : flat c = flat c') : Alike (parse hd n as h c) (parse hd n as h c') := by
  unfold Alike
  rw [parse_bytes hd hf, parse_bytes hd hf, hc]

theorem lineRest_le (a bs) (h : 10#8 ∈ bs) (hb : a.buf = true) : (lineRest a bs).length < bs.length := by
  unfold lineRest
  rw [if_neg (by simp [hb])]
  have h1 : bs.dropWhile (fun x => decide (x ≠ 10#8)) ≠ [] := by
    intro hc
    have := List.dropWhile_eq_nil_iff.1 hc _ h
    simp at this
  have := List.length_pos_of_ne_nil h1
  have h2 := List.length_dropWhile_le (fun x => decide (x ≠ 10#8)) bs
  rw [List.length_drop]
  omega

/-- With a call for every newline and one more, the parser ends. -/
theorem parse_ends (hd) : ∀ (n as h bs), bs.length < n → (∀ a ∈ as, a.buf = true) →
    (parseB hd n as h bs).isSome := by
  intro n
  induction n with
  | zero => intro _ _ _ h; omega
  | succ n ih =>
    intro as h bs hl ha
    rw [parseB]
    split
    · rfl
    · split
      · rename_i hm
        dsimp only
        split
        · rfl
        · refine ih _ _ _ ?_ (fun a h => ha a (List.mem_of_mem_tail h))
          have hb : (as.headD {}).buf = true := by
            cases as with
            | nil => rfl
            | cons a as => exact ha a (by simp)
          have := lineRest_le (as.headD {}) bs hm hb
          omega
      · rfl

theorem lineRest_append (a bs ds) (h : 10#8 ∈ bs) (hb : a.buf = true) :
    lineRest a (bs ++ ds) = lineRest a bs ++ ds ∧
      (bs ++ ds).takeWhile (fun x => x ≠ 10#8) = bs.takeWhile (fun x => x ≠ 10#8) := by
  have hl : (bs.takeWhile (fun x => decide (x ≠ 10#8))).length ≠ bs.length := by
    intro hc
    have := (takeWhile_all hc).2 _ h
    simp at this
  obtain ⟨e1, e2, e3, _⟩ := takeWhile_cut (m := ds) hl
  refine ⟨?_, e1⟩
  unfold lineRest
  rw [if_neg (by simp [hb]), if_neg (by simp [hb]), e2, List.drop_append_of_le_length (by
    have := List.length_pos_of_ne_nil e3; omega)]

theorem parseB_fuel (hd) : ∀ (n m h bs), bs.length < n → bs.length < m →
    parseB hd n [] h bs = parseB hd m [] h bs := by
  intro n
  induction n with
  | zero => intro _ _ _ h; omega
  | succ n ih =>
    intro m h bs hn hm
    obtain ⟨m, rfl⟩ : ∃ k, m = k + 1 := ⟨m - 1, by omega⟩
    rw [parseB, parseB]
    split
    · rfl
    · split
      · rename_i hx
        dsimp only
        split
        · rfl
        · have := lineRest_le ((([] : List Al)).headD {}) bs hx rfl
          exact ih _ _ _ (by omega) (by omega)
      · rfl

theorem parseB_split (hd) : ∀ (n h bs ds h1 r1 m k),
    parseB hd n [] h bs = some (OK, h1, r1) → h1.done = false →
    (∀ f, hd = some f → ∀ h bs, (f h bs).1 = OK → (f h bs).2.1.done = true) →
    (bs ++ ds).length < m → (bs ++ ds).length < k →
    parseB hd m [] h (bs ++ ds) = parseB hd k [] h1 (r1 ++ ds) := by
  intro n
  induction n with
  | zero => intro _ _ _ _ _ _ _ h; cases h
  | succ n ih =>
    intro h bs ds h1 r1 m k hp hdone hh hm hk
    rw [parseB] at hp
    split at hp
    · exfalso
      unfold finB at hp
      cases hd with
      | none => simp [OK, DONE] at hp
      | some f =>
        simp only [Option.some.injEq] at hp
        split at hp
        · rename_i hx
          rw [Prod.mk.injEq] at hp
          rw [hx] at hp
          exact absurd hp.1 (by decide)
        · have := hh f rfl h bs
          rw [hp] at this
          have := this rfl
          rw [hdone] at this
          cases this
    · rename_i hnd
      split at hp
      · rename_i hx
        dsimp only at hp
        split at hp
        · simp [OK] at hp
        · rename_i hne
          obtain ⟨l1, l2⟩ := lineRest_append (([] : List Al).headD {}) bs ds hx rfl
          have hlt := lineRest_le (([] : List Al).headD {}) bs hx rfl
          obtain ⟨m, rfl⟩ : ∃ j, m = j + 1 := ⟨m - 1, by omega⟩
          rw [parseB, if_neg hnd, if_pos (by simp [hx])]
          dsimp only
          rw [l2, if_neg hne, l1]
          simp only [List.length_append] at hm hk
          exact ih _ _ ds _ _ m k hp hdone hh (by simp only [List.length_append]; omega)
            (by simp only [List.length_append]; omega)
      · rename_i hx
        simp only [Option.some.injEq, Prod.mk.injEq] at hp
        obtain ⟨_, rfl, rfl⟩ := hp
        exact parseB_fuel hd _ _ _ _ hm hk

/-- Input that comes in two parts: when the first call asks for more, a second call with what it
left and the rest does what one call with everything does.  The handler, if there is one, looks at
bytes only, and only asks for more with the headers complete. -/
theorem parse_split {hd : Option Handler} (hf : ∀ f, hd = some f → Fair f)
    (hh : ∀ f, hd = some f → ∀ h c, (f h c).1 = OK → (f h c).2.1.done = true)
    {n h c d h1 c1 m k} (hp : parse hd n [] h c = some (OK, h1, c1)) (hdone : h1.done = false)
    (hm : (flat (c ++ d)).length < m) (hk : (flat (c ++ d)).length < k) :
    Alike (parse hd m [] h (c ++ d)) (parse hd k [] h1 (c1 ++ d)) := by
  unfold Alike
  rw [parse_bytes hd hf, parse_bytes hd hf, flat_append, flat_append]
  rw [flat_append] at hm hk
  have hb := parse_bytes hd hf n [] h c
  rw [hp] at hb
  refine parseB_split (hd.map onBytes) n h (flat c) (flat d) h1 (flat c1) m k hb.symm hdone ?_ hm hk
  intro g hg h bs
  cases hd with
  | none => cases hg
  | some f =>
    simp only [Option.map_some, Option.some.injEq] at hg
    subst hg
    exact hh f rfl h (ofBytes bs)

/-! ## Errors -/

theorem parseB_no_error : ∀ (n as h bs r), parseB none n as h bs = some r → r.1 = OK ∨ r.1 = DONE := by
  intro n
  induction n with
  | zero => intro _ _ _ _ h; cases h
  | succ n ih =>
    intro as h bs r hp
    rw [parseB] at hp
    split at hp
    · simp only [Option.some.injEq] at hp; rw [← hp]; exact .inr rfl
    · split at hp
      · dsimp only at hp
        split at hp
        · simp only [Option.some.injEq] at hp; rw [← hp]; exact .inr rfl
        · exact ih _ _ _ _ hp
      · simp only [Option.some.injEq] at hp; rw [← hp]; exact .inl rfl

/-- mln_http_parse never reports an error on its own, whatever the bytes and the allocations. -/
theorem parse_no_error {n as h c r} (hp : parse none n as h c = some r) : r.1 = OK ∨ r.1 = DONE := by
  have := parse_bytes none (by intro f hf; cases hf) n as h c
  rw [hp] at this
  exact parseB_no_error n as h (flat c) _ this.symm

/-- The first word of a line, and its last byte when that is a carriage return, as the parser
sees them: the line without zeros at the end and without the carriage return. -/
def trimLine (line : List Byte) : List Byte :=
  if (trimZeros line).getLast? = some 13#8 then (trimZeros line).dropLast else trimZeros line

/-- The first word of the first line. -/
def firstWord (bs : List Byte) : List Byte :=
  (((trimLine (bs.takeWhile (fun x => x ≠ 10#8))).dropWhile blank)).takeWhile (fun b => !blank b)

/-- A first line that is no request line and no status line: the parser says that the message is
complete (`M_HTTP_RET_DONE`), with the type unknown. -/
theorem parse_bad_line {n c} (hn : 10#8 ∈ flat c) (hw : firstWord (flat c) ≠ [])
    (hv : ∀ v ∈ versions, caseEq (firstWord (flat c)) v = false)
    (hm : ∀ v ∈ methods, caseEq (firstWord (flat c)) v = false) :
    ∃ c', parse none (n + 1) [] {} c = some (DONE, { error := 400 }, c') := by
  have hb := parse_bytes none (by intro f hf; cases hf) (n + 1) [] {} c
  have hidx : ∀ l : List (List Byte), (∀ v ∈ l, caseEq (firstWord (flat c)) v = false) →
      indexOf l (firstWord (flat c)) = none := by
    intro l hl
    unfold indexOf
    rw [List.findIdx?_eq_none_iff]
    intro v hv
    rw [hl v hv]
  have hs : lineStep {} {} ((flat c).takeWhile (fun x => x ≠ 10#8)) = (ERROR, { error := 400 }) := by
    unfold lineStep
    have hne : ((trimLine ((flat c).takeWhile (fun x => x ≠ 10#8))).dropWhile blank) ≠ [] := by
      intro hc
      apply hw
      unfold firstWord
      rw [hc]; rfl
    rw [if_neg (by simp)]
    dsimp only
    rw [if_neg, if_pos (show (0 : Nat) = UNKNOWN from rfl)]
    · unfold parseHeadline
      dsimp only
      change (if (trimLine ((flat c).takeWhile (fun x => x ≠ 10#8))).dropWhile blank = [] then _ else _) = _
      rw [if_neg hne]
      have h1 := hidx versions hv
      have h2 := hidx methods hm
      unfold firstWord trimLine at h1 h2
      rw [h1, h2]
      rfl
    · rintro (h | h)
      · apply hne; unfold trimLine; rw [h]; rfl
      · apply hne; unfold trimLine; rw [h]; rfl
  rw [show (Option.map onBytes (none : Option Handler)) = none from rfl, parseB, if_neg (by simp),
    if_pos hn] at hb
  dsimp only at hb
  rw [show (([] : List Al).headD {}) = {} from rfl, hs, if_pos rfl] at hb
  cases hp : parse none (n + 1) [] {} c with
  | none => rw [hp] at hb; simp at hb
  | some r =>
    rw [hp] at hb
    simp only [Option.map_some, Option.some.injEq, Prod.mk.injEq] at hb
    obtain ⟨r1, r2, r3⟩ := r
    obtain ⟨h1, h2, _⟩ := hb
    dsimp only at h1 h2
    exact ⟨r3, by rw [h1, h2]; rfl⟩

/-- A message with a type that is unknown, as after such a line, cannot be generated:
a pointer that was never set is followed. -/
theorem generate_unknown {ok hd h out tail} (h0 : h.type = UNKNOWN) :
    generate ok hd h out tail = none := by
  unfold generate
  rw [if_pos h0]

end Verif.Http
