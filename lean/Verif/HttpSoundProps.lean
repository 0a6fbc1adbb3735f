import Verif.HttpRoundProps
/-
What the parser of src/mln_http.c accepts: a first line or a field that is not refused has the form
of one, and the message gets its parts.
-/
namespace Verif.Http

/-! ## Specification -/

/-- Nothing but blanks. -/
def Blanks (l : List Byte) : Prop := ∀ b ∈ l, blank b = true

/-- No blank in it. -/
def Word (l : List Byte) : Prop := ∀ b ∈ l, blank b = false

/-- A request line: method, target, and a version or nothing. -/
inductive RequestLine (h : Http) : List Byte → Prop
  | mk {b0 m b1 u a b2 v line} : Blanks b0 → Blanks b1 → Blanks b2 → Word m → Word u →
      (∃ name, methods[h.method]? = some name ∧ caseEq m name = true) →
      u ++ a ≠ [] → 63#8 ∉ u → h.uri = some u →
      (h.args = none ∧ (a = [] ∨ a = [63#8]) ∨ ∃ q, h.args = some q ∧ a = 63#8 :: q ∧ q ≠ [] ∧ Word q) →
      (v = [] ∧ h.version = 0 ∨ ∃ name, versions[h.version]? = some name ∧ caseEq v name = true) →
      line = b0 ++ m ++ b1 ++ u ++ a ++ b2 ++ v → RequestLine h line

/-- A status line: version, digits, and a text or nothing. -/
inductive StatusLine (h : Http) : List Byte → Prop
  | mk {b0 v b1 ds b2 t line} : Blanks b0 → Blanks b1 → Blanks b2 → Word v →
      (∃ name, versions[h.version]? = some name ∧ caseEq v name = true) →
      ds ≠ [] → (∀ d ∈ ds, 48 ≤ d.toNat ∧ d.toNat ≤ 57) → h.status = decimal ds % 2 ^ 32 →
      (t = [] ∧ h.msg = none ∨ t ≠ [] ∧ h.msg = some t) →
      line = b0 ++ v ++ b1 ++ ds ++ b2 ++ t → StatusLine h line

/-- A field: a name, and a colon and a value or nothing. -/
inductive FieldLine : List Byte → List Byte → Option (List Byte) → Prop
  | bare {b0 n b1} : Blanks b0 → Blanks b1 → n ≠ [] → (∀ b ∈ n, blank b = false ∧ b ≠ 58#8) →
      FieldLine (b0 ++ n ++ b1) n none
  | colon {b0 n b1 b2} : Blanks b0 → Blanks b1 → Blanks b2 → n ≠ [] →
      (∀ b ∈ n, blank b = false ∧ b ≠ 58#8) → FieldLine (b0 ++ n ++ b1 ++ [58#8] ++ b2) n none
  | value {b0 n b1 b2 v} : Blanks b0 → Blanks b1 → Blanks b2 → n ≠ [] →
      (∀ b ∈ n, blank b = false ∧ b ≠ 58#8) → v ≠ [] → (∀ b, v.head? = some b → blank b = false) →
      FieldLine (b0 ++ n ++ b1 ++ [58#8] ++ b2 ++ v) n (some v)

/-! ## Proofs -/

theorem blanks_take (l : List Byte) : Blanks (l.takeWhile blank) :=
  fun _ hb => List.mem_takeWhile_imp hb

theorem word_take (l : List Byte) : Word (l.takeWhile (fun b => !blank b)) := by
  intro b hb
  have := List.mem_takeWhile_imp hb
  simpa using this

theorem indexOf_some {l : List (List Byte)} {s i} (h : indexOf l s = some i) :
    ∃ name, l[i]? = some name ∧ caseEq s name = true := by
  unfold indexOf at h
  rw [List.findIdx?_eq_some_iff_getElem] at h
  obtain ⟨h1, h2, _⟩ := h
  exact ⟨l[i], by simp [h1], h2⟩

theorem dropWhile_ne {l : List Byte} {p : Byte → Bool} : ∀ b, (l.dropWhile p).head? = some b → p b = false := by
  intro b hb
  have := List.head?_dropWhile_not p l
  rw [hb] at this
  simpa using this

theorem atou_some : ∀ ds a st, atou a ds = some st → ∀ d ∈ ds, 48 ≤ d.toNat ∧ d.toNat ≤ 57 := by
  intro ds
  induction ds with
  | nil => intro a st _ d hd; cases hd
  | cons x ds ih =>
    intro a st h d hd
    rw [atou] at h
    split at h
    · rename_i hx
      rcases List.mem_cons.1 hd with rfl | hd
      · exact hx
      · exact ih _ _ h d hd
    · cases h

theorem third_request {a h buf h'} (ht : h.type = REQUEST) (hp : headThird a h buf = (OK, h')) :
    ∃ b2 v, buf = b2 ++ v ∧ Blanks b2 ∧
      (v = [] ∧ h'.version = 0 ∨ ∃ name, versions[h'.version]? = some name ∧ caseEq v name = true) ∧
      h'.uri = h.uri ∧ h'.args = h.args ∧ h'.method = h.method ∧ h'.type = h.type ∧ h'.fields = h.fields := by
  unfold headThird at hp
  dsimp only at hp
  refine ⟨buf.takeWhile blank, buf.dropWhile blank, List.takeWhile_append_dropWhile.symm, blanks_take _, ?_⟩
  split at hp
  · rename_i he
    cases hp
    exact ⟨.inl ⟨he, rfl⟩, rfl, rfl, rfl, rfl, rfl⟩
  · split at hp
    · cases hp
    · rename_i v hv
      cases hp
      exact ⟨.inr (indexOf_some hv), rfl, rfl, rfl, rfl, rfl⟩

theorem third_response {a h buf h'} (ht : h.type = RESPONSE) (hp : headThird a h buf = (OK, h')) :
    ∃ b2 t, buf = b2 ++ t ∧ Blanks b2 ∧ (t = [] ∧ h'.msg = none ∨ t ≠ [] ∧ h'.msg = some t) ∧
      h'.version = h.version ∧ h'.status = h.status ∧ h'.type = h.type ∧ h'.fields = h.fields := by
  have hnr : ¬ h.type = REQUEST := by rw [ht]; decide
  unfold headThird at hp
  dsimp only at hp
  refine ⟨buf.takeWhile blank, buf.dropWhile blank, List.takeWhile_append_dropWhile.symm, blanks_take _, ?_⟩
  split at hp
  · rename_i he
    cases hp
    exact ⟨.inl ⟨he, rfl⟩, rfl, rfl, rfl, rfl⟩
  · rename_i he
    split at hp
    · cases hp
    · cases hp
      exact ⟨.inr ⟨he, rfl⟩, rfl, rfl, rfl, rfl⟩

/-- A first line that is not refused is blank, a request line or a status line, and the message
gets the parts of it. -/
theorem headline_sound {a h line h'} (hp : parseHeadline a h line = (OK, h')) :
    (Blanks line ∧ h' = { h with done := true }) ∨
      (h'.type = REQUEST ∧ RequestLine h' line ∧ h'.fields = h.fields) ∨
      (h'.type = RESPONSE ∧ StatusLine h' line ∧ h'.fields = h.fields) := by
  unfold parseHeadline at hp
  dsimp only at hp
  have hline : line = line.takeWhile blank ++ (line.dropWhile blank) := List.takeWhile_append_dropWhile.symm
  split at hp
  · rename_i he
    cases hp
    refine .inl ⟨?_, rfl⟩
    rw [hline, he, List.append_nil]
    exact blanks_take _
  · generalize line.dropWhile blank = buf at *
    have hb0 := blanks_take line
    generalize line.takeWhile blank = b0 at *
    have hbuf : buf = buf.takeWhile (fun b => !blank b) ++ buf.dropWhile (fun b => !blank b) :=
      List.takeWhile_append_dropWhile.symm
    have hw := word_take buf
    generalize buf.takeWhile (fun b => !blank b) = m at *
    generalize buf.dropWhile (fun b => !blank b) = rest at *
    have hrest : rest = rest.takeWhile blank ++ rest.dropWhile blank := List.takeWhile_append_dropWhile.symm
    have hb1 := blanks_take rest
    have h2 : ∀ h1 : Http, headSecond a h1 rest = (OK, h') →
        rest.dropWhile blank ≠ [] ∧
        (h1.type = REQUEST → headUri a h1 (rest.dropWhile blank) = (OK, h')) ∧
        (h1.type = RESPONSE → headStatus a h1 (rest.dropWhile blank) = (OK, h')) := by
      intro h1 hs
      unfold headSecond at hs
      dsimp only at hs
      split at hs
      · cases hs
      · rename_i hne
        refine ⟨hne, fun ht => ?_, fun ht => ?_⟩
        · rw [if_pos ht] at hs; exact hs
        · rw [if_neg (by rw [ht]; decide)] at hs; exact hs
    have hsb : ∀ b, (rest.dropWhile blank).head? = some b → blank b = false := dropWhile_ne
    generalize rest.dropWhile blank = sec at *
    generalize rest.takeWhile blank = b1 at *
    have hsec : sec = sec.takeWhile (fun b => !blank b) ++ sec.dropWhile (fun b => !blank b) :=
      List.takeWhile_append_dropWhile.symm
    have hww := word_take sec
    have hsne : sec ≠ [] → sec.takeWhile (fun b => !blank b) ≠ [] := by
      intro hne
      cases sec with
      | nil => exact absurd rfl hne
      | cons x sec => simp [hsb x rfl]
    split at hp
    · rename_i v hv
      obtain ⟨hne, _, hs⟩ := h2 _ hp
      have hs := hs rfl
      unfold headStatus at hs
      split at hs
      · cases hs
      · rename_i st hat
        generalize sec.takeWhile (fun b => !blank b) = ds at *
        generalize sec.dropWhile (fun b => !blank b) = third at *
        obtain ⟨b2, t, e1, e2, e3, e4, e5, e6, e7⟩ := third_response (by rfl) hs
        have hd := atou_some _ _ _ hat
        rw [status_wraps _ hd] at hat
        simp only [Option.some.injEq] at hat
        refine .inr (.inr ⟨e6, StatusLine.mk hb0 hb1 e2 hw (by rw [e4]; exact indexOf_some hv) (hsne hne) hd
          (by rw [e5]; exact hat.symm) e3 ?_, e7⟩)
        rw [hline, hbuf, hrest, hsec, e1]
        simp only [List.append_assoc]
    · split at hp
      · rename_i mi hm
        obtain ⟨hne, hs, _⟩ := h2 _ hp
        have hs := hs rfl
        unfold headUri at hs
        dsimp only at hs
        have hsne := hsne hne
        generalize sec.takeWhile (fun b => !blank b) = tok at *
        generalize sec.dropWhile (fun b => !blank b) = third at *
        have htok : tok = tok.takeWhile (fun b => decide (b ≠ 63#8)) ++ tok.dropWhile (fun b => decide (b ≠ 63#8)) :=
          List.takeWhile_append_dropWhile.symm
        have hu : 63#8 ∉ tok.takeWhile (fun b => decide (b ≠ 63#8)) := by
          intro hc
          have := List.mem_takeWhile_imp hc
          simp at this
        have hq : ∀ b, (tok.dropWhile (fun b => decide (b ≠ 63#8))).head? = some b → b = 63#8 := by
          intro b hb
          have := dropWhile_ne b hb
          simpa using this
        generalize tok.takeWhile (fun b => decide (b ≠ 63#8)) = u at *
        generalize tok.dropWhile (fun b => decide (b ≠ 63#8)) = q at *
        subst htok
        have hwu : Word u := fun b hb => hww b (by simp [hb])
        have hwq : ∀ b ∈ q, blank b = false := fun b hb => hww b (by simp [hb])
        have hcat : ∀ b2 v, third = b2 ++ v → line = b0 ++ m ++ b1 ++ u ++ q ++ b2 ++ v := by
          intro b2 v e
          rw [hline, hbuf, hrest, hsec, e]
          simp only [List.append_assoc]
        split at hs
        · rename_i hq1
          split at hs
          · cases hs
          · obtain ⟨b2, v, e1, e2, e3, e4, e5, e6, e7, e8⟩ := third_request (by rfl) hs
            refine .inr (.inl ⟨e7, RequestLine.mk hb0 hb1 e2 hw hwu (by rw [e6]; exact indexOf_some hm) hsne hu
              e4 (.inl ⟨e5, ?_⟩) e3 (hcat _ _ e1), e8⟩)
            match q, hq1, hq with
            | [], _, _ => exact .inl rfl
            | [x], _, hq => rw [hq x rfl]; exact .inr rfl
            | _ :: _ :: _, hq1, _ => simp only [List.length_cons] at hq1; omega
        · rename_i hq1
          split at hs
          · cases hs
          · split at hs
            · cases hs
            · obtain ⟨b2, v, e1, e2, e3, e4, e5, e6, e7, e8⟩ := third_request (by rfl) hs
              refine .inr (.inl ⟨e7, RequestLine.mk hb0 hb1 e2 hw hwu (by rw [e6]; exact indexOf_some hm) hsne hu
                e4 (.inr ⟨_, e5, ?_⟩) e3 (hcat _ _ e1), e8⟩)
              match q, hq1, hq, hwq with
              | [], hq1, _, _ => simp at hq1
              | [x], hq1, _, _ => simp at hq1
              | x :: y :: q, _, hq, hwq =>
                rw [hq x rfl]
                exact ⟨rfl, by simp, fun b hb => hwq b (by simp only [List.drop_succ_cons, List.drop_zero] at hb; simp [hb])⟩
      · cases hp

/-- A further line that is not refused is blank or a field, and the field is appended. -/
theorem field_sound {a h line h'} (hp : parseField a h line = (OK, h')) :
    (Blanks line ∧ h' = { h with done := true }) ∨
      ∃ n v, FieldLine line n v ∧ h' = { h with fields := h.fields ++ [(n, v)] } := by
  have ins : ∀ n v, insertField a h n v = (OK, h') → h' = { h with fields := h.fields ++ [(n, v)] } := by
    intro n v hi
    unfold insertField at hi
    split at hi
    · cases hi; rfl
    · cases hi
  unfold parseField at hp
  dsimp only at hp
  have hline : line = line.takeWhile blank ++ (line.dropWhile blank) := List.takeWhile_append_dropWhile.symm
  have hb0 := blanks_take line
  split at hp
  · rename_i he
    cases hp
    refine .inl ⟨?_, rfl⟩
    rw [hline, he, List.append_nil]
    exact hb0
  · right
    generalize line.dropWhile blank = buf at *
    generalize line.takeWhile blank = b0 at *
    have hbuf : buf = buf.takeWhile (fun b => !blank b && decide (b ≠ 58#8)) ++
        buf.dropWhile (fun b => !blank b && decide (b ≠ 58#8)) := List.takeWhile_append_dropWhile.symm
    have hn : ∀ b ∈ buf.takeWhile (fun b => !blank b && decide (b ≠ 58#8)), blank b = false ∧ b ≠ 58#8 := by
      intro b hb
      have := List.mem_takeWhile_imp hb
      simpa using this
    rw [drop_takeWhile] at hp
    generalize buf.takeWhile (fun b => !blank b && decide (b ≠ 58#8)) = n at *
    generalize buf.dropWhile (fun b => !blank b && decide (b ≠ 58#8)) = rest at *
    split at hp
    · cases hp
    · rename_i hn0
      split at hp
      · cases hp
      · have hrest : rest = rest.takeWhile blank ++ rest.dropWhile blank := List.takeWhile_append_dropWhile.symm
        have hb1 := blanks_take rest
        generalize rest.takeWhile blank = b1 at *
        generalize rest.dropWhile blank = r2 at *
        split at hp
        · rw [List.append_nil] at hrest
          refine ⟨n, none, ?_, ins _ _ hp⟩
          have := FieldLine.bare hb0 hb1 hn0 hn
          rw [hline, hbuf, hrest, ← List.append_assoc]
          exact this
        · rename_i c r3
          split at hp
          · cases hp
          · rename_i hc
            have hc : c = 58#8 := by simpa using hc
            subst hc
            have hr3 : r3 = r3.takeWhile blank ++ r3.dropWhile blank := List.takeWhile_append_dropWhile.symm
            have hb2 := blanks_take r3
            have hv : ∀ b, (r3.dropWhile blank).head? = some b → blank b = false := dropWhile_ne
            generalize r3.takeWhile blank = b2 at *
            generalize r3.dropWhile blank = v at *
            split at hp
            · rename_i hv0
              subst hv0
              rw [List.append_nil] at hr3
              refine ⟨n, none, ?_, ins _ _ hp⟩
              have := FieldLine.colon hb0 hb1 hb2 hn0 hn
              have e : line = b0 ++ n ++ b1 ++ [58#8] ++ b2 := by
                rw [hline, hbuf, hrest, hr3]; simp
              rw [e]
              exact this
            · rename_i hv0
              split at hp
              · cases hp
              · refine ⟨n, some v, ?_, ins _ _ hp⟩
                have := FieldLine.value hb0 hb1 hb2 hn0 hn hv0 hv
                have e : line = b0 ++ n ++ b1 ++ [58#8] ++ b2 ++ v := by
                  rw [hline, hbuf, hrest, hr3]; simp
                rw [e]
                exact this

example : parseHeadline {} {} (b! "GET /x?y HTTP/2.0") = (ERROR, { type := REQUEST, error := 400, uri := some (b! "/x"), args := some (b! "y") }) := by
  decide +kernel

example : RequestLine { type := REQUEST, uri := some (b! "/x"), args := some (b! "y"), version := 1 }
    (b! "get  /x?y\tHTTP/1.1") :=
  RequestLine.mk (b0 := []) (m := b! "get") (b1 := b! "  ") (u := b! "/x") (a := b! "?y") (b2 := b! "\t")
    (v := b! "HTTP/1.1") (by unfold Blanks; decide +kernel) (by unfold Blanks; decide +kernel) (by unfold Blanks; decide +kernel)
    (by unfold Word; decide +kernel) (by unfold Word; decide +kernel) ⟨_, rfl, by decide +kernel⟩ (by simp) (by decide +kernel) rfl
    (.inr ⟨_, rfl, rfl, by simp, by unfold Word; decide +kernel⟩) (.inr ⟨_, rfl, by decide +kernel⟩) rfl

end Verif.Http
