import Verif.Regexp
/-
Every match and every capture that mln_reg_match stores lies inside the text, whatever the
pattern is.
-/
namespace Verif.Regexp

/-- The captures `cs'` are `cs` and further ones that satisfy `P`. -/
def Adds (P : List Byte → Prop) (cs cs' : Caps) : Prop :=
  ∃ l, cs' = cs.map (· ++ l) ∧ ∀ c ∈ l, P c

theorem Adds.refl (P cs) : Adds P cs cs := ⟨[], by cases cs <;> simp, by simp⟩

theorem Adds.trans {P cs cs' cs''} : Adds P cs cs' → Adds P cs' cs'' → Adds P cs cs''
  | ⟨l, h1, h2⟩, ⟨l', h3, h4⟩ => ⟨l ++ l', by subst h1 h3; cases cs <;> simp, by
      intro c hc; rcases List.mem_append.1 hc with h | h
      · exact h2 c h
      · exact h4 c h⟩

theorem Adds.mono {P Q : List Byte → Prop} {cs cs'} (h : ∀ c, P c → Q c) : Adds P cs cs' → Adds Q cs cs'
  | ⟨l, h1, h2⟩ => ⟨l, h1, fun c hc => h c (h2 c hc)⟩

theorem Adds.push {P : List Byte → Prop} {cs : Caps} {c : List Byte} (h : P c) : Adds P cs (cs.map (· ++ [c])) :=
  ⟨[c], rfl, by simpa using h⟩

/-- The result of a matcher started at `text`: what is left is a suffix of the text, and what
is captured lies in the text. -/
def Ok (text : List Byte) (cs : Caps) (r : Option (List Byte)) (cs' : Caps) : Prop :=
  (∀ t, r = some t → t <:+ text) ∧ Adds (· <:+: text) cs cs'

theorem Ok.none {text cs} : Ok text cs none cs := ⟨by simp, Adds.refl _ _⟩

theorem Ok.here {text cs t} (h : t <:+ text) : Ok text cs (some t) cs :=
  ⟨by rintro _ ⟨⟩; exact h, Adds.refl _ _⟩

theorem Ok.trans {text text' cs cs' cs'' r} (h : text' <:+ text)
    (h1 : Adds (· <:+: text) cs cs') (h2 : Ok text' cs' r cs'') : Ok text cs r cs'' :=
  ⟨fun t ht => (h2.1 t ht).trans h, h1.trans (h2.2.mono fun _ hc => hc.trans h.isInfix)⟩

/-- What is needed of the matcher with the smaller counter. -/
structure Good (M : Here) : Prop where
  ok : ∀ {f re text cs r cs'}, M f re text cs = some (r, cs') → Ok text cs r cs'
  nil : ∀ {f text cs x}, M f [] text cs = some x → x = (some text, cs)
  sp : ∀ {f re text cs r cs'}, f.sp = true → re.length ≤ 1 →
    M f re text cs = some (r, cs') → Adds (· = []) cs cs'

variable {self : Here}

theorem orMatch_ok (G : Good self) {f text alt next loop rv cs again rv' re' text' cs'}
    (ha : ∀ {cs rv' re' text' cs'}, again cs = some (rv', re', text', cs') →
      text' <:+ text ∧ Adds (· <:+: text) cs cs')
    (h : orMatch self f text alt next loop rv cs again = some (rv', re', text', cs')) :
    text' <:+ text ∧ Adds (· <:+: text) cs cs' := by
  unfold orMatch at h
  simp only [Option.bind_eq_bind, Option.bind_eq_some_iff] at h
  obtain ⟨⟨r, cs1⟩, h1, h2⟩ := h
  have ⟨g1, g2⟩ := G.ok h1
  cases r with
  | some t =>
    simp only [Option.some.injEq, Prod.mk.injEq] at h2
    obtain ⟨_, _, rfl, rfl⟩ := h2
    exact ⟨g1 _ rfl, g2⟩
  | none =>
    simp only at h2
    split at h2
    · have := ha h2
      exact ⟨this.1, g2.trans this.2⟩
    · simp only [Option.some.injEq, Prod.mk.injEq] at h2
      obtain ⟨_, _, rfl, rfl⟩ := h2
      exact ⟨List.suffix_refl _, g2⟩

theorem orLoop_ok (G : Good self) {f text} : ∀ {n rexp loop cs rv' re' text' cs'},
    orLoop self f text n rexp loop cs = some (rv', re', text', cs') →
    text' <:+ text ∧ Adds (· <:+: text) cs cs' := by
  intro n
  induction n with
  | zero => intro _ _ _ _ _ _ _ h; simp [orLoop] at h
  | succ n ih =>
    intro rexp loop cs rv' re' text' cs' h
    have triv : ∀ {a : Int} {b}, some (a, b, text, cs) = some (rv', re', text', cs') →
        text' <:+ text ∧ Adds (· <:+: text) cs cs' := by
      intro a b h
      simp only [Option.some.injEq, Prod.mk.injEq] at h
      obtain ⟨_, _, rfl, rfl⟩ := h
      exact ⟨List.suffix_refl _, Adds.refl _ _⟩
    rw [orLoop] at h
    simp only at h
    split at h
    · exact triv h
    · split at h
      · split at h
        · exact triv h
        · exact orMatch_ok G (by simp) h
      · split at h
        · split at h
          · exact triv h
          · exact orMatch_ok G (by simp) h
        · exact orMatch_ok G (fun h => ih h) h

theorem squareEnd_ok {rev text cs r cs'} (h : squareEnd rev text cs = some (r, cs')) :
    cs' = cs ∧ ∀ t, r = some t → t <:+ text := by
  unfold squareEnd at h
  split at h <;> split at h <;> simp only [Option.some.injEq, Prod.mk.injEq] at h <;>
    obtain ⟨rfl, rfl⟩ := h <;> simp

theorem squareLoop_ok (G : Good self) {rev text} : ∀ {n re cs r cs'},
    squareLoop self rev text n re cs = some (r, cs') → Ok text cs r cs' := by
  intro n
  induction n with
  | zero => intro _ _ _ _ h; simp [squareLoop] at h
  | succ n ih =>
    intro re cs r cs' h
    have fin : ∀ {r cs'}, squareEnd rev text cs = some (r, cs') → Ok text cs r cs' := by
      intro r cs' h
      obtain ⟨rfl, k⟩ := squareEnd_ok h
      exact ⟨k, Adds.refl _ _⟩
    have item : ∀ {step}, (if text = [] then some (none, cs)
        else do
          let (r, cs) ← self FSq (re.take step) text cs
          match r with
          | some text' => if rev then some (none, cs) else some (some text', cs)
          | none => squareLoop self rev text n (re.drop step) cs) = some (r, cs') →
        Ok text cs r cs' := by
      intro step h
      split at h
      · cases h; exact Ok.none
      · simp only [Option.bind_eq_bind, Option.bind_eq_some_iff] at h
        obtain ⟨⟨r1, cs1⟩, h1, h2⟩ := h
        have g := G.ok h1
        cases r1 with
        | some t =>
          simp only at h2
          split at h2
          · cases h2; exact ⟨by simp, g.2⟩
          · cases h2; exact g
        | none => exact Ok.trans (List.suffix_refl _) g.2 (ih h2)
    rw [squareLoop] at h
    simp only at h
    split at h
    · exact fin h
    · split at h
      · exact fin h
      · split at h
        · split at h
          · cases h; exact Ok.none
          · split at h
            · exact ih h
            · exact item h
        · split at h
          · exact ih h
          · exact item h

theorem square_ok (G : Good self) {n re text cs r cs'}
    (h : square self n re text cs = some (r, cs')) : Ok text cs r cs' := by
  unfold square at h
  simp only at h
  split at h <;> exact squareLoop_ok G h

/-- A single byte in brackets is never followed: no captures. -/
theorem square_nil {n re text cs r cs'} (hre : re.length ≤ 1)
    (h : square self n re text cs = some (r, cs')) : cs' = cs := by
  have hd : re.drop (getLen re) = [] := by
    match re, hre with
    | [], _ => rfl
    | [a], _ => rfl
  unfold square at h
  simp only [hd] at h
  cases n with
  | zero => split at h <;> simp [squareLoop] at h
  | succ n =>
    simp only [squareLoop, if_pos] at h
    split at h <;> exact (squareEnd_ok h).1

theorem starGroup_ok (G : Good self) {m re} : ∀ {n text found cs r cs'},
    starGroup self m re n text found cs = some (r, cs') → Ok text cs r cs' := by
  intro n
  induction n with
  | zero => intro _ _ _ _ _ h; simp [starGroup] at h
  | succ n ih =>
    intro text found cs r cs' h
    rw [starGroup] at h
    simp only [Option.bind_eq_bind, Option.bind_eq_some_iff] at h
    obtain ⟨⟨r1, cs1⟩, h1, h2⟩ := h
    have g := G.ok h1
    cases r1 with
    | none =>
      simp only at h2
      split at h2
      · cases h2
        refine ⟨?_, g.2⟩
        intro t ht
        split at ht
        · cases ht; exact List.suffix_refl _
        · cases ht
      · simp only [Option.bind_eq_some_iff] at h2
        obtain ⟨⟨r2, cs2⟩, h3, h4⟩ := h2
        have g2 := Ok.trans (List.suffix_refl _) g.2 (G.ok h3)
        split at h4
        · cases r2 with
          | none => cases h4; exact ⟨by simp, g2.2⟩
          | some t => cases h4; exact g2
        · cases h4; exact g2
    | some t =>
      simp only at h2
      have ht := g.1 t rfl
      split at h2
      · exact Ok.trans ht g.2 (ih h2)
      · split at h2
        · exact Ok.trans ht g.2 (G.ok h2)
        · cases h2; exact ⟨by simp, g.2⟩

theorem takes_ok (G : Good self) {m text cs b cs'} (hm : m.length ≤ 1)
    (h : takes self m text cs = some (b, cs')) : Adds (· <:+: text) cs cs' := by
  have e : ∀ c : List Byte, c = [] → c <:+: text := by rintro _ rfl; exact List.nil_infix
  unfold takes at h
  simp only [Option.bind_eq_bind, Option.bind_eq_some_iff] at h
  obtain ⟨⟨r1, cs1⟩, h1, h2⟩ := h
  have g := (G.sp rfl hm h1).mono e
  cases r1 with
  | some t => cases h2; exact g
  | none =>
    simp only [Option.bind_eq_some_iff] at h2
    obtain ⟨⟨r2, cs2⟩, h3, h4⟩ := h2
    cases h4
    exact g.trans ((G.sp rfl hm h3).mono e)

theorem starByte_ok (G : Good self) {m re} (hm : m.length ≤ 1) : ∀ {n text rec cs t rec' cs'},
    starByte self m re n text rec cs = some (t, rec', cs') →
    t <:+ text ∧ Adds (· <:+: text) cs cs' ∧
      (∀ u, rec' = some u → u <:+ text ∨ rec = some u) := by
  intro n
  induction n with
  | zero => intro _ _ _ _ _ _ h; simp [starByte] at h
  | succ n ih =>
    intro text rec cs t rec' cs' h
    cases text with
    | nil =>
      simp only [starByte, Option.some.injEq, Prod.mk.injEq] at h
      obtain ⟨rfl, rfl, rfl⟩ := h
      exact ⟨List.suffix_refl _, Adds.refl _ _, fun u hu => .inr hu⟩
    | cons a ts =>
      rw [starByte] at h
      simp only [Option.bind_eq_bind, Option.bind_eq_some_iff] at h
      obtain ⟨⟨b, cs1⟩, h1, h2⟩ := h
      have g := takes_ok G hm h1
      have sfx : ts <:+ a :: ts := List.suffix_cons a ts
      simp only at h2
      split at h2
      · split at h2
        · simp only [Option.bind_eq_some_iff] at h2
          obtain ⟨⟨r2, cs2⟩, h3, h4⟩ := h2
          obtain ⟨k1, k2, k3⟩ := ih h4
          refine ⟨k1.trans sfx, g.trans (k2.mono fun _ hc => hc.trans sfx.isInfix), ?_⟩
          intro u hu
          rcases k3 u hu with h | h
          · exact .inl (h.trans sfx)
          · split at h
            · cases h; exact .inl sfx
            · exact .inr h
        · obtain ⟨k1, k2, k3⟩ := ih h2
          refine ⟨k1.trans sfx, g.trans (k2.mono fun _ hc => hc.trans sfx.isInfix), ?_⟩
          intro u hu
          rcases k3 u hu with h | h
          · exact .inl (h.trans sfx)
          · exact .inr h
      · simp only [Option.some.injEq, Prod.mk.injEq] at h2
        obtain ⟨rfl, rfl, rfl⟩ := h2
        exact ⟨List.suffix_refl _, g, fun u hu => .inr hu⟩

theorem star_ok (G : Good self) {n m re text cs r cs'}
    (h : star self n m re text cs = some (r, cs')) : Ok text cs r cs' := by
  unfold star at h
  split at h
  · cases h; exact Ok.here (by simp)
  · split at h
    · exact starGroup_ok G h
    · rename_i hm
      simp only [Option.bind_eq_bind, Option.bind_eq_some_iff] at h
      obtain ⟨⟨t, rec, cs1⟩, h1, h2⟩ := h
      obtain ⟨k1, k2, k3⟩ := starByte_ok G (by omega) h1
      simp only at h2
      split at h2
      · refine Ok.trans ?_ k2 (G.ok h2)
        cases rec with
        | none => exact k1
        | some u =>
          rcases k3 u rfl with h | h
          · exact h
          · cases h
      · cases h2
        exact ⟨by rintro _ ⟨⟩; exact k1, k2⟩

theorem plusGroup_ok (G : Good self) {m re} : ∀ {n text found cs r cs'},
    plusGroup self m re n text found cs = some (r, cs') → Ok text cs r cs' := by
  intro n
  induction n with
  | zero => intro _ _ _ _ _ h; simp [plusGroup] at h
  | succ n ih =>
    intro text found cs r cs' h
    rw [plusGroup] at h
    simp only [Option.bind_eq_bind, Option.bind_eq_some_iff] at h
    obtain ⟨⟨r1, cs1⟩, h1, h2⟩ := h
    have g := G.ok h1
    cases r1 with
    | none =>
      simp only at h2
      split at h2
      · cases h2; exact g
      · exact Ok.trans (List.suffix_refl _) g.2 (G.ok h2)
    | some t =>
      simp only at h2
      have ht := g.1 t rfl
      split at h2
      · exact Ok.trans ht g.2 (ih h2)
      · split at h2
        · exact Ok.trans ht g.2 (G.ok h2)
        · cases h2; exact ⟨by simp, g.2⟩

theorem takeByte_ok (G : Good self) {m max} (hm : m.length ≤ 1) : ∀ {n text found cs t found' cs'},
    takeByte self m max n text found cs = some (t, found', cs') →
    t <:+ text ∧ Adds (· <:+: text) cs cs' := by
  intro n
  induction n with
  | zero => intro _ _ _ _ _ _ h; simp [takeByte] at h
  | succ n ih =>
    intro text found cs t found' cs' h
    cases text with
    | nil =>
      simp only [takeByte, Option.some.injEq, Prod.mk.injEq] at h
      obtain ⟨rfl, rfl, rfl⟩ := h
      exact ⟨List.suffix_refl _, Adds.refl _ _⟩
    | cons a ts =>
      rw [takeByte] at h
      simp only [Option.bind_eq_bind, Option.bind_eq_some_iff] at h
      obtain ⟨⟨b, cs1⟩, h1, h2⟩ := h
      have g := takes_ok G hm h1
      have sfx : ts <:+ a :: ts := List.suffix_cons a ts
      simp only at h2
      split at h2
      · split at h2
        · simp only [Option.some.injEq, Prod.mk.injEq] at h2
          obtain ⟨rfl, rfl, rfl⟩ := h2
          exact ⟨sfx, g⟩
        · obtain ⟨k1, k2⟩ := ih h2
          exact ⟨k1.trans sfx, g.trans (k2.mono fun _ hc => hc.trans sfx.isInfix)⟩
      · simp only [Option.some.injEq, Prod.mk.injEq] at h2
        obtain ⟨rfl, rfl, rfl⟩ := h2
        exact ⟨List.suffix_refl _, g⟩

theorem plus_ok (G : Good self) {n m re text cs r cs'}
    (h : plus self n m re text cs = some (r, cs')) : Ok text cs r cs' := by
  unfold plus at h
  split at h
  · exact plusGroup_ok G h
  · simp only [Option.bind_eq_bind, Option.bind_eq_some_iff] at h
    obtain ⟨⟨t, fd, cs1⟩, h1, h2⟩ := h
    obtain ⟨k1, k2⟩ := takeByte_ok G (by omega) h1
    simp only at h2
    split at h2
    · split at h2
      · exact Ok.trans k1 k2 (G.ok h2)
      · cases h2; exact ⟨by simp, k2⟩
    · cases h2; exact ⟨by simp, k2⟩

theorem question_ok (G : Good self) {m re text cs r cs'}
    (h : question self m re text cs = some (r, cs')) : Ok text cs r cs' := by
  unfold question at h
  split at h
  · simp only [Option.bind_eq_bind, Option.bind_eq_some_iff] at h
    obtain ⟨⟨r1, cs1⟩, h1, h2⟩ := h
    have g := G.ok h1
    refine Ok.trans ?_ g.2 (G.ok h2)
    cases r1 with
    | none => exact List.suffix_refl _
    | some t => exact g.1 t rfl
  · simp only [Option.bind_eq_bind, Option.bind_eq_some_iff] at h
    obtain ⟨⟨r1, cs1⟩, h1, h2⟩ := h
    have g := G.ok h1
    cases r1 with
    | none => exact Ok.trans (List.suffix_refl _) g.2 (G.ok h2)
    | some t => exact Ok.trans (List.drop_suffix _ _) g.2 (G.ok h2)

theorem braceGroup_ok (G : Good self) {m re min max} : ∀ {n text found cs r cs'},
    braceGroup self m re min max n text found cs = some (r, cs') → Ok text cs r cs' := by
  intro n
  induction n with
  | zero => intro _ _ _ _ _ h; simp [braceGroup] at h
  | succ n ih =>
    intro text found cs r cs' h
    rw [braceGroup] at h
    simp only [Option.bind_eq_bind, Option.bind_eq_some_iff] at h
    obtain ⟨⟨r1, cs1⟩, h1, h2⟩ := h
    have g := G.ok h1
    cases r1 with
    | none =>
      simp only at h2
      split at h2
      · cases h2; exact g
      · exact Ok.trans (List.suffix_refl _) g.2 (G.ok h2)
    | some t =>
      simp only at h2
      have ht := g.1 t rfl
      split at h2
      · exact Ok.trans ht g.2 (ih h2)
      · split at h2
        · cases h2; exact ⟨by simp, g.2⟩
        · exact Ok.trans ht g.2 (G.ok h2)

theorem brace_ok (G : Good self) {n m re text min max cs r cs'}
    (h : brace self n m re text min max cs = some (r, cs')) : Ok text cs r cs' := by
  unfold brace at h
  split at h
  · exact braceGroup_ok G h
  · simp only [Option.bind_eq_bind, Option.bind_eq_some_iff] at h
    obtain ⟨⟨t, fd, cs1⟩, h1, h2⟩ := h
    obtain ⟨k1, k2⟩ := takeByte_ok G (by omega) h1
    simp only at h2
    split at h2
    · split at h2
      · exact Ok.trans k1 k2 (G.ok h2)
      · cases h2; exact ⟨by simp, k2⟩
    · cases h2; exact ⟨by simp, k2⟩

theorem atom_ok (G : Good self) {n f step re text cs r cs'}
    (h : atom self n f step re text cs = some (r, cs')) : Ok text cs r cs' := by
  unfold atom at h
  simp only at h
  split at h
  · simp only [Option.bind_eq_bind, Option.bind_eq_some_iff] at h
    obtain ⟨⟨r1, cs1⟩, h1, h2⟩ := h
    have g := square_ok G h1
    cases r1 with
    | none => cases h2; exact g
    | some t => exact Ok.trans (g.1 t rfl) g.2 (G.ok h2)
  · split at h
    · simp only [Option.bind_eq_bind, Option.bind_eq_some_iff] at h
      obtain ⟨⟨r1, cs1⟩, h1, h2⟩ := h
      have g := G.ok h1
      cases r1 with
      | none => cases h2; exact g
      | some t =>
        refine Ok.trans (g.1 t rfl) (g.2.trans (Adds.push ?_)) (G.ok h2)
        exact (List.take_prefix _ _).isInfix
    · cases text with
      | nil => cases h; exact Ok.none
      | cons a ts =>
        simp only at h
        split at h
        · split at h
          · cases h; exact Ok.here (List.suffix_refl _)
          · exact Ok.trans (List.suffix_cons _ _) (Adds.refl _ _) (G.ok h)
        · cases h; exact Ok.none

theorem classes_ok (G : Good self) {n f step re text cs r cs'}
    (h : classes self n f step re text cs = some (r, cs')) : Ok text cs r cs' := by
  unfold classes at h
  simp only at h
  split at h
  · exact G.ok h
  · split at h
    · cases h
      split
      · exact Ok.here (by simp)
      · exact Ok.none
    · cases text with
      | nil => exact atom_ok G h
      | cons a ts =>
        simp only at h
        split at h
        · split at h
          · cases h; exact Ok.here (List.suffix_cons _ _)
          · cases h; exact Ok.none
        · split at h
          · split at h
            · exact Ok.trans (List.suffix_cons _ _) (Adds.refl _ _) (G.ok h)
            · cases h; exact Ok.none
          · exact atom_ok G h

theorem quantified_ok (G : Good self) {n f step re text cs r cs'}
    (h : quantified self n f step re text cs = some (r, cs')) : Ok text cs r cs' := by
  unfold quantified at h
  simp only at h
  split at h
  · split at h
    · exact star_ok G h
    · split at h
      · exact plus_ok G h
      · split at h
        · exact question_ok G h
        · split at h
          · split at h
            · cases h; exact Ok.none
            · split at h
              · cases h; exact Ok.none
              · simp only [Option.bind_eq_bind, Option.bind_eq_some_iff] at h
                obtain ⟨⟨mn, mx⟩, _, h2⟩ := h
                simp only at h2
                split at h2
                · cases h2; exact Ok.none
                · exact brace_ok G h2
          · exact classes_ok G h
  · exact classes_ok G h

theorem bracketed_ok (G : Good self) {n f re text cs r cs'}
    (h : bracketed self n f re text cs = some (r, cs')) : Ok text cs r cs' := by
  unfold bracketed at h
  simp only at h
  split at h
  · split at h
    · cases h; exact Ok.none
    · split at h
      · exact G.ok h
      · exact quantified_ok G h
  · exact quantified_ok G h

theorem body_ok (G : Good self) {n f re text cs r cs'}
    (h : body self n f re text cs = some (r, cs')) : Ok text cs r cs' := by
  unfold body at h
  split at h
  · cases h; exact Ok.here (List.suffix_refl _)
  · split at h
    · exact atom_ok G h
    · split at h
      · exact bracketed_ok G h
      · simp only [Option.bind_eq_bind, Option.bind_eq_some_iff] at h
        obtain ⟨⟨rv, re1, text1, cs1⟩, h1, h2⟩ := h
        have g := orLoop_ok G h1
        simp only at h2
        split at h2
        · cases h2; exact ⟨by simp, g.2⟩
        · split at h2
          · exact Ok.trans g.1 g.2 (G.ok h2)
          · exact Ok.trans g.1 g.2 (bracketed_ok G h2)

theorem body_sp (G : Good self) {n f re text cs r cs'} (hf : f.sp = true) (hre : re.length ≤ 1)
    (h : body self n f re text cs = some (r, cs')) : Adds (· = []) cs cs' := by
  unfold body at h
  split at h
  · cases h; exact Adds.refl _ _
  · rename_i hne
    obtain ⟨a, rfl⟩ : ∃ a, re = [a] := by
      match re, hne, hre with
      | [a], _, _ => exact ⟨a, rfl⟩
    unfold atom at h
    simp only [getLen, List.take_one, List.head?_cons, Option.toList, List.drop_one, List.tail_cons] at h
    split at h
    · simp only [Option.bind_eq_bind, Option.bind_eq_some_iff] at h
      obtain ⟨⟨r1, cs1⟩, h1, h2⟩ := h
      have e := square_nil (by simp) h1
      subst e
      cases r1 with
      | none => cases h2; exact Adds.refl _ _
      | some t => exact G.sp hf (by simp) h2
    · split at h
      · simp only [Option.bind_eq_bind, Option.bind_eq_some_iff] at h
        obtain ⟨⟨r1, cs1⟩, h1, h2⟩ := h
        rw [show List.take (1 - 2 * 1) ([] : List Byte) = [] from rfl] at h1
        have e := G.nil h1
        cases e
        simp only [Nat.sub_self, List.take_zero] at h2
        exact Adds.trans (Adds.push (P := (· = [])) rfl) (G.sp hf (by simp) h2)
      · cases text with
        | nil => cases h; exact Adds.refl _ _
        | cons b ts =>
          simp only at h
          split at h
          · cases h; exact Adds.refl _ _
          · cases h; exact Adds.refl _ _

theorem here_good : ∀ n, Good (here n)
  | 0 => ⟨fun h => (nomatch h), fun h => (nomatch h), fun _ _ h => (nomatch h)⟩
  | n + 1 => by
    have G := here_good n
    refine ⟨fun h => body_ok G h, ?_, fun hf hre h => body_sp G hf hre h⟩
    intro f text cs x h
    simp only [here, body, if_pos] at h
    exact (Option.some.inj h).symm

theorem matchLoop_ok {fuel exp} : ∀ {n p cs cs'}, matchLoop fuel exp n p cs = some cs' →
    Adds (· <:+: p) cs cs' := by
  intro n
  induction n with
  | zero => intro _ _ _ h; simp [matchLoop] at h
  | succ n ih =>
    intro p cs cs' h
    rw [matchLoop] at h
    simp only [Option.bind_eq_bind, Option.bind_eq_some_iff] at h
    obtain ⟨⟨r, cs1⟩, h1, h2⟩ := h
    have g := (here_good fuel).ok h1
    cases r with
    | none =>
      cases p with
      | nil => cases h2; exact g.2
      | cons a ps =>
        simp only at h2
        split at h2
        · exact g.2.trans ((ih h2).mono fun _ hc => hc.trans (List.suffix_cons _ _).isInfix)
        · cases h2; exact g.2
    | some t =>
      simp only at h2
      split at h2
      · have pu : Adds (· <:+: p) cs1 (cs1.map (· ++ [p.take (p.length - t.length)])) :=
          Adds.push (List.take_prefix _ _).isInfix
        split at h2
        · exact (g.2.trans pu).trans ((ih h2).mono fun _ hc => hc.trans (g.1 t rfl).isInfix)
        · cases h2; exact g.2.trans pu
      · cases h2; exact g.2

/-- Every string that mln_reg_match stores is a stretch of the text, for every pattern. -/
theorem matches_inside {fuel exp text l} (h : regMatch fuel exp text = some l) :
    ∀ c ∈ l, c <:+: text := by
  unfold regMatch at h
  simp only [Option.bind_eq_bind, Option.bind_eq_some_iff] at h
  obtain ⟨cs, h1, h2⟩ := h
  obtain ⟨l', e, hl⟩ := matchLoop_ok h1
  subst e
  simp only [Option.map_some, List.nil_append] at h2
  cases h2
  exact hl

/-- What a matcher leaves over is always an end of the text: `len - ret` in mln_reg_match
never wraps around. -/
theorem left_over {n f re text cs t cs'} (h : here n f re text cs = some (some t, cs')) :
    t <:+ text := ((here_good n).ok h).1 t rfl

/-- Two alternatives in a group, repeated: a capture for each repetition and the whole. -/
example : regMatch 40 [40, 97, 124, 98, 41, 99] [120, 97, 99, 98, 99] =
    some [[97], [97, 99]] := by decide +kernel

end Verif.Regexp
