import Verif.Pg
/-
What the parser of Verif/Pg.lean does with a table that belongs to a grammar: it reduces only what
is derived by the productions, and the machine that calls the functions makes the same moves as the
machine that reads the text.
-/
namespace Verif.Pg

/-! ### Specification: what a text means under a grammar -/

/-- `Der g f x ts u d u'`: the token `x` of the grammar derives the text `ts`; calling the functions
of the productions used, each after those of the parts of its right side, from left to right, gives
the data `d` and changes the user's data from `u` to `u'`. -/
inductive Der {D U} (g : List Rule) (f : Nat → List (Option D) → U → U × Option (Option D)) :
    Bool → List Nat → List (Tok D) → U → List (Option D) → U → Prop
  /-- a token of the text stands for itself -/
  | tok (t : Tok D) (u : U) : Der g f true [t.type] [t] u [some t.data] u
  /-- a production -/
  | rule {i r ts u vs u' u'' d} : g[i]? = some r → Der g f false r.rights ts u vs u' → f i vs u' = (u'', some d) → Der g f true [r.left] ts u [d] u''
  /-- the empty sequence -/
  | nil (u : U) : Der g f false [] [] u [] u
  /-- a sequence -/
  | cons {x xs ts us u v vs u' u''} : Der g f true [x] ts u [v] u' → Der g f false xs us u' vs u'' → Der g f false (x :: xs) (ts ++ us) u (v :: vs) u''

section
variable {D U : Type} {g : List Rule} {f : Nat → List (Option D) → U → U × Option (Option D)}

theorem Der.append {xs ts u vs u' ys us ws u''} (h : Der g f false xs ts u vs u') (k : Der g f false ys us u' ws u'') :
    Der g f false (xs ++ ys) (ts ++ us) u (vs ++ ws) u'' := by
  generalize hb : false = b at h
  induction h with
  | tok => cases hb
  | rule => cases hb
  | nil => simpa using k
  | cons a b _ ih2 =>
    simp only [List.cons_append, List.append_assoc]
    exact .cons a (ih2 k rfl)

theorem Der.split {xs ys : List Nat} {ts u vs u'} (h : Der g f false (xs ++ ys) ts u vs u') :
    ∃ ts1 ts2 vs1 vs2 u1, ts = ts1 ++ ts2 ∧ vs = vs1 ++ vs2 ∧ vs1.length = xs.length ∧ Der g f false xs ts1 u vs1 u1 ∧ Der g f false ys ts2 u1 vs2 u' := by
  induction xs generalizing ts u vs with
  | nil => exact ⟨[], ts, [], vs, u, rfl, rfl, rfl, .nil u, h⟩
  | cons x xs ih =>
    cases h with
    | cons a b =>
      obtain ⟨t1, t2, v1, v2, u1, e1, e2, e3, d1, d2⟩ := ih b
      refine ⟨_ ++ t1, t2, _ :: v1, v2, u1, ?_, ?_, ?_, .cons a d1, d2⟩
      · rw [e1, List.append_assoc]
      · rw [e2]; rfl
      · simp [e3]

theorem Der.length {xs ts u vs u'} (h : Der g f false xs ts u vs u') : vs.length = xs.length := by
  generalize hb : false = b at h
  induction h with
  | tok => cases hb
  | rule => cases hb
  | nil => rfl
  | cons a b _ ih2 => simp [ih2 rfl]

theorem Der.one {x ts u v u'} (h : Der g f false [x] ts u [v] u') : Der g f true [x] ts u [v] u' := by
  cases h with
  | cons a b => cases b; simpa using a

end

/-! ### Tables that belong to a grammar -/

/-- The items (production and position) behind the entries of a table. -/
structure TableOk (g : List Rule) (eof : Nat) (tbl : Table) (items : Nat → List (Nat × Nat)) : Prop where
  init : ∀ x ∈ items 0, x.2 = 0
  start : ∀ s, (0, 0) ∈ items s → s = 0
  shift : ∀ s row X idx, tbl[s]? = some row → (row X).kind = .shift → (row X).index = some idx →
    X ≠ eof ∧ idx ≠ 0 ∧ ∀ r p, (r, p) ∈ items idx → p = 0 ∨ ∃ p' ru, p = p' + 1 ∧ (r, p') ∈ items s ∧ g[r]? = some ru ∧ ru.rights[p']? = some X
  reduce : ∀ s row X, tbl[s]? = some row → (row X).kind = .reduce →
    ∃ ru, g[(row X).rule]? = some ru ∧ (row X).nargs = ru.rights.length ∧ (row X).left = ru.left ∧ ((row X).rule, ru.rights.length) ∈ items s ∧ ∀ r ∈ g, r.left ≠ X
  accept : ∀ s row X, tbl[s]? = some row → (row X).kind = .accept →
    X = eof ∧ ∃ r p ru, (r, p) ∈ items s ∧ g[r]? = some ru ∧ ru.rights[p]? = some eof

/-- The grammar has the form the generator expects: the first production is `start: S EOF`, and
neither `start` nor EOF is used anywhere else. -/
structure GrammarOk (g : List Rule) (eof s0 : Nat) : Prop where
  first : ∃ st, g[0]? = some ⟨st, [s0, eof]⟩ ∧ ∀ r ∈ g, st ∉ r.rights
  eofOnly : ∀ i r, g[i]? = some r → eof ∈ r.rights → i = 0
  eofLeft : ∀ r ∈ g, r.left ≠ eof
  s0ne : s0 ≠ eof

/-- A stack of tokens and states such that every state is reached by a shift from the state
below. -/
def Path (tbl : Table) : List (Nat × Nat) → Nat → Prop
  | [], s => s = 0
  | (X, st) :: rest, s => (∃ row, tbl[st]? = some row ∧ (row X).kind = .shift ∧ (row X).index = some s) ∧ Path tbl rest st

/-- The state below the `n` topmost factors. -/
def below (stk : List (Nat × Nat)) (s n : Nat) : Nat :=
  match (stk.take n).getLast? with
  | none => s
  | some f => f.2

theorem below_cons (x : Nat × Nat) (stk : List (Nat × Nat)) (s n : Nat) : below (x :: stk) s (n + 1) = below stk x.2 n := by
  unfold below
  simp only [List.take_succ_cons]
  cases hh : stk.take n with
  | nil => simp
  | cons y l => simp [List.getLast?_eq_some_getLast]

theorem path_items {g eof tbl items} (T : TableOk g eof tbl items) (p : Nat) : ∀ (stk : List (Nat × Nat)) (s r : Nat) (ru : Rule),
    Path tbl stk s → (r, p) ∈ items s → g[r]? = some ru →
    p ≤ stk.length ∧ ((stk.take p).map Prod.fst).reverse = ru.rights.take p ∧ (r, 0) ∈ items (below stk s p) ∧ Path tbl (stk.drop p) (below stk s p) := by
  induction p with
  | zero =>
    intro stk s r ru hp hi _
    refine ⟨Nat.zero_le _, rfl, ?_, ?_⟩
    · simpa [below] using hi
    · simpa [below] using hp
  | succ p ih =>
    intro stk s r ru hp hi hg
    cases stk with
    | nil =>
      have : s = 0 := hp
      subst this
      have := T.init _ hi
      simp at this
    | cons x rest =>
      obtain ⟨X, st⟩ := x
      obtain ⟨⟨row, h1, h2, h3⟩, hp'⟩ := hp
      obtain ⟨_, _, h4⟩ := T.shift st row X s h1 h2 h3
      rcases h4 r (p + 1) hi with h5 | ⟨p', ru', e, h6, h7, h8⟩
      · cases h5
      · have e' : p' = p := by omega
        subst e'
        have e2 : ru' = ru := by rw [hg] at h7; exact (Option.some.inj h7).symm
        subst e2
        obtain ⟨a, b, c, d⟩ := ih rest st r ru' hp' h6 hg
        refine ⟨by simpa using a, ?_, ?_, ?_⟩
        · simp only [List.take_succ_cons, List.map_cons, List.reverse_cons, b]
          have hl : p' < ru'.rights.length := (List.getElem?_eq_some_iff.1 h8).1
          have hx : ru'.rights[p'] = X := (List.getElem?_eq_some_iff.1 h8).2
          rw [List.take_succ_eq_append_getElem hl, hx]
        · rw [below_cons]; exact c
        · rw [below_cons]; exact d

/-! ### The machine without data -/

/-- A machine without data: types and states on the stack, and the types of the tokens still to be
read, the lookahead first. -/
structure Cfg where
  stack : List (Nat × Nat)
  state : Nat
  red : Bool
  input : List Nat

/-- The entry a machine looks at. -/
def Cfg.entry? (tbl : Table) (c : Cfg) : Option Entry :=
  (if c.red then c.stack.head?.map (·.1) else c.input.head?).bind (fun col => tbl[c.state]?.map (fun row => row col))

/-- One move; `none` when the machine stands still. -/
def Cfg.step (tbl : Table) (c : Cfg) : Option Cfg :=
  match c.entry? tbl with
  | none => none
  | some e =>
    match e.kind with
    | .shift =>
      match e.index with
      | none => none
      | some idx =>
        if c.red then some { c with state := idx, red := false }
        else
          match c.input with
          | [] => none
          | x :: rest => some { stack := (x, c.state) :: c.stack, state := idx, red := false, input := rest }
    | .reduce =>
      if c.stack.length < e.nargs then none
      else some { stack := (e.left, below c.stack c.state e.nargs) :: c.stack.drop e.nargs, state := below c.stack c.state e.nargs, red := true, input := c.input }
    | .error => none
    | .accept => none

inductive Steps (tbl : Table) : Cfg → Cfg → Prop
  | refl (c) : Steps tbl c c
  | tail {a b c} : Steps tbl a b → b.step tbl = some c → Steps tbl a c

theorem Steps.trans {tbl a b c} (h : Steps tbl a b) (k : Steps tbl b c) : Steps tbl a c := by
  induction k with
  | refl => exact h
  | tail _ h2 ih => exact .tail ih h2

theorem Steps.head {tbl a b c} (h : a.step tbl = some b) (k : Steps tbl b c) : Steps tbl a c :=
  Steps.trans (.tail (.refl a) h) k

/-- The moves are determined: of two machines started alike one is ahead of the other. -/
theorem Steps.linear {tbl a b c} (h : Steps tbl a b) (k : Steps tbl a c) : Steps tbl b c ∨ Steps tbl c b := by
  induction h with
  | refl => exact .inl k
  | tail _ h2 ih =>
    rcases ih with ih | ih
    · rename_i b' c' _
      -- from b' we reach c; either c = b' or the first step is to c'
      have : ∀ {x y : Cfg}, Steps tbl x y → ∀ z, x.step tbl = some z → y = x ∨ Steps tbl z y := by
        intro x y hxy z hz
        induction hxy with
        | refl => exact .inl rfl
        | tail _ h4 ih4 =>
          rcases ih4 with e | ih4
          · subst e; rw [hz] at h4; cases h4; exact .inr (.refl _)
          · exact .inr (.tail ih4 h4)
      rcases this ih _ h2 with e | e
      · subst e; exact .inr (.tail (.refl _) h2)
      · exact .inl e
    · exact .inr (.tail ih h2)

theorem Steps.halt_eq {tbl a b} (h : Steps tbl a b) (ha : a.step tbl = none) : b = a := by
  induction h with
  | refl => rfl
  | tail _ h2 ih => rw [ih, ha] at h2; cases h2

theorem Steps.halt_unique {tbl a b c} (h : Steps tbl a b) (hb : b.step tbl = none) (k : Steps tbl a c) (hc : c.step tbl = none) : b = c := by
  rcases h.linear k with h' | h'
  · exact (h'.halt_eq hb).symm
  · exact h'.halt_eq hc

/-- The machine at the beginning. -/
def start (input : List Nat) : Cfg := { stack := [], state := 0, red := false, input := input }

/-- What holds of every machine on its way. -/
def Cfg.Good (g : List Rule) (tbl : Table) (c : Cfg) : Prop :=
  if c.red then ∃ X rest, c.stack = (X, c.state) :: rest ∧ Path tbl rest c.state ∧ ∃ r ∈ g, r.left = X else Path tbl c.stack c.state

theorem step_good {g eof tbl items} (T : TableOk g eof tbl items) {c c' : Cfg} (h : c.Good g tbl) (k : c.step tbl = some c') : c'.Good g tbl := by
  unfold Cfg.step at k
  cases he : c.entry? tbl with
  | none => rw [he] at k; cases k
  | some e =>
    rw [he] at k
    simp only at k
    unfold Cfg.entry? at he
    obtain ⟨col, hcol, he⟩ := Option.bind_eq_some_iff.1 he
    obtain ⟨row, hrow, he⟩ := Option.map_eq_some_iff.1 he
    subst he
    cases hk : (row col).kind with
    | error => simp only [hk] at k; cases k
    | accept => simp only [hk] at k; cases k
    | shift =>
      simp only [hk] at k
      cases hi : (row col).index with
      | none => simp only [hi] at k; cases k
      | some idx =>
        simp only [hi] at k
        by_cases hr : c.red = true
        · simp only [hr, if_true, Option.some.injEq] at k
          subst k
          simp only [Cfg.Good, hr, if_true] at h
          obtain ⟨X, rest, e1, e2, _⟩ := h
          simp only [hr, if_true, e1, List.head?_cons, Option.map_some, Option.some.injEq] at hcol
          subst hcol
          simp only [Cfg.Good, Bool.false_eq_true, if_false, e1]
          exact ⟨⟨row, hrow, hk, hi⟩, e2⟩
        · have hr' : c.red = false := by simpa using hr
          simp only [hr', Bool.false_eq_true, if_false] at k hcol
          simp only [Cfg.Good, hr', Bool.false_eq_true, if_false] at h
          cases hin : c.input with
          | nil => simp only [hin] at k; cases k
          | cons x rest =>
            simp only [hin, Option.some.injEq] at k
            simp only [hin, List.head?_cons, Option.some.injEq] at hcol
            subst hcol
            subst k
            simp only [Cfg.Good, Bool.false_eq_true, if_false]
            exact ⟨⟨row, hrow, hk, hi⟩, h⟩
    | reduce =>
      simp only [hk] at k
      split at k
      · cases k
      · simp only [Option.some.injEq] at k
        subst k
        obtain ⟨ru, a1, a2, a3, a4, a5⟩ := T.reduce c.state row col hrow hk
        simp only [Cfg.Good, if_true]
        refine ⟨(row col).left, c.stack.drop (row col).nargs, rfl, ?_, ru, List.mem_of_getElem? a1, a3.symm⟩
        -- a machine about to go on after a reduction does not reduce again
        by_cases hr : c.red = true
        · simp only [Cfg.Good, hr, if_true] at h
          obtain ⟨X, rest, e1, e2, r, hr1, hr2⟩ := h
          simp only [hr, if_true, e1, List.head?_cons, Option.map_some, Option.some.injEq] at hcol
          subst hcol
          exact absurd hr2 (a5 r hr1)
        · have hr' : c.red = false := by simpa using hr
          simp only [Cfg.Good, hr', Bool.false_eq_true, if_false] at h
          rw [a2]
          exact (path_items T ru.rights.length c.stack c.state (row col).rule ru h a4 a1).2.2.2

theorem reach_good {g eof tbl items} (T : TableOk g eof tbl items) {input c} (h : Steps tbl (start input) c) : c.Good g tbl := by
  induction h with
  | refl => show Path tbl [] 0; rfl
  | tail _ h2 ih => exact step_good T ih h2

/-! ### The two machines -/

/-- A side without its data, with the types of the tokens behind its lookahead. -/
def Side.abs {D} (s : Side D) (rest : List Nat) : Cfg :=
  { stack := s.stack.map (fun x => (x.type, x.st)), state := s.state, red := s.red, input := s.la.toList.map (·.type) ++ rest }

theorem entry_abs {D} {tbl : Table} {s : Side D} {la} (h : s.la = some la) (rest : List Nat) : (s.abs rest).entry? tbl = entry? tbl s := by
  unfold Cfg.entry? entry? Side.abs
  simp only [h, Option.toList_some, List.map_cons, List.map_nil, List.cons_append, List.nil_append, List.head?_cons, Option.map_some, List.head?_map]
  cases s.red <;> cases s.stack.head? <;> simp

theorem below_abs {D} (s : Side D) (n : Nat) : below (s.stack.map (fun x => (x.type, x.st))) s.state n = popState n s := by
  unfold below popState
  rw [← List.map_take, List.getLast?_map]
  cases (s.stack.take n).getLast? <;> rfl

/-- The factors on the stack have the data of the text they derive; the lookahead and the queue are
the rest of the text `P`. -/
def VI {D U} (g : List Rule) (f : Nat → List (Option D) → U → U × Option (Option D)) (u0 : U) (P : List (Tok D)) (s : Side D) (q : List (Factor D)) (u : U) : Prop :=
  ∃ sh lt, Der g f false (s.stack.reverse.map (·.type)) sh u0 (s.stack.reverse.map (·.data)) u ∧ (s.la.toList ++ q).map (fun x => (x.type, x.data)) = lt.map (fun t => (t.type, some t.data)) ∧ sh ++ lt = P

theorem oldRun_sim {D U} {g eof tbl items} (T : TableOk g eof tbl items) {f : Nat → List (Option D) → U → U × Option (Option D)}
    (hf : ∀ i vs u, (f i vs u).2 ≠ none) (done : Bool) (input rest : List Nat) (u0 : U) (P : List (Tok D)) (n : Nat) :
    ∀ (s : Side D) (q : List (Factor D)) (u : U) (s' : Side D) (q' : List (Factor D)) (u' : U),
      oldRun tbl f done n s q u = .ok (s', q', u') → (∃ la, s.la = some la) → (done = false → q ≠ []) →
      (done = true → (s.la.toList ++ q).getLast?.map (·.type) = some eof) →
      Steps tbl (start input) (s.abs (q.map (·.type) ++ rest)) → VI g f u0 P s q u →
      Steps tbl (start input) (s'.abs (q'.map (·.type) ++ rest)) ∧ VI g f u0 P s' q' u' ∧ (∃ la, s'.la = some la) ∧
      ((s'.abs (q'.map (·.type) ++ rest)).step tbl = none ∨ (done = false ∧ s'.stack ≠ [])) ∧
      (done = false → q.length ≤ q'.length + 1) := by
  induction n with
  | zero => intro s q u s' q' u' h; simp [oldRun] at h
  | succ n ih =>
    intro s q u s' q' u' h hla hq hl hS hV
    obtain ⟨la, hla⟩ := hla
    have hG := reach_good T hS
    have hE := entry_abs (tbl := tbl) hla (q.map (·.type) ++ rest)
    rw [oldRun] at h
    cases he : entry? tbl s with
    | none => rw [he] at h; simp at h
    | some e =>
      rw [he] at h hE
      simp only at h
      have he' := he
      unfold entry? at he'
      obtain ⟨col, hcol, he'⟩ := Option.bind_eq_some_iff.1 he'
      obtain ⟨row, hrow, he'⟩ := Option.map_eq_some_iff.1 he'
      cases hk : e.kind with
      | error =>
        simp only [hk, Res.ok.injEq, Prod.mk.injEq] at h
        obtain ⟨rfl, rfl, rfl⟩ := h
        refine ⟨hS, hV, ⟨la, hla⟩, .inl ?_, fun _ => by omega⟩
        unfold Cfg.step; rw [hE]; simp [hk]
      | accept =>
        simp only [hk, Res.ok.injEq, Prod.mk.injEq] at h
        obtain ⟨rfl, rfl, rfl⟩ := h
        refine ⟨hS, hV, ⟨la, hla⟩, .inl ?_, fun _ => by omega⟩
        unfold Cfg.step; rw [hE]; simp [hk]
      | shift =>
        simp only [hk] at h
        cases hi : e.index with
        | none => simp [hi] at h
        | some idx =>
          simp only [hi] at h
          by_cases hr : s.red = true
          · simp only [hr, if_true] at h
            refine ih _ _ _ _ _ _ h ⟨la, hla⟩ hq hl (.tail hS ?_) hV
            unfold Cfg.step
            rw [hE]
            simp [hk, hi, Side.abs, hr]
          · have hr' : s.red = false := by simpa using hr
            simp only [hr', Bool.false_eq_true, if_false, hla] at h
            simp only [hr', Bool.false_eq_true, if_false, hla, Option.map_some, Option.some.injEq] at hcol
            subst he'
            obtain ⟨hne, _, _⟩ := T.shift s.state row col idx hrow hk hi
            cases q with
            | nil =>
              cases done with
              | false => exact absurd rfl (hq rfl)
              | true =>
                have := hl rfl
                simp [hla] at this
                exact absurd (hcol.symm.trans this) hne
            | cons x q =>
              simp only at h
              have hst : Steps tbl (start input) (Side.abs { s with stack := { la with st := s.state } :: s.stack, la := some x, state := idx, red := false } (q.map (·.type) ++ rest)) := by
                refine .tail hS ?_
                unfold Cfg.step
                rw [hE]
                simp [hk, hi, Side.abs, hr', hla]
              have hvi : VI g f u0 P { s with stack := { la with st := s.state } :: s.stack, la := some x, state := idx, red := false } q u := by
                obtain ⟨sh, lt, d1, d2, d3⟩ := hV
                rw [hla] at d2
                simp only [Option.toList_some, List.cons_append, List.nil_append, List.map_cons] at d2
                cases lt with
                | nil => simp at d2
                | cons t lt =>
                  simp only [List.map_cons, List.cons.injEq, Prod.mk.injEq] at d2
                  obtain ⟨a1, a2⟩ := d2
                  refine ⟨sh ++ [t], lt, ?_, by simp only [Option.toList_some, List.cons_append, List.nil_append, List.map_cons]; exact a2, by rw [← d3]; simp⟩
                  simp only [List.reverse_cons, List.map_append, List.map_cons, List.map_nil]
                  refine d1.append ?_
                  rw [a1.1, a1.2]
                  have := Der.cons (Der.tok (g := g) (f := f) t u) (.nil u)
                  simpa using this
              cases hd : done with
              | true =>
                simp only [hd, if_true] at h
                rw [← hd]
                refine (ih _ _ _ _ _ _ (by rw [hd]; exact h) ⟨x, rfl⟩ (by rw [hd]; intro h; cases h) ?_ hst hvi).imp id (fun k => k.imp id (fun k => k.imp id (fun k => k.imp id (fun _ h => ?_))))
                · intro h2
                  have := hl h2
                  rw [hla] at this
                  simpa [List.getLast?_cons_cons] using this
                · rw [hd] at h; cases h
              | false =>
                simp only [hd, Bool.false_eq_true, if_false, Res.ok.injEq, Prod.mk.injEq] at h
                obtain ⟨rfl, rfl, rfl⟩ := h
                exact ⟨hst, hvi, ⟨x, rfl⟩, .inr ⟨rfl, by simp⟩, fun _ => by simp⟩
      | reduce =>
        simp only [hk] at h
        split at h
        · cases h
        · rename_i hlen
          subst he'
          obtain ⟨ru, a1, a2, a3, a4, a5⟩ := T.reduce s.state row col hrow hk
          have hr' : s.red = false := by
            cases hr : s.red with
            | false => rfl
            | true =>
              simp only [Cfg.Good, Side.abs, hr, if_true] at hG
              obtain ⟨X, rs, e1, e2, r, hr1, hr2⟩ := hG
              simp only [hr, if_true] at hcol
              cases hs : s.stack with
              | nil => rw [hs] at e1; simp at e1
              | cons y ys =>
                rw [hs] at e1 hcol
                simp at e1 hcol
                have : X = col := by rw [← e1.1.1, hcol]
                exact absurd (hr2.trans this) (a5 r hr1)
          simp only [Cfg.Good, Side.abs, hr', Bool.false_eq_true, if_false] at hG
          obtain ⟨p1, p2, p3, p4⟩ := path_items T ru.rights.length _ _ (row col).rule ru hG a4 a1
          cases hfe : f (row col).rule ((s.stack.take (row col).nargs).reverse.map (·.data)) u with
          | mk u1 od =>
            cases od with
            | none =>
              have := hf (row col).rule ((s.stack.take (row col).nargs).reverse.map (·.data)) u
              rw [hfe] at this
              exact absurd rfl this
            | some d =>
              rw [hfe] at h
              simp only at h
              refine ih _ _ _ _ _ _ h ⟨la, hla⟩ hq hl (.tail hS ?_) ?_
              · unfold Cfg.step
                rw [hE]
                simp only [hk, Side.abs, List.length_map]
                rw [if_neg hlen, below_abs]
                simp [List.map_drop]
              · obtain ⟨sh, lt, d1, d2, d3⟩ := hV
                have hsplit : s.stack.reverse = (s.stack.drop (row col).nargs).reverse ++ (s.stack.take (row col).nargs).reverse := by
                  rw [← List.reverse_append, List.take_append_drop]
                rw [hsplit, List.map_append, List.map_append] at d1
                obtain ⟨ts1, ts2, vs1, vs2, um, e1, e2, e3, k1, k2⟩ := d1.split
                have e3' : vs1.length = (((s.stack.drop (row col).nargs).reverse).map (fun x => x.data)).length := by
                  rw [e3]; simp
                obtain ⟨e4, e5⟩ := List.append_inj e2 e3'.symm
                refine ⟨ts1 ++ ts2, lt, ?_, d2, by rw [← e1]; exact d3⟩
                simp only [List.reverse_cons, List.map_append, List.map_cons, List.map_nil]
                have hty : ((s.stack.take (row col).nargs).reverse).map (fun x => x.type) = ru.rights := by
                  have := p2
                  rw [List.take_length, ← List.map_take, List.map_map, ← List.map_reverse] at this
                  rw [a2]
                  simpa [Function.comp_def] using this
                rw [e4]
                refine k1.append ?_
                rw [hty, ← e5] at k2
                have := Der.rule a1 k2 hfe
                rw [a3]
                have := Der.cons this (.nil u1)
                simpa using this

theorem oldParse_sim {D U} {g eof tbl items} (T : TableOk g eof tbl items) {f : Nat → List (Option D) → U → U × Option (Option D)}
    (hf : ∀ i vs u, (f i vs u).2 ≠ none) (done : Bool) (input rest : List Nat) (u0 : U) (P : List (Tok D)) (n : Nat)
    (s : Side D) (q : List (Factor D)) (u : U) (s' : Side D) (q' : List (Factor D)) (u' : U)
    (h : oldParse tbl f done n s q u = .ok (s', q', u')) (hla : s.stack = [] ↔ s.la = none) (hq : q ≠ []) (hq2 : done = false → 2 ≤ q.length)
    (hl : done = true → q.getLast?.map (·.type) = some eof)
    (hS : Steps tbl (start input) (s.abs (q.map (·.type) ++ rest))) (hV : VI g f u0 P s q u) :
    Steps tbl (start input) (s'.abs (q'.map (·.type) ++ rest)) ∧ VI g f u0 P s' q' u' ∧ (∃ la, s'.la = some la) ∧
      ((s'.abs (q'.map (·.type) ++ rest)).step tbl = none ∨ (done = false ∧ s'.stack ≠ [])) ∧
      (done = false → q.length ≤ q'.length + 2) := by
  unfold oldParse at h
  cases hs : s.stack with
  | nil =>
    have hn := hla.1 hs
    cases q with
    | nil => exact absurd rfl hq
    | cons x q =>
      simp only [hs, List.isEmpty_nil, if_true, List.head?_cons, List.tail_cons] at h
      rw [← hs] at h
      have := oldRun_sim T hf done input rest u0 P n _ _ _ _ _ _ h ⟨x, rfl⟩ (fun e => by
          have := hq2 e
          intro e2; subst e2; simp at this) (fun e => by simpa using hl e)
        (by simpa [Side.abs, hn] using hS) (by simpa [VI, hn] using hV)
      refine this.imp id (fun k => k.imp id (fun k => k.imp id (fun k => k.imp id (fun k e => ?_))))
      have := k e
      simp only [List.length_cons]
      omega
  | cons y ys =>
    simp only [hs, List.isEmpty_cons, Bool.false_eq_true, if_false] at h
    have hla' : ∃ la, s.la = some la := by
      cases hh : s.la with
      | none => rw [hla.2 hh] at hs; cases hs
      | some la => exact ⟨la, rfl⟩
    obtain ⟨la, hla'⟩ := hla'
    have := oldRun_sim T hf done input rest u0 P n _ _ _ _ _ _ h ⟨la, hla'⟩ (fun _ => hq) (fun e => by
        rw [hla']
        cases q with
        | nil => exact absurd rfl hq
        | cons x q => simpa [List.getLast?_cons_cons] using hl e) hS hV
    refine this.imp id (fun k => k.imp id (fun k => k.imp id (fun k => k.imp id (fun k e => ?_))))
    have := k e
    omega

/-- A machine that accepts has the start's token alone on its stack. -/
theorem accept_stack {g eof s0 tbl items} (T : TableOk g eof tbl items) (G : GrammarOk g eof s0) {c : Cfg} (hG : c.Good g tbl) {e}
    (he : c.entry? tbl = some e) (hk : e.kind = .accept) : c.red = false ∧ c.input.head? = some eof ∧ ∃ st, c.stack = [(s0, st)] := by
  unfold Cfg.entry? at he
  obtain ⟨col, hcol, he⟩ := Option.bind_eq_some_iff.1 he
  obtain ⟨row, hrow, he⟩ := Option.map_eq_some_iff.1 he
  subst he
  obtain ⟨rfl, r, p, ru, h1, h2, h3⟩ := T.accept c.state row col hrow hk
  have hr : c.red = false := by
    cases hr : c.red with
    | false => rfl
    | true =>
      simp only [Cfg.Good, hr, if_true] at hG
      obtain ⟨X, rs, e1, e2, r, hr1, hr2⟩ := hG
      simp only [hr, if_true, e1, List.head?_cons, Option.map_some, Option.some.injEq] at hcol
      exact absurd (hr2.trans hcol) (G.eofLeft r hr1)
  simp only [hr, Bool.false_eq_true, if_false] at hcol
  refine ⟨hr, hcol, ?_⟩
  simp only [Cfg.Good, hr, Bool.false_eq_true, if_false] at hG
  have hr0 : r = 0 := G.eofOnly r ru h2 (List.mem_of_getElem? h3)
  subst hr0
  obtain ⟨st, hst, _⟩ := G.first
  rw [hst] at h2
  cases h2
  have hp : p = 1 := by
    match p, h3 with
    | 0, h3 => simp at h3; exact absurd h3 G.s0ne
    | 1, _ => rfl
    | p + 2, h3 => simp at h3
  subst hp
  obtain ⟨p1, p2, p3, p4⟩ := path_items T 1 c.stack c.state 0 _ hG h1 hst
  cases hs : c.stack with
  | nil => rw [hs] at p1; simp at p1
  | cons y ys =>
    rw [hs] at p2 p3 p4
    obtain ⟨X, s⟩ := y
    simp at p2
    subst p2
    have e := T.start _ p3
    rw [e] at p4
    cases ys with
    | nil => exact ⟨s, rfl⟩
    | cons z zs =>
      obtain ⟨⟨row', k1, k2, k3⟩, _⟩ := p4
      exact absurd rfl (T.shift _ row' _ 0 k1 k2 k3).2.1

theorem curRun_sound {D U} {g eof s0 tbl items} (T : TableOk g eof tbl items) (G : GrammarOk g eof s0) {f : Nat → List (Option D) → U → U × Option (Option D)}
    (hf : ∀ i vs u, (f i vs u).2 ≠ none) (u0 : U) (all : List (Tok D)) (n : Nat) :
    ∀ (s : Side D) (toks : List (Tok D)) (o : Side D) (q : List (Factor D)) (u : U) (d : Option D) (u' : U) (la : Factor D) (t : Tok D) (P : List (Tok D)),
      curRun tbl f n s toks o q u = .value d u' → s.la = some la → la.type = t.type → la.data = some t.data → P ++ t :: toks = all →
      Steps tbl (start (all.map (·.type))) (s.abs (toks.map (·.type))) →
      ((Steps tbl (start (all.map (·.type))) (o.abs (q.map (·.type) ++ la.type :: toks.map (·.type))) ∧ VI g f u0 P o q u ∧ (o.stack = [] ↔ o.la = none)) ∨
        ∃ c, Steps tbl (start (all.map (·.type))) c ∧ c.step tbl = none ∧ 1 + toks.length < c.input.length) →
      ∃ ts e rest, all = ts ++ e :: rest ∧ e.type = eof ∧ Der g f true [s0] ts u0 [d] u' := by
  induction n with
  | zero => intro s toks o q u d u' la t P h; simp [curRun] at h
  | succ n ih =>
    intro s toks o q u d u' la t P h hla hty hda hall hS hO
    have hE := entry_abs (tbl := tbl) hla (toks.map (·.type))
    have hG := reach_good T hS
    rw [curRun] at h
    cases he : entry? tbl s with
    | none => rw [he] at h; simp at h
    | some e =>
      rw [he] at h hE
      simp only at h
      cases hk : e.kind with
      | error => simp [hk] at h
      | shift =>
        simp only [hk] at h
        cases hi : e.index with
        | none => simp [hi] at h
        | some idx =>
          simp only [hi] at h
          by_cases hr : s.red = true
          · simp only [hr, if_true] at h
            refine ih _ _ _ _ _ _ _ la t P h hla hty hda hall (.tail hS ?_) hO
            unfold Cfg.step
            rw [hE]
            simp [hk, hi, Side.abs, hr]
          · have hr' : s.red = false := by simpa using hr
            simp only [hr', Bool.false_eq_true, if_false, hla] at h
            split at h
            · cases h
            · -- the queue has room
              cases hres : (if (q ++ [{ la with st := s.state }]).length = qlen then oldParse tbl f false n o (q ++ [{ la with st := s.state }]) u else .ok (o, q ++ [{ la with st := s.state }], u)) with
              | bad => rw [hres] at h; simp at h
              | fuel => rw [hres] at h; simp at h
              | ok r =>
                obtain ⟨o', q', u1⟩ := r
                rw [hres] at h
                simp only at h
                cases toks with
                | nil => simp at h
                | cons t' toks =>
                  simp only at h
                  refine ih _ _ _ _ _ _ _ _ t' (P ++ [t]) h rfl rfl rfl (by simpa using hall) (.tail hS ?_) ?_
                  · unfold Cfg.step
                    rw [hE]
                    simp [hk, hi, Side.abs, hr', hla]
                  · rcases hO with ⟨o1, o2, o3⟩ | ⟨c, c1, c2, c3⟩
                    · have o2' : VI g f u0 (P ++ [t]) o (q ++ [{ la with st := s.state }]) u := by
                        obtain ⟨sh, lt, d1, d2, d3⟩ := o2
                        refine ⟨sh, lt ++ [t], d1, ?_, by rw [← d3]; simp⟩
                        rw [← List.append_assoc, List.map_append, d2]
                        simp [hty, hda]
                      by_cases hfull : (q ++ [{ la with st := s.state }]).length = qlen
                      · rw [if_pos hfull] at hres
                        have hsim := oldParse_sim T hf false (all.map (·.type)) ((t' :: toks).map (·.type)) u0 (P ++ [t]) n o _ u o' q' u1 hres o3 (by simp) (by rw [hfull]; simp [qlen]) (by simp) (by simpa using o1) o2'
                        obtain ⟨s1, s2, ⟨la', s3⟩, s4, s5⟩ := hsim
                        have s5 := s5 rfl
                        rw [hfull] at s5
                        rcases s4 with s4 | ⟨_, s4⟩
                        · refine .inr ⟨_, s1, s4, ?_⟩
                          simp only [Side.abs, s3, Option.toList_some, List.map_cons, List.map_nil, List.cons_append, List.nil_append, List.length_cons, List.length_append, List.length_map]
                          simp only [qlen] at s5
                          omega
                        · refine .inl ⟨by simpa using s1, s2, ?_⟩
                          rw [s3]
                          simp [s4]
                      · rw [if_neg hfull] at hres
                        simp only [Res.ok.injEq, Prod.mk.injEq] at hres
                        obtain ⟨rfl, rfl, rfl⟩ := hres
                        exact .inl ⟨by simpa using o1, o2', o3⟩
                    · refine .inr ⟨c, c1, c2, ?_⟩
                      simp only [List.length_cons] at c3
                      omega
      | reduce =>
        simp only [hk] at h
        split at h
        · cases h
        · rename_i hlen
          refine ih _ _ _ _ _ _ _ la t P h hla hty hda hall (.tail hS ?_) hO
          unfold Cfg.step
          rw [hE]
          simp only [hk, Side.abs, List.length_map]
          rw [if_neg hlen, below_abs]
          simp [List.map_drop]
      | accept =>
        simp only [hk, hla] at h
        split at h
        · cases h
        · obtain ⟨r1, r2, st, r3⟩ := accept_stack T G hG hE hk
          have hhalt : (s.abs (toks.map (·.type))).step tbl = none := by
            unfold Cfg.step; rw [hE]; simp [hk]
          have hteof : la.type = eof := by simpa [Side.abs, hla] using r2
          rcases hO with ⟨o1, o2, o3⟩ | ⟨c, c1, c2, c3⟩
          · have o2' : VI g f u0 (P ++ [t]) o (q ++ [{ la with st := s.state }]) u := by
              obtain ⟨sh, lt, d1, d2, d3⟩ := o2
              refine ⟨sh, lt ++ [t], d1, ?_, by rw [← d3]; simp⟩
              rw [← List.append_assoc, List.map_append, d2]
              simp [hty, hda]
            cases hres : oldParse tbl f true n o (q ++ [{ la with st := s.state }]) u with
            | bad => rw [hres] at h; simp at h
            | fuel => rw [hres] at h; simp at h
            | ok r =>
              obtain ⟨o', q', u1⟩ := r
              rw [hres] at h
              simp only [Out.value.injEq] at h
              obtain ⟨hd, rfl⟩ := h
              obtain ⟨s1, s2, ⟨la', s3⟩, s4, _⟩ := oldParse_sim T hf true (all.map (·.type)) (toks.map (·.type)) u0 (P ++ [t]) n o _ u o' q' u1 hres o3 (by simp) (by simp) (by simp [hteof]) (by simpa using o1) o2'
              have s4 : (o'.abs (q'.map (·.type) ++ toks.map (·.type))).step tbl = none := by
                rcases s4 with s4 | ⟨s4, _⟩
                · exact s4
                · cases s4
              have heq := Steps.halt_unique s1 s4 hS hhalt
              have hin : (o'.abs (q'.map (·.type) ++ toks.map (·.type))).input = (s.abs (toks.map (·.type))).input := by rw [heq]
              have hstk : (o'.abs (q'.map (·.type) ++ toks.map (·.type))).stack = [(s0, st)] := by rw [heq, r3]
              have hq' : q' = [] := by
                have := congrArg List.length hin
                simp [Side.abs, s3, hla] at this
                exact this
              subst hq'
              obtain ⟨sh, lt, d1, d2, d3⟩ := s2
              rw [s3] at d2
              simp only [Side.abs] at hstk
              cases hst : o'.stack with
              | nil => rw [hst] at hstk; simp at hstk
              | cons y ys =>
                rw [hst] at hstk d1 hd
                simp only [List.map_cons, List.cons.injEq, List.map_eq_nil_iff] at hstk
                obtain ⟨hy, rfl⟩ := hstk
                simp only [Prod.mk.injEq] at hy
                simp [hy.1] at d1
                simp at hd
                subst hd
                match lt, d2, d3 with
                | [x], d2, d3 =>
                  have := List.append_inj_left' d3 rfl
                  subst this
                  exact ⟨sh, t, toks, hall.symm, hty ▸ hteof, d1.one⟩
                | x :: y :: l, d2, d3 => simp at d2
          · -- a machine that stood still earlier
            have := Steps.halt_unique c1 c2 hS hhalt
            rw [this] at c3
            simp [Side.abs, hla] at c3
            omega

/-- Whatever a parser with a good table returns is the value of the text. -/
theorem parse_sound {D U} {g eof s0 tbl items} (T : TableOk g eof tbl items) (G : GrammarOk g eof s0) {f : Nat → List (Option D) → U → U × Option (Option D)}
    (hf : ∀ i vs u, (f i vs u).2 ≠ none) {fuel : Nat} {toks : List (Tok D)} {u u' : U} {d : Option D} (h : parse tbl f fuel toks u = .value d u') :
    ∃ ts e rest, toks = ts ++ e :: rest ∧ e.type = eof ∧ Der g f true [s0] ts u [d] u' := by
  cases toks with
  | nil => simp [parse] at h
  | cons t toks =>
    simp only [parse] at h
    refine curRun_sound T G hf u (t :: toks) fuel _ _ _ _ _ _ _ _ t [] h rfl rfl rfl rfl (.refl _) (.inl ⟨.refl _, ?_, by simp⟩)
    exact ⟨[], [], .nil u, rfl, rfl⟩

end Verif.Pg
