import Verif.PgGen
/-
Theorems about the parser generator (Verif/Pg.lean).

Specification: `Der` of Verif/PgRun.lean says which texts a grammar derives and what the functions
of the productions make of them; `Derives` below is the same without any functions.
`GrammarOk` is the form of grammar the generator asks for: `start: S EOF` first.
-/
namespace Verif.Pg

/-! ### What a generated parser returns -/

/-- For every grammar of the expected form for which a table is made, every text and all functions
of the productions that do not fail: if the parser returns a value, the tokens before an EOF token
are derived by the grammar, and the value (and what is left in the user's data) is what the
functions make of them. -/
theorem parse_value {D U} {g : List Rule} {eof s0 : Nat} {addr : Option Nat → Nat} {gfuel : Nat} {tbl : Table} (G : GrammarOk g eof s0)
    (ha : ∀ a b, addr a = addr b → a = b) (hg : generate g eof addr gfuel = some (some tbl))
    {f : Nat → List (Option D) → U → U × Option (Option D)} (hf : ∀ i vs u, (f i vs u).2 ≠ none)
    {fuel : Nat} {toks : List (Tok D)} {u u' : U} {d : Option D} (h : parse tbl f fuel toks u = .value d u') :
    ∃ ts e rest, toks = ts ++ e :: rest ∧ e.type = eof ∧ Der g f true [s0] ts u [d] u' := by
  obtain ⟨items, T, _⟩ := generate_ok G ha hg
  exact parse_sound T G hf h

/-! ### The parser stays inside its table -/

theorem path_lt {tbl : Table} (h0 : 0 < tbl.length)
    (hb : ∀ (s : Nat) (row : Nat → Entry) (X idx : Nat), tbl[s]? = some row → (row X).kind = .shift → (row X).index = some idx → idx < tbl.length)
    {stk s} (h : Path tbl stk s) : s < tbl.length := by
  cases stk with
  | nil => rw [show s = 0 from h]; exact h0
  | cons x rest =>
    obtain ⟨X, st⟩ := x
    obtain ⟨⟨row, h1, h2, h3⟩, _⟩ := h
    exact hb st row X s h1 h2 h3

/-- Every shift has a state to go to. -/
def NoHole (tbl : Table) : Prop := ∀ (s : Nat) (row : Nat → Entry) (X : Nat), tbl[s]? = some row → (row X).kind = .shift → (row X).index ≠ none

/-- A machine on its way finds an entry. -/
theorem entry_some {D} {g : List Rule} {tbl : Table} (h0 : 0 < tbl.length)
    (hb : ∀ (s : Nat) (row : Nat → Entry) (X idx : Nat), tbl[s]? = some row → (row X).kind = .shift → (row X).index = some idx → idx < tbl.length)
    {s : Side D} {la} (hla : s.la = some la) (hG : (s.abs []).Good g tbl) : ∃ col row, tbl[s.state]? = some row ∧ entry? tbl s = some (row col) ∧
      (if s.red then s.stack.head?.map (·.type) else s.la.map (·.type)) = some col := by
  unfold Cfg.Good Side.abs at hG
  cases hr : s.red with
  | true =>
    simp only [hr, if_true] at hG
    obtain ⟨X, rest, e1, e2, _⟩ := hG
    have hlt := path_lt h0 hb e2
    cases hs : s.stack with
    | nil => rw [hs] at e1; simp at e1
    | cons y ys =>
      refine ⟨y.type, tbl[s.state], List.getElem?_eq_getElem hlt, ?_, by simp⟩
      simp [entry?, hr, hs, hlt]
  | false =>
    simp only [hr, Bool.false_eq_true, if_false] at hG
    have hlt := path_lt h0 hb hG
    refine ⟨la.type, tbl[s.state], List.getElem?_eq_getElem hlt, ?_, by simp [hla]⟩
    simp [entry?, hr, hla, hlt]

theorem good_rest {D} {g : List Rule} {tbl : Table} {s : Side D} {r1} (r2 : List Nat) (h : (s.abs r1).Good g tbl) : (s.abs r2).Good g tbl := h

/-- What a reduction finds and leaves. -/
theorem reduce_good {D} {g eof tbl items} (T : TableOk g eof tbl items) {s : Side D} {col row} (hrow : tbl[s.state]? = some row)
    (hcol : (if s.red then s.stack.head?.map (·.type) else s.la.map (·.type)) = some col) (hk : (row col).kind = .reduce) (hG : (s.abs []).Good g tbl) :
    s.red = false ∧ (row col).nargs ≤ s.stack.length ∧
    Path tbl ((s.stack.drop (row col).nargs).map (fun x => (x.type, x.st))) (popState (row col).nargs s) ∧ ∃ r ∈ g, r.left = (row col).left := by
  obtain ⟨ru, a1, a2, a3, a4, a5⟩ := T.reduce s.state row col hrow hk
  unfold Cfg.Good Side.abs at hG
  have hr' : s.red = false := by
    cases hr : s.red with
    | false => rfl
    | true =>
      simp only [hr, if_true] at hG
      obtain ⟨X, rs, e1, e2, r, hr1, hr2⟩ := hG
      simp only [hr, if_true] at hcol
      cases hs : s.stack with
      | nil => rw [hs] at e1; simp at e1
      | cons y ys =>
        rw [hs] at e1 hcol
        simp at e1 hcol
        have : X = col := by rw [← e1.1.1, hcol]
        exact absurd (hr2.trans this) (a5 r hr1)
  simp only [hr', Bool.false_eq_true, if_false] at hG
  obtain ⟨p1, p2, p3, p4⟩ := path_items T ru.rights.length _ _ (row col).rule ru hG a4 a1
  refine ⟨hr', by rw [a2]; simpa using p1, ?_, ru, List.mem_of_getElem? a1, a3.symm⟩
  rw [← below_abs, a2, List.map_drop]
  exact p4

theorem oldRun_safe {D U} {g eof tbl items} (T : TableOk g eof tbl items) (h0 : 0 < tbl.length)
    (hb : ∀ (s : Nat) (row : Nat → Entry) (X idx : Nat), tbl[s]? = some row → (row X).kind = .shift → (row X).index = some idx → idx < tbl.length)
    (hn : NoHole tbl) (f : Nat → List (Option D) → U → U × Option (Option D)) (done : Bool) (n : Nat) :
    ∀ (s : Side D) (q : List (Factor D)) (u : U), (∃ la, s.la = some la) → (s.abs []).Good g tbl → (done = false → q ≠ []) →
      oldRun tbl f done n s q u ≠ .bad ∧ ∀ s' q' u', oldRun tbl f done n s q u = .ok (s', q', u') → done = false → (∃ la, s'.la = some la) ∧ (s'.abs []).Good g tbl := by
  induction n with
  | zero => intro s q u _ _ _; simp [oldRun]
  | succ n ih =>
    intro s q u hla hG hq
    obtain ⟨la, hla⟩ := hla
    obtain ⟨col, row, hrow, he, hcol⟩ := entry_some h0 hb hla hG
    rw [oldRun, he]
    simp only
    cases hk : (row col).kind with
    | error =>
      simp only
      refine ⟨by simp, ?_⟩
      rintro s' q' u' ⟨⟩ _
      exact ⟨⟨la, hla⟩, hG⟩
    | accept =>
      simp only
      refine ⟨by simp, ?_⟩
      rintro s' q' u' ⟨⟩ _
      exact ⟨⟨la, hla⟩, hG⟩
    | shift =>
      simp only
      cases hi : (row col).index with
      | none => exact absurd hi (hn s.state row col hrow hk)
      | some idx =>
        simp only
        have hsh : ∃ row', tbl[s.state]? = some row' ∧ (row' col).kind = .shift ∧ (row' col).index = some idx := ⟨row, hrow, hk, hi⟩
        cases hr : s.red with
        | true =>
          simp only [if_true]
          refine ih _ _ _ ⟨la, hla⟩ ?_ hq
          simp only [Cfg.Good, Side.abs, hr, if_true] at hG
          obtain ⟨X, rest, e1, e2, _⟩ := hG
          simp only [Cfg.Good, Side.abs, Bool.false_eq_true, if_false]
          rw [e1]
          have : X = col := by
            simp only [hr, if_true] at hcol
            cases hs : s.stack with
            | nil => rw [hs] at e1; simp at e1
            | cons y ys =>
              rw [hs] at e1 hcol
              simp at e1 hcol
              rw [← e1.1.1, hcol]
          subst this
          exact ⟨hsh, e2⟩
        | false =>
          simp only [Bool.false_eq_true, if_false, hla]
          simp only [hr, Bool.false_eq_true, if_false, hla, Option.map_some, Option.some.injEq] at hcol
          simp only [Cfg.Good, Side.abs, hr, Bool.false_eq_true, if_false] at hG
          cases q with
          | nil =>
            simp only
            refine ⟨by simp, ?_⟩
            intro s' q' u' _ hd
            exact absurd rfl (hq hd)
          | cons x q =>
            simp only
            have hgood : (Side.abs { s with stack := { la with st := s.state } :: s.stack, la := some x, state := idx, red := false } []).Good g tbl := by
              simp only [Cfg.Good, Side.abs, Bool.false_eq_true, if_false, List.map_cons]
              rw [hcol]
              exact ⟨hsh, hG⟩
            split
            · rename_i hd
              refine ih _ _ _ ⟨x, rfl⟩ hgood ?_
              rw [hd]; intro h; cases h
            · refine ⟨by simp, ?_⟩
              rintro s' q' u' ⟨⟩ _
              exact ⟨⟨x, rfl⟩, hgood⟩
    | reduce =>
      simp only
      obtain ⟨r1, r2, r3, r4⟩ := reduce_good T hrow hcol hk hG
      rw [if_neg (by omega)]
      split
      · refine ⟨by simp, ?_⟩
        rintro s' q' u' ⟨⟩ _
        refine ⟨⟨la, hla⟩, ?_⟩
        simp only [Cfg.Good, Side.abs, r1, Bool.false_eq_true, if_false]
        exact r3
      · refine ih _ _ _ ⟨la, hla⟩ ?_ hq
        simp only [Cfg.Good, Side.abs, if_true]
        obtain ⟨r, hr1, hr2⟩ := r4
        exact ⟨_, _, rfl, r3, r, hr1, hr2⟩

theorem oldParse_safe {D U} {g eof tbl items} (T : TableOk g eof tbl items) (h0 : 0 < tbl.length)
    (hb : ∀ (s : Nat) (row : Nat → Entry) (X idx : Nat), tbl[s]? = some row → (row X).kind = .shift → (row X).index = some idx → idx < tbl.length)
    (hn : NoHole tbl) (f : Nat → List (Option D) → U → U × Option (Option D)) (done : Bool) (n : Nat) (s : Side D) (q : List (Factor D)) (u : U)
    (hla : s.stack ≠ [] → ∃ la, s.la = some la) (hG : (s.abs []).Good g tbl) (hq : q ≠ []) (hq2 : done = false → 2 ≤ q.length) :
    oldParse tbl f done n s q u ≠ .bad ∧ ∀ s' q' u', oldParse tbl f done n s q u = .ok (s', q', u') → done = false → (∃ la, s'.la = some la) ∧ (s'.abs []).Good g tbl := by
  unfold oldParse
  cases hs : s.stack with
  | nil =>
    cases q with
    | nil => exact absurd rfl hq
    | cons x q =>
      simp only [List.isEmpty_nil, if_true, List.head?_cons, List.tail_cons]
      refine oldRun_safe T h0 hb hn f done n _ _ _ ⟨x, rfl⟩ ?_ ?_
      · rw [← hs]; exact hG
      · intro hd e
        have := hq2 hd
        rw [e] at this
        simp at this
  | cons y ys =>
    simp only [List.isEmpty_cons, Bool.false_eq_true, if_false]
    exact oldRun_safe T h0 hb hn f done n _ _ _ (hla (by simp [hs])) hG (fun _ => hq)

theorem curRun_safe {D U} {g eof tbl items} (T : TableOk g eof tbl items) (h0 : 0 < tbl.length)
    (hb : ∀ (s : Nat) (row : Nat → Entry) (X idx : Nat), tbl[s]? = some row → (row X).kind = .shift → (row X).index = some idx → idx < tbl.length)
    (hn : NoHole tbl) (f : Nat → List (Option D) → U → U × Option (Option D)) (n : Nat) :
    ∀ (s : Side D) (toks : List (Tok D)) (o : Side D) (q : List (Factor D)) (u : U), (∃ la, s.la = some la) → (s.abs []).Good g tbl →
      (o.stack ≠ [] → ∃ la, o.la = some la) → (o.abs []).Good g tbl → curRun tbl f n s toks o q u ≠ .bad := by
  induction n with
  | zero => intro s toks o q u _ _ _ _; simp [curRun]
  | succ n ih =>
    intro s toks o q u hla hG ho hoG
    obtain ⟨la, hla⟩ := hla
    obtain ⟨col, row, hrow, he, hcol⟩ := entry_some h0 hb hla hG
    rw [curRun, he]
    simp only
    cases hk : (row col).kind with
    | error => simp
    | accept =>
      simp only [hla]
      split
      · simp
      · have := oldParse_safe T h0 hb hn f true n o (q ++ [{ la with st := s.state }]) u ho hoG (by simp) (by simp)
        split
        · rename_i hbad; exact absurd hbad this.1
        · simp
        · simp
    | shift =>
      simp only
      cases hi : (row col).index with
      | none => exact absurd hi (hn s.state row col hrow hk)
      | some idx =>
        simp only
        have hsh : ∃ row', tbl[s.state]? = some row' ∧ (row' col).kind = .shift ∧ (row' col).index = some idx := ⟨row, hrow, hk, hi⟩
        cases hr : s.red with
        | true =>
          simp only [if_true]
          refine ih _ _ _ _ _ ⟨la, hla⟩ ?_ ho hoG
          simp only [Cfg.Good, Side.abs, hr, if_true] at hG
          obtain ⟨X, rest, e1, e2, _⟩ := hG
          simp only [Cfg.Good, Side.abs, Bool.false_eq_true, if_false]
          rw [e1]
          have : X = col := by
            simp only [hr, if_true] at hcol
            cases hs : s.stack with
            | nil => rw [hs] at e1; simp at e1
            | cons y ys =>
              rw [hs] at e1 hcol
              simp at e1 hcol
              rw [← e1.1.1, hcol]
          subst this
          exact ⟨hsh, e2⟩
        | false =>
          simp only [Bool.false_eq_true, if_false, hla]
          simp only [hr, Bool.false_eq_true, if_false, hla, Option.map_some, Option.some.injEq] at hcol
          simp only [Cfg.Good, Side.abs, hr, Bool.false_eq_true, if_false] at hG
          split
          · simp
          · have key : (if (q ++ [{ la with st := s.state }]).length = qlen then oldParse tbl f false n o (q ++ [{ la with st := s.state }]) u else .ok (o, q ++ [{ la with st := s.state }], u)) ≠ .bad ∧
                ∀ o' q' u', (if (q ++ [{ la with st := s.state }]).length = qlen then oldParse tbl f false n o (q ++ [{ la with st := s.state }]) u else .ok (o, q ++ [{ la with st := s.state }], u)) = .ok (o', q', u') →
                  (o'.stack ≠ [] → ∃ la, o'.la = some la) ∧ (o'.abs []).Good g tbl := by
              split
              · rename_i hfull
                have := oldParse_safe T h0 hb hn f false n o (q ++ [{ la with st := s.state }]) u ho hoG (by simp) (by rw [hfull]; simp [qlen])
                refine ⟨this.1, fun o' q' u' h => ?_⟩
                have := this.2 o' q' u' h rfl
                exact ⟨fun _ => this.1, this.2⟩
              · refine ⟨by simp, ?_⟩
                rintro o' q' u' ⟨⟩
                exact ⟨ho, hoG⟩
            split
            · rename_i hbad; exact absurd hbad key.1
            · simp
            · rename_i o' q' u1 hok
              obtain ⟨k1, k2⟩ := key.2 o' q' u1 hok
              cases toks with
              | nil => simp
              | cons t toks =>
                simp only
                refine ih _ _ _ _ _ ⟨_, rfl⟩ ?_ k1 k2
                simp only [Cfg.Good, Side.abs, Bool.false_eq_true, if_false, List.map_cons]
                rw [hcol]
                exact ⟨hsh, hG⟩
    | reduce =>
      simp only
      obtain ⟨r1, r2, r3, r4⟩ := reduce_good T hrow hcol hk hG
      rw [if_neg (by omega)]
      refine ih _ _ _ _ _ ⟨la, hla⟩ ?_ ho hoG
      simp only [Cfg.Good, Side.abs, if_true]
      obtain ⟨r, hr1, hr2⟩ := r4
      exact ⟨_, _, rfl, r3, r, hr1, hr2⟩

/-- A parser whose table has a state for every shift neither reads outside the table, nor pops from
an empty stack (and calls abort), nor follows a null pointer, whatever the text and the functions,
even failing ones.  The property asked for is the same without the condition on the table; see
`parse_bad`. -/
theorem parse_safe_partial {D U} {g : List Rule} {eof s0 : Nat} {addr : Option Nat → Nat} {gfuel : Nat} {tbl : Table} (G : GrammarOk g eof s0)
    (ha : ∀ a b, addr a = addr b → a = b) (hg : generate g eof addr gfuel = some (some tbl)) (hn : NoHole tbl)
    (f : Nat → List (Option D) → U → U × Option (Option D)) (fuel : Nat) (toks : List (Tok D)) (u : U) : parse tbl f fuel toks u ≠ .bad := by
  obtain ⟨items, T, hb⟩ := generate_ok G ha hg
  have h0 := generate_length hg
  cases toks with
  | nil => simp [parse]
  | cons t toks =>
    simp only [parse]
    exact curRun_safe T h0 hb hn f fuel _ _ _ _ _ ⟨_, rfl⟩ (show Path tbl [] 0 from rfl) (by simp) (show Path tbl [] 0 from rfl)

/-! ### Specification: the sentences of a grammar -/

/-- `Derives g xs ws`: the tokens `xs` of the grammar derive the sequence of terminals `ws`. -/
inductive Derives (g : List Rule) : List Nat → List Nat → Prop
  | nil : Derives g [] []
  | term {t xs ws} : (∀ r ∈ g, r.left ≠ t) → Derives g xs ws → Derives g (t :: xs) (t :: ws)
  | rule {r vs xs ws} : r ∈ g → Derives g r.rights vs → Derives g xs ws → Derives g (r.left :: xs) (vs ++ ws)

theorem Derives.one {g : List Rule} {l : Nat} {rs vs : List Nat} (h : ⟨l, rs⟩ ∈ g) (d : Derives g rs vs) : Derives g [l] vs := by
  simpa using Derives.rule h d .nil

/-- The order of the productions is not part of a grammar. -/
theorem Derives.perm {g g' : List Rule} (h : ∀ r, r ∈ g ↔ r ∈ g') {xs ws} (d : Derives g xs ws) : Derives g' xs ws := by
  induction d with
  | nil => exact .nil
  | term a _ ih => exact .term (fun r hr => a r ((h r).2 hr)) ih
  | rule a _ _ ih1 ih2 => exact .rule ((h _).1 a) ih1 ih2

/-! ### Concrete grammars -/

/-- Addresses of the tokens for the examples. -/
def adr : Option Nat → Nat
  | none => 0
  | some t => t + 1

theorem adr_inj : ∀ a b, adr a = adr b → a = b
  | none, none, _ => rfl
  | none, some _, h => by simp [adr] at h
  | some _, none, h => by simp [adr] at h
  | some _, some _, h => by simp [adr] at h; rw [h]

def tableOf (g : List Rule) (fuel : Nat) : Table := ((generate g 0 adr fuel).getD none).getD []

theorem tableOf_eq {g : List Rule} {fuel : Nat} (h1 : (generate g 0 adr fuel).isSome = true) (h2 : ((generate g 0 adr fuel).getD none).isSome = true) :
    generate g 0 adr fuel = some (some (tableOf g fuel)) := by
  unfold tableOf
  cases h : generate g 0 adr fuel with
  | none => rw [h] at h1; cases h1
  | some x =>
    cases x with
    | none => rw [h] at h2; cases h2
    | some t => rfl

/-- The form of the grammar, by computation. -/
def okB (g : List Rule) (s0 : Nat) : Bool :=
  match g with
  | [] => false
  | r :: rest => r.rights == [s0, 0] && s0 != 0 && g.all (fun q => !q.rights.contains r.left && q.left != 0) && rest.all (fun q => !q.rights.contains 0)

theorem okB_ok {g : List Rule} {s0 : Nat} (h : okB g s0 = true) : GrammarOk g 0 s0 := by
  cases g with
  | nil => cases h
  | cons r rest =>
    simp only [okB, Bool.and_eq_true, beq_iff_eq, bne_iff_ne, List.all_eq_true, Bool.not_eq_true', List.contains_eq_mem, decide_eq_false_iff_not] at h
    obtain ⟨⟨⟨h1, h2⟩, h3⟩, h4⟩ := h
    refine ⟨⟨r.left, ?_, fun q hq => (h3 q hq).1⟩, ?_, fun q hq => (h3 q hq).2, h2⟩
    · rw [← h1]; rfl
    · intro i q hi hq
      cases i with
      | zero => rfl
      | succ i =>
        simp only [List.getElem?_cons_succ] at hi
        exact absurd hq (h4 q (List.mem_of_getElem? hi))

/-- The grammar of t/parser_generator.c. -/
def testG : List Rule := [⟨10, [11, 0]⟩, ⟨11, [12, 2, 11]⟩, ⟨11, []⟩, ⟨12, [1, 13]⟩, ⟨12, [5, 13]⟩, ⟨13, [3, 12]⟩, ⟨13, [4, 12]⟩, ⟨13, []⟩]

example : GrammarOk testG 0 11 := okB_ok (by decide +kernel)

theorem testG_table : generate testG 0 adr 60 = some (some (tableOf testG 60)) := tableOf_eq (by decide +kernel) (by decide +kernel)

/-- Functions that add up the data of the right side. -/
def sumF (_ : Nat) (vs : List (Option Nat)) (u : Nat) : Nat × Option (Option Nat) := (u + 1, some (some ((vs.map (·.getD 0)).sum)))

/-- a + 5 ; a + a ; EOF is accepted, and eight productions are used. -/
example : parse (tableOf testG 60) sumF 100 [⟨1, 1⟩, ⟨3, 10⟩, ⟨5, 100⟩, ⟨2, 1000⟩, ⟨1, 1⟩, ⟨3, 10⟩, ⟨1, 100⟩, ⟨2, 1000⟩, ⟨0, 0⟩] 0 = .value (some 2222) 11 := by
  decide +kernel

/-- The empty text. -/
example : parse (tableOf testG 60) sumF 100 [⟨0, 0⟩] 0 = .value (some 0) 1 := by decide +kernel

/-- The table of this grammar has a state for every shift (on the tokens of the grammar). -/
example : (tableOf testG 60).all (fun row => [0, 1, 2, 3, 4, 5, 10, 11, 12, 13].all (fun t => (row t).kind != .shift || (row t).index.isSome)) = true := by
  decide +kernel

/-! ### Shifts without a state -/

/-- Sums of products: `start: S EOF`, `S: S + T`, `S: T`, `T: T * F`, `T: F`, `F: a`. -/
def exprG : List Rule := [⟨10, [11, 0]⟩, ⟨11, [11, 3, 12]⟩, ⟨11, [12]⟩, ⟨12, [12, 4, 13]⟩, ⟨12, [13]⟩, ⟨13, [1]⟩]

theorem exprG_table : generate exprG 0 adr 60 = some (some (tableOf exprG 60)) := tableOf_eq (by decide +kernel) (by decide +kernel)

/-- The property fails without the condition: the generator makes a table for the usual grammar of
sums and products, and the parser reads outside the table (its state becomes -1) on every text that
begins with `a *`, such as the sentence `a * a`, whatever the functions. -/
theorem parse_bad : GrammarOk exprG 0 11 ∧ Derives exprG [11] [1, 4, 1] ∧ generate exprG 0 adr 60 = some (some (tableOf exprG 60)) ∧
    ∀ (D U : Type) (f : Nat → List (Option D) → U → U × Option (Option D)) (a b : D) (rest : List (Tok D)) (u : U) (n : Nat),
      parse (tableOf exprG 60) f (n + 20) (⟨1, a⟩ :: ⟨4, b⟩ :: rest) u = .bad := by
  refine ⟨okB_ok (by decide +kernel), ?_, exprG_table, ?_⟩
  · have F : Derives exprG [13] [1] := .one (l := 13) (rs := [1]) (by decide) (.term (by decide) .nil)
    have T : Derives exprG [12] [1] := .one (l := 12) (rs := [13]) (by decide) F
    have P : Derives exprG [12, 4, 13] ([1] ++ [4, 1]) := .rule (r := ⟨12, [13]⟩) (by decide) F (.term (by decide) F)
    exact .one (l := 11) (rs := [12]) (by decide) (.one (l := 12) (rs := [12, 4, 13]) (by decide) P)
  · intro D U f a b rest u n
    rfl

/-! ### Sentences that are refused -/

/-- `start: S EOF`, `S: A B C`, `A: a`, `B: b`, `B:`, `C: c`. -/
def gapG : List Rule := [⟨10, [11, 0]⟩, ⟨11, [12, 13, 14]⟩, ⟨12, [1]⟩, ⟨13, [2]⟩, ⟨13, []⟩, ⟨14, [3]⟩]

theorem gapG_table : generate gapG 0 adr 60 = some (some (tableOf gapG 60)) := tableOf_eq (by decide +kernel) (by decide +kernel)

/-- mln_pg_closure looks at one token behind the dot only: behind a token that may be empty, it adds
the lookaheads of the item and leaves out what stands further on.  So the sentence `a c` of a
grammar without any conflict is refused, with all functions, while `a b c` is accepted. -/
theorem sentence_refused : GrammarOk gapG 0 11 ∧ generate gapG 0 adr 60 = some (some (tableOf gapG 60)) ∧
    Derives gapG [11] [1, 3] ∧ Derives gapG [11] [1, 2, 3] ∧
    (∀ (D U : Type) (f : Nat → List (Option D) → U → U × Option (Option D)) (a c e : D) (rest : List (Tok D)) (u : U) (n : Nat),
      parse (tableOf gapG 60) f (n + 20) (⟨1, a⟩ :: ⟨3, c⟩ :: ⟨0, e⟩ :: rest) u = .null) ∧
    (∀ (D U : Type) (h : Nat → List (Option D) → U → U) (k : Nat → List (Option D) → U → Option D) (a b c e : D) (rest : List (Tok D)) (u : U) (n : Nat),
      ∃ d u', parse (tableOf gapG 60) (fun i vs u => (h i vs u, some (k i vs u))) (n + 30) (⟨1, a⟩ :: ⟨2, b⟩ :: ⟨3, c⟩ :: ⟨0, e⟩ :: rest) u = .value d u') := by
  refine ⟨okB_ok (by decide +kernel), gapG_table, ?_, ?_, ?_, ?_⟩
  · have C : Derives gapG [14] [3] := .one (l := 14) (rs := [3]) (by decide) (.term (by decide) .nil)
    exact .one (l := 11) (rs := [12, 13, 14]) (by decide)
      (.rule (r := ⟨12, [1]⟩) (vs := [1]) (ws := [3]) (by decide) (.term (by decide) .nil) (.rule (r := ⟨13, []⟩) (vs := []) (ws := [3]) (by decide) .nil C))
  · have C : Derives gapG [14] [3] := .one (l := 14) (rs := [3]) (by decide) (.term (by decide) .nil)
    exact .one (l := 11) (rs := [12, 13, 14]) (by decide)
      (.rule (r := ⟨12, [1]⟩) (vs := [1]) (ws := [2, 3]) (by decide) (.term (by decide) .nil)
        (.rule (r := ⟨13, [2]⟩) (vs := [2]) (ws := [3]) (by decide) (.term (by decide) .nil) C))
  · intro D U f a c e rest u n
    rfl
  · intro D U h k a b c e rest u n
    exact ⟨_, _, rfl⟩

/-! ### The order of the productions -/

/-- `start: S EOF`, `S:`, `S: S a`. -/
def emptyFirst : List Rule := [⟨10, [11, 0]⟩, ⟨11, []⟩, ⟨11, [11, 1]⟩]

/-- `start: S EOF`, `S: S a`, `S:`. -/
def emptyLast : List Rule := [⟨10, [11, 0]⟩, ⟨11, [11, 1]⟩, ⟨11, []⟩]

theorem emptyFirst_table : generate emptyFirst 0 adr 60 = some (some (tableOf emptyFirst 60)) := tableOf_eq (by decide +kernel) (by decide +kernel)

theorem emptyLast_table : generate emptyLast 0 adr 60 = some (some (tableOf emptyLast 60)) := tableOf_eq (by decide +kernel) (by decide +kernel)

/-- Two grammars with the same productions in another order: the parser of one refuses every text
that begins with `a`, the other accepts `a`.  mln_pg_calc_nullable puts a terminal into its own
FIRST set while it looks at a production, and it looks no more at the productions of a token that is
known to be nullable. -/
theorem order_matters : GrammarOk emptyFirst 0 11 ∧ GrammarOk emptyLast 0 11 ∧ (∀ r, r ∈ emptyFirst ↔ r ∈ emptyLast) ∧
    generate emptyFirst 0 adr 60 = some (some (tableOf emptyFirst 60)) ∧ generate emptyLast 0 adr 60 = some (some (tableOf emptyLast 60)) ∧
    Derives emptyFirst [11] [1] ∧
    (∀ (D U : Type) (f : Nat → List (Option D) → U → U × Option (Option D)) (a : D) (rest : List (Tok D)) (u : U) (n : Nat),
      parse (tableOf emptyFirst 60) f (n + 20) (⟨1, a⟩ :: rest) u = .null) ∧
    (∀ (D U : Type) (h : Nat → List (Option D) → U → U) (k : Nat → List (Option D) → U → Option D) (a e : D) (rest : List (Tok D)) (u : U) (n : Nat),
      ∃ d u', parse (tableOf emptyLast 60) (fun i vs u => (h i vs u, some (k i vs u))) (n + 30) (⟨1, a⟩ :: ⟨0, e⟩ :: rest) u = .value d u') := by
  refine ⟨okB_ok (by decide +kernel), okB_ok (by decide +kernel), ?_, emptyFirst_table, emptyLast_table, ?_, ?_, ?_⟩
  · intro r
    simp only [emptyFirst, emptyLast, List.mem_cons, List.not_mem_nil, or_false]
    tauto
  · exact .one (l := 11) (rs := [11, 1]) (by decide) (.rule (r := ⟨11, []⟩) (vs := []) (ws := [1]) (by decide) .nil (.term (by decide) .nil))
  · intro D U f a rest u n
    rfl
  · intro D U h k a e rest u n
    exact ⟨_, _, rfl⟩

/-! ### Functions that fail -/

/-- `start: S EOF`, `S: A B`, `A: a`, `B: b`. -/
def twoG : List Rule := [⟨10, [11, 0]⟩, ⟨11, [12, 13]⟩, ⟨12, [1]⟩, ⟨13, [2]⟩]

theorem twoG_table : generate twoG 0 adr 60 = some (some (tableOf twoG 60)) := tableOf_eq (by decide +kernel) (by decide +kernel)

/-- pg_parse does not look at what the machine calling the functions returns when the text has been
read: when the function of `B` fails, the parser does not return NULL but the data that the function
of `A` made, and the function of `S` is not called. -/
theorem failure_hidden : GrammarOk twoG 0 11 ∧ generate twoG 0 adr 60 = some (some (tableOf twoG 60)) ∧
    ∀ (D U : Type) (k : List (Option D) → U → Option D) (a b e : D) (rest : List (Tok D)) (u : U) (n : Nat),
      parse (tableOf twoG 60) (fun i vs u => (u, if i = 3 then none else some (k vs u))) (n + 30) (⟨1, a⟩ :: ⟨2, b⟩ :: ⟨0, e⟩ :: rest) u
        = .value (k [some a] u) u := by
  refine ⟨okB_ok (by decide +kernel), twoG_table, ?_⟩
  intro D U k a b e rest u n
  rfl

/-! ### States made twice -/

/-- `start: S EOF`, `S: a a a a a S`, `S: b`. -/
def longG : List Rule := [⟨10, [11, 0]⟩, ⟨11, [1, 1, 1, 1, 1, 11]⟩, ⟨11, [2]⟩]

def statesOf (g : List Rule) (fuel : Nat) : Option (List State) :=
  (calcNullable g fuel).bind fun w => (calcFirst g fuel w).bind fun w => calcGoto g w adr fuel

/-- mln_pg_calc_info_cmp is not an order: of two different states with as many items and the same
input, each is greater than the other, whatever the addresses. -/
theorem cmp_both_greater (addr : Option Nat → Nat) (t : Option Nat) {xs ys : List (Nat × Nat)} (hl : xs.length = ys.length)
    (h1 : ∃ x ∈ xs, x ∉ ys) (h2 : ∃ y ∈ ys, y ∉ xs) : cmp addr ⟨t, xs⟩ ⟨t, ys⟩ = 1 ∧ cmp addr ⟨t, ys⟩ ⟨t, xs⟩ = 1 := by
  have aux : ∀ {xs ys : List (Nat × Nat)}, xs.length = ys.length → (∃ x ∈ xs, x ∉ ys) → cmp addr ⟨t, xs⟩ ⟨t, ys⟩ = 1 := by
    intro xs ys hl ⟨x, hx, hxy⟩
    have : (xs.filter (fun x => ys.contains x)).length < xs.length := by
      rw [List.length_filter_lt_length_iff_exists]
      exact ⟨x, hx, by simpa using hxy⟩
    simp [cmp, hl]
    simp [hl] at this
    omega
  exact ⟨aux hl h1, aux hl.symm h2⟩

/-- The tree is therefore out of order after a rotation, and a state that is there is not found: of
the states made for `S: a a a a a S`, two have the same input and the same items. -/
theorem state_twice : ∃ (ss : List State) (i j : Nat) (a b : State), statesOf longG 60 = some ss ∧ i < j ∧ ss[i]? = some a ∧ ss[j]? = some b ∧ a.key = b.key := by
  have h : ∃ p ∈ ((List.range 12).flatMap fun j => (List.range j).map fun i => (i, j)),
      (statesOf longG 60).any (fun ss => match ss[p.1]?, ss[p.2]? with | some a, some b => decide (p.1 < p.2 ∧ a.key = b.key) | _, _ => false) = true := by
    decide +kernel
  obtain ⟨⟨i, j⟩, _, h⟩ := h
  cases hs : statesOf longG 60 with
  | none => rw [hs] at h; cases h
  | some ss =>
    rw [hs] at h
    simp only [Option.any_some] at h
    split at h
    · rename_i a b ha hb
      have h := of_decide_eq_true h
      exact ⟨ss, i, j, a, b, rfl, h.1, ha, hb, h.2⟩
    · cases h

end Verif.Pg
