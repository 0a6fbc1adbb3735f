import Verif.LangExp
import Verif.LangGramProps
/-!
# How expressions of scripts are read
-/
namespace Verif.LangExp
open Verif.Pg Verif.LangGram

/-! ## Specification

The levels of the operators, from loose to tight, and expressions written with brackets only where
these levels ask for them. -/

/-- `||`: 2, `&&`: 3, `| & ^`: 4, `== !=`: 5, `< <= > >=`: 6, `<< >>`: 7, `+ -`: 8, `* / %`: 9. -/
def opLv (o : Nat) : Nat :=
  if o = 34 then 2 else if o = 35 then 3 else if o ≤ 38 then 4 else if o ≤ 40 then 5 else if o ≤ 44 then 6 else if o ≤ 46 then 7 else if o ≤ 48 then 8 else 9

def lv : Ex → Nat
  | .nil | .one _ | .cons _ _ | .elEnd | .el _ _ | .elk _ _ _ => 0
  | .asg _ _ _ => 1
  | .bin o _ _ => opLv o
  | .not _ => 10
  | .suf _ _ => 11
  | .index _ _ | .prop _ _ | .call _ _ => 12
  | .pre _ _ | .par _ | .fresh _ | .atom _ _ | .arr _ => 13

/-- Elements of an array. -/
def isEl : Ex → Bool
  | .elEnd | .el _ _ | .elk _ _ _ => true
  | _ => false

/-- A list of expressions. -/
abbrev IsList (e : Ex) : Prop := lv e = 0 ∧ isEl e = false

/-- An expression that can be written as it is: operators on the left of an operator of the same
level, tighter ones on its right; assignments the other way round. -/
def Ok : Ex → Prop
  | .atom ty _ => ty = 1 ∨ (59 ≤ ty ∧ ty ≤ 66)
  | .fresh _ => True
  | .par l => Ok l ∧ IsList l
  | .pre o e => o ∈ [48, 58, 37, 53, 54] ∧ Ok e ∧ 13 ≤ lv e
  | .index e l => Ok e ∧ 12 ≤ lv e ∧ Ok l ∧ IsList l
  | .prop e _ => Ok e ∧ 12 ≤ lv e
  | .call e l => Ok e ∧ 12 ≤ lv e ∧ Ok l ∧ IsList l
  | .suf o e => (o = 53 ∨ o = 54) ∧ Ok e ∧ 12 ≤ lv e
  | .not e => Ok e ∧ 10 ≤ lv e
  | .bin o l r => (34 ≤ o ∧ o ≤ 51) ∧ Ok l ∧ opLv o ≤ lv l ∧ Ok r ∧ opLv o < lv r
  | .asg o l r => (23 ≤ o ∧ o ≤ 33) ∧ Ok l ∧ 2 ≤ lv l ∧ Ok r ∧ 1 ≤ lv r
  | .nil => True
  | .one e => Ok e ∧ 1 ≤ lv e
  | .cons e l => Ok e ∧ 1 ≤ lv e ∧ Ok l ∧ IsList l ∧ l ≠ .nil
  | .arr l => Ok l ∧ isEl l = true
  | .elEnd => True
  | .el v l => Ok v ∧ 1 ≤ lv v ∧ Ok l ∧ isEl l = true
  | .elk k v l => Ok k ∧ 1 ≤ lv k ∧ Ok v ∧ 1 ≤ lv v ∧ Ok l ∧ isEl l = true

/-- A token that is only a sign. -/
def sign (ty : Nat) : Tok V := ⟨ty, .tok 0⟩

/-- An identifier. -/
def name (n : Nat) : Tok V := ⟨1, .tok n⟩

/-- What is written in the script. -/
def toks : Ex → List (Tok V)
  | .atom ty n => [⟨ty, .tok n⟩]
  | .fresh n => [sign 12, name n]
  | .par l => sign 6 :: (toks l ++ [sign 7])
  | .pre o e => sign o :: toks e
  | .index e l => toks e ++ sign 55 :: (toks l ++ [sign 56])
  | .prop e n => toks e ++ [sign 57, name n]
  | .call e l => toks e ++ sign 6 :: (toks l ++ [sign 7])
  | .suf o e => toks e ++ [sign o]
  | .not e => sign 52 :: toks e
  | .bin o l r => toks l ++ sign o :: toks r
  | .asg o l r => toks l ++ sign o :: toks r
  | .nil => []
  | .one e => toks e
  | .cons e l => toks e ++ sign 22 :: toks l
  | .arr l => sign 55 :: (toks l ++ [sign 56])
  | .elEnd => []
  | .el v l => toks v ++ (if l = .elEnd then [] else sign 22 :: toks l)
  | .elk k v l => toks k ++ (sign 4 :: toks v ++ (if l = .elEnd then [] else sign 22 :: toks l))

/-- What the parser has for a list of expressions: nothing for the empty one. -/
def listVal (l : Ex) : Option V := if l = .nil then none else some (.ex l)

/-- What it has for elements of an array. -/
def elemVal (l : Ex) : Option V := if l = .elEnd then none else some (.ex l)

/-! ## Derivations -/

abbrev Rd (x : Nat) (ts : List (Tok V)) (v : Option V) : Prop := Der grammar act true [x] ts () [v] ()

theorem rd_tok (t : Tok V) : Rd t.type [t] (some t.data) := .tok t ()

theorem rd_sign (ty : Nat) : Rd ty [sign ty] (some (.tok 0)) := .tok (sign ty) ()

theorem rd_rule (i : Nat) {x : Nat} {xs : List Nat} {a : Act} {ts : List (Tok V)} {vs : List (Option V)} {v : Option V} (hi : grammar[i]? = some ⟨x, xs⟩) (ha : acts[i]? = some a)
    (d : Der grammar act false xs ts () vs ()) (hv : a.run vs = v) : Rd x ts v := by
  have : act i vs () = ((), some v) := by
    simp only [act, List.getD_eq_getElem?_getD, ha, Option.getD_some, hv]
  exact Der.rule (r := ⟨x, xs⟩) hi d this

theorem seq0 : Der grammar act false [] [] () [] () := .nil ()
theorem seq1 {x : Nat} {ts : List (Tok V)} {v : Option V} (d : Rd x ts v) : Der grammar act false [x] ts () [v] () := by
  simpa using Der.cons d seq0
theorem seq2 {x y : Nat} {ts us : List (Tok V)} {v w : Option V} (d : Rd x ts v) (e : Rd y us w) : Der grammar act false [x, y] (ts ++ us) () [v, w] () :=
  Der.cons d (seq1 e)
theorem seq3 {x y z : Nat} {ts us ws : List (Tok V)} {v w s : Option V} (d : Rd x ts v) (e : Rd y us w) (f : Rd z ws s) :
    Der grammar act false [x, y, z] (ts ++ (us ++ ws)) () [v, w, s] () := Der.cons d (seq2 e f)
theorem seq4 {x y z q : Nat} {ts us ws ys : List (Tok V)} {v w s r : Option V} (d : Rd x ts v) (e : Rd y us w) (f : Rd z ws s) (g : Rd q ys r) :
    Der grammar act false [x, y, z, q] (ts ++ (us ++ (ws ++ ys))) () [v, w, s, r] () := Der.cons d (seq3 e f g)

/-- What the chain of a level is followed by. -/
def tailVal : List (Nat × Ex) → Option V
  | [] => none
  | (o, h) :: t => some (.more o h t)

def stepsVal : List Step → Option V
  | [] => none
  | l => some (.steps l)

theorem stepsOf_val (l : List Step) : stepsOf (stepsVal l) = l := by cases l <;> rfl

theorem listOf_val (l : Ex) : listOf (listVal l) = l := by
  simp only [listVal]
  split
  · rename_i h; rw [h]; rfl
  · rfl

/-- The operands of an expression at the level `k` (2 and 3 are one level of the grammar). -/
def chainOf (k : Nat) : Ex → Ex × List (Nat × Ex)
  | .bin o l r =>
    if opLv o ≤ k then ((chainOf k l).1, (chainOf k l).2 ++ (o, (chainOf k r).1) :: (chainOf k r).2) else (.bin o l r, [])
  | e => (e, [])

theorem chain_tight {k : Nat} {e : Ex} (h : k < lv e) : chainOf k e = (e, []) := by
  cases e <;> simp only [chainOf]
  rw [if_neg]
  simp only [lv] at h
  omega

theorem opLv_range (o : Nat) : 2 ≤ opLv o ∧ opLv o ≤ 9 := by
  simp only [opLv]
  split
  · omega
  · split
    · omega
    · split
      · omega
      · split
        · omega
        · split
          · omega
          · split
            · omega
            · split <;> omega

theorem op_two {o : Nat} (h : opLv o = 2) : o = 34 := by
  simp only [opLv] at h
  split at h
  · assumption
  · split at h
    · omega
    · split at h
      · omega
      · split at h
        · omega
        · split at h
          · omega
          · split at h
            · omega
            · split at h <;> omega

theorem op_three {o : Nat} (h : opLv o = 3) : o = 35 := by
  simp only [opLv] at h
  split at h
  · omega
  · split at h
    · assumption
    · split at h
      · omega
      · split at h
        · omega
        · split at h
          · omega
          · split at h
            · omega
            · split at h <;> omega

theorem foldBin_append (h : Ex) (s : List (Nat × Ex)) (o : Nat) (e : Ex) : foldBin h (s ++ [(o, e)]) = .bin o (foldBin h s) e := by
  simp [foldBin]

theorem fold_chain {k : Nat} : ∀ {e : Ex}, Ok e → k ≤ lv e → foldBin (chainOf k e).1 (chainOf k e).2 = e
  | .bin o l r, hok, hk => by
    simp only [lv] at hk
    obtain ⟨_, hl, hll, hr, hlr⟩ := hok
    simp only [chainOf]
    split
    · rename_i h
      have he : opLv o = k := by omega
      rw [chain_tight (e := r) (by omega)]
      dsimp only
      rw [foldBin_append, fold_chain hl (by omega)]
    · rfl
  | .atom _ _, _, _ => rfl
  | .fresh _, _, _ => rfl
  | .par _, _, _ => rfl
  | .pre _ _, _, _ => rfl
  | .index _ _, _, _ => rfl
  | .prop _ _, _, _ => rfl
  | .call _ _, _, _ => rfl
  | .suf _ _, _, _ => rfl
  | .not _, _, _ => rfl
  | .asg _ _ _, _, _ => rfl
  | .nil, _, _ => rfl
  | .one _, _, _ => rfl
  | .cons _ _, _, _ => rfl
  | .arr _, _, _ => rfl
  | .elEnd, _, _ => rfl
  | .el _ _, _, _ => rfl
  | .elk _ _ _, _, _ => rfl

def join (b : Option Ex) (e : Ex) : Ex :=
  match b with
  | none => e
  | some a => .bin 34 a e

/-- Tight operands: folding what belongs to `e` gives `e` where the last operand was. -/
theorem logic_and : ∀ {e : Ex} (b : Option Ex) (r : List (Nat × Ex)), Ok e → 3 ≤ lv e →
    foldLogic b (chainOf 3 e).1 ((chainOf 3 e).2 ++ r) = foldLogic b e r
  | .bin o l q, b, r, hok, hk => by
    simp only [lv] at hk
    obtain ⟨hr, hl, hll, hq, hlq⟩ := hok
    simp only [chainOf]
    split
    · rename_i h
      have ho : o = 35 := op_three (by omega)
      rw [chain_tight (e := q) (by omega)]
      dsimp only
      rw [List.append_assoc, logic_and b _ hl (by omega)]
      subst ho
      simp [foldLogic, opAnd]
    · rfl
  | .atom _ _, _, _, _, _ => rfl
  | .fresh _, _, _, _, _ => rfl
  | .par _, _, _, _, _ => rfl
  | .pre _ _, _, _, _, _ => rfl
  | .index _ _, _, _, _, _ => rfl
  | .prop _ _, _, _, _, _ => rfl
  | .call _ _, _, _, _, _ => rfl
  | .suf _ _, _, _, _, _ => rfl
  | .not _, _, _, _, _ => rfl
  | .asg _ _ _, _, _, _, _ => rfl
  | .nil, _, _, _, _ => rfl
  | .one _, _, _, _, _ => rfl
  | .cons _ _, _, _, _, _ => rfl
  | .arr _, _, _, _, _ => rfl

/-- An expression of `||` and `&&`, its last group taken off: what stands before the group, the
group. -/
theorem logic_or : ∀ {e : Ex} (r : List (Nat × Ex)), Ok e → 2 ≤ lv e →
    ∃ b a, join b a = e ∧ foldLogic none (chainOf 3 e).1 ((chainOf 3 e).2 ++ r) = foldLogic b a r
  | .bin o l q, r, hok, hk => by
    by_cases h2 : opLv o = 2
    · have ho : o = 34 := op_two h2
      obtain ⟨hr, hl, hll, hq, hlq⟩ := hok
      obtain ⟨b, a, hj, he⟩ := logic_or ((o, (chainOf 3 q).1) :: ((chainOf 3 q).2 ++ r)) hl (by omega)
      refine ⟨some l, q, by rw [ho]; rfl, ?_⟩
      have hc : chainOf 3 (.bin o l q) = ((chainOf 3 l).1, (chainOf 3 l).2 ++ (o, (chainOf 3 q).1) :: (chainOf 3 q).2) := by
        simp only [chainOf]; rw [if_pos (by omega)]
      rw [hc]
      dsimp only
      rw [List.append_assoc, List.cons_append, he]
      have hs : foldLogic b a ((o, (chainOf 3 q).1) :: ((chainOf 3 q).2 ++ r)) = foldLogic (some (join b a)) (chainOf 3 q).1 ((chainOf 3 q).2 ++ r) := by
        rw [ho]; cases b <;> rfl
      rw [hs, hj]
      exact logic_and _ _ hq (by omega)
    · have := opLv_range o
      refine ⟨none, .bin o l q, rfl, ?_⟩
      exact logic_and none r hok (by simp only [lv]; omega)
  | .atom _ _, _, _, _ => ⟨none, _, rfl, rfl⟩
  | .fresh _, _, _, _ => ⟨none, _, rfl, rfl⟩
  | .par _, _, _, _ => ⟨none, _, rfl, rfl⟩
  | .pre _ _, _, _, _ => ⟨none, _, rfl, rfl⟩
  | .index _ _, _, _, _ => ⟨none, _, rfl, rfl⟩
  | .prop _ _, _, _, _ => ⟨none, _, rfl, rfl⟩
  | .call _ _, _, _, _ => ⟨none, _, rfl, rfl⟩
  | .suf _ _, _, _, _ => ⟨none, _, rfl, rfl⟩
  | .not _, _, _, _ => ⟨none, _, rfl, rfl⟩
  | .asg _ _ _, _, _, _ => ⟨none, _, rfl, rfl⟩
  | .nil, _, _, _ => ⟨none, _, rfl, rfl⟩
  | .one _, _, _, _ => ⟨none, _, rfl, rfl⟩
  | .cons _ _, _, _, _ => ⟨none, _, rfl, rfl⟩
  | .arr _, _, _, _ => ⟨none, _, rfl, rfl⟩

theorem fold_logic {e : Ex} (h : Ok e) (h2 : 2 ≤ lv e) : foldLogic none (chainOf 3 e).1 (chainOf 3 e).2 = e := by
  obtain ⟨b, a, hj, he⟩ := logic_or [] h h2
  rw [List.append_nil] at he
  rw [he, ← hj]
  cases b <;> rfl

/-! ### The levels -/

/-- What is to be shown of an expression at the level `k`. -/
def B (k : Nat) (e : Ex) : Prop :=
  if k = 13 then Rd 132 (toks e) (some (.ex e))
  else if k = 12 then ∀ us st, Rd 131 us (stepsVal st) → Rd 130 (toks e ++ us) (some (.ex (st.foldl follow e)))
  else if k = 11 then Rd 128 (toks e) (some (.ex e))
  else if k = 10 then Rd 127 (toks e) (some (.ex e))
  else if 4 ≤ k then ∀ us tl, Rd (108 + 2 * k) us (tailVal tl) → Rd (107 + 2 * k) (toks e ++ us) (some (.chain (chainOf k e).1 ((chainOf k e).2 ++ tl)))
  else if 2 ≤ k then ∀ us tl, Rd 114 us (tailVal tl) → Rd 113 (toks e ++ us) (some (.chain (chainOf 3 e).1 ((chainOf 3 e).2 ++ tl)))
  else Rd 111 (toks e) (some (.ex e))

/-- The productions of the levels 4 to 9: `left: next more`, and `more:` . -/
def mainRule (k : Nat) : Nat := [49, 54, 58, 64, 68, 72].getD (k - 4) 0
def endRule (k : Nat) : Nat := [53, 57, 63, 67, 71, 76].getD (k - 4) 0

theorem main_rule : ∀ k, 4 ≤ k → k ≤ 9 → grammar[mainRule k]? = some ⟨107 + 2 * k, [109 + 2 * k, 108 + 2 * k]⟩ ∧ acts[mainRule k]? = some .bin ∧
    grammar[endRule k]? = some ⟨108 + 2 * k, []⟩ ∧ acts[endRule k]? = some .null := by
  have : ∀ k ∈ [4, 5, 6, 7, 8, 9], grammar[mainRule k]? = some ⟨107 + 2 * k, [109 + 2 * k, 108 + 2 * k]⟩ ∧ acts[mainRule k]? = some .bin ∧
    grammar[endRule k]? = some ⟨108 + 2 * k, []⟩ ∧ acts[endRule k]? = some .null := by decide +kernel
  intro k h1 h2
  apply this k
  simp only [List.mem_cons, List.not_mem_nil, or_false]
  omega

/-- The production of an operator between two operands. -/
def opRule (o : Nat) : Nat := [46, 47, 50, 51, 52, 55, 56, 59, 60, 61, 62, 65, 66, 69, 70, 73, 74, 75].getD (o - 34) 0

theorem op_rule : ∀ o, 36 ≤ o → o ≤ 51 → grammar[opRule o]? = some ⟨108 + 2 * opLv o, [o, 107 + 2 * opLv o]⟩ ∧ acts[opRule o]? = some (.binTail o) ∧ 4 ≤ opLv o := by
  have : ∀ o ∈ List.range 52, 36 ≤ o → grammar[opRule o]? = some ⟨108 + 2 * opLv o, [o, 107 + 2 * opLv o]⟩ ∧ acts[opRule o]? = some (.binTail o) ∧ 4 ≤ opLv o := by decide +kernel
  intro o h1 h2
  exact this o (List.mem_range.2 (by omega)) h1

theorem asg_rule : ∀ o, 23 ≤ o → o ≤ 33 → grammar[o + 10]? = some ⟨112, [o, 111]⟩ ∧ acts[o + 10]? = some (.asgTail o) := by
  have : ∀ o ∈ List.range 34, 23 ≤ o → grammar[o + 10]? = some ⟨112, [o, 111]⟩ ∧ acts[o + 10]? = some (.asgTail o) := by decide +kernel
  intro o h1 h2
  exact this o (List.mem_range.2 (by omega)) h1

theorem end_tail {k : Nat} (h1 : 4 ≤ k) (h2 : k ≤ 9) : Rd (108 + 2 * k) [] (tailVal []) :=
  rd_rule (endRule k) (main_rule k h1 h2).2.2.1 (main_rule k h1 h2).2.2.2 seq0 rfl

theorem end_logic : Rd 114 [] (tailVal []) := rd_rule 48 rfl rfl seq0 rfl

theorem end_steps : Rd 131 [] (stepsVal []) := rd_rule 87 rfl rfl seq0 rfl

/-- A tighter expression is one operand of the level. -/
theorem bin_run {v : Option V} {tl : List (Nat × Ex)} : Act.bin.run [v, tailVal tl] = some (.chain (operand v) tl) := by
  cases tl with
  | nil => rfl
  | cons x r => rfl

theorem down {e : Ex} (hok : Ok e) {k : Nat} (h1 : 1 ≤ k) (hk : k < lv e) (hb : B (k + 1) e) : B k e := by
  have hlv : lv e ≤ 13 := by
    cases e <;> simp only [lv] <;> try omega
    rename_i o _ _
    have := opLv_range o
    omega
  by_cases h12 : k = 12
  · subst h12
    simp only [B, Nat.reduceAdd, Nat.reduceEqDiff, if_true, if_false] at hb ⊢
    intro us st hs
    refine rd_rule 83 rfl rfl (seq2 hb hs) ?_
    simp only [Act.run, stepsOf_val]
  by_cases h11 : k = 11
  · subst h11
    simp only [B, Nat.reduceAdd, Nat.reduceEqDiff, if_true, if_false] at hb ⊢
    have h0 := hb [] [] end_steps
    rw [List.append_nil] at h0
    have := seq2 h0 (rd_rule 82 (x := 129) rfl rfl seq0 rfl)
    rw [List.append_nil] at this
    exact rd_rule 79 rfl rfl this rfl
  by_cases h10 : k = 10
  · subst h10
    simp only [B, Nat.reduceAdd, Nat.reduceEqDiff, if_true, if_false] at hb ⊢
    exact rd_rule 78 rfl rfl (seq1 hb) rfl
  by_cases h9 : k = 9
  · subst h9
    simp only [B, Nat.reduceAdd, Nat.reduceEqDiff, Nat.reduceLeDiff, if_true, if_false] at hb ⊢
    intro us tl ht
    rw [chain_tight hk]
    exact rd_rule 72 rfl rfl (seq2 hb ht) bin_run
  by_cases h4 : 4 ≤ k
  · have hb : ∀ us tl, Rd (108 + 2 * (k + 1)) us (tailVal tl) → Rd (107 + 2 * (k + 1)) (toks e ++ us) (some (.chain (chainOf (k + 1) e).1 ((chainOf (k + 1) e).2 ++ tl))) := by
      simp only [B] at hb
      rw [if_neg (by omega), if_neg (by omega), if_neg (by omega), if_neg (by omega), if_pos (by omega)] at hb
      exact hb
    simp only [B]
    rw [if_neg (by omega), if_neg (by omega), if_neg (by omega), if_neg (by omega), if_pos (by omega)]
    intro us tl ht
    have h0 := hb [] [] (end_tail (by omega) (by omega))
    rw [List.append_nil, List.append_nil] at h0
    have hm := main_rule k h4 (by omega)
    have e1 : 107 + 2 * (k + 1) = 109 + 2 * k := by omega
    rw [e1] at h0
    rw [chain_tight hk]
    refine rd_rule (mainRule k) hm.1 hm.2.1 (seq2 h0 ht) ?_
    rw [bin_run]
    simp only [operand, fold_chain hok (show k + 1 ≤ lv e by omega)]
    rfl
  by_cases h3 : k = 3
  · subst h3
    simp only [B, Nat.reduceAdd, Nat.reduceEqDiff, Nat.reduceLeDiff, Nat.reduceMul, if_true, if_false] at hb ⊢
    intro us tl ht
    have h0 := hb [] [] (end_tail (k := 4) (by omega) (by omega))
    rw [List.append_nil, List.append_nil] at h0
    rw [chain_tight hk]
    refine rd_rule 45 rfl rfl (seq2 h0 ht) ?_
    rw [bin_run]
    simp only [operand, fold_chain hok (show 4 ≤ lv e by omega)]
    rfl
  by_cases h2 : k = 2
  · subst h2
    simp only [B, Nat.reduceAdd, Nat.reduceEqDiff, Nat.reduceLeDiff, if_true, if_false] at hb ⊢
    exact hb
  · have : k = 1 := by omega
    subst this
    simp only [B, Nat.reduceAdd, Nat.reduceEqDiff, Nat.reduceLeDiff, if_true, if_false] at hb ⊢
    have h0 := hb [] [] end_logic
    rw [List.append_nil, List.append_nil] at h0
    have := seq2 h0 (rd_rule 44 (x := 112) rfl rfl seq0 rfl)
    rw [List.append_nil] at this
    refine rd_rule 32 rfl rfl this ?_
    show some (V.ex (foldLogic none (chainOf 3 e).1 (chainOf 3 e).2)) = _
    rw [fold_logic hok (by omega)]

theorem downs {e : Ex} (hok : Ok e) (hb : B (lv e) e) : ∀ (d k : Nat), k + d = lv e → 1 ≤ k → B k e
  | 0, k, h, _ => by have : k = lv e := by omega
                     rw [this]; exact hb
  | d + 1, k, h, h1 => down hok h1 (by omega) (downs hok hb d (k + 1) (by omega) (by omega))

/-- Every level up to that of the expression; for lists, the list. -/
def Good (e : Ex) : Prop :=
  (∀ k, 1 ≤ k → k ≤ lv e → B k e) ∧ (IsList e → Rd 109 (toks e) (listVal e)) ∧ (isEl e = true → Rd 134 (toks e) (elemVal e))

theorem good_of {e : Ex} (hok : Ok e) (h1 : 1 ≤ lv e) (hb : B (lv e) e) : Good e :=
  ⟨fun k hk hl => downs hok hb (lv e - k) k (by omega) hk, fun h => by have := h.1; omega, fun h => by cases e <;> simp [isEl, lv] at h h1⟩

theorem elemsOf_val (l : Ex) : elemsOf (elemVal l) = l := by
  simp only [elemVal]
  split
  · rename_i h; rw [h]; rfl
  · rfl

theorem next_elems {l : Ex} (h : Rd 134 (toks l) (elemVal l)) : Rd 136 (if l = .elEnd then [] else sign 22 :: toks l) (elemVal l) := by
  by_cases he : l = .elEnd
  · rw [if_pos he, he]; exact rd_rule 111 rfl rfl seq0 rfl
  · rw [if_neg he]; exact rd_rule 110 rfl rfl (seq2 (rd_sign 22) h) rfl

/-- The main induction. -/
theorem good : ∀ e, Ok e → Good e
  | .atom ty n, h => by
    refine good_of h (by simp only [lv]; omega) ?_
    show Rd 132 [⟨ty, .tok n⟩] (some (.ex (.atom ty n)))
    have h0 : ∃ i : Nat, grammar[i]? = some (⟨133, [ty]⟩ : Rule) ∧ acts[i]? = some (Act.factor ty) := by
      have h : ty = 1 ∨ (59 ≤ ty ∧ ty ≤ 66) := h
      have : ty = 1 ∨ ty = 59 ∨ ty = 60 ∨ ty = 61 ∨ ty = 62 ∨ ty = 63 ∨ ty = 64 ∨ ty = 65 ∨ ty = 66 := by omega
      rcases this with e | e | e | e | e | e | e | e | e <;> subst e
      · exact ⟨99, rfl, rfl⟩
      · exact ⟨96, rfl, rfl⟩
      · exact ⟨97, rfl, rfl⟩
      · exact ⟨98, rfl, rfl⟩
      · exact ⟨100, rfl, rfl⟩
      · exact ⟨101, rfl, rfl⟩
      · exact ⟨102, rfl, rfl⟩
      · exact ⟨103, rfl, rfl⟩
      · exact ⟨104, rfl, rfl⟩
    obtain ⟨i, h1, h2⟩ := h0
    exact rd_rule 95 rfl rfl (seq1 (rd_rule i h1 h2 (seq1 (rd_tok ⟨ty, .tok n⟩)) rfl)) rfl
  | .fresh n, h => by
    refine good_of h (by simp only [lv]; omega) ?_
    show Rd 132 ([sign 12] ++ [name n]) (some (.ex (.fresh n)))
    exact rd_rule 93 rfl rfl (seq2 (rd_sign 12) (rd_tok (name n))) rfl
  | .par l, h => by
    refine good_of h (by simp only [lv]; omega) ?_
    have hl := (good l h.1).2.1 h.2
    show Rd 132 ([sign 6] ++ (toks l ++ [sign 7])) (some (.ex (.par l)))
    refine rd_rule 94 rfl rfl (seq3 (rd_sign 6) hl (rd_sign 7)) ?_
    simp only [Act.run, listOf_val]
  | .pre o e, h => by
    refine good_of h (by simp only [lv]; omega) ?_
    obtain ⟨ho, he, hle⟩ := h
    have hb := (good e he).1 13 (by decide) hle
    simp only [B, if_true] at hb
    show Rd 132 ([sign o] ++ toks e) (some (.ex (.pre o e)))
    have h0 : ∃ i : Nat, grammar[i]? = some (⟨132, [o, 132]⟩ : Rule) ∧ acts[i]? = some (Act.pre o) := by
      simp only [List.mem_cons, List.not_mem_nil, or_false] at ho
      rcases ho with x | x | x | x | x <;> subst x
      · exact ⟨88, rfl, rfl⟩
      · exact ⟨89, rfl, rfl⟩
      · exact ⟨90, rfl, rfl⟩
      · exact ⟨91, rfl, rfl⟩
      · exact ⟨92, rfl, rfl⟩
    obtain ⟨i, h1, h2⟩ := h0
    exact rd_rule i h1 h2 (seq2 (rd_sign o) hb) rfl
  | .index e l, h => by
    refine good_of h (by simp only [lv]; omega) ?_
    obtain ⟨he, hle, hl, hll⟩ := h
    have hb := (good e he).1 12 (by decide) hle
    have hl := (good l hl).2.1 hll
    simp only [B, Nat.reduceEqDiff, if_true, if_false] at hb
    show ∀ us st, Rd 131 us (stepsVal st) → Rd 130 ((toks e ++ sign 55 :: (toks l ++ [sign 56])) ++ us) (some (.ex (st.foldl follow (.index e l))))
    intro us st hs
    have h0 : Rd 131 ([sign 55] ++ (toks l ++ ([sign 56] ++ us))) (stepsVal (.index l :: st)) := by
      refine rd_rule 84 rfl rfl (seq4 (rd_sign 55) hl (rd_sign 56) hs) ?_
      simp only [Act.run, listOf_val, stepsOf_val]
      rfl
    have := hb _ _ h0
    simpa [follow] using this
  | .prop e n, h => by
    refine good_of h (by simp only [lv]; omega) ?_
    obtain ⟨he, hle⟩ := h
    have hb := (good e he).1 12 (by decide) hle
    simp only [B, Nat.reduceEqDiff, if_true, if_false] at hb
    show ∀ us st, Rd 131 us (stepsVal st) → Rd 130 ((toks e ++ [sign 57, name n]) ++ us) (some (.ex (st.foldl follow (.prop e n))))
    intro us st hs
    have h0 : Rd 131 ([sign 57] ++ ([name n] ++ us)) (stepsVal (.prop n :: st)) := by
      refine rd_rule 85 rfl rfl (seq3 (rd_sign 57) (rd_tok (name n)) hs) ?_
      simp only [Act.run, name, stepsOf_val]
      rfl
    have := hb _ _ h0
    simpa [follow] using this
  | .call e l, h => by
    refine good_of h (by simp only [lv]; omega) ?_
    obtain ⟨he, hle, hl, hll⟩ := h
    have hb := (good e he).1 12 (by decide) hle
    have hl := (good l hl).2.1 hll
    simp only [B, Nat.reduceEqDiff, if_true, if_false] at hb
    show ∀ us st, Rd 131 us (stepsVal st) → Rd 130 ((toks e ++ sign 6 :: (toks l ++ [sign 7])) ++ us) (some (.ex (st.foldl follow (.call e l))))
    intro us st hs
    have h0 : Rd 131 ([sign 6] ++ (toks l ++ ([sign 7] ++ us))) (stepsVal (.call l :: st)) := by
      refine rd_rule 86 rfl rfl (seq4 (rd_sign 6) hl (rd_sign 7) hs) ?_
      simp only [Act.run, listOf_val, stepsOf_val]
      rfl
    have := hb _ _ h0
    simpa [follow] using this
  | .suf o e, h => by
    refine good_of h (by simp only [lv]; omega) ?_
    obtain ⟨ho, he, hle⟩ := h
    have hb := (good e he).1 12 (by decide) hle
    simp only [B, Nat.reduceEqDiff, if_true, if_false] at hb
    have hb := hb [] [] end_steps
    rw [List.append_nil] at hb
    show Rd 128 (toks e ++ [sign o]) (some (.ex (.suf o e)))
    rcases ho with x | x <;> subst x
    · exact rd_rule 79 rfl rfl (seq2 hb (rd_rule 80 rfl rfl (seq1 (rd_sign 53)) rfl)) rfl
    · exact rd_rule 79 rfl rfl (seq2 hb (rd_rule 81 rfl rfl (seq1 (rd_sign 54)) rfl)) rfl
  | .not e, h => by
    refine good_of h (by simp only [lv]; omega) ?_
    obtain ⟨he, hle⟩ := h
    have hb := (good e he).1 10 (by decide) hle
    simp only [B, Nat.reduceEqDiff, if_true, if_false] at hb
    show Rd 127 ([sign 52] ++ toks e) (some (.ex (.not e)))
    exact rd_rule 77 rfl rfl (seq2 (rd_sign 52) hb) rfl
  | .bin o l r, h => by
    have hok := h
    have hrange := opLv_range o
    refine good_of h (by simp only [lv]; omega) ?_
    obtain ⟨ho, hl, hll, hr, hlr⟩ := h
    simp only [lv]
    by_cases h4 : 36 ≤ o
    · obtain ⟨g1, g2, g3⟩ := op_rule o h4 ho.2
      generalize hk : opLv o = k at *
      have hbl := (good l hl).1 k (by omega) hll
      have hbr := (good r hr).1 k (by omega) (by omega)
      simp only [B] at hbl hbr ⊢
      rw [if_neg (by omega), if_neg (by omega), if_neg (by omega), if_neg (by omega), if_pos g3] at hbl hbr ⊢
      intro us tl ht
      have h1 := hbr us tl ht
      rw [chain_tight hlr] at h1
      have h2 : Rd (108 + 2 * k) ([sign o] ++ (toks r ++ us)) (tailVal ((o, r) :: tl)) := rd_rule (opRule o) g1 g2 (seq2 (rd_sign o) h1) rfl
      have h3 := hbl _ _ h2
      have hc : chainOf k (.bin o l r) = ((chainOf k l).1, (chainOf k l).2 ++ [(o, r)]) := by
        simp only [chainOf]
        rw [if_pos (by omega), chain_tight hlr]
      rw [hc]
      simpa [toks] using h3
    · have ho' : o = 34 ∨ o = 35 := by omega
      have g : ∃ i : Nat, grammar[i]? = some (⟨114, [o, 113]⟩ : Rule) ∧ acts[i]? = some (Act.binTail o) ∧ opLv o ≤ 3 := by
        rcases ho' with e | e <;> subst e
        · exact ⟨46, rfl, rfl, by decide⟩
        · exact ⟨47, rfl, rfl, by decide⟩
      obtain ⟨i, g1, g2, g3⟩ := g
      have hbl := (good l hl).1 2 (by omega) (by omega)
      have hbr := (good r hr).1 2 (by omega) (by omega)
      simp only [B, Nat.reduceEqDiff, Nat.reduceLeDiff, if_true, if_false] at hbl hbr
      have goal : ∀ us tl, Rd 114 us (tailVal tl) → Rd 113 (toks (.bin o l r) ++ us) (some (.chain (chainOf 3 (.bin o l r)).1 ((chainOf 3 (.bin o l r)).2 ++ tl))) := by
        intro us tl ht
        have h1 := hbr us tl ht
        have h2 : Rd 114 ([sign o] ++ (toks r ++ us)) (tailVal ((o, (chainOf 3 r).1) :: ((chainOf 3 r).2 ++ tl))) := rd_rule i g1 g2 (seq2 (rd_sign o) h1) rfl
        have h3 := hbl _ _ h2
        have hc : chainOf 3 (.bin o l r) = ((chainOf 3 l).1, (chainOf 3 l).2 ++ (o, (chainOf 3 r).1) :: (chainOf 3 r).2) := by
          simp only [chainOf]
          rw [if_pos g3]
        rw [hc]
        simpa [toks] using h3
      have : opLv o = 2 ∨ opLv o = 3 := by omega
      simp only [B]
      rw [if_neg (by omega), if_neg (by omega), if_neg (by omega), if_neg (by omega), if_neg (by omega), if_pos (by omega)]
      exact goal
  | .asg o l r, h => by
    refine good_of h (by simp only [lv]; omega) ?_
    obtain ⟨ho, hl, hll, hr, hlr⟩ := h
    have hbl := (good l hl).1 2 (by omega) hll
    have hbr := (good r hr).1 1 (by omega) hlr
    simp only [B, Nat.reduceEqDiff, Nat.reduceLeDiff, if_true, if_false] at hbl hbr
    have h0 := hbl [] [] end_logic
    rw [List.append_nil, List.append_nil] at h0
    obtain ⟨g1, g2⟩ := asg_rule o ho.1 ho.2
    show Rd 111 (toks l ++ ([sign o] ++ toks r)) (some (.ex (.asg o l r)))
    have h1 : Rd 112 ([sign o] ++ toks r) (some (.asgT o r)) := rd_rule (o + 10) g1 g2 (seq2 (rd_sign o) hbr) rfl
    refine rd_rule 32 rfl rfl (seq2 h0 h1) ?_
    show some (V.ex (.asg o (foldLogic none (chainOf 3 l).1 (chainOf 3 l).2) r)) = _
    rw [fold_logic hl hll]
  | .nil, _ => ⟨fun k h1 h2 => by simp only [lv] at h2; omega, fun _ => rd_rule 29 rfl rfl seq0 rfl, fun h => by cases h⟩
  | .one e, h => by
    refine ⟨fun k h1 h2 => by simp only [lv] at h2; omega, fun _ => ?_, fun h => by cases h⟩
    have hb := (good e h.1).1 1 (by omega) h.2
    simp only [B, Nat.reduceEqDiff, Nat.reduceLeDiff, if_false] at hb
    have := seq2 hb (rd_rule 31 (x := 110) rfl rfl seq0 rfl)
    rw [List.append_nil] at this
    exact rd_rule 28 rfl rfl this rfl
  | .cons e l, h => by
    refine ⟨fun k h1 h2 => by simp only [lv] at h2; omega, fun _ => ?_, fun h => by cases h⟩
    obtain ⟨he, hle, hl, hll, hne⟩ := h
    have hb := (good e he).1 1 (by omega) hle
    have hl := (good l hl).2.1 hll
    simp only [B, Nat.reduceEqDiff, Nat.reduceLeDiff, if_false] at hb
    simp only [listVal, if_neg hne] at hl
    show Rd 109 (toks e ++ ([sign 22] ++ toks l)) _
    exact rd_rule 28 rfl rfl (seq2 hb (rd_rule 30 rfl rfl (seq2 (rd_sign 22) hl) rfl)) rfl
  | .arr l, h => by
    refine good_of h (by simp only [lv]; omega) ?_
    have hl := (good l h.1).2.2 h.2
    show Rd 132 ([sign 55] ++ (toks l ++ [sign 56])) (some (.ex (.arr l)))
    refine rd_rule 95 rfl rfl (seq1 (rd_rule 105 rfl rfl (seq3 (rd_sign 55) hl (rd_sign 56)) ?_)) rfl
    simp only [Act.run, elemsOf_val]
  | .elEnd, _ => ⟨fun k h1 h2 => by simp only [lv] at h2; omega, fun h => (by have := h.2; simp [isEl] at this), fun _ => rd_rule 107 rfl rfl seq0 rfl⟩
  | .el v l, h => by
    refine ⟨fun k h1 h2 => by simp only [lv] at h2; omega, fun h => (by have := h.2; simp [isEl] at this), fun _ => ?_⟩
    obtain ⟨hv, hlv, hl, hel⟩ := h
    have hb := (good v hv).1 1 (by omega) hlv
    simp only [B, Nat.reduceEqDiff, Nat.reduceLeDiff, if_false] at hb
    have := seq3 hb (rd_rule 109 (x := 135) rfl rfl seq0 rfl) (next_elems ((good l hl).2.2 hel))
    refine rd_rule 106 rfl rfl this ?_
    simp only [Act.run, elemsOf_val]
    rfl
  | .elk k v l, h => by
    refine ⟨fun k h1 h2 => by simp only [lv] at h2; omega, fun h => (by have := h.2; simp [isEl] at this), fun _ => ?_⟩
    obtain ⟨hk, hlk, hv, hlv, hl, hel⟩ := h
    have ha := (good k hk).1 1 (by omega) hlk
    have hb := (good v hv).1 1 (by omega) hlv
    simp only [B, Nat.reduceEqDiff, Nat.reduceLeDiff, if_false] at ha hb
    have := seq3 ha (rd_rule 108 (x := 135) rfl rfl (seq2 (rd_sign 4) hb) rfl) (next_elems ((good l hl).2.2 hel))
    refine rd_rule 106 rfl rfl this ?_
    simp only [Act.run, elemsOf_val]
    rfl

/-! ## Operators bind by the table -/

theorem toks_text : ∀ e, Ok e → Text (toks e)
  | .atom ty n, h => by
    intro t ht
    have h : ty = 1 ∨ (59 ≤ ty ∧ ty ≤ 66) := h
    simp only [toks, List.mem_singleton] at ht
    subst ht
    dsimp only
    omega
  | .fresh n, _ => by intro t ht; simp only [toks, List.mem_cons, List.not_mem_nil, or_false] at ht; rcases ht with e | e <;> subst e <;> simp [sign, name]
  | .par l, h => by
    intro t ht
    simp only [toks, List.mem_cons, List.mem_append, List.not_mem_nil, or_false] at ht
    rcases ht with e | e | e
    · subst e; decide
    · exact toks_text l h.1 t e
    · subst e; decide
  | .pre o x, h => by
    intro t ht
    have ho := h.1
    simp only [toks, List.mem_cons, List.not_mem_nil, or_false] at ht ho
    rcases ht with e | e
    · subst e; simp only [sign]; omega
    · exact toks_text x h.2.1 t e
  | .index x l, h => by
    intro t ht
    simp only [toks, List.mem_cons, List.mem_append, List.not_mem_nil, or_false] at ht
    rcases ht with e | e | e | e
    · exact toks_text x h.1 t e
    · subst e; decide
    · exact toks_text l h.2.2.1 t e
    · subst e; decide
  | .prop x n, h => by
    intro t ht
    simp only [toks, List.mem_cons, List.mem_append, List.not_mem_nil, or_false] at ht
    rcases ht with e | e | e
    · exact toks_text x h.1 t e
    · subst e; decide
    · subst e; exact (by decide : 1 < 100)
  | .call x l, h => by
    intro t ht
    simp only [toks, List.mem_cons, List.mem_append, List.not_mem_nil, or_false] at ht
    rcases ht with e | e | e | e
    · exact toks_text x h.1 t e
    · subst e; decide
    · exact toks_text l h.2.2.1 t e
    · subst e; decide
  | .suf o x, h => by
    intro t ht
    have ho := h.1
    simp only [toks, List.mem_cons, List.mem_append, List.not_mem_nil, or_false] at ht
    rcases ht with e | e
    · exact toks_text x h.2.1 t e
    · subst e; simp only [sign]; omega
  | .not x, h => by
    intro t ht
    simp only [toks, List.mem_cons] at ht
    rcases ht with e | e
    · subst e; decide
    · exact toks_text x h.1 t e
  | .bin o l r, h => by
    intro t ht
    have ho := h.1
    simp only [toks, List.mem_cons, List.mem_append] at ht
    rcases ht with e | e | e
    · exact toks_text l h.2.1 t e
    · subst e; simp only [sign]; omega
    · exact toks_text r h.2.2.2.1 t e
  | .asg o l r, h => by
    intro t ht
    have ho := h.1
    simp only [toks, List.mem_cons, List.mem_append] at ht
    rcases ht with e | e | e
    · exact toks_text l h.2.1 t e
    · subst e; simp only [sign]; omega
    · exact toks_text r h.2.2.2.1 t e
  | .nil, _ => by intro t ht; simp only [toks, List.not_mem_nil] at ht
  | .one x, h => toks_text x h.1
  | .cons x l, h => by
    intro t ht
    simp only [toks, List.mem_cons, List.mem_append] at ht
    rcases ht with e | e | e
    · exact toks_text x h.1 t e
    · subst e; decide
    · exact toks_text l h.2.2.1 t e
  | .arr l, h => by
    intro t ht
    simp only [toks, List.mem_cons, List.mem_append, List.not_mem_nil, or_false] at ht
    rcases ht with e | e | e
    · subst e; decide
    · exact toks_text l h.1 t e
    · subst e; decide
  | .elEnd, _ => by intro t ht; simp only [toks, List.not_mem_nil] at ht
  | .el v l, h => by
    intro t ht
    simp only [toks, List.mem_append] at ht
    rcases ht with e | e
    · exact toks_text v h.1 t e
    · split at e
      · cases e
      · rcases List.mem_cons.1 e with e | e
        · subst e; decide
        · exact toks_text l h.2.2.1 t e
  | .elk k v l, h => by
    intro t ht
    simp only [toks, List.mem_append, List.mem_cons] at ht
    rcases ht with e | (e | e) | e
    · exact toks_text k h.1 t e
    · subst e; decide
    · exact toks_text v h.2.2.1 t e
    · split at e
      · cases e
      · rcases List.mem_cons.1 e with e | e
        · subst e; decide
        · exact toks_text l h.2.2.2.2.1 t e

/-- The parser reads what was written: the text of an expression that is written by the table of the
levels has that expression as its value. -/
theorem reads {e : Ex} (h : Ok e) (h0 : IsList e) : Der grammar act true [exp] (toks e) () [listVal e] () := (good e h).2.1 h0

/-- In a longer text, where `;`, `)` or `]` comes behind the expression, there is no other reading:
neither of the same tokens nor of fewer or more of them. -/
theorem reads_only {e : Ex} (h : Ok e) (h0 : IsList e) {c c' : Tok V} {rest rest' ts : List (Tok V)} {w : Option V} (hc : c.type ∈ [7, 9, 56]) (hc' : c'.type ∈ [7, 9, 56])
    (hT : Text (toks e ++ c :: rest)) (ht : toks e ++ c :: rest = ts ++ c' :: rest') (d : Der grammar act true [exp] ts () [w] ()) : ts = toks e ∧ w = listVal e := by
  have := expression_unique hT rfl ht hc hc' (reads h h0) d
  exact ⟨this.1.symm, this.2.1.symm⟩

/-- The readings of the tokens of `e`, `;` behind them. -/
theorem value_iff {e : Ex} (h : Ok e) (h0 : IsList e) (w : Option V) : Der grammar act true [exp] (toks e) () [w] () ↔ w = listVal e := by
  constructor
  · intro d
    have hT : Text (toks e ++ sign 9 :: []) := by
      intro t ht
      simp only [List.mem_append, List.mem_singleton] at ht
      rcases ht with x | x
      · exact toks_text e h t x
      · subst x; decide
    exact (reads_only h h0 (c := sign 9) (c' := sign 9) (by decide) (by decide) hT rfl d).2
  · intro e'; rw [e']; exact reads h h0

theorem lv_bin (o : Nat) (l r : Ex) : lv (.bin o l r) = opLv o := rfl
theorem lv_asg (o : Nat) (l r : Ex) : lv (.asg o l r) = 1 := rfl

/-- Two operators between three tight operands: the tighter one goes first, and of two of the same
level the left one. -/
theorem two_operators {a b c : Ex} {o q : Nat} (ha : Ok a) (hb : Ok b) (hc : Ok c) (la : 10 ≤ lv a) (lb : 10 ≤ lv b) (lc : 10 ≤ lv c) (ho : 34 ≤ o ∧ o ≤ 51) (hq : 34 ≤ q ∧ q ≤ 51) (w : Option V) :
    Der grammar act true [exp] (toks a ++ sign o :: (toks b ++ sign q :: toks c)) () [w] () ↔
      w = some (.ex (.one (if opLv q ≤ opLv o then .bin q (.bin o a b) c else .bin o a (.bin q b c)))) := by
  have r1 := opLv_range o
  have r2 := opLv_range q
  split
  · rename_i hlt
    have := value_iff (e := .one (.bin q (.bin o a b) c)) (by simp only [Ok, lv_bin]; refine ⟨⟨hq, ⟨ho, ha, ?_, hb, ?_⟩, ?_, hc, ?_⟩, ?_⟩ <;> omega) ⟨rfl, rfl⟩ w
    simpa [toks, listVal] using this
  · rename_i hlt
    have := value_iff (e := .one (.bin o a (.bin q b c))) (by simp only [Ok, lv_bin]; refine ⟨⟨ho, ha, ?_, ⟨hq, hb, ?_, hc, ?_⟩, ?_⟩, ?_⟩ <;> omega) ⟨rfl, rfl⟩ w
    simpa [toks, listVal] using this

/-- Assignments: `a = b = c` is `a = (b = c)`. -/
theorem assignments {a b c : Ex} {o q : Nat} (ha : Ok a) (hb : Ok b) (hc : Ok c) (la : 2 ≤ lv a) (lb : 2 ≤ lv b) (lc : 1 ≤ lv c) (ho : 23 ≤ o ∧ o ≤ 33) (hq : 23 ≤ q ∧ q ≤ 33) (w : Option V) :
    Der grammar act true [exp] (toks a ++ sign o :: (toks b ++ sign q :: toks c)) () [w] () ↔ w = some (.ex (.one (.asg o a (.asg q b c)))) := by
  have := value_iff (e := .one (.asg o a (.asg q b c))) (by simp only [Ok, lv_asg]; exact ⟨⟨ho, ha, la, ⟨hq, hb, lb, hc, lc⟩, by omega⟩, by omega⟩) ⟨rfl, rfl⟩ w
  simpa [toks, listVal] using this

/-! ## Signs in front

Specification: `-a[i]`, `-a.b` and `-f(x)` are the negative of what `a[i]`, `a.b` and `f(x)` are. -/

/-- What is behind an operand. -/
def linkOk : Step → Prop
  | .index l => Ok l ∧ IsList l
  | .prop _ => True
  | .call l => Ok l ∧ IsList l

theorem follow_toks (o : Nat) (e : Ex) (s : Step) : toks (.pre o (follow e s)) = toks (follow (.pre o e) s) := by
  cases s <;> simp [follow, toks]

theorem follow_ok {e : Ex} (h : Ok e) (hl : 12 ≤ lv e) {s : Step} (hs : linkOk s) : Ok (follow e s) ∧ lv (follow e s) = 12 := by
  cases s with
  | index l => exact ⟨⟨h, hl, hs.1, hs.2⟩, rfl⟩
  | prop n => exact ⟨⟨h, hl⟩, rfl⟩
  | call l => exact ⟨⟨h, hl, hs.1, hs.2⟩, rfl⟩

theorem follow_inj {o : Nat} {e : Ex} {s : Step} : Ex.pre o (follow e s) ≠ follow (.pre o e) s := by
  cases s <;> simp [follow]

/-- Refuted, for every sign in front, every operand and everything that is behind it: the sign goes
to the operand alone. -/
theorem sign_first {o : Nat} {e : Ex} {s : Step} (ho : o ∈ [48, 58, 37, 53, 54]) (he : Ok e) (hl : 13 ≤ lv e) (hs : linkOk s) (w : Option V) :
    Der grammar act true [exp] (toks (.pre o (follow e s))) () [w] () ↔ w = some (.ex (.one (follow (.pre o e) s))) := by
  have hk := follow_ok (e := .pre o e) ⟨ho, he, hl⟩ (by simp only [lv]; omega) hs
  rw [follow_toks]
  exact value_iff (e := .one (follow (.pre o e) s)) ⟨hk.1, by omega⟩ ⟨rfl, rfl⟩ w

theorem sign_last_refuted {o : Nat} {e : Ex} {s : Step} (ho : o ∈ [48, 58, 37, 53, 54]) (he : Ok e) (hl : 13 ≤ lv e) (hs : linkOk s) :
    ¬ Der grammar act true [exp] (toks (.pre o (follow e s))) () [some (.ex (.one (.pre o (follow e s))))] () := by
  rw [sign_first ho he hl hs]
  intro h
  simp only [Option.some.injEq, V.ex.injEq, Ex.one.injEq] at h
  exact follow_inj h

/-- With brackets it is read as it is meant, and so is `!`, which is looser. -/
theorem sign_last_partial {o : Nat} {e : Ex} {s : Step} (ho : o ∈ [48, 58, 37, 53, 54]) (he : Ok e) (hl : 12 ≤ lv e) (hs : linkOk s) (w : Option V) :
    Der grammar act true [exp] (toks (.pre o (.par (.one (follow e s))))) () [w] () ↔ w = some (.ex (.one (.pre o (.par (.one (follow e s)))))) := by
  have hk := follow_ok he hl hs
  exact value_iff (e := .one (.pre o (.par (.one (follow e s))))) ⟨⟨ho, ⟨⟨hk.1, by omega⟩, rfl, rfl⟩, by simp only [lv]; omega⟩, by simp only [lv]; omega⟩ ⟨rfl, rfl⟩ w

theorem not_last {e : Ex} {s : Step} (he : Ok e) (hl : 12 ≤ lv e) (hs : linkOk s) (w : Option V) :
    Der grammar act true [exp] (toks (.not (follow e s))) () [w] () ↔ w = some (.ex (.one (.not (follow e s)))) := by
  have hk := follow_ok he hl hs
  exact value_iff (e := .one (.not (follow e s))) ⟨⟨hk.1, by omega⟩, by simp only [lv]; omega⟩ ⟨rfl, rfl⟩ w

/-! ## `||` and `&&`

Specification: the truth of an expression and the operands that are worked out, in their order. -/

def short (ev : Ex → Bool) : Ex → Bool × List Ex
  | .bin o l r =>
    if o = 34 then (if (short ev l).1 then short ev l else ((short ev r).1, (short ev l).2 ++ (short ev r).2))
    else if o = 35 then (if (short ev l).1 then ((short ev r).1, (short ev l).2 ++ (short ev r).2) else short ev l)
    else (ev (.bin o l r), [.bin o l r])
  | e => (ev e, [e])

/-- The handler of a chain: the first operand, then `logicRun`. -/
def runChain (ev : Ex → Bool) (h : Ex) (t : List (Nat × Ex)) : Bool × List Ex := ((logicRun ev (ev h) t).1, h :: (logicRun ev (ev h) t).2)

def goOn (ev : Ex → Bool) (p : Bool × List Ex) (r : List (Nat × Ex)) : Bool × List Ex := ((logicRun ev p.1 r).1, p.2 ++ (logicRun ev p.1 r).2)

theorem short_tight (ev : Ex → Bool) {e : Ex} (h : 3 < lv e) : short ev e = (ev e, [e]) := by
  cases e <;> simp only [short]
  rename_i o l r
  simp only [lv] at h
  rw [if_neg, if_neg]
  · intro x; subst x; revert h; decide
  · intro x; subst x; revert h; decide

theorem run_and (ev : Ex → Bool) : ∀ (e : Ex) (r : List (Nat × Ex)), Ok e → 3 ≤ lv e → runChain ev (chainOf 3 e).1 ((chainOf 3 e).2 ++ r) = goOn ev (short ev e) r := by
  intro e
  induction e with
  | bin o l q ihl _ =>
    intro r hok hk
    simp only [lv] at hk
    obtain ⟨hr, hl, hll, hq, hlq⟩ := hok
    by_cases h3 : opLv o = 3
    · have ho := op_three h3
      have hc : chainOf 3 (.bin o l q) = ((chainOf 3 l).1, (chainOf 3 l).2 ++ [(o, q)]) := by
        simp only [chainOf]
        rw [if_pos (by omega), chain_tight (e := q) (by omega)]
      rw [hc]
      dsimp only
      rw [List.append_assoc, ihl _ hl (by omega)]
      subst ho
      have hs : short ev (.bin 35 l q) = if (short ev l).1 then (ev q, (short ev l).2 ++ [q]) else short ev l := by
        simp only [short, if_true, short_tight ev (e := q) (by omega)]
        rw [if_neg (by decide)]
      rw [hs]
      cases hv : (short ev l).1 <;> simp [goOn, logicRun, opAnd, hv]
    · rw [chain_tight (e := .bin o l q) (by simp only [lv]; omega), short_tight ev (by simp only [lv]; omega)]
      rfl
  | _ => intros; rfl

/-- What may come behind a whole expression of `||`. -/
def orNext : List (Nat × Ex) → Prop
  | [] => True
  | x :: _ => x.1 = 34

theorem run_or (ev : Ex → Bool) : ∀ (e : Ex) (r : List (Nat × Ex)), Ok e → 2 ≤ lv e → orNext r → runChain ev (chainOf 3 e).1 ((chainOf 3 e).2 ++ r) = goOn ev (short ev e) r := by
  intro e
  induction e with
  | bin o l q ihl _ =>
    intro r hok hk hn
    by_cases h2 : opLv o = 2
    · have ho := op_two h2
      obtain ⟨hr, hl, hll, hq, hlq⟩ := hok
      have hc : chainOf 3 (.bin o l q) = ((chainOf 3 l).1, (chainOf 3 l).2 ++ (o, (chainOf 3 q).1) :: (chainOf 3 q).2) := by
        simp only [chainOf]
        rw [if_pos (by omega)]
      rw [hc]
      dsimp only
      rw [List.append_assoc, List.cons_append, ihl ((o, (chainOf 3 q).1) :: ((chainOf 3 q).2 ++ r)) hl (by omega) ho]
      subst ho
      have hs : short ev (.bin 34 l q) = if (short ev l).1 then short ev l else ((short ev q).1, (short ev l).2 ++ (short ev q).2) := by
        simp only [short, if_true]
      rw [hs]
      have hq' := run_and ev q r hq (by omega)
      cases hv : (short ev l).1
      · simp only [goOn, logicRun, hv, opAnd, Bool.false_eq_true, if_false, Nat.reduceEqDiff]
        simp only [runChain, goOn, Prod.mk.injEq] at hq'
        rw [hq'.1, hq'.2, List.append_assoc]
      · have : logicRun ev true r = (true, []) := by
          cases r with
          | nil => rfl
          | cons x xs =>
            obtain ⟨a, b⟩ := x
            have : a = 34 := hn
            subst this
            rfl
        simp [goOn, logicRun, hv, opAnd, this]
    · have := opLv_range o
      exact run_and ev _ r hok (by simp only [lv]; omega)
  | _ => intros; rfl

/-- An expression of `||` and `&&`, followed by an assignment, `:`, `,`, `;` or a closing bracket,
is read as one chain; the handler finds the truth of the expression, `&&` binding tighter than `||`,
and works out exactly the operands that are needed, in their order. -/
theorem logic_short (ev : Ex → Bool) {e : Ex} (h : Ok e) (h2 : 2 ≤ lv e) :
    Rd 113 (toks e) (some (.chain (chainOf 3 e).1 (chainOf 3 e).2)) ∧ runChain ev (chainOf 3 e).1 (chainOf 3 e).2 = short ev e := by
  refine ⟨?_, ?_⟩
  · have hb := (good e h).1 2 (by decide) h2
    simp only [B, Nat.reduceEqDiff, Nat.reduceLeDiff, if_true, if_false] at hb
    have := hb [] [] end_logic
    simpa using this
  · have := run_or ev e [] h h2 trivial
    rw [List.append_nil] at this
    rw [this]
    simp [goOn, logicRun]

/-- ... and this is the only chain it is read as. -/
theorem logic_only (ev : Ex → Bool) {e : Ex} (h : Ok e) (h2 : 2 ≤ lv e) {x : Ex} {t : List (Nat × Ex)} (d : Rd 113 (toks e) (some (.chain x t))) : runChain ev x t = short ev e := by
  have hT : Text (toks e ++ sign 9 :: []) := by
    intro t ht
    simp only [List.mem_append, List.mem_singleton] at ht
    rcases ht with x | x
    · exact toks_text e h t x
    · subst x; decide
  have := read_unique [9] (by decide +kernel) hT rfl rfl (by decide) (by decide) d (logic_short ev h h2).1
  have e1 := this.2.1
  simp only [Option.some.injEq, V.chain.injEq] at e1
  rw [e1.1, e1.2]
  exact (logic_short ev h h2).2

/-! ## Cases -/

def va : Ex := .atom 1 10
def vb : Ex := .atom 1 11
def vc : Ex := .atom 1 12

/-- `a = b + c * a;` -/
example : Ok (.one (.asg 23 va (.bin 47 vb (.bin 49 vc va)))) := by simp [Ok, lv, opLv, va, vb, vc]
example : toks (.one (.asg 23 va (.bin 47 vb (.bin 49 vc va)))) = [name 10, sign 23, name 11, sign 47, name 12, sign 49, name 10] := by decide
/-- `a - b - c` is `(a - b) - c`. -/
example (w : Option V) : Der grammar act true [exp] [name 10, sign 48, name 11, sign 48, name 12] () [w] () ↔ w = some (.ex (.one (.bin 48 (.bin 48 va vb) vc))) :=
  two_operators (a := va) (b := vb) (c := vc) (by simp [Ok, va]) (by simp [Ok, vb]) (by simp [Ok, vc]) (by decide) (by decide) (by decide) (by decide) (by decide) w
/-- `-a[b]` -/
example (w : Option V) : Der grammar act true [exp] [sign 48, name 10, sign 55, name 11, sign 56] () [w] () ↔ w = some (.ex (.one (.index (.pre 48 va) (.one vb)))) :=
  sign_first (e := va) (s := .index (.one vb)) (by decide) (by simp [Ok, va]) (by decide) ⟨by simp [Ok, vb, lv], rfl, rfl⟩ w
/-- `a || b && c` with a false `b`: `c` is not worked out. -/
example : short (fun _ => false) (.bin 34 va (.bin 35 vb vc)) = (false, [va, vb]) := by decide
/-- With a true `a` nothing else is. -/
example : short (fun e => e = va) (.bin 34 va (.bin 35 vb vc)) = (true, [va]) := by decide
example : runChain (fun e => e = vc) va [(35, vb), (34, vc)] = (true, [va, vc]) := by decide

end Verif.LangExp
