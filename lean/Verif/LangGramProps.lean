import Verif.LangGram
import Verif.PgUnique
import Verif.PgProps
/-!
# Properties of the grammar of the script language
-/
namespace Verif.LangGram
open Verif.Pg

/-! ## The tables for the check -/

/-- The left sides that derive the empty text. -/
def nlTab : List Nat := [101, 102, 104, 105, 109, 110, 112, 114, 116, 118, 120, 122, 124, 126, 129, 131, 134, 135, 136]

/-- The left sides that derive a text which is one identifier. -/
def oneTab : List Nat := [109, 111, 113, 115, 117, 119, 121, 123, 125, 127, 128, 130, 132, 133, 134]

/-- The tokens a text derived from each left side can begin with. -/
def fiTab : List (List Nat) := [
  [0, 1, 2, 5, 6, 8, 9, 10, 11, 12, 15, 16, 17, 18, 19, 37, 48, 52, 53, 54, 55, 58, 59, 60, 61, 62, 63, 64, 65, 66],
  [1, 2, 5, 6, 8, 9, 10, 11, 12, 15, 16, 17, 18, 19, 37, 48, 52, 53, 54, 55, 58, 59, 60, 61, 62, 63, 64, 65, 66],
  [1, 11],
  [11],
  [12],
  [13, 14],
  [13, 14],
  [1, 2, 6, 9, 12, 15, 16, 17, 18, 19, 37, 48, 52, 53, 54, 55, 58, 59, 60, 61, 62, 63, 64, 65, 66],
  [20, 21],
  [1, 6, 12, 37, 48, 52, 53, 54, 55, 58, 59, 60, 61, 62, 63, 64, 65, 66],
  [22],
  [1, 6, 12, 37, 48, 52, 53, 54, 55, 58, 59, 60, 61, 62, 63, 64, 65, 66],
  [23, 24, 25, 26, 27, 28, 29, 30, 31, 32, 33],
  [1, 6, 12, 37, 48, 52, 53, 54, 55, 58, 59, 60, 61, 62, 63, 64, 65, 66],
  [34, 35],
  [1, 6, 12, 37, 48, 52, 53, 54, 55, 58, 59, 60, 61, 62, 63, 64, 65, 66],
  [36, 37, 38],
  [1, 6, 12, 37, 48, 52, 53, 54, 55, 58, 59, 60, 61, 62, 63, 64, 65, 66],
  [39, 40],
  [1, 6, 12, 37, 48, 52, 53, 54, 55, 58, 59, 60, 61, 62, 63, 64, 65, 66],
  [41, 42, 43, 44],
  [1, 6, 12, 37, 48, 52, 53, 54, 55, 58, 59, 60, 61, 62, 63, 64, 65, 66],
  [45, 46],
  [1, 6, 12, 37, 48, 52, 53, 54, 55, 58, 59, 60, 61, 62, 63, 64, 65, 66],
  [47, 48],
  [1, 6, 12, 37, 48, 52, 53, 54, 55, 58, 59, 60, 61, 62, 63, 64, 65, 66],
  [49, 50, 51],
  [1, 6, 12, 37, 48, 52, 53, 54, 55, 58, 59, 60, 61, 62, 63, 64, 65, 66],
  [1, 6, 12, 37, 48, 53, 54, 55, 58, 59, 60, 61, 62, 63, 64, 65, 66],
  [53, 54],
  [1, 6, 12, 37, 48, 53, 54, 55, 58, 59, 60, 61, 62, 63, 64, 65, 66],
  [6, 55, 57],
  [1, 6, 12, 37, 48, 53, 54, 55, 58, 59, 60, 61, 62, 63, 64, 65, 66],
  [1, 55, 59, 60, 61, 62, 63, 64, 65, 66],
  [1, 6, 12, 37, 48, 52, 53, 54, 55, 58, 59, 60, 61, 62, 63, 64, 65, 66],
  [4],
  [22]]

/-- The tokens that can come behind it. -/
def foTab : List (List Nat) := [
  [],
  [0, 3, 13, 14],
  [3],
  [0, 1, 2, 3, 5, 6, 8, 9, 10, 11, 12, 13, 14, 15, 16, 17, 18, 19, 37, 48, 52, 53, 54, 55, 58, 59, 60, 61, 62, 63, 64, 65, 66],
  [2],
  [3],
  [4],
  [0, 1, 2, 3, 5, 6, 8, 9, 10, 11, 12, 13, 14, 15, 16, 17, 18, 19, 20, 21, 37, 48, 52, 53, 54, 55, 58, 59, 60, 61, 62, 63, 64, 65, 66],
  [0, 1, 2, 3, 5, 6, 8, 9, 10, 11, 12, 13, 14, 15, 16, 17, 18, 19, 20, 21, 37, 48, 52, 53, 54, 55, 58, 59, 60, 61, 62, 63, 64, 65, 66],
  [7, 9, 56],
  [7, 9, 56],
  [4, 7, 9, 22, 56],
  [4, 7, 9, 22, 56],
  [4, 7, 9, 22, 23, 24, 25, 26, 27, 28, 29, 30, 31, 32, 33, 56],
  [4, 7, 9, 22, 23, 24, 25, 26, 27, 28, 29, 30, 31, 32, 33, 56],
  [4, 7, 9, 22, 23, 24, 25, 26, 27, 28, 29, 30, 31, 32, 33, 34, 35, 56],
  [4, 7, 9, 22, 23, 24, 25, 26, 27, 28, 29, 30, 31, 32, 33, 34, 35, 56],
  [4, 7, 9, 22, 23, 24, 25, 26, 27, 28, 29, 30, 31, 32, 33, 34, 35, 36, 37, 38, 56],
  [4, 7, 9, 22, 23, 24, 25, 26, 27, 28, 29, 30, 31, 32, 33, 34, 35, 36, 37, 38, 56],
  [4, 7, 9, 22, 23, 24, 25, 26, 27, 28, 29, 30, 31, 32, 33, 34, 35, 36, 37, 38, 39, 40, 56],
  [4, 7, 9, 22, 23, 24, 25, 26, 27, 28, 29, 30, 31, 32, 33, 34, 35, 36, 37, 38, 39, 40, 56],
  [4, 7, 9, 22, 23, 24, 25, 26, 27, 28, 29, 30, 31, 32, 33, 34, 35, 36, 37, 38, 39, 40, 41, 42, 43, 44, 56],
  [4, 7, 9, 22, 23, 24, 25, 26, 27, 28, 29, 30, 31, 32, 33, 34, 35, 36, 37, 38, 39, 40, 41, 42, 43, 44, 56],
  [4, 7, 9, 22, 23, 24, 25, 26, 27, 28, 29, 30, 31, 32, 33, 34, 35, 36, 37, 38, 39, 40, 41, 42, 43, 44, 45, 46, 56],
  [4, 7, 9, 22, 23, 24, 25, 26, 27, 28, 29, 30, 31, 32, 33, 34, 35, 36, 37, 38, 39, 40, 41, 42, 43, 44, 45, 46, 56],
  [4, 7, 9, 22, 23, 24, 25, 26, 27, 28, 29, 30, 31, 32, 33, 34, 35, 36, 37, 38, 39, 40, 41, 42, 43, 44, 45, 46, 47, 48, 56],
  [4, 7, 9, 22, 23, 24, 25, 26, 27, 28, 29, 30, 31, 32, 33, 34, 35, 36, 37, 38, 39, 40, 41, 42, 43, 44, 45, 46, 47, 48, 56],
  [4, 7, 9, 22, 23, 24, 25, 26, 27, 28, 29, 30, 31, 32, 33, 34, 35, 36, 37, 38, 39, 40, 41, 42, 43, 44, 45, 46, 47, 48, 49, 50, 51, 56],
  [4, 7, 9, 22, 23, 24, 25, 26, 27, 28, 29, 30, 31, 32, 33, 34, 35, 36, 37, 38, 39, 40, 41, 42, 43, 44, 45, 46, 47, 48, 49, 50, 51, 56],
  [4, 7, 9, 22, 23, 24, 25, 26, 27, 28, 29, 30, 31, 32, 33, 34, 35, 36, 37, 38, 39, 40, 41, 42, 43, 44, 45, 46, 47, 48, 49, 50, 51, 56],
  [4, 7, 9, 22, 23, 24, 25, 26, 27, 28, 29, 30, 31, 32, 33, 34, 35, 36, 37, 38, 39, 40, 41, 42, 43, 44, 45, 46, 47, 48, 49, 50, 51, 53, 54, 56],
  [4, 7, 9, 22, 23, 24, 25, 26, 27, 28, 29, 30, 31, 32, 33, 34, 35, 36, 37, 38, 39, 40, 41, 42, 43, 44, 45, 46, 47, 48, 49, 50, 51, 53, 54, 56],
  [4, 6, 7, 9, 22, 23, 24, 25, 26, 27, 28, 29, 30, 31, 32, 33, 34, 35, 36, 37, 38, 39, 40, 41, 42, 43, 44, 45, 46, 47, 48, 49, 50, 51, 53, 54, 55, 56, 57],
  [4, 6, 7, 9, 22, 23, 24, 25, 26, 27, 28, 29, 30, 31, 32, 33, 34, 35, 36, 37, 38, 39, 40, 41, 42, 43, 44, 45, 46, 47, 48, 49, 50, 51, 53, 54, 55, 56, 57],
  [56],
  [22, 56],
  [56]]

/-- The tokens that are second in its longer texts that begin with an identifier. -/
def seTab : List (List Nat) := [
  [2, 4, 6, 9, 22, 23, 24, 25, 26, 27, 28, 29, 30, 31, 32, 33, 34, 35, 36, 37, 38, 39, 40, 41, 42, 43, 44, 45, 46, 47, 48, 49, 50, 51, 53, 54, 55, 57],
  [2, 4, 6, 9, 22, 23, 24, 25, 26, 27, 28, 29, 30, 31, 32, 33, 34, 35, 36, 37, 38, 39, 40, 41, 42, 43, 44, 45, 46, 47, 48, 49, 50, 51, 53, 54, 55, 57],
  [9],
  [],
  [],
  [],
  [],
  [6, 9, 22, 23, 24, 25, 26, 27, 28, 29, 30, 31, 32, 33, 34, 35, 36, 37, 38, 39, 40, 41, 42, 43, 44, 45, 46, 47, 48, 49, 50, 51, 53, 54, 55, 57],
  [],
  [6, 22, 23, 24, 25, 26, 27, 28, 29, 30, 31, 32, 33, 34, 35, 36, 37, 38, 39, 40, 41, 42, 43, 44, 45, 46, 47, 48, 49, 50, 51, 53, 54, 55, 57],
  [],
  [6, 23, 24, 25, 26, 27, 28, 29, 30, 31, 32, 33, 34, 35, 36, 37, 38, 39, 40, 41, 42, 43, 44, 45, 46, 47, 48, 49, 50, 51, 53, 54, 55, 57],
  [],
  [6, 34, 35, 36, 37, 38, 39, 40, 41, 42, 43, 44, 45, 46, 47, 48, 49, 50, 51, 53, 54, 55, 57],
  [],
  [6, 36, 37, 38, 39, 40, 41, 42, 43, 44, 45, 46, 47, 48, 49, 50, 51, 53, 54, 55, 57],
  [],
  [6, 39, 40, 41, 42, 43, 44, 45, 46, 47, 48, 49, 50, 51, 53, 54, 55, 57],
  [],
  [6, 41, 42, 43, 44, 45, 46, 47, 48, 49, 50, 51, 53, 54, 55, 57],
  [],
  [6, 45, 46, 47, 48, 49, 50, 51, 53, 54, 55, 57],
  [],
  [6, 47, 48, 49, 50, 51, 53, 54, 55, 57],
  [],
  [6, 49, 50, 51, 53, 54, 55, 57],
  [],
  [6, 53, 54, 55, 57],
  [6, 53, 54, 55, 57],
  [],
  [6, 55, 57],
  [],
  [],
  [],
  [4, 6, 22, 23, 24, 25, 26, 27, 28, 29, 30, 31, 32, 33, 34, 35, 36, 37, 38, 39, 40, 41, 42, 43, 44, 45, 46, 47, 48, 49, 50, 51, 53, 54, 55, 57],
  [],
  []]

/-- LANG_TK_ID is 1. -/
def cert : Cert where
  id := 1
  nl x := nlTab.contains x
  fi x := fiTab.getD (x - 100) []
  fo x := foTab.getD (x - 100) []
  one x := oneTab.contains x
  se x := seTab.getD (x - 100) []

set_option maxRecDepth 100000 in
theorem cert_ok : cert.ok grammar = true := by decide +kernel

theorem grammar_ok : GrammarOk grammar eof stm := by
  refine ⟨⟨100, rfl, by decide⟩, ?_, by decide, by decide⟩
  intro i r hi he
  have h : ∀ p ∈ grammar.zipIdx, eof ∈ p.1.rights → p.2 = 0 := by decide +kernel
  exact h (r, i) (List.mem_zipIdx_iff_getElem?.2 hi) he

theorem nt_range : ∀ t, t < 100 → isNt grammar t = false := by
  have h : ∀ r ∈ grammar, 100 ≤ r.left := by decide +kernel
  intro t ht
  unfold isNt
  rw [List.any_eq_false]
  intro r hr
  have := h r hr
  simp only [beq_iff_eq]
  omega

section
variable {D U : Type} {f : Nat → List (Option D) → U → U × Option (Option D)}

/-- A text of tokens of the language: the numbers from 100 on are parts of the grammar. -/
def Text (ts : List (Tok D)) : Prop := ∀ t ∈ ts, t.type < 100

theorem Text.plain {ts : List (Tok D)} (h : Text ts) : Plain grammar ts := fun t ht => nt_range t.type (h t ht)

/-! ## One reading -/

/-- The same tokens, read from the same place as `x` up to a token of `F`. -/
theorem read_unique {x : Nat} (F : List Nat) (hx : cert.fits grammar F [x] = true) {all ts ts' : List (Tok D)} {e e' : Tok D} {rest rest' : List (Tok D)} {u u1 u2 : U} {v w : Option D}
    (h : Text all) (h1 : all = ts ++ e :: rest) (h2 : all = ts' ++ e' :: rest') (he : e.type ∈ F) (he' : e'.type ∈ F)
    (d1 : Der grammar f true [x] ts u [v] u1) (d2 : Der grammar f true [x] ts' u [w] u2) : ts = ts' ∧ v = w ∧ u1 = u2 := by
  have p1 : Text ts := fun t ht => h t (by rw [h1]; exact List.mem_append_left _ ht)
  have p2 : Text ts' := fun t ht => h t (by rw [h2]; exact List.mem_append_left _ ht)
  have := der_unique cert_ok d1 F ts' [w] u2 e e' rest rest' d2 p1.plain p2.plain hx he he' (h1 ▸ h2)
  exact ⟨this.1, by simpa using this.2.1, this.2.2⟩

/-- Whatever the functions of the productions do: a script up to a token of the end of the file has at
most one value, ends in at most one place, and leaves at most one state of the user's data. -/
theorem script_unique {all ts ts' : List (Tok D)} {e e' : Tok D} {rest rest' : List (Tok D)} {u u1 u2 : U} {v w : Option D}
    (h : Text all) (h1 : all = ts ++ e :: rest) (h2 : all = ts' ++ e' :: rest') (he : e.type = eof) (he' : e'.type = eof)
    (d1 : Der grammar f true [stm] ts u [v] u1) (d2 : Der grammar f true [stm] ts' u [w] u2) : ts = ts' ∧ v = w ∧ u1 = u2 :=
  read_unique [eof] (by decide +kernel) h h1 h2 (by simp [he]) (by simp [he']) d1 d2

/-- An expression (with the commas in it) that is followed by `;`, `)` or `]`: there is only one way
to read it and one place where it ends. -/
theorem expression_unique {all ts ts' : List (Tok D)} {e e' : Tok D} {rest rest' : List (Tok D)} {u u1 u2 : U} {v w : Option D}
    (h : Text all) (h1 : all = ts ++ e :: rest) (h2 : all = ts' ++ e' :: rest') (he : e.type ∈ [7, 9, 56]) (he' : e'.type ∈ [7, 9, 56])
    (d1 : Der grammar f true [exp] ts u [v] u1) (d2 : Der grammar f true [exp] ts' u [w] u2) : ts = ts' ∧ v = w ∧ u1 = u2 :=
  read_unique [7, 9, 56] (by decide +kernel) h h1 h2 he he' d1 d2

/-- A parser made from the grammar that returns a value returns the one of the only reading. -/
theorem parser_reads {addr : Option Nat → Nat} {gfuel fuel : Nat} {tbl : Table} (ha : ∀ a b, addr a = addr b → a = b) (hg : generate grammar eof addr gfuel = some (some tbl))
    (hf : ∀ i vs u, (f i vs u).2 ≠ none) {all ts : List (Tok D)} {e : Tok D} {rest : List (Tok D)} {u u' u1 : U} {d v : Option D} (h : parse tbl f fuel all u = .value d u')
    (hT : Text all) (h1 : all = ts ++ e :: rest) (he : e.type = eof) (d1 : Der grammar f true [stm] ts u [v] u1) : d = v ∧ u' = u1 := by
  obtain ⟨ts', e', rest', h2, he', d2⟩ := parse_value grammar_ok ha hg hf h
  have := script_unique hT h2 h1 he' he d2 d1
  exact this.2

/-- Two parsers made from the grammar agree on every text for which both return a value, wherever
their states lie in memory. -/
theorem parsers_agree {addr addr' : Option Nat → Nat} {gfuel gfuel' fuel fuel' : Nat} {tbl tbl' : Table} (ha : ∀ a b, addr a = addr b → a = b) (ha' : ∀ a b, addr' a = addr' b → a = b)
    (hg : generate grammar eof addr gfuel = some (some tbl)) (hg' : generate grammar eof addr' gfuel' = some (some tbl'))
    (hf : ∀ i vs u, (f i vs u).2 ≠ none) {all : List (Tok D)} {u u1 u2 : U} {d d' : Option D} (hT : Text all) (h : parse tbl f fuel all u = .value d u1)
    (h' : parse tbl' f fuel' all u = .value d' u2) : d = d' ∧ u1 = u2 := by
  obtain ⟨ts, e, rest, h1, he, d1⟩ := parse_value grammar_ok ha' hg' hf h'
  exact parser_reads ha hg hf h hT h1 he d1

end

/-! ## Cases -/

/-- The productions a text is read with, the last one first. -/
def trace (i : Nat) (_ : List (Option Unit)) (u : List Nat) : List Nat × Option (Option Unit) := (i :: u, some none)

/-- `a :` is a label, although an expression can begin with a name as well: productions 8 and 4. -/
theorem label : Der grammar trace true [stm] [⟨1, ()⟩, ⟨4, ()⟩] [] [none] [4, 8] :=
  Der.rule (i := 4) (r := ⟨101, [1, 4, 101]⟩) rfl (Der.cons (.tok ⟨1, ()⟩ []) (Der.cons (.tok ⟨4, ()⟩ []) (Der.cons (Der.rule (i := 8) (r := ⟨101, []⟩) rfl (.nil []) rfl) (.nil [8])))) rfl

example (v : Option Unit) (us : List Nat) (d : Der grammar trace true [stm] [⟨1, ()⟩, ⟨4, ()⟩] [] [v] us) : us = [4, 8] := by
  have h : Text [(⟨1, ()⟩ : Tok Unit), ⟨4, ()⟩, ⟨0, ()⟩] := by intro t ht; simp at ht; rcases ht with e | e | e <;> subst e <;> decide
  exact (script_unique (e := ⟨0, ()⟩) (e' := ⟨0, ()⟩) (rest := []) (rest' := []) h rfl rfl rfl rfl d label).2.2

/-- A grammar in which `2 1 2 1 2` has two readings. -/
def two : List Rule := [⟨10, [11, 0]⟩, ⟨11, [11, 1, 11]⟩, ⟨11, [2]⟩]

def tk (n : Nat) : Tok Unit := ⟨n, ()⟩

theorem two_atom (u : List Nat) : Der two trace true [11] [tk 2] u [none] (2 :: u) :=
  Der.rule (i := 2) (r := ⟨11, [2]⟩) rfl (Der.cons (.tok (tk 2) u) (.nil u)) rfl

theorem two_sum {a b : List (Tok Unit)} {u v w : List Nat} (d : Der two trace true [11] a u [none] v) (e : Der two trace true [11] b v [none] w) :
    Der two trace true [11] (a ++ tk 1 :: b) u [none] (1 :: w) := by
  have := Der.rule (i := 1) (r := ⟨11, [11, 1, 11]⟩) (f := trace) rfl (Der.cons d (Der.cons (.tok (tk 1) v) (Der.cons e (.nil w)))) rfl
  simpa using this

/-- The check does not let it pass, whatever is in the tables. -/
example (c : Cert) : c.ok two = false := by
  cases h : c.ok two with
  | false => rfl
  | true =>
    exfalso
    have h0 := ok_rule h (r := ⟨10, [11, 0]⟩) (by decide)
    have hf : c.fits two [0] [11] = true := by
      simp only [Cert.ruleOk, Bool.and_eq_true, Cert.fits] at h0
      have h1 := h0.1.1.2.1
      have hn : isNt two 11 = true := by decide
      have hz : isNt two 0 = false := by decide
      simp only [hn, Bool.not_true, Bool.false_or, List.all_eq_true, decide_eq_true_eq] at h1
      have h2 : 0 ∈ c.fo 11 := h1 0 (by simp [Cert.next, Cert.fiSeq, hz])
      simp [Cert.fits, Cert.next, Cert.fiSeq, Cert.nlSeq, h2]
    have d1 := two_sum (two_sum (two_atom []) (two_atom _)) (two_atom _)
    have d2 := two_sum (two_atom []) (two_sum (two_atom _) (two_atom _))
    have hp : Plain two [tk 2, tk 1, tk 2, tk 1, tk 2] := by intro t ht; simp at ht; rcases ht with e | e | e | e | e <;> subst e <;> decide
    have := der_unique h d1 [0] [tk 2, tk 1, tk 2, tk 1, tk 2] [none] _ (tk 0) (tk 0) [] [] d2 hp hp hf (by simp [tk]) (by simp [tk]) rfl
    revert this
    decide

end Verif.LangGram
