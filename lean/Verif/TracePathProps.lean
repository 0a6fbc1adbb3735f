import Verif.TracePath
/-!
# Where the script of the traces is found
-/
namespace Verif.TracePath
open Verif.Conf

/-! ## Specification -/

/-- A search finds an entry with the name, if there is one. -/
structure Search.Good (S : Search) : Prop where
  dom_some : ∀ {C k d}, S.dom C k = some d → d ∈ C ∧ d.name = k
  dom_none : ∀ {C k}, S.dom C k = none → ∀ d ∈ C, d.name ≠ k
  cmd_some : ∀ {d k c}, S.cmd d k = some c → c ∈ d.cmds ∧ c.1 = k
  cmd_none : ∀ {d k}, S.cmd d k = none → ∀ c ∈ d.cmds, c.1 ≠ k

/-- The configuration says `trace_mode "p";` outside of the named domains. -/
def Says (C : Conf) (p : List (BitVec 8)) : Prop := ∃ d ∈ C, d.name = main ∧ (traceMode, [Item.str p]) ∈ d.cmds

/-- There is one domain and one command of the names. -/
def Single (C : Conf) : Prop :=
  (∀ d ∈ C, ∀ e ∈ C, d.name = main → e.name = main → d = e) ∧
  (∀ d ∈ C, d.name = main → ∀ c ∈ d.cmds, ∀ c' ∈ d.cmds, c.1 = traceMode → c'.1 = traceMode → c = c')

/-! ## Properties -/

/-- C333: what mln_trace_path gives is in the configuration. -/
theorem path_sound {S : Search} (hS : S.Good) {C : Conf} {p : List (BitVec 8)} (h : path S (some C) = some p) : Says C p := by
  simp only [path] at h
  split at h
  · simp at h
  · rename_i d hd
    split at h
    · simp at h
    · rename_i cc hc
      obtain ⟨h1, h2⟩ := hS.dom_some hd
      obtain ⟨h3, h4⟩ := hS.cmd_some hc
      split at h
      · simp at h
      · rename_i ci hi
        split at h
        · simp at h
        · rename_i hlen
          obtain ⟨n, is⟩ := cc
          simp only at h4 hlen hi h3
          subst h4
          obtain ⟨x, rfl⟩ : ∃ x, is = [x] := List.length_eq_one_iff.1 (by omega)
          simp only [itemSearch, List.length_singleton] at hi
          simp at hi
          subst hi
          split at h
          · simp only [Option.some.injEq] at h
            subst h
            exact ⟨d, h1, h2, h3⟩
          · simp at h

/-- When there is one such domain and one such command, the script is found exactly when the configuration says it. -/
theorem path_partial {S : Search} (hS : S.Good) {C : Conf} (hC : Single C) (p : List (BitVec 8)) : path S (some C) = some p ↔ Says C p := by
  refine ⟨path_sound hS, ?_⟩
  rintro ⟨d, hd, hn, hc⟩
  cases e : S.dom C main with
  | none => exact absurd hn (hS.dom_none e d hd)
  | some d' =>
    obtain ⟨h1, h2⟩ := hS.dom_some e
    obtain rfl := hC.1 d' h1 d hd h2 hn
    cases e' : S.cmd d' traceMode with
    | none => exact absurd rfl (hS.cmd_none e' _ hc)
    | some c =>
      obtain ⟨h3, h4⟩ := hS.cmd_some e'
      have := hC.2 d' hd hn c h3 _ hc h4 rfl
      subst this
      simp [path, e, e', itemSearch]

/-- Without a configuration there is no script. -/
theorem no_conf (S : Search) : path S none = none := rfl

/-- Of two commands `trace_mode` with different scripts, a search may find either: the configuration does not settle it. -/
theorem double_refuted (p q : List (BitVec 8)) : ∃ S S' : Search, S.Good ∧ S'.Good ∧
    path S (some [{ name := main, cmds := [(traceMode, [.str p]), (traceMode, [.str q])] }]) = some p ∧
    path S' (some [{ name := main, cmds := [(traceMode, [.str p]), (traceMode, [.str q])] }]) = some q := by
  refine ⟨⟨fun C k => C.find? fun d => d.name = k, fun d k => d.cmds.find? fun c => c.1 = k⟩,
    ⟨fun C k => C.find? fun d => d.name = k, fun d k => d.cmds.reverse.find? fun c => c.1 = k⟩, ?_, ?_, ?_, ?_⟩
  · constructor
    · intro C k d h; exact ⟨List.mem_of_find?_eq_some h, by simpa using List.find?_some h⟩
    · intro C k h d hd; simpa using List.find?_eq_none.1 h d hd
    · intro d k c h; exact ⟨List.mem_of_find?_eq_some h, by simpa using List.find?_some h⟩
    · intro d k h c hc; simpa using List.find?_eq_none.1 h c hc
  · constructor
    · intro C k d h; exact ⟨List.mem_of_find?_eq_some h, by simpa using List.find?_some h⟩
    · intro C k h d hd; simpa using List.find?_eq_none.1 h d hd
    · intro d k c h; exact ⟨List.mem_reverse.1 (List.mem_of_find?_eq_some h), by simpa using List.find?_some h⟩
    · intro d k h c hc; simpa using List.find?_eq_none.1 h c (List.mem_reverse.2 hc)
  · simp [path, itemSearch]
  · simp [path, itemSearch]

/-! ## Examples -/

/-- Searches that give the first entry. -/
def first : Search := ⟨fun C k => C.find? fun d => d.name = k, fun d k => d.cmds.find? fun c => c.1 = k⟩

example : path first (some [{ name := [97#8] }, { name := main, cmds := [([97#8], []), (traceMode, [.str [116#8, 46#8, 109#8]])] }]) = some [116#8, 46#8, 109#8] := by decide
-- `trace_mode off;`, and two arguments
example : path first (some [{ name := main, cmds := [(traceMode, [.bool false])] }]) = none := by decide
example : path first (some [{ name := main, cmds := [(traceMode, [.str [116#8], .str [117#8]])] }]) = none := by decide

end Verif.TracePath
