import Verif.LangKey
import Verif.RbTreeProps
import Verif.StrProps

/-!
# Properties of the key tree of arrays (C262)
-/
namespace Verif.LangKey

open Verif.RbTree
open Verif.Str (Byte strcmp Ascii strcmp_zero strcmp_order_partial strcmp_key_partial)

/-- What is known about a tree: `seen` lists keys with the elements they gave. -/
structure Good {α : Type} (cmp : α → α → Int) (t : Tree α) (s : S α) (seen : List (α × Nat)) : Prop where
  inv : Inv cmp t s
  heap : ∀ i, (t.chain.heap i).isSome
  range : ∀ i ∈ s.queue, i ≤ t.nr
  dist : ∀ i ∈ s.queue, ∀ j ∈ s.queue, s.data i = s.data j → i = j
  seen : ∀ p ∈ seen, p.2 ∈ s.queue ∧ s.data p.2 = p.1

theorem touch_good {α : Type} {cmp : α → α → Int} (o : CmpOrd cmp) (ez : ∀ a b, cmp a b = 0 ↔ a = b) {t : Tree α} {s : S α} {seen : List (α × Nat)}
    (g : Good cmp t s seen) (k : α) : ∃ t' s' x, touch cmp t k = some (t', x) ∧ Good cmp t' s' ((k, x) :: seen) := by
  obtain ⟨x, hx, hc⟩ := search_nr o g.inv k
  rcases hc with ⟨h0, hn⟩ | ⟨hm, he⟩
  · have hfresh : t.nr + 1 ∉ s.queue := fun h => by have := g.range _ h; omega
    have h1 := assign_ok g.inv k hfresh
    obtain ⟨t', e1, e2, e3, e4, e5⟩ := insert_ok o h1 (n := t.nr + 1) (by omega) hfresh (g.heap _)
    refine ⟨t', _, t.nr + 1, ?_, ⟨e2, fun i => (e5 i).2 (g.heap i), ?_, ?_, ?_⟩⟩
    · simp [touch, hx, h0, e1]
    · have hnr : t'.nr = t.nr + 1 := by
        have h2 := e2.nr
        rw [e2.perm.length_eq] at h2
        simp only [specStep, List.length_append, List.length_singleton] at h2
        have h3 := g.inv.nr
        rw [g.inv.perm.length_eq] at h3
        omega
      intro i hi
      simp only [specStep, List.mem_append, List.mem_singleton] at hi
      rcases hi with hi | hi
      · have := g.range i hi; omega
      · omega
    · intro i hi j hj
      simp only [specStep, List.mem_append, List.mem_singleton, upd] at hi hj ⊢
      rcases hi with hi | hi <;> rcases hj with hj | hj
      · rw [if_neg (fun e : i = t.nr + 1 => hfresh (e ▸ hi)), if_neg (fun e : j = t.nr + 1 => hfresh (e ▸ hj))]
        exact g.dist i hi j hj
      · subst hj
        rw [if_neg (fun e : i = t.nr + 1 => hfresh (e ▸ hi)), if_pos rfl]
        intro e
        exact absurd ((ez _ _).2 e.symm) (hn i hi)
      · subst hi
        rw [if_pos rfl, if_neg (fun e : j = t.nr + 1 => hfresh (e ▸ hj))]
        intro e
        exact absurd ((ez _ _).2 e) (hn j hj)
      · intro _; rw [hi, hj]
    · intro p hp
      simp only [specStep, List.mem_append, List.mem_singleton, upd]
      rcases List.mem_cons.1 hp with rfl | hp
      · exact ⟨Or.inr rfl, if_pos rfl⟩
      · obtain ⟨h1, h2⟩ := g.seen p hp
        refine ⟨Or.inl h1, ?_⟩
        rw [if_neg (fun e : p.2 = t.nr + 1 => hfresh (e ▸ h1))]
        exact h2
  · refine ⟨t, s, x, ?_, ⟨g.inv, g.heap, g.range, g.dist, ?_⟩⟩
    · simp [touch, hx, g.inv.nz hm]
    · intro p hp
      rcases List.mem_cons.1 hp with rfl | hp
      · exact ⟨hm, ((ez _ _).1 he).symm⟩
      · exact g.seen p hp

theorem touches_good {α : Type} {cmp : α → α → Int} (o : CmpOrd cmp) (ez : ∀ a b, cmp a b = 0 ↔ a = b) : ∀ (ks : List α) {t : Tree α} {s : S α} {seen : List (α × Nat)},
    Good cmp t s seen → ∃ xs t' s', touches cmp t ks = some xs ∧ xs.length = ks.length ∧ Good cmp t' s' ((ks.zip xs).reverse ++ seen)
  | [], t, s, seen, g => ⟨[], t, s, rfl, rfl, g⟩
  | k :: ks, t, s, seen, g => by
    obtain ⟨t1, s1, x, e1, g1⟩ := touch_good o ez g k
    obtain ⟨xs, t2, s2, e2, e3, g2⟩ := touches_good o ez ks g1
    refine ⟨x :: xs, t2, s2, by simp [touches, e1, e2], by simp [e3], ?_⟩
    simpa using g2

/-- With any order that tells keys apart: two index expressions give the same element exactly when their keys are equal. -/
theorem touches_spec {α : Type} {cmp : α → α → Int} (o : CmpOrd cmp) (ez : ∀ a b, cmp a b = 0 ↔ a = b) (d : α) (ks : List α) :
    ∃ xs, touches cmp (empty d) ks = some xs ∧ ∃ h : xs.length = ks.length,
      ∀ i j (hi : i < ks.length) (hj : j < ks.length), xs[i] = xs[j] ↔ ks[i] = ks[j] := by
  have g0 : Good cmp (empty d) (S.empty fun _ => d) ([] : List (α × Nat)) :=
    ⟨new_inv cmp _ _ _, fun _ => rfl, by simp [S.empty], by simp [S.empty], by simp⟩
  obtain ⟨xs, t', s', e1, e2, g⟩ := touches_good o ez ks g0
  refine ⟨xs, e1, e2, ?_⟩
  intro i j hi hj
  have mem : ∀ i (hi : i < ks.length), (ks[i], xs[i]) ∈ (ks.zip xs).reverse ++ [] := by
    intro i hi
    rw [List.append_nil, List.mem_reverse, List.mem_iff_getElem]
    exact ⟨i, by simp [e2, hi], by simp⟩
  obtain ⟨a1, a2⟩ := g.seen _ (mem i hi)
  obtain ⟨b1, b2⟩ := g.seen _ (mem j hj)
  simp only at a1 a2 b1 b2
  constructor
  · intro e; rw [← a2, ← b2, e]
  · intro e; exact g.dist _ a1 _ b1 (by rw [a2, b2, e])

/-- Strings of 7-bit characters. -/
abbrev Txt := { s : List Byte // Ascii s }

/-- The comparison of the array on them. -/
def cmpTxt (a b : Txt) : Int := cmpStr a.1 b.1

theorem cmpTxt_zero (a b : Txt) : cmpTxt a b = 0 ↔ a = b := by
  obtain ⟨r, hr, h⟩ := strcmp_zero a.1 b.1
  rw [cmpTxt, cmpStr, hr, Option.getD_some, h, Subtype.ext_iff]

theorem cmpTxt_ord : CmpOrd cmpTxt := by
  have sign : ∀ a b, cmpTxt a b < 0 ↔ 0 < cmpTxt b a := by
    intro a b
    obtain ⟨x, y, e1, e2, e3⟩ := (strcmp_order_partial a.1 b.1 a.1 a.2 b.2 a.2).1
    rw [cmpTxt, cmpTxt, cmpStr, cmpStr, e1, e2]
    exact e3
  refine ⟨sign, ?_⟩
  intro a b c h1 h2
  by_cases z1 : cmpTxt a b = 0
  · rw [(cmpTxt_zero a b).1 z1]; exact h2
  · by_cases z2 : cmpTxt b c = 0
    · rw [← (cmpTxt_zero b c).1 z2]; exact h1
    · have l1 : cmpTxt a b < 0 := by omega
      have l2 : cmpTxt b c < 0 := by omega
      obtain ⟨x, e1, _⟩ := strcmp_key_partial a.1 b.1 a.2 b.2
      obtain ⟨y, e2, _⟩ := strcmp_key_partial b.1 c.1 b.2 c.2
      obtain ⟨z, e3, _⟩ := strcmp_key_partial a.1 c.1 a.2 c.2
      have := (strcmp_order_partial a.1 b.1 c.1 a.2 b.2 c.2).2 x y z e1 e2 e3
      simp only [cmpTxt, cmpStr, e1, e2, e3, Option.getD_some] at l1 l2 ⊢
      have := this l1 l2
      omega

/-- C262, partial: keys of 7-bit characters: two index expressions give the same element exactly when their keys are
equal.  Missing: other strings, see `key_lost`. -/
theorem keys_partial (ks : List Txt) : ∃ xs, touches cmpTxt (empty ⟨[], by simp [Ascii]⟩) ks = some xs ∧ ∃ h : xs.length = ks.length,
    ∀ i j (hi : i < ks.length) (hj : j < ks.length), xs[i] = xs[j] ↔ ks[i] = ks[j] :=
  touches_spec cmpTxt_ord cmpTxt_zero _ ks

/-- Texts of four bytes: "abc0", "abc`", and "ab" with the two-byte characters U+00C0, U+00F4 ... U+00FA. -/
def badKeys : List (List Byte) := [[97, 98, 99, 48], [97, 98, 99, 96], [97, 98, 0xc3, 0x80], [97, 98, 0xc3, 0xb4], [97, 98, 0xc3, 0xb5],
  [97, 98, 0xc3, 0xb6], [97, 98, 0xc3, 0xb7], [97, 98, 0xc3, 0xb8], [97, 98, 0xc3, 0xb9], [97, 98, 0xc3, 0xba]]

/-- Refutation of C262: after these ten keys the first one is not found any more: it gets a second element. -/
theorem key_lost : touches cmpStr (empty []) (badKeys ++ [[97, 98, 99, 48]]) = some [1, 2, 3, 4, 5, 6, 7, 8, 9, 10, 11] := by decide +kernel

example : touches cmpStr (empty []) [[97], [98], [97], [97, 98, 99, 100], [98], [97, 98, 99, 101], [97, 98, 99, 100]] = some [1, 2, 1, 3, 2, 4, 3] := by decide +kernel

end Verif.LangKey
