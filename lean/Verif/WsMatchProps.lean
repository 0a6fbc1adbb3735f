import Verif.WsMatch
import Verif.RegexpItemProps
/-!
# What a match of the fields says
-/
namespace Verif.WsMatch
open Verif.Http Verif.WsHand Verif.Regexp

/-! ## Specification -/

/-- The request has the field, and its value contains the text. -/
def Has (h : Http) (e : List Http.Byte × List Http.Byte) : Prop :=
  ∃ t, fieldGet h e.1 = some t ∧ ∃ l r, t = l ++ e.2 ++ r

/-- The request has the field with this value. -/
def Same (h : Http) (e : List Http.Byte × List Http.Byte) : Prop := fieldGet h e.1 = some e.2

/-- A text without bytes that mean something in a pattern. -/
def Letters (v : List Http.Byte) : Prop := v ≠ [] ∧ ∀ b ∈ v, Plain b

/-! ## Proof -/

theorem fits_bytes : ∀ {v w : List Http.Byte}, fitsAll (v.map Item.byte) w = true ↔ w = v := by
  intro v
  induction v with
  | nil => intro w; cases w <;> simp [fitsAll]
  | cons b v ih =>
    intro w
    cases w with
    | nil => simp [fitsAll]
    | cons t w => simp [fitsAll, ih, Item.fits]

theorem occ_pos {v : List Http.Byte} (hv : v ≠ []) : ∀ {t : List Http.Byte}, (0 < (occ (v.map Item.byte) 0 t).length ↔ ∃ l r, t = l ++ v ++ r) := by
  intro t
  induction t with
  | nil => simp [occ, hv]
  | cons b t ih =>
    rw [occ]
    split
    · rename_i hf
      have := fits_bytes.1 hf
      refine ⟨fun _ => ⟨[], (b :: t).drop (v.map Item.byte).length, ?_⟩, fun _ => by simp⟩
      have h2 := List.take_append_drop (v.map Item.byte).length (b :: t)
      rw [this] at h2
      rw [List.nil_append, h2]
    · rename_i hf
      rw [ih]
      constructor
      · rintro ⟨l, r, rfl⟩
        exact ⟨b :: l, r, rfl⟩
      · rintro ⟨l, r, h⟩
        cases l with
        | nil =>
          refine absurd (fits_bytes.2 ?_) hf
          rw [h]; simp
        | cons c l =>
          simp only [List.cons_append, List.cons.injEq] at h
          exact ⟨l, r, h.2⟩

theorem write_bytes (v : List Http.Byte) : Regexp.write false (v.map Item.byte) false = v := by
  simp only [Regexp.write, Bool.false_eq_true, if_false, List.nil_append, List.append_nil]
  induction v with
  | nil => rfl
  | cons b v ih => simp [Item.src] at ih ⊢; exact ih

theorem handler_letters {fuel : Nat} {h : Http} {e : List Http.Byte × List Http.Byte} (hv : Letters e.2) (hf : e.2.length + 3 ≤ fuel)
    (ht : ∀ t, fieldGet h e.1 = some t → t.length < fuel) :
    ∃ b, handler fuel true h e = some b ∧ (b = true ↔ Has h e) := by
  unfold handler Has
  cases hg : fieldGet h e.1 with
  | none => exact ⟨false, rfl, by simp⟩
  | some t =>
    have hm := match_items (is := e.2.map Item.byte) (fuel := fuel) (text := t) (by
      intro i hi
      obtain ⟨b, hb, rfl⟩ := List.mem_map.1 hi
      exact hv.2 b hb) (by simpa using hv.1) (by
      intro i hi
      obtain ⟨b, hb, rfl⟩ := List.mem_map.1 hi
      rfl) (by simpa using hf) (ht t hg)
    rw [write_bytes] at hm
    refine ⟨_, by simp [hm]; rfl, ?_⟩
    simp only [decide_eq_true_eq, Option.some.injEq, exists_eq_left']
    exact occ_pos hv.1

theorem iterate_letters {fuel : Nat} {h : Http} : ∀ {es : List (List Http.Byte × List Http.Byte)}, (∀ e ∈ es, Letters e.2 ∧ e.2.length + 3 ≤ fuel) →
    (∀ e ∈ es, ∀ t, fieldGet h e.1 = some t → t.length < fuel) → ∃ b, iterate fuel true h es = some b ∧ (b = true ↔ ∀ e ∈ es, Has h e) := by
  intro es
  induction es with
  | nil => intro _ _; exact ⟨true, rfl, by simp⟩
  | cons e es ih =>
    intro hv ht
    obtain ⟨b, h1, h2⟩ := handler_letters (hv e (by simp)).1 (hv e (by simp)).2 (ht e (by simp))
    obtain ⟨c, h3, h4⟩ := ih (fun x hx => hv x (by simp [hx])) fun x hx => ht x (by simp [hx])
    cases b with
    | false =>
      refine ⟨false, by simp [iterate, h1], ?_⟩
      simp only [Bool.false_eq_true, false_iff] at h2 ⊢
      exact fun hc => h2 (hc e (by simp))
    | true =>
      refine ⟨c, by simp [iterate, h1, h3], ?_⟩
      rw [h4]
      simp [h2.1 rfl]

/-! ## Properties -/

/-- C327: with values of letters, digits and other bytes that mean nothing in a pattern, mln_websocket_match succeeds
exactly when the request has every field and its value contains the value set. -/
theorem match_partial {fuel : Nat} (ws : Ws) (hv : ∀ e ∈ ws.fields, Letters e.2 ∧ e.2.length + 3 ≤ fuel)
    (ht : ∀ e ∈ ws.fields, ∀ t, fieldGet ws.http e.1 = some t → t.length < fuel) :
    ∃ r, wsMatch fuel true ws = some r ∧ (r = .ok ∨ r = .error) ∧ (r = .ok ↔ ∀ e ∈ ws.fields, Has ws.http e) := by
  obtain ⟨b, h1, h2⟩ := iterate_letters hv ht
  refine ⟨if b then .ok else .error, by rw [wsMatch, h1]; rfl, by cases b <;> simp, ?_⟩
  rw [← h2]
  cases b <;> simp

/-- A request whose fields are those set is accepted. -/
theorem same_partial {fuel : Nat} (ws : Ws) (hv : ∀ e ∈ ws.fields, Letters e.2 ∧ e.2.length + 3 ≤ fuel) (hs : ∀ e ∈ ws.fields, Same ws.http e) :
    wsMatch fuel true ws = some .ok := by
  obtain ⟨r, h1, _, h3⟩ := match_partial ws hv (by
    intro e he t ht
    have := hs e he
    rw [Same, ht] at this
    cases this
    have := (hv e he).2
    omega)
  rw [h1, h3.2 fun e he => ⟨e.2, hs e he, [], [], by simp⟩]

/-- But so is every request whose values have the values set somewhere inside. -/
theorem inside_refuted {fuel : Nat} (ws : Ws) (k v l r : List Http.Byte) (hw : ws.fields = [(k, v)]) (hv : Letters v)
    (hg : fieldGet ws.http k = some (l ++ v ++ r)) (hl : l ++ r ≠ []) (hf : (l ++ v ++ r).length + 3 ≤ fuel) :
    wsMatch fuel true ws = some .ok ∧ ¬∀ e ∈ ws.fields, Same ws.http e := by
  constructor
  · obtain ⟨q, h1, _, h3⟩ := match_partial (fuel := fuel) ws (by
      rw [hw]; intro e he
      rw [List.mem_singleton.1 he]
      exact ⟨hv, by simp only [List.length_append] at hf ⊢; omega⟩) (by
      rw [hw]; intro e he t ht
      rw [List.mem_singleton.1 he] at ht
      rw [hg] at ht
      cases ht
      omega)
    rw [h1, h3.2]
    rw [hw]; intro e he
    rw [List.mem_singleton.1 he]
    exact ⟨_, hg, l, r, rfl⟩
  · rw [hw]
    intro hc
    have := hc (k, v) (by simp)
    rw [Same, hg] at this
    simp only [Option.some.injEq] at this
    have := congrArg List.length this
    simp only [List.length_append] at this
    have h0 : 0 < (l ++ r).length := List.length_pos_of_ne_nil hl
    simp only [List.length_append] at h0
    omega

/-- A field that was set to the empty value is refused, whatever the request has, the empty value too. -/
theorem empty_refuted {fuel : Nat} (ws : Ws) (room : Bool) (k : List Http.Byte) (es : List (List Http.Byte × List Http.Byte)) (hw : ws.fields = (k, []) :: es) (hf : 0 < fuel) :
    wsMatch fuel room ws = some .error := by
  obtain ⟨n, rfl⟩ : ∃ n, fuel = n + 1 := ⟨fuel - 1, by omega⟩
  have hr : ∀ t, regMatch (n + 1) [] t = some [] := by
    intro t
    simp [regMatch, matchLoop, here, body]
  rw [wsMatch, hw, iterate]
  have : handler (n + 1) room ws.http (k, []) = some false := by
    unfold handler
    cases fieldGet ws.http k with
    | none => rfl
    | some t => cases room <;> simp [hr]
  simp [this]

/-- A value with a byte that means something in a pattern does not match itself. -/
theorem pattern_refuted : wsMatch 40 true { http := { fields := [([88], some [97, 43, 98])] }, fields := [([88], [97, 43, 98])] } = some .error := by decide +kernel

/-- A field that the request does not have is refused, whatever pattern was set. -/
theorem missing {fuel : Nat} {room : Bool} (ws : Ws) (a b : List (List Http.Byte × List Http.Byte)) (k v : List Http.Byte) (hw : ws.fields = a ++ (k, v) :: b)
    (hg : fieldGet ws.http k = none) : wsMatch fuel room ws = some .error ∨ wsMatch fuel room ws = none := by
  have : ∀ a, iterate fuel room ws.http (a ++ (k, v) :: b) = some false ∨ iterate fuel room ws.http (a ++ (k, v) :: b) = none := by
    intro a
    induction a with
    | nil => left; simp [iterate, handler, hg]
    | cons e a ih =>
      rw [List.cons_append, iterate]
      cases h : handler fuel room ws.http e with
      | none => right; rfl
      | some c =>
        cases c with
        | false => left; simp
        | true => simpa using ih
  rw [wsMatch, hw]
  rcases this a with h | h
  · left; rw [h]; rfl
  · right; rw [h]; rfl

/-- Without memory every field is refused. -/
theorem no_room {fuel : Nat} (ws : Ws) : wsMatch fuel false ws = some (if ws.fields = [] then .ok else .error) := by
  rw [wsMatch]
  cases h : ws.fields with
  | nil => rfl
  | cons e es =>
    have : handler fuel false ws.http e = some false := by
      unfold handler
      cases fieldGet ws.http e.1 <;> simp
    simp [iterate, this]

/-! ## Examples -/

-- X: abc is wanted, the request has X: zabcz
example : wsMatch 40 true { http := { fields := [([88], some [122, 97, 98, 99, 122])] }, fields := [([88], [97, 98, 99])] } = some .ok := by decide +kernel
example : wsMatch 40 true { http := { fields := [([88], some [122, 97, 98, 122])] }, fields := [([88], [97, 98, 99])] } = some .error := by decide +kernel
example : Letters [97, 98, 99] := by unfold Letters; decide

end Verif.WsMatch
