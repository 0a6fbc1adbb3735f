import Verif.CronProps

/-
What a period ("*/5", "10/15") means in the fields of mln_cron_parse (src/mln_cron.c), and the
weekday 7.

Spec: a period `p` behind a star in the minute field counts from the base: the result is `p` minutes
after it.  The usual reading (the minutes that are multiples of `p`) is refuted.
-/
namespace Verif.Cron

open Verif.Time

/-- A text of decimal digits. -/
def Digits (s : List Byte) : Prop := ∀ b ∈ s, 48 ≤ b.toNat ∧ b.toNat ≤ 57

theorem Digits.no_slash {s : List Byte} (h : Digits s) : ∀ b ∈ s, b ≠ 47#8 := by
  intro b hb; rintro rfl; have := h _ hb; simp at this

theorem lastSlash_append (l r : List Byte) (h : ∀ b ∈ r, b ≠ 47#8) : lastSlash (l ++ 47#8 :: r) = some (l, r) := by
  induction l with
  | nil => simp [lastSlash, lastSlash_none r h]
  | cons b l ih => simp [lastSlash, ih]

theorem field_period (f : Field) (l r : List Byte) (h : ∀ b ∈ r, b ≠ 47#8) : field f (l ++ 47#8 :: r) =
    if atol r < f.perLo ∨ atol r ≥ f.perHi then some (-1) else items f (atol r) l [] 0 := by
  unfold field
  rw [if_neg (by simp), if_neg (by
    intro e
    have : (47#8 : Byte) ∈ ([42#8] : List Byte) := by rw [← e]; simp
    simp at this), lastSlash_append l r h]

theorem field_star_period (f : Field) (ps : List Byte) (h : Digits ps) (lo : f.perLo ≤ val ps) (hi : (val ps : Int) < f.perHi) :
    field f (42#8 :: 47#8 :: ps) = some (f.star (val ps)) := by
  have e := field_period f [42#8] ps h.no_slash
  rw [atol_val ps h, if_neg (by omega)] at e
  rw [show 42#8 :: 47#8 :: ps = [42#8] ++ 47#8 :: ps from rfl, e, items_cons]
  simp [items]

/-- The minute field gives a later minute, the others are stars: the result is that much later. -/
theorem cron_advance (exp : List Byte) (t k : Nat) (a : List Byte) (r : List (List Byte))
    (hw : words exp = a :: [42#8] :: [42#8] :: [42#8] :: [42#8] :: r)
    (ha : field (minuteF (minuteOf t)) a = some ((minuteOf t + k : Nat) : Int)) : parse true exp t = some ((t + k * 60 : Nat) : Int) := by
  rw [parse_stages exp t _ _ _ _ _ r hw, ha, Option.bind_some, if_neg (by omega), adv_minute t _ (by omega), Option.bind_some]
  generalize ht1 : t + (minuteOf t + k - minuteOf t) * 60 = t1
  rw [sH_some t t1 (hourOf t1) _ _ _ _ (by rw [field_star]; rfl) (Nat.le_refl _), Nat.sub_self, Nat.zero_mul, Nat.add_zero,
    sD_some t t1 (day t1).d _ _ _ (by rw [field_star]; rfl) (Nat.le_refl _), Nat.sub_self, Nat.zero_mul, Nat.add_zero]
  have dp := day_pos t1
  obtain ⟨t4, e4, _, _, q, _⟩ := sM_some t t1 (day t1).m [42#8] [42#8] (by rw [field_star]; rfl) dp.2.1 dp.2.2
  rw [e4, q rfl, sW_some t t1 (weekdayOf t1) _ (by rw [field_star]; rfl) (Nat.le_refl _), Nat.sub_self, Nat.zero_mul, Nat.add_zero, ← ht1, Nat.add_sub_cancel_left]

/-- "*/p * * * *": exactly `p` minutes after the base. -/
theorem cron_period (exp : List Byte) (t : Nat) (ps : List Byte) (r : List (List Byte)) (h : Digits ps)
    (lo : 1 ≤ val ps) (hi : val ps < 60) (hw : words exp = (42#8 :: 47#8 :: ps) :: [42#8] :: [42#8] :: [42#8] :: [42#8] :: r) :
    parse true exp t = some ((t + val ps * 60 : Nat) : Int) := by
  refine cron_advance exp t _ _ r hw ?_
  rw [field_star_period _ ps h (by simp only [minuteF]; omega) (by simp only [minuteF]; omega)]
  simp only [minuteF, starGen, Bool.false_eq_true, if_false]
  rw [if_pos (by omega)]; simp

/-- "m/p * * * *" in the minute `m`: again `p` minutes after the base. -/
theorem cron_item_period (exp : List Byte) (t : Nat) (ds ps : List Byte) (r : List (List Byte)) (hd : Digits ds) (h : Digits ps)
    (hn : ds ≠ []) (hl : ds.length ≤ 2) (hv : val ds = minuteOf t) (lo : 1 ≤ val ps) (hi : val ps < 60)
    (hw : words exp = (ds ++ 47#8 :: ps) :: [42#8] :: [42#8] :: [42#8] :: [42#8] :: r) :
    parse true exp t = some ((t + val ps * 60 : Nat) : Int) := by
  refine cron_advance exp t _ _ r hw ?_
  have mt := minute_lt t
  rw [field_period _ ds ps h.no_slash, atol_val ps h, if_neg (by simp only [minuteF]; omega)]
  have e := items_digits (minuteF (minuteOf t)) (val ps) ds [] [] 0 hd
  rw [List.append_nil, List.nil_append] at e
  rw [e]
  simp only [items, hn, if_false, item, atol_val ds hd, hv, minuteF, Bool.and_false, Bool.false_and, Bool.false_eq_true, if_true]
  rw [if_neg (by omega), if_neg (by omega), if_neg (by omega)]
  simp [updMin]

/-- "*,* * * * *" is "* * * * *". -/
theorem cron_star_list (exp : List Byte) (t : Nat) (r : List (List Byte))
    (hw : words exp = [42#8, 44#8, 42#8] :: [42#8] :: [42#8] :: [42#8] :: [42#8] :: r) :
    parse true exp t = some ((t + 60 : Nat) : Int) := by
  have := cron_advance exp t 1 _ r hw (by
    simp [field, lastSlash, items, minuteF, starGen])
  simpa using this

theorem digits_nonneg : ∀ (s : List Byte) (a : Int), 0 ≤ a → 0 ≤ digits s a := by
  intro s
  induction s with
  | nil => intro a h; exact h
  | cons b s ih =>
    intro a h
    simp only [digits]
    split
    · rename_i hb
      simp only [isDig, Bool.and_eq_true, decide_eq_true_eq] at hb
      exact ih _ (by omega)
    · exact h

/-- A period in the minute field that is 0 or negative is refused: no time is returned. -/
theorem cron_negative_period (exp : List Byte) (t : Nat) (l s : List Byte) (b c d e : List Byte) (r : List (List Byte))
    (hs : ∀ x ∈ s, x ≠ 47#8) (hw : words exp = (l ++ 47#8 :: 45#8 :: s) :: b :: c :: d :: e :: r) :
    parse true exp t = some 0 := by
  have hneg : atol (45#8 :: s) ≤ 0 := by
    have := digits_nonneg s 0 (by omega)
    simp [atol, isSpace]; omega
  rw [parse_stages exp t _ _ _ _ _ r hw, field_period _ l (45#8 :: s) (by
    intro x hx; rcases List.mem_cons.1 hx with rfl | hx
    · decide
    · exact hs x hx), if_pos (Or.inl (by simp only [minuteF]; omega))]
  simp

/-- A period of 60 or more minutes is refused. -/
theorem cron_large_period (exp : List Byte) (t : Nat) (l ps : List Byte) (b c d e : List Byte) (r : List (List Byte))
    (h : Digits ps) (hp : 60 ≤ val ps) (hw : words exp = (l ++ 47#8 :: ps) :: b :: c :: d :: e :: r) :
    parse true exp t = some 0 := by
  rw [parse_stages exp t _ _ _ _ _ r hw, field_period _ l ps h.no_slash, atol_val ps h, if_pos (Or.inr (by simp only [minuteF]; omega))]
  simp

/-- The weekday 7 is the weekday 0, in every field before it and at every base. -/
theorem cron_week_seven (exp exp' : List Byte) (t : Nat) (a b c d : List Byte) (r r' : List (List Byte))
    (hw : words exp = a :: b :: c :: d :: [55#8] :: r) (hw' : words exp' = a :: b :: c :: d :: [48#8] :: r') :
    parse true exp t = parse true exp' t := by
  have e : ∀ w g, field (weekF w g) [55#8] = field (weekF w g) [48#8] := by
    intro w g
    have h7 : isDig 55#8 = true := by decide
    have h0 : isDig 48#8 = true := by decide
    have a7 : atol [55#8] = 7 := by decide
    have a0 : atol [48#8] = 0 := by decide
    simp [field, lastSlash, items, h7, h0, item, weekF, a7, a0]
  have ew : sW t [55#8] = sW t [48#8] := by
    funext u; unfold sW; simp only [e]
  have em : sM t d [55#8] = sM t d [48#8] := by funext u; unfold sM; rw [ew]
  have ed : sD t c d [55#8] = sD t c d [48#8] := by funext u; unfold sD; rw [em]
  have eh : sH t b c d [55#8] = sH t b c d [48#8] := by funext u; unfold sH; rw [ed]
  rw [parse_stages exp t _ _ _ _ _ r hw, parse_stages exp' t _ _ _ _ _ r' hw', eh]

/-- The usual meaning of "*/p": the result lies in a minute that is a multiple of `p`.  It does so exactly
if the minute of the base and the carry at the hour let it; for `p` dividing 60, exactly if the base does. -/
theorem cron_period_multiple (exp : List Byte) (t : Nat) (ps : List Byte) (r : List (List Byte)) (h : Digits ps)
    (lo : 1 ≤ val ps) (hi : val ps < 60) (hdiv : val ps ∣ 60)
    (hw : words exp = (42#8 :: 47#8 :: ps) :: [42#8] :: [42#8] :: [42#8] :: [42#8] :: r) :
    ∃ v : Nat, parse true exp t = some (v : Int) ∧ (val ps ∣ minuteOf v ↔ val ps ∣ minuteOf t) := by
  refine ⟨_, cron_period exp t ps r h lo hi hw, ?_⟩
  have e : minuteOf (t + val ps * 60) = (minuteOf t + val ps) % 60 := by unfold minuteOf; omega
  rw [e, Nat.dvd_mod_iff hdiv, Nat.dvd_add_self_right]

/-- "*/5" at 04:46 gives 04:51, which is no multiple of 5 minutes. -/
theorem cron_period_unaligned : parse true (txt "*/5 * * * *") 1712724367 = some 1712724667 ∧ minuteOf 1712724667 = 51 := by
  decide +kernel

example : parse true (txt "*/15 * * * *") 1712724307 = some 1712725207 := by decide +kernel
example : parse true (txt "45/10 * * * *") 1712724307 = some 1712724907 := by decide +kernel
example : parse true (txt "*/-5 * * * *") 1712724307 = some 0 := by decide +kernel
example : parse true (txt "*/60 * * * *") 1712724307 = some 0 := by decide +kernel
example : parse true (txt "*,* * * * *") 1712724307 = some 1712724367 := by decide +kernel
example : parse true (txt "* * * * 7") 1712724307 = some 1713069967 := by decide +kernel
example : parse true (txt "* * * * 0") 1712724307 = some 1713069967 := by decide +kernel

end Verif.Cron
