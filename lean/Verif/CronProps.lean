import Verif.Cron
import Verif.TimeProps
import Verif.StrSearchProps
import Mathlib.Tactic.Common
/-
C52 and C75: what mln_cron_parse returns.
-/
namespace Verif.Cron
open Verif.Time

/-! ## Specification -/

/-- The words of an expression: split at spaces and tabs, empty words dropped; `cur` is the
word being read. -/
def wordsFrom : List Byte → List Byte → List (List Byte)
  | [], cur => if cur = [] then [] else [cur]
  | b :: bs, cur =>
    if b = 32#8 ∨ b = 9#8 then (if cur = [] then wordsFrom bs [] else cur :: wordsFrom bs [])
    else wordsFrom bs (cur ++ [b])

def words (s : List Byte) : List (List Byte) := wordsFrom s []

/-- Value of a string of digits. -/
def val (s : List Byte) : Nat := s.foldl (fun a b => a * 10 + (b.toNat - 48)) 0

/-- `s` is a comma-separated list of numbers of one to `w` digits, with values `V`. -/
inductive Listing (w : Nat) : List Byte → List Nat → Prop
  | one (seg : List Byte) (hn : seg ≠ []) (hl : seg.length ≤ w) (hd : ∀ b ∈ seg, 48 ≤ b.toNat ∧ b.toNat ≤ 57) :
      Listing w seg [val seg]
  | cons (seg rest : List Byte) (V : List Nat) (hn : seg ≠ []) (hl : seg.length ≤ w)
      (hd : ∀ b ∈ seg, 48 ≤ b.toNat ∧ b.toNat ≤ 57) (h : Listing w rest V) :
      Listing w (seg ++ 44#8 :: rest) (val seg :: V)

/-- The clock and calendar of second `t` of the epoch. -/
def minuteOf (t : Nat) : Nat := t % 3600 / 60
def hourOf (t : Nat) : Nat := t % 86400 / 3600
def weekdayOf (t : Nat) : Nat := (t / 86400 + 4) % 7
def day (t : Nat) : Date := dateOf (t / 86400)

/-! ## Words and pieces -/

theorem wordsFrom_gap : ∀ (gap rest : List Byte), (∀ b ∈ gap, b = 32#8 ∨ b = 9#8) → wordsFrom (gap ++ rest) [] = wordsFrom rest [] := by
  intro gap
  induction gap with
  | nil => intro _ _; rfl
  | cons a gap ih =>
    intro rest h
    simp only [List.cons_append, wordsFrom]
    rw [if_pos (h a (by simp)), if_pos trivial]
    exact ih rest (fun b hb => h b (by simp [hb]))

theorem wordsFrom_word : ∀ (w rest cur : List Byte), (∀ b ∈ w, ¬ (b = 32#8 ∨ b = 9#8)) → (cur ≠ [] ∨ w ≠ []) →
    (∀ b, rest.head? = some b → (b = 32#8 ∨ b = 9#8)) → wordsFrom (w ++ rest) cur = (cur ++ w) :: wordsFrom rest [] := by
  intro w
  induction w with
  | nil =>
    intro rest cur _ hc hr
    have hc : cur ≠ [] := by simpa using hc
    simp only [List.nil_append, List.append_nil]
    cases rest with
    | nil => simp [wordsFrom, hc]
    | cons b r =>
      have hb := hr b rfl
      simp only [wordsFrom, if_pos hb, if_neg hc, if_true]
  | cons a w ih =>
    intro rest cur h _ hr
    simp only [List.cons_append, wordsFrom]
    rw [if_neg (h a (by simp)), ih rest (cur ++ [a]) (fun b hb => h b (by simp [hb])) (Or.inl (by simp)) hr]
    simp

theorem slices_words {off : Nat} {s : List Byte} {ps : List (Nat × Nat)}
    (h : Str.Slices (fun b => b ∈ [32#8, 9#8]) off s ps) :
    ∀ pre : List Byte, pre.length = off → ps.map (fun p => ((pre ++ s).drop p.1).take p.2) = words s := by
  induction h with
  | done off gap hg =>
    intro pre _
    have := wordsFrom_gap gap [] (fun b hb => by simpa using hg b hb)
    simp only [List.append_nil] at this
    simp [words, this, wordsFrom]
  | piece off gap w rest ps hg hw hn hr h ih =>
    intro pre hp
    rw [words, List.append_assoc, wordsFrom_gap _ _ (fun b hb => by simpa using hg b hb),
      wordsFrom_word _ _ _ (fun b hb => by simpa using hn b hb) (Or.inr hw) (fun b hb => by simpa using hr b hb)]
    simp only [List.map_cons, List.nil_append]
    congr 1
    · rw [← List.append_assoc, show off + gap.length = (pre ++ gap).length by simp [hp], List.drop_left, List.take_left]
    · have := ih (pre ++ gap ++ w) (by simp [hp]; omega)
      rw [show pre ++ (gap ++ (w ++ rest)) = pre ++ gap ++ w ++ rest by simp]
      rw [this, words]

/-- The pieces are the words. -/
theorem slice_words (s : List Byte) : ∃ ps, Str.slice s [32#8, 9#8] = some (ps ++ [(0, 0)]) ∧
    ∀ i, piece s (ps ++ [(0, 0)]) i = if h : i < (words s).length then some (words s)[i] else if i = (words s).length then some [] else none := by
  obtain ⟨ps, e, h⟩ := Str.slice_spec s [32#8, 9#8]
  have hw := slices_words h [] rfl
  simp only [List.nil_append] at hw
  refine ⟨ps, e, ?_⟩
  intro i
  have hl : (words s).length = ps.length := by rw [← hw]; simp
  unfold piece
  by_cases h1 : i < ps.length
  · rw [dif_pos (by omega), List.getElem?_append_left h1, List.getElem?_eq_getElem h1]
    simp only [← hw]
    simp
  · rw [dif_neg (by omega)]
    by_cases h2 : i = ps.length
    · subst h2
      rw [if_pos hl.symm]; simp
    · rw [if_neg (by omega), List.getElem?_eq_none (by simp; omega)]; rfl

/-! ## Setting one field of a broken-down time -/

/-- The first day of the month of day `N`. -/
theorem first_day (N : Nat) : ∃ n, dateOf n = ⟨(dateOf N).y, (dateOf N).m, 1⟩ ∧ n + ((dateOf N).d - 1) = N := by
  obtain ⟨k, M, j, hM, hj, e⟩ := ex_closed N
  have h1 := dateOf_eq N k M j hM hj e
  have hp := dim_pos (1970 + k) (M + 1)
  have h2 := dateOf_eq (ys k + ms (1970 + k) M) k M 0 hM (by omega) rfl
  refine ⟨ys k + ms (1970 + k) M, ?_, ?_⟩
  · rw [h1, h2]
  · rw [h1]; simp only; omega

theorem utc2time_utcOf (t : Nat) : utc2time (utcOf t) = some (t : Int) := by
  have := utc2time_time2utc t
  rwa [time2utc_spec, Option.bind_some] at this

theorem set_minute (t a : Nat) : adjust { utcOf t with minute := (a : Int) } = some (utcOf (t - minuteOf t * 60 + a * 60)) := by
  obtain ⟨n, h1, h2⟩ := first_day (t / 86400)
  have hv := (dateOf_valid (t / 86400)).2.2.1
  have := adjust_instant_partial n (dateOf (t / 86400)).m (t % 86400 / 3600) a (t % 60) (dateOf (t / 86400)).d (dateOf (t / 86400)).y
    ((t / 86400 + 4) % 7 : Nat) h1 hv
  rw [h2] at this
  simp only [utcOf] at this ⊢
  rw [this]
  unfold minuteOf
  rw [show t / 86400 * 86400 + (t % 86400 / 3600 * 3600 + a * 60 + t % 60) = t - t % 3600 / 60 * 60 + a * 60 by omega]

theorem set_hour (t a : Nat) : adjust { utcOf t with hour := (a : Int) } = some (utcOf (t - hourOf t * 3600 + a * 3600)) := by
  obtain ⟨n, h1, h2⟩ := first_day (t / 86400)
  have hv := (dateOf_valid (t / 86400)).2.2.1
  have := adjust_instant_partial n (dateOf (t / 86400)).m a (t % 3600 / 60) (t % 60) (dateOf (t / 86400)).d (dateOf (t / 86400)).y
    ((t / 86400 + 4) % 7 : Nat) h1 hv
  rw [h2] at this
  simp only [utcOf] at this ⊢
  rw [this]
  unfold hourOf
  rw [show t / 86400 * 86400 + (a * 3600 + t % 3600 / 60 * 60 + t % 60) = t - t % 86400 / 3600 * 3600 + a * 3600 by omega]

theorem set_day (t a : Nat) (ha : 1 ≤ a) :
    adjust { utcOf t with day := (a : Int) } = some (utcOf (t + a * 86400 - (day t).d * 86400)) ∧ (day t).d * 86400 ≤ t + a * 86400 := by
  obtain ⟨n, h1, h2⟩ := first_day (t / 86400)
  have hv := (dateOf_valid (t / 86400)).2.2.1
  have := adjust_instant_partial n (dateOf (t / 86400)).m (t % 86400 / 3600) (t % 3600 / 60) (t % 60) a (dateOf (t / 86400)).y
    ((t / 86400 + 4) % 7 : Nat) h1 ha
  simp only [utcOf] at this ⊢
  rw [this]
  unfold day
  refine ⟨?_, by omega⟩
  rw [show (n + (a - 1)) * 86400 + (t % 86400 / 3600 * 3600 + t % 3600 / 60 * 60 + t % 60) = t + a * 86400 - (dateOf (t / 86400)).d * 86400 by omega]

theorem set_month (t a : Nat) (h1 : 1 ≤ a) (h2 : a ≤ 12) :
    ∃ t', adjust { utcOf t with month := (a : Int) } = some (utcOf t') ∧ t' % 86400 = t % 86400 ∧
      ((day t).m ≤ a → t ≤ t') ∧ ((day t).m = a → t' = t) ∧
      ((day t).d ≤ dim (day t).y a → day t' = ⟨(day t).y, a, (day t).d⟩) := by
  obtain ⟨k, M, j, hM, hj, e⟩ := ex_closed (t / 86400)
  have hd := dateOf_eq _ k M j hM hj e
  have hp := dim_pos (1970 + k) (a - 1 + 1)
  have hn := dateOf_eq (ys k + ms (1970 + k) (a - 1)) k (a - 1) 0 (by omega) (by omega) rfl
  rw [show a - 1 + 1 = a by omega] at hn
  have := adjust_instant_partial (ys k + ms (1970 + k) (a - 1)) a (t % 86400 / 3600) (t % 3600 / 60) (t % 60) (j + 1) (1970 + k)
    ((t / 86400 + 4) % 7 : Nat) hn (by omega)
  have hms : M + 1 ≤ a → ms (1970 + k) M ≤ ms (1970 + k) (a - 1) := fun h => ms_mono _ (by omega)
  have hme : M + 1 = a → ms (1970 + k) M = ms (1970 + k) (a - 1) := fun h => by rw [← h]; rfl
  refine ⟨_, by simpa only [utcOf, hd] using this, by omega, ?_, ?_, ?_⟩
  · intro h; simp only [day, hd] at h; have := hms h; omega
  · intro h; simp only [day, hd] at h; have := hme h; omega
  · intro h
    simp only [day, hd] at h ⊢
    rw [show ((ys k + ms (1970 + k) (a - 1) + (j + 1 - 1)) * 86400 + (t % 86400 / 3600 * 3600 + t % 3600 / 60 * 60 + t % 60)) / 86400
      = ys k + ms (1970 + k) (a - 1) + j by omega]
    rw [dateOf_eq _ k (a - 1) j (by omega) (by rw [show a - 1 + 1 = a by omega]; omega) rfl, show a - 1 + 1 = a by omega]

/-! ## Field parsers: lower bound -/

/-- What the parsers have in common: the update functions never go below the current value. -/
structure Field.Good (f : Field) : Prop where
  cur0 : 0 ≤ f.cur
  lo0 : 0 ≤ f.loMid ∧ 0 ≤ f.loEnd
  per : 0 ≤ f.perLo
  plain : f.cur ≤ f.plain
  wrap : ∀ w, f.wrap = some w → ∀ x, (f.loMid ≤ x ∨ f.loEnd ≤ x) → f.cur ≤ x + w
  star : ∀ p, 0 ≤ p → f.cur ≤ f.star p
  upd : ∀ p save x, 0 ≤ p → (save = 0 ∨ f.cur ≤ save) → f.cur ≤ x → f.cur ≤ f.upd p save x

theorem updMin_ge (c p save x : Int) (hp : 0 ≤ p) (hs : save = 0 ∨ c ≤ save) (hx : c ≤ x) : c ≤ updMin c p save x := by
  unfold updMin; grind

theorem updGen_ge (c : Int) (g : Bool) (p save x : Int) (hp : 0 ≤ p) (hs : save = 0 ∨ c ≤ save) (hx : c ≤ x) :
    c ≤ updGen c g p save x := by
  unfold updGen; grind

theorem starGen_ge (c : Int) (g : Bool) (p : Int) (hp : 0 ≤ p) : c ≤ starGen c g p := by
  unfold starGen; grind

theorem minute_good (c : Int) (h : 0 ≤ c) (h2 : c < 60) : (minuteF c).Good where
  cur0 := h
  lo0 := by simp [minuteF]
  per := by simp [minuteF]
  plain := by simp only [minuteF]; omega
  wrap := by intro w hw x hx; simp only [minuteF, Option.some.injEq] at *; omega
  star := fun p hp => starGen_ge c false p hp
  upd := fun p s x => updMin_ge c p s x

theorem hour_good (c : Int) (g : Bool) (h : 0 ≤ c) (h2 : c < 24) : (hourF c g).Good where
  cur0 := h
  lo0 := by simp [hourF]
  per := by simp [hourF]
  plain := by simp only [hourF]; omega
  wrap := by intro w hw x hx; simp only [hourF, Option.some.injEq] at *; omega
  star := fun p hp => starGen_ge c g p hp
  upd := fun p s x => updGen_ge c g p s x

theorem day_good (N : Nat) (g : Bool) : (dayF (dateOf N).y (dateOf N).m (dateOf N).d g).Good where
  cur0 := by simp only [dayF]; omega
  lo0 := by simp only [dayF]; omega
  per := by simp only [dayF]; omega
  plain := by simp only [dayF]; omega
  wrap := by
    intro w hw x hx
    have hv := dateOf_valid N
    simp only [dayF] at *
    rw [monthDays_spec _ _ hv.1 hv.2.1] at hw
    simp only [Option.some.injEq] at hw
    have := hv.2.2.2
    omega
  star := fun p hp => starGen_ge _ g p hp
  upd := fun p s x => updGen_ge _ g p s x

theorem month_good (c : Int) (g : Bool) (h : 0 ≤ c) (h2 : c ≤ 12) : (monthF c g).Good where
  cur0 := h
  lo0 := by simp [monthF]
  per := by simp [monthF]
  plain := by simp only [monthF]; omega
  wrap := by intro w hw x hx; simp only [monthF, Option.some.injEq] at *; omega
  star := fun p hp => starGen_ge c g p hp
  upd := fun p s x => updGen_ge c g p s x

theorem week_good (c : Int) (g : Bool) (h : 0 ≤ c) (h2 : c < 7) : (weekF c g).Good where
  cur0 := h
  lo0 := by simp [weekF]
  per := by simp [weekF]
  plain := by simp only [weekF]; omega
  wrap := by intro w hw x hx; simp only [weekF, Option.some.injEq] at *; omega
  star := fun p hp => starGen_ge c g p hp
  upd := fun p s x => updGen_ge c g p s x

theorem item_ge (f : Field) (hf : f.Good) (last : Bool) (p save : Int) (seg : List Byte) (v : Int) (hp : 0 ≤ p)
    (hs : save = 0 ∨ f.cur ≤ save) (h : item f last p save seg = some v) : v = -1 ∨ f.cur ≤ v := by
  unfold item at h
  split at h
  · left; simpa using h.symm
  · dsimp only at h
    generalize (if (last && f.seven && atol seg == 7) = true then (0 : Int) else atol seg) = x at h
    by_cases hx : x < (if last = true then f.loEnd else f.loMid) ∨ x ≥ f.hi
    · rw [if_pos hx] at h; left; simpa using h.symm
    · rw [if_neg hx] at h
      split at h
      · cases hw : f.wrap with
        | none => rw [hw] at h; simp at h
        | some w =>
          rw [hw] at h
          simp only [Option.bind_eq_bind, Option.bind_some, Option.some.injEq] at h
          right
          rw [← h]
          refine hf.upd _ _ _ hp hs (hf.wrap w hw x ?_)
          cases last <;> grind
      · right
        simp only [Option.some.injEq] at h
        rw [← h]
        exact hf.upd _ _ _ hp hs (by omega)

theorem items_ge (f : Field) (hf : f.Good) (p : Int) (hp : 0 ≤ p) :
    ∀ (bs seg : List Byte) (save v : Int), (f.cur ≤ save ∨ (save = 0 ∧ (bs ≠ [] ∨ seg ≠ []))) →
      items f p bs seg save = some v → v = -1 ∨ f.cur ≤ v := by
  intro bs
  induction hn : bs.length using Nat.strongRecOn generalizing bs with
  | ind n ih =>
    intro seg save v hs h
    have hs' : save = 0 ∨ f.cur ≤ save := by grind
    cases bs with
    | nil =>
      unfold items at h
      split at h
      · simp only [Option.some.injEq] at h; grind
      · exact item_ge f hf true p save seg v hp hs' h
    | cons b bs =>
      unfold items at h
      split at h
      · split at h
        · left; simpa using h.symm
        · cases hi : item f false p save seg with
          | none => rw [hi] at h; simp at h
          | some s =>
            rw [hi] at h
            simp only [Option.bind_eq_bind, Option.bind_some] at h
            split at h
            · left; simpa using h.symm
            · have := item_ge f hf false p save seg s hp hs' hi
              exact ih bs.length (by simp at hn; omega) bs rfl [] s v (Or.inl (by grind)) h
      · have hst := hf.star p hp
        split at h
        · cases bs with
          | nil => exact ih 0 (by simp at hn; omega) [] rfl [] _ v (Or.inl hst) h
          | cons c cs =>
            simp only at h
            split at h
            · exact ih cs.length (by simp at hn; omega) cs rfl [] _ v (Or.inl hst) h
            · exact ih (c :: cs).length (by simp at hn ⊢; omega) (c :: cs) rfl [] _ v (Or.inl hst) h
        · split at h
          · refine ih bs.length (by simp at hn; omega) bs rfl (seg ++ [b]) save v ?_ h
            rcases hs with hs | hs
            · exact Or.inl hs
            · exact Or.inr ⟨hs.1, Or.inr (by simp)⟩
          · left; simpa using h.symm

theorem lastSlash_some : ∀ (s l r : List Byte), lastSlash s = some (l, r) → s = l ++ 47#8 :: r := by
  intro s
  induction s with
  | nil => intro l r h; simp [lastSlash] at h
  | cons b bs ih =>
    intro l r h
    simp only [lastSlash] at h
    cases hb : lastSlash bs with
    | some q =>
      obtain ⟨l', r'⟩ := q
      rw [hb] at h
      simp only [Option.some.injEq, Prod.mk.injEq] at h
      obtain ⟨rfl, rfl⟩ := h
      rw [ih l' r' hb]; rfl
    | none =>
      rw [hb] at h
      simp only at h
      split at h
      · simp only [Option.some.injEq, Prod.mk.injEq] at h
        obtain ⟨rfl, rfl⟩ := h
        simp [*]
      · simp at h

/-- An accepted field that does not begin with '/' gives at least the current value. -/
theorem field_ge (f : Field) (hf : f.Good) (s : List Byte) (v : Int) (hs : s.head? ≠ some 47#8) (h : field f s = some v) :
    v = -1 ∨ f.cur ≤ v := by
  unfold field at h
  split at h
  · left; simpa using h.symm
  split at h
  · right; simp only [Option.some.injEq] at h; rw [← h]; exact hf.plain
  rename_i hne _
  cases hl : lastSlash s with
  | some q =>
    obtain ⟨l, r⟩ := q
    rw [hl] at h
    simp only at h
    split at h
    · left; simpa using h.symm
    · have := lastSlash_some s l r hl
      have hlne : l ≠ [] := by
        rintro rfl
        rw [this] at hs; simp at hs
      refine items_ge f hf _ ?_ l [] 0 v (Or.inr ⟨rfl, Or.inl hlne⟩) h
      have := hf.per; omega
  | none =>
    rw [hl] at h
    exact items_ge f hf 0 (by omega) s [] 0 v (Or.inr ⟨rfl, Or.inl hne⟩) h

/-! ## Field parsers: plain lists -/

theorem digits_val : ∀ (s : List Byte) (a : Nat), (∀ b ∈ s, 48 ≤ b.toNat ∧ b.toNat ≤ 57) →
    digits s (a : Int) = ((s.foldl (fun a b => a * 10 + (b.toNat - 48)) a : Nat) : Int) := by
  intro s
  induction s with
  | nil => intro a _; rfl
  | cons b bs ih =>
    intro a h
    have hb := h b (by simp)
    simp only [digits, List.foldl_cons]
    rw [if_pos (by simp [isDig, hb.1, hb.2]), show (a : Int) * 10 + ((b.toNat : Int) - 48) = ((a * 10 + (b.toNat - 48) : Nat) : Int) by omega]
    exact ih _ (fun c hc => h c (by simp [hc]))

theorem atol_val (s : List Byte) (h : ∀ b ∈ s, 48 ≤ b.toNat ∧ b.toNat ≤ 57) : atol s = (val s : Int) := by
  cases s with
  | nil => rfl
  | cons b bs =>
    have hb := h b (by simp)
    unfold atol
    rw [if_neg (by simp [isSpace]; constructor <;> [rintro rfl; intro] <;> simp at * <;> omega), if_neg (by rintro rfl; simp at hb),
      if_neg (by rintro rfl; simp at hb)]
    exact digits_val (b :: bs) 0 h

theorem items_cons (f : Field) (p : Int) (b : Byte) (bs seg : List Byte) (save : Int) : items f p (b :: bs) seg save =
    if b = 44#8 then
      if seg = [] then some (-1)
      else do
        let s ← item f false p save seg
        if s = -1 then some (-1) else items f p bs [] s
    else if b = 42#8 then
      match bs with
      | c :: cs => if c = 44#8 then items f p cs [] (f.star p) else items f p (c :: cs) [] (f.star p)
      | [] => items f p [] [] (f.star p)
    else if isDig b then items f p bs (seg ++ [b]) save
    else some (-1) := by
  conv => lhs; unfold items
  cases bs <;> rfl

theorem items_digits (f : Field) (p : Int) : ∀ (ds rest seg : List Byte) (save : Int), (∀ b ∈ ds, 48 ≤ b.toNat ∧ b.toNat ≤ 57) →
    items f p (ds ++ rest) seg save = items f p rest (seg ++ ds) save := by
  intro ds
  induction ds with
  | nil => intro rest seg save _; simp
  | cons b ds ih =>
    intro rest seg save h
    have hb := h b (by simp)
    rw [List.cons_append, items_cons, if_neg (by rintro rfl; simp at hb), if_neg (by rintro rfl; simp at hb), if_pos (by simp [isDig, hb.1, hb.2]),
      ih _ _ _ (fun c hc => h c (by simp [hc]))]
    simp

/-- The next value at or after the current one that is `x` modulo the cycle. -/
def Field.nx (f : Field) (w : Int) (x : Nat) : Int := if (x : Int) < f.cur then x + w else x

/-- What the plain-list lemma needs of a parser. -/
structure Field.Plain (f : Field) (w : Int) : Prop where
  good : f.Good
  hw : f.wrap = some w
  seven : f.seven = true → f.hi ≤ 7
  upd0 : ∀ save x, (save = 0 ∨ f.cur ≤ save) → f.cur ≤ x → f.upd 0 save x = if save = 0 then x else min save x

theorem updMin0 (c save x : Int) (h : save = 0 ∨ c ≤ save) (hx : c ≤ x) : updMin c 0 save x = if save = 0 then x else min save x := by
  unfold updMin; grind

theorem updGen0 (c : Int) (g : Bool) (save x : Int) (h : save = 0 ∨ c ≤ save) (hx : c ≤ x) :
    updGen c g 0 save x = if save = 0 then x else min save x := by
  unfold updGen; grind

/-- One accepted item. -/
theorem item_listing (f : Field) (w : Int) (hf : f.Plain w) (last : Bool) (save : Int) (seg : List Byte)
    (hl : seg.length ≤ f.width) (hd : ∀ b ∈ seg, 48 ≤ b.toNat ∧ b.toNat ≤ 57)
    (hlo : (if last then f.loEnd else f.loMid) ≤ (val seg : Int)) (hhi : (val seg : Int) < f.hi) (hs : save = 0 ∨ f.cur ≤ save) :
    item f last 0 save seg = some (if save = 0 then f.nx w (val seg) else min save (f.nx w (val seg))) ∧ f.cur ≤ f.nx w (val seg) := by
  have hnx : f.cur ≤ f.nx w (val seg) := by
    unfold Field.nx
    split
    · exact hf.good.wrap w hf.hw _ (by cases last <;> simp at hlo <;> [left; right] <;> exact hlo)
    · omega
  refine ⟨?_, hnx⟩
  unfold item
  rw [if_neg (by omega), atol_val seg hd]
  have h7 : ¬ (last && f.seven && ((val seg : Int) == 7)) = true := by
    simp only [Bool.and_eq_true, beq_iff_eq, not_and]
    intro h1 h2
    have := hf.seven h1.2
    omega
  dsimp only
  rw [if_neg h7, if_neg (by omega), ← hf.upd0 save _ hs hnx]
  unfold Field.nx
  by_cases hc : (val seg : Int) < f.cur
  · rw [if_pos hc, if_pos hc, hf.hw]; rfl
  · rw [if_neg hc, if_neg hc]

theorem listing_ne {w : Nat} {s : List Byte} {V : List Nat} (h : Listing w s V) : V ≠ [] ∧ s ≠ [] := by
  cases h with
  | one => exact ⟨by simp, by assumption⟩
  | cons => exact ⟨by simp, by simp⟩

theorem items_listing (f : Field) (w : Int) (hf : f.Plain w) {s : List Byte} {V : List Nat} (h : Listing f.width s V) :
    (∀ x ∈ V.dropLast, f.loMid ≤ (x : Int) ∧ x ≠ 0) → (∀ x ∈ V, f.loEnd ≤ (x : Int) ∧ (x : Int) < f.hi) →
    ∀ save, (save = 0 ∨ f.cur ≤ save) → ∃ v, items f 0 s [] save = some v ∧ f.cur ≤ v ∧ (v = save ∧ save ≠ 0 ∨ ∃ x ∈ V, v = f.nx w x) ∧
      (∀ x ∈ V, v ≤ f.nx w x) ∧ (save ≠ 0 → v ≤ save) := by
  have c0 := hf.good.cur0
  induction h with
  | one seg hn hl hd =>
    intro _ h2 save hs
    have hv := h2 (val seg) (by simp)
    obtain ⟨e, hc⟩ := item_listing f w hf true save seg hl hd (by simpa using hv.1) hv.2 hs
    have := items_digits f 0 seg [] [] save hd
    simp only [List.append_nil, List.nil_append] at this
    refine ⟨_, by rw [this]; unfold items; rw [if_neg hn]; exact e, ?_⟩
    grind
  | cons seg rest V hn hl hd h ih =>
    intro h1 h2 save hs
    have hVne := (listing_ne h).1
    have hdl : (val seg :: V).dropLast = val seg :: V.dropLast := List.dropLast_cons_of_ne_nil hVne
    rw [hdl] at h1
    have hv1 := h1 (val seg) (by simp)
    have hv2 := h2 (val seg) (by simp)
    obtain ⟨e, hc⟩ := item_listing f w hf false save seg hl hd (by simpa using hv1.1) hv2.2 hs
    have hw0 : f.nx w (val seg) ≠ 0 := by unfold Field.nx at hc ⊢; grind
    generalize hsv : (if save = 0 then f.nx w (val seg) else min save (f.nx w (val seg))) = s1 at e
    have hs1 : f.cur ≤ s1 ∧ s1 ≠ 0 := by grind
    obtain ⟨v, e2, q1, q2, q3, q4⟩ := ih (fun x hx => h1 x (by simp [hx])) (fun x hx => h2 x (by simp [hx])) s1 (Or.inr hs1.1)
    refine ⟨v, ?_, q1, ?_, ?_, ?_⟩
    · rw [items_digits f 0 seg _ [] save hd, items_cons, if_pos rfl, List.nil_append, if_neg hn, e]
      simp only [Option.bind_eq_bind, Option.bind_some]
      rw [if_neg (by omega), e2]
    · rcases q2 with q2 | ⟨x, hx, q2⟩
      · by_cases hz : save = 0
        · right; exact ⟨val seg, by simp, by grind⟩
        · by_cases hm : save ≤ f.nx w (val seg)
          · left; grind
          · right; exact ⟨val seg, by simp, by grind⟩
      · right; exact ⟨x, by simp [hx], q2⟩
    · intro x hx
      rcases List.mem_cons.1 hx with rfl | hx
      · have := q4 hs1.2; grind
      · exact q3 x hx
    · intro hz
      have := q4 hs1.2; grind

theorem listing_bytes {w : Nat} {s : List Byte} {V : List Nat} (h : Listing w s V) :
    ∀ b ∈ s, b = 44#8 ∨ (48 ≤ b.toNat ∧ b.toNat ≤ 57) := by
  induction h with
  | one seg hn hl hd => intro b hb; exact Or.inr (hd b hb)
  | cons seg rest V hn hl hd h ih =>
    intro b hb
    simp only [List.mem_append, List.mem_cons] at hb
    rcases hb with hb | hb | hb
    · exact Or.inr (hd b hb)
    · exact Or.inl hb
    · exact ih b hb

theorem lastSlash_none : ∀ s : List Byte, (∀ b ∈ s, b ≠ 47#8) → lastSlash s = none := by
  intro s
  induction s with
  | nil => intro _; rfl
  | cons b bs ih =>
    intro h
    simp only [lastSlash, ih (fun c hc => h c (by simp [hc]))]
    rw [if_neg (h b (by simp))]

/-- A list of numbers selects the one that comes first from the current value on. -/
theorem field_listing (f : Field) (w : Int) (hf : f.Plain w) {s : List Byte} {V : List Nat} (h : Listing f.width s V)
    (h1 : ∀ x ∈ V.dropLast, f.loMid ≤ (x : Int) ∧ x ≠ 0) (h2 : ∀ x ∈ V, f.loEnd ≤ (x : Int) ∧ (x : Int) < f.hi) :
    ∃ v, field f s = some v ∧ f.cur ≤ v ∧ (∃ x ∈ V, v = f.nx w x) ∧ ∀ x ∈ V, v ≤ f.nx w x := by
  obtain ⟨v, e, q1, q2, q3, _⟩ := items_listing f w hf h h1 h2 0 (Or.inl rfl)
  refine ⟨v, ?_, q1, by simpa using q2, q3⟩
  unfold field
  have hb := listing_bytes h
  rw [if_neg (listing_ne h).2, if_neg (by rintro rfl; have := hb 42#8 (by simp); simp at this),
    lastSlash_none s (fun b hm => by rintro rfl; have := hb 47#8 hm; simp at this)]
  exact e

/-! ## The whole expression -/

theorem minute_lt (t : Nat) : minuteOf t < 60 := by unfold minuteOf; omega
theorem hour_lt (t : Nat) : hourOf t < 24 := by unfold hourOf; omega
theorem week_lt (t : Nat) : weekdayOf t < 7 := by unfold weekdayOf; omega

/-- mln_cron_parse on an expression of at least five words. -/
theorem parse_words (exp : List Byte) (t : Nat) (a b c d e : List Byte) (r : List (List Byte))
    (hw : words exp = a :: b :: c :: d :: e :: r) :
    parse true exp t = (do
      let mi ← field (minuteF (minuteOf t)) a
      if mi < 0 then some 0 else
      let u ← adjust { utcOf t with minute := mi }
      let tmp ← utc2time u
      let h ← field (hourF u.hour (decide (tmp > t))) b
      if h < 0 then some 0 else
      let u ← adjust { u with hour := h }
      let tmp ← utc2time u
      let dd ← field (dayF u.year u.month u.day (decide (tmp > t))) c
      if dd < 0 then some 0 else
      let u ← adjust { u with day := dd }
      let tmp ← utc2time u
      let m ← field (monthF u.month (decide (tmp > t))) d
      if m < 0 then some 0 else
      let u ← adjust { u with month := m }
      let tmp ← utc2time u
      let w ← field (weekF u.week (decide (tmp > t))) e
      if w < 0 then some 0 else
      let u ← adjust { u with day := u.day + (w - u.week) }
      utc2time u) := by
  obtain ⟨ps, e1, hp⟩ := slice_words exp
  have p0 := hp 0
  have p1 := hp 1
  have p2 := hp 2
  have p3 := hp 3
  have p4 := hp 4
  simp only [hw] at p0 p1 p2 p3 p4
  simp only [List.length_cons, List.getElem_cons_zero, List.getElem_cons_succ] at p0 p1 p2 p3 p4
  rw [dif_pos (by omega)] at p0 p1 p2 p3 p4
  unfold parse parseRest
  rw [time2utc_spec, e1]
  simp only [Option.bind_eq_bind, Option.bind_some, p0, p1, p2, p3, p4, Bool.not_true, Bool.false_eq_true, if_false]
  rfl

theorem day_pos (t : Nat) : 1 ≤ (day t).d ∧ 1 ≤ (day t).m ∧ (day t).m ≤ 12 :=
  ⟨(dateOf_valid _).2.2.1, (dateOf_valid _).1, (dateOf_valid _).2.1⟩

theorem adv_minute (t a : Nat) (h : minuteOf t ≤ a) :
    adjust { utcOf t with minute := (a : Int) } = some (utcOf (t + (a - minuteOf t) * 60)) := by
  rw [set_minute]; unfold minuteOf at *; congr 2; omega

theorem adv_hour (t a : Nat) (h : hourOf t ≤ a) :
    adjust { utcOf t with hour := (a : Int) } = some (utcOf (t + (a - hourOf t) * 3600)) := by
  rw [set_hour]; unfold hourOf at *; congr 2; omega

theorem adv_day (t a : Nat) (h : (day t).d ≤ a) :
    adjust { utcOf t with day := (a : Int) } = some (utcOf (t + (a - (day t).d) * 86400)) := by
  have := (day_pos t).1
  rw [(set_day t a (by omega)).1]; congr 2; omega

theorem adv_week (t a : Nat) (h : weekdayOf t ≤ a) :
    adjust { utcOf t with day := (utcOf t).day + ((a : Int) - (utcOf t).week) } = some (utcOf (t + (a - weekdayOf t) * 86400)) := by
  have e : (utcOf t).day + ((a : Int) - (utcOf t).week) = (((day t).d + (a - weekdayOf t) : Nat) : Int) := by
    simp only [utcOf, day]; unfold weekdayOf at *; omega
  rw [e, adv_day t _ (by omega), Nat.add_sub_cancel_left]

/-- mln_cron_parse in five stages, for a base `t0`. -/
def sW (t0 : Nat) (e : List Byte) (u : Utc) : Option Int :=
  (utc2time u).bind fun tmp => (field (weekF u.week (decide (tmp > t0))) e).bind fun w =>
    if w < 0 then some 0 else (adjust { u with day := u.day + (w - u.week) }).bind utc2time

def sM (t0 : Nat) (d e : List Byte) (u : Utc) : Option Int :=
  (utc2time u).bind fun tmp => (field (monthF u.month (decide (tmp > t0))) d).bind fun m =>
    if m < 0 then some 0 else (adjust { u with month := m }).bind (sW t0 e)

def sD (t0 : Nat) (c d e : List Byte) (u : Utc) : Option Int :=
  (utc2time u).bind fun tmp => (field (dayF u.year u.month u.day (decide (tmp > t0))) c).bind fun dd =>
    if dd < 0 then some 0 else (adjust { u with day := dd }).bind (sM t0 d e)

def sH (t0 : Nat) (b c d e : List Byte) (u : Utc) : Option Int :=
  (utc2time u).bind fun tmp => (field (hourF u.hour (decide (tmp > t0))) b).bind fun h =>
    if h < 0 then some 0 else (adjust { u with hour := h }).bind (sD t0 c d e)

theorem parse_stages (exp : List Byte) (t : Nat) (a b c d e : List Byte) (r : List (List Byte))
    (hw : words exp = a :: b :: c :: d :: e :: r) :
    parse true exp t = (field (minuteF (minuteOf t)) a).bind fun mi =>
      if mi < 0 then some 0 else (adjust { utcOf t with minute := mi }).bind (sH t b c d e) :=
  parse_words exp t a b c d e r hw

theorem dec_cast (t t0 : Nat) : decide ((t : Int) > (t0 : Int)) = decide (t > t0) := by
  rw [Bool.eq_iff_iff]; simp

theorem sW_some (t0 t w : Nat) (e : List Byte) (h : field (weekF (weekdayOf t) (decide (t > t0))) e = some (w : Int))
    (hw : weekdayOf t ≤ w) : sW t0 e (utcOf t) = some ((t + (w - weekdayOf t) * 86400 : Nat) : Int) := by
  unfold sW
  rw [utc2time_utcOf, Option.bind_some, dec_cast]
  have h' : field (weekF (utcOf t).week (decide (t > t0))) e = some (w : Int) := h
  rw [h', Option.bind_some, if_neg (by omega), adv_week t w hw, Option.bind_some, utc2time_utcOf]

theorem sW_inv (t0 t : Nat) (e : List Byte) (v : Int) (he : e.head? ≠ some 47#8) (h : sW t0 e (utcOf t) = some v) :
    v = 0 ∨ (t : Int) ≤ v := by
  have h0 := h
  unfold sW at h
  rw [utc2time_utcOf, Option.bind_some, dec_cast] at h
  have hwk : (utcOf t).week = (weekdayOf t : Int) := rfl
  rw [hwk] at h
  cases hf : field (weekF (weekdayOf t) (decide (t > t0))) e with
  | none => rw [hf] at h; simp at h
  | some w =>
    rw [hf, Option.bind_some] at h
    have hl := week_lt t
    have hge := field_ge _ (week_good (weekdayOf t) (decide (t > t0)) (by omega) (by omega)) e w he hf
    simp only [weekF] at hge
    by_cases hneg : w < 0
    · rw [if_pos hneg] at h; left; simpa using h.symm
    · obtain ⟨k, rfl⟩ : ∃ k : Nat, w = k := ⟨w.toNat, by omega⟩
      rw [sW_some t0 t k e hf (by omega)] at h0
      simp only [Option.some.injEq] at h0
      right; omega

theorem sM_some (t0 t m : Nat) (d e : List Byte) (h : field (monthF (day t).m (decide (t > t0))) d = some (m : Int))
    (h1 : 1 ≤ m) (h2 : m ≤ 12) : ∃ t', sM t0 d e (utcOf t) = sW t0 e (utcOf t') ∧ t' % 86400 = t % 86400 ∧
      ((day t).m ≤ m → t ≤ t') ∧ ((day t).m = m → t' = t) ∧
      ((day t).d ≤ dim (day t).y m → day t' = ⟨(day t).y, m, (day t).d⟩) := by
  obtain ⟨t', e1, e2⟩ := set_month t m h1 h2
  refine ⟨t', ?_, e2⟩
  unfold sM
  rw [utc2time_utcOf, Option.bind_some, dec_cast]
  have h' : field (monthF (utcOf t).month (decide (t > t0))) d = some (m : Int) := h
  rw [h', Option.bind_some, if_neg (by omega), e1, Option.bind_some]

theorem sM_oob (t0 t m : Nat) (d e : List Byte) (h : field (monthF (day t).m (decide (t > t0))) d = some (m : Int))
    (h2 : 13 ≤ m) : sM t0 d e (utcOf t) = none := by
  unfold sM
  rw [utc2time_utcOf, Option.bind_some, dec_cast]
  have h' : field (monthF (utcOf t).month (decide (t > t0))) d = some (m : Int) := h
  rw [h', Option.bind_some, if_neg (by omega)]
  have := adjust_month_oob (dateOf (t / 86400)).y m (dateOf (t / 86400)).d (t % 86400 / 3600) (t % 3600 / 60) (t % 60)
    ((t / 86400 + 4) % 7 : Nat) h2
  simp only [utcOf]
  rw [this]; rfl

theorem sM_inv (t0 t : Nat) (d e : List Byte) (v : Int) (hd : d.head? ≠ some 47#8) (he : e.head? ≠ some 47#8)
    (h : sM t0 d e (utcOf t) = some v) : v = 0 ∨ (t : Int) ≤ v := by
  have h0 := h
  unfold sM at h
  rw [utc2time_utcOf, Option.bind_some, dec_cast] at h
  have hm : (utcOf t).month = ((day t).m : Int) := rfl
  rw [hm] at h
  cases hf : field (monthF (day t).m (decide (t > t0))) d with
  | none => rw [hf] at h; simp at h
  | some m =>
    rw [hf, Option.bind_some] at h
    have hl := day_pos t
    have hge := field_ge _ (month_good (day t).m (decide (t > t0)) (by omega) (by omega)) d m hd hf
    simp only [monthF] at hge
    by_cases hneg : m < 0
    · rw [if_pos hneg] at h; left; simpa using h.symm
    · obtain ⟨k, rfl⟩ : ∃ k : Nat, m = k := ⟨m.toNat, by omega⟩
      by_cases hk : k ≤ 12
      · obtain ⟨t', e1, _, e3, _⟩ := sM_some t0 t k d e hf (by omega) hk
        rw [e1] at h0
        have := e3 (by omega)
        rcases sW_inv t0 t' e v he h0 with h | h
        · exact Or.inl h
        · right; omega
      · rw [sM_oob t0 t k d e hf (by omega)] at h0; simp at h0

theorem sD_some (t0 t k : Nat) (c d e : List Byte)
    (h : field (dayF (day t).y (day t).m (day t).d (decide (t > t0))) c = some (k : Int)) (hk : (day t).d ≤ k) :
    sD t0 c d e (utcOf t) = sM t0 d e (utcOf (t + (k - (day t).d) * 86400)) := by
  unfold sD
  rw [utc2time_utcOf, Option.bind_some, dec_cast]
  have h' : field (dayF (utcOf t).year (utcOf t).month (utcOf t).day (decide (t > t0))) c = some (k : Int) := h
  rw [h', Option.bind_some, if_neg (by omega), adv_day t k hk, Option.bind_some]

theorem sD_inv (t0 t : Nat) (c d e : List Byte) (v : Int) (hc : c.head? ≠ some 47#8) (hd : d.head? ≠ some 47#8)
    (he : e.head? ≠ some 47#8) (h : sD t0 c d e (utcOf t) = some v) : v = 0 ∨ (t : Int) ≤ v := by
  have h0 := h
  unfold sD at h
  rw [utc2time_utcOf, Option.bind_some, dec_cast] at h
  have hm : dayF (utcOf t).year (utcOf t).month (utcOf t).day (decide (t > t0)) = dayF (day t).y (day t).m (day t).d (decide (t > t0)) := rfl
  rw [hm] at h
  cases hf : field (dayF (day t).y (day t).m (day t).d (decide (t > t0))) c with
  | none => rw [hf] at h; simp at h
  | some m =>
    rw [hf, Option.bind_some] at h
    have hge := field_ge _ (day_good (t / 86400) (decide (t > t0))) c m hc hf
    simp only [dayF] at hge
    by_cases hneg : m < 0
    · rw [if_pos hneg] at h; left; simpa using h.symm
    · obtain ⟨k, rfl⟩ : ∃ k : Nat, m = k := ⟨m.toNat, by omega⟩
      have hk : (day t).d ≤ k := by unfold day; omega
      rw [sD_some t0 t k c d e hf hk] at h0
      rcases sM_inv t0 _ d e v hd he h0 with h | h
      · exact Or.inl h
      · right; omega

theorem sH_some (t0 t k : Nat) (b c d e : List Byte) (h : field (hourF (hourOf t) (decide (t > t0))) b = some (k : Int))
    (hk : hourOf t ≤ k) : sH t0 b c d e (utcOf t) = sD t0 c d e (utcOf (t + (k - hourOf t) * 3600)) := by
  unfold sH
  rw [utc2time_utcOf, Option.bind_some, dec_cast]
  have h' : field (hourF (utcOf t).hour (decide (t > t0))) b = some (k : Int) := h
  rw [h', Option.bind_some, if_neg (by omega), adv_hour t k hk, Option.bind_some]

theorem sH_inv (t0 t : Nat) (b c d e : List Byte) (v : Int) (hb : b.head? ≠ some 47#8) (hc : c.head? ≠ some 47#8)
    (hd : d.head? ≠ some 47#8) (he : e.head? ≠ some 47#8) (h : sH t0 b c d e (utcOf t) = some v) : v = 0 ∨ (t : Int) ≤ v := by
  have h0 := h
  unfold sH at h
  rw [utc2time_utcOf, Option.bind_some, dec_cast] at h
  have hm : (utcOf t).hour = (hourOf t : Int) := rfl
  rw [hm] at h
  cases hf : field (hourF (hourOf t) (decide (t > t0))) b with
  | none => rw [hf] at h; simp at h
  | some m =>
    rw [hf, Option.bind_some] at h
    have hl := hour_lt t
    have hge := field_ge _ (hour_good (hourOf t) (decide (t > t0)) (by omega) (by omega)) b m hb hf
    simp only [hourF] at hge
    by_cases hneg : m < 0
    · rw [if_pos hneg] at h; left; simpa using h.symm
    · obtain ⟨k, rfl⟩ : ∃ k : Nat, m = k := ⟨m.toNat, by omega⟩
      rw [sH_some t0 t k b c d e hf (by omega)] at h0
      rcases sD_inv t0 _ c d e v hc hd he h0 with h | h
      · exact Or.inl h
      · right; omega

/-- The result is at least the base advanced to the minute that the first field selects. -/
theorem parse_lower (exp : List Byte) (t : Nat) (a b c d e : List Byte) (r : List (List Byte))
    (hw : words exp = a :: b :: c :: d :: e :: r) (hs : ∀ x ∈ [a, b, c, d, e], x.head? ≠ some 47#8) (v : Int)
    (h : parse true exp t = some v) : v = 0 ∨ ∃ k : Nat, field (minuteF (minuteOf t)) a = some (k : Int) ∧ minuteOf t ≤ k ∧
      ((t + (k - minuteOf t) * 60 : Nat) : Int) ≤ v := by
  rw [parse_stages exp t a b c d e r hw] at h
  cases hf : field (minuteF (minuteOf t)) a with
  | none => rw [hf] at h; simp at h
  | some m =>
    rw [hf, Option.bind_some] at h
    have hl := minute_lt t
    have hge := field_ge _ (minute_good (minuteOf t) (by omega) (by omega)) a m (hs a (by simp)) hf
    simp only [minuteF] at hge
    by_cases hneg : m < 0
    · rw [if_pos hneg] at h; left; simpa using h.symm
    · obtain ⟨k, rfl⟩ : ∃ k : Nat, m = k := ⟨m.toNat, by omega⟩
      rw [if_neg hneg, adv_minute t k (by omega), Option.bind_some] at h
      rcases sH_inv t _ b c d e v (hs b (by simp)) (hs c (by simp)) (hs d (by simp)) (hs e (by simp)) h with h | h
      · exact Or.inl h
      · exact Or.inr ⟨k, rfl, by omega, h⟩

/-! ### Fewer than five words -/

def Zero (o : Option Int) : Prop := ∀ v, o = some v → v = 0

theorem zero_bind {α : Type} (o : Option α) (f : α → Option Int) (h : ∀ x, Zero (f x)) : Zero (o.bind f) := by
  cases o with
  | none => intro v hv; simp at hv
  | some x => exact h x

theorem zero_ite (p : Prop) [Decidable p] (o : Option Int) (h : Zero o) : Zero (if p then some 0 else o) := by
  split
  · intro v hv; simpa using hv.symm
  · exact h

theorem zero_nil (f : Field) (k : Int → Option Int) : Zero ((field f []).bind fun x => if x < 0 then some 0 else k x) := by
  simp only [field, if_true, Option.bind_some]
  intro v hv; simpa using hv.symm

theorem zero_none (k : Int → Option Int) : Zero ((none : Option Int).bind k) := by intro v hv; simp at hv

/-! ## Tokens -/

/-- A field of an expression without periods: "*", or a list of numbers. -/
def Tok (w : Nat) (s : List Byte) : Option (List Nat) → Prop
  | none => s = [42#8]
  | some V => Listing w s V

/-- The numbers are in range; 0 only at the end of the list. -/
def InRange (lo hi : Nat) : Option (List Nat) → Prop
  | none => True
  | some V => (∀ x ∈ V.dropLast, 1 ≤ x) ∧ ∀ x ∈ V, lo ≤ x ∧ x < hi

/-- `x` is one of the numbers asked for. -/
def Sel (o : Option (List Nat)) (x : Nat) : Prop := ∀ V, o = some V → x ∈ V

theorem minute_plain (c : Nat) (h : c < 60) : (minuteF c).Plain 60 where
  good := minute_good c (by omega) (by omega)
  hw := rfl
  seven := by simp [minuteF]
  upd0 := fun s x => updMin0 c s x

theorem hour_plain (c : Nat) (g : Bool) (h : c < 24) : (hourF c g).Plain 24 where
  good := hour_good c g (by omega) (by omega)
  hw := rfl
  seven := by simp [hourF]
  upd0 := fun s x => updGen0 c g s x

theorem day_plain (N : Nat) (g : Bool) : (dayF (dateOf N).y (dateOf N).m (dateOf N).d g).Plain (dim (dateOf N).y (dateOf N).m) where
  good := day_good N g
  hw := monthDays_spec _ _ (dateOf_valid N).1 (dateOf_valid N).2.1
  seven := by simp [dayF]
  upd0 := fun s x => updGen0 _ g s x

theorem month_plain (c : Nat) (g : Bool) (h : c ≤ 12) : (monthF c g).Plain 12 where
  good := month_good c g (by omega) (by omega)
  hw := rfl
  seven := by simp [monthF]
  upd0 := fun s x => updGen0 c g s x

theorem week_plain (c : Nat) (g : Bool) (h : c < 7) : (weekF c g).Plain 7 where
  good := week_good c g (by omega) (by omega)
  hw := rfl
  seven := by simp [weekF]
  upd0 := fun s x => updGen0 c g s x

theorem field_star (f : Field) : field f [42#8] = some f.plain := by simp [field]

/-- A token selects the first admissible value from the current one on. -/
theorem tok_field (f : Field) (wr c : Nat) (hf : f.Plain wr) (hc : f.cur = c) (lo hi : Nat) (hlo : f.loEnd = lo) (hmid : f.loMid ≤ 1)
    (hhi : f.hi = hi) {s : List Byte} {V : List Nat} (ht : Listing f.width s V) (hr : InRange lo hi (some V)) :
    ∃ k : Nat, field f s = some (k : Int) ∧ c ≤ k ∧ (∃ x ∈ V, k = if x < c then x + wr else x) ∧ (c ∈ V → k = c) := by
  obtain ⟨v, e, q1, ⟨x, hx, q2⟩, q3⟩ := field_listing f wr hf ht
    (fun x hx => ⟨by have := hr.1 x hx; omega, by have := hr.1 x hx; omega⟩)
    (fun x hx => by have := hr.2 x hx; omega)
  unfold Field.nx at q2 q3
  rw [hc] at q1 q2 q3
  refine ⟨v.toNat, by rw [Int.toNat_of_nonneg (by omega)]; exact e, by omega, ⟨x, hx, by split at q2 <;> split <;> omega⟩, ?_⟩
  intro h
  have := q3 c h
  split at this <;> omega

theorem tok_minute (t : Nat) (s : List Byte) (o : Option (List Nat)) (ht : Tok 2 s o) (hr : InRange 0 60 o) :
    ∃ k : Nat, field (minuteF (minuteOf t)) s = some (k : Int) ∧ minuteOf t ≤ k ∧ Sel o (k % 60) ∧
      (o ≠ none → Sel o (minuteOf t) → k = minuteOf t) ∧ (o = none → k = minuteOf t + 1) := by
  have hl := minute_lt t
  cases o with
  | none =>
    simp only [Tok] at ht; subst ht
    exact ⟨minuteOf t + 1, by rw [field_star]; simp [minuteF], by omega, by simp [Sel], by simp, by simp⟩
  | some V =>
    obtain ⟨k, e, h1, ⟨x, hx, h2⟩, h3⟩ := tok_field (minuteF (minuteOf t)) 60 (minuteOf t) (minute_plain _ hl) rfl 0 60 rfl (by simp [minuteF]) rfl ht hr
    refine ⟨k, e, h1, ?_, fun _ h => h3 (h V rfl), by simp⟩
    intro W hW
    simp only [Option.some.injEq] at hW; subst hW
    have := hr.2 x hx
    rw [show k % 60 = x by split at h2 <;> omega]; exact hx

theorem tok_hour (t : Nat) (g : Bool) (s : List Byte) (o : Option (List Nat)) (ht : Tok 2 s o) (hr : InRange 0 24 o) :
    ∃ k : Nat, field (hourF (hourOf t) g) s = some (k : Int) ∧ hourOf t ≤ k ∧ Sel o (k % 24) ∧ (Sel o (hourOf t) → k = hourOf t) := by
  have hl := hour_lt t
  cases o with
  | none =>
    simp only [Tok] at ht; subst ht
    exact ⟨hourOf t, by rw [field_star]; simp [hourF], by omega, by simp [Sel], by simp⟩
  | some V =>
    obtain ⟨k, e, h1, ⟨x, hx, h2⟩, h3⟩ := tok_field (hourF (hourOf t) g) 24 (hourOf t) (hour_plain _ g hl) rfl 0 24 rfl (by simp [hourF]) rfl ht hr
    refine ⟨k, e, h1, ?_, fun h => h3 (h V rfl)⟩
    intro W hW
    simp only [Option.some.injEq] at hW; subst hW
    have := hr.2 x hx
    rw [show k % 24 = x by split at h2 <;> omega]; exact hx

theorem tok_week (t : Nat) (g : Bool) (s : List Byte) (o : Option (List Nat)) (ht : Tok 1 s o) (hr : InRange 0 7 o) :
    ∃ k : Nat, field (weekF (weekdayOf t) g) s = some (k : Int) ∧ weekdayOf t ≤ k ∧ Sel o (k % 7) ∧
      (Sel o (weekdayOf t) → k = weekdayOf t) := by
  have hl := week_lt t
  cases o with
  | none =>
    simp only [Tok] at ht; subst ht
    exact ⟨weekdayOf t, by rw [field_star]; simp [weekF], by omega, by simp [Sel], by simp⟩
  | some V =>
    obtain ⟨k, e, h1, ⟨x, hx, h2⟩, h3⟩ := tok_field (weekF (weekdayOf t) g) 7 (weekdayOf t) (week_plain _ g hl) rfl 0 7 rfl (by simp [weekF]) rfl ht hr
    refine ⟨k, e, h1, ?_, fun h => h3 (h V rfl)⟩
    intro W hW
    simp only [Option.some.injEq] at hW; subst hW
    have := hr.2 x hx
    rw [show k % 7 = x by split at h2 <;> omega]; exact hx

/-- Days counted from the first of the month, past its end: the next month. -/
theorem next_month (N j : Nat) (hj : j < 28) :
    (dateOf (N + dim (dateOf N).y (dateOf N).m + j + 1 - (dateOf N).d)).d = j + 1 := by
  obtain ⟨k, M, i, hM, hi, e⟩ := ex_closed N
  have hd := dateOf_eq N k M i hM hi e
  rw [hd]
  simp only
  by_cases h : M + 1 < 12
  · have hp := dim_pos (1970 + k) (M + 1 + 1)
    rw [dateOf_eq _ k (M + 1) j h (by omega) (by simp only [ms]; omega)]
  · have hp := dim_pos (1970 + (k + 1)) (0 + 1)
    have h11 : M = 11 := by omega
    subst h11
    have h12 := ms_12 (1970 + k)
    have : ms (1970 + k) 12 = ms (1970 + k) 11 + dim (1970 + k) (11 + 1) := rfl
    rw [dateOf_eq _ (k + 1) 0 j (by omega) (by omega) (by simp only [ms, ys]; omega)]

theorem same_month (N a : Nat) (h1 : (dateOf N).d ≤ a) (h2 : a ≤ dim (dateOf N).y (dateOf N).m) :
    dateOf (N + (a - (dateOf N).d)) = ⟨(dateOf N).y, (dateOf N).m, a⟩ := by
  obtain ⟨k, M, i, hM, hi, e⟩ := ex_closed N
  have hd := dateOf_eq N k M i hM hi e
  rw [hd] at h1 h2 ⊢
  simp only at h1 h2 ⊢
  rw [dateOf_eq _ k M (a - 1) hM (by omega) (by omega)]
  congr 1; omega

theorem tok_day (t : Nat) (g : Bool) (s : List Byte) (o : Option (List Nat)) (ht : Tok 2 s o) (hr : InRange 1 29 o) :
    ∃ k : Nat, field (dayF (day t).y (day t).m (day t).d g) s = some (k : Int) ∧ (day t).d ≤ k ∧
      Sel o (day (t + (k - (day t).d) * 86400)).d ∧ (Sel o (day t).d → k = (day t).d) := by
  have hv := dateOf_valid (t / 86400)
  cases o with
  | none =>
    simp only [Tok] at ht; subst ht
    exact ⟨(day t).d, by rw [field_star]; simp [dayF], by omega, by simp [Sel], by simp⟩
  | some V =>
    have hr' : InRange 1 32 (some V) := ⟨hr.1, fun x hx => by have := hr.2 x hx; omega⟩
    obtain ⟨k, e, h1, ⟨x, hx, h2⟩, h3⟩ := tok_field (dayF (day t).y (day t).m (day t).d g) _ (day t).d (day_plain _ g) rfl 1 32 rfl
      (by simp [dayF]) rfl ht hr'
    refine ⟨k, e, h1, ?_, fun h => h3 (h V rfl)⟩
    intro W hW
    simp only [Option.some.injEq] at hW; subst hW
    have hx28 := hr.2 x hx
    suffices h : (day (t + (k - (day t).d) * 86400)).d = x by rw [h]; exact hx
    unfold day at *
    rw [show (t + (k - (dateOf (t / 86400)).d) * 86400) / 86400 = t / 86400 + (k - (dateOf (t / 86400)).d) by omega]
    have hp := dim_pos (dateOf (t / 86400)).y (dateOf (t / 86400)).m
    split at h2
    · have := next_month (t / 86400) (x - 1) (by omega)
      rw [show t / 86400 + (k - (dateOf (t / 86400)).d) =
        t / 86400 + dim (dateOf (t / 86400)).y (dateOf (t / 86400)).m + (x - 1) + 1 - (dateOf (t / 86400)).d by omega, this]
      omega
    · rw [same_month _ _ h1 (by omega)]; exact h2

/-! ## C52 -/

/-- For every expression of at least five words of which none begins with '/', and every base:
if a time is returned, it is not before the base. -/
theorem cron_not_before (exp : List Byte) (t : Nat) (a b c d e : List Byte) (r : List (List Byte))
    (hw : words exp = a :: b :: c :: d :: e :: r) (hs : ∀ x ∈ [a, b, c, d, e], x.head? ≠ some 47#8) (v : Int)
    (h : parse true exp t = some v) : v = 0 ∨ (t : Int) ≤ v := by
  rcases parse_lower exp t a b c d e r hw hs v h with h | ⟨k, _, h1, h2⟩
  · exact Or.inl h
  · right; omega

/-- With "*" for the minute it is strictly later. -/
theorem cron_strictly_later (exp : List Byte) (t : Nat) (b c d e : List Byte) (r : List (List Byte))
    (hw : words exp = [42#8] :: b :: c :: d :: e :: r) (hs : ∀ x ∈ [b, c, d, e], x.head? ≠ some 47#8) (v : Int)
    (h : parse true exp t = some v) : v = 0 ∨ (t : Int) < v := by
  rcases parse_lower exp t _ b c d e r hw (by intro x hx; rcases List.mem_cons.1 hx with rfl | hx; (· simp); exact hs x hx) v h with
    h | ⟨k, h0, h1, h2⟩
  · exact Or.inl h
  · rw [field_star] at h0
    simp only [minuteF, Option.some.injEq] at h0
    right; omega

/-- With fewer than five words no time is returned. -/
theorem cron_too_short (exp : List Byte) (t : Nat) (hw : (words exp).length < 5) (v : Int) (h : parse true exp t = some v) : v = 0 := by
  obtain ⟨ps, e1, hp⟩ := slice_words exp
  have pn := hp (words exp).length
  rw [dif_neg (by omega), if_pos rfl] at pn
  revert v
  show Zero _
  unfold parse parseRest
  rw [time2utc_spec, e1]
  simp only [Option.bind_eq_bind, Option.bind_some, Bool.not_true, Bool.false_eq_true, if_false]
  rcases hl : (words exp).length with _ | _ | _ | _ | _ | n
  · rw [hl] at pn; simp only [pn, Option.bind_some]; exact zero_nil _ _
  · rw [hl] at pn; simp only [pn, Option.bind_some]
    refine zero_bind _ _ fun _ => zero_bind _ _ fun _ => zero_ite _ _ (zero_bind _ _ fun _ => zero_bind _ _ fun _ => ?_)
    exact zero_nil _ _
  · rw [hl] at pn; simp only [pn, Option.bind_some]
    refine zero_bind _ _ fun _ => zero_bind _ _ fun _ => zero_ite _ _ (zero_bind _ _ fun _ => zero_bind _ _ fun _ => ?_)
    refine zero_bind _ _ fun _ => zero_bind _ _ fun _ => zero_ite _ _ (zero_bind _ _ fun _ => zero_bind _ _ fun _ => ?_)
    exact zero_nil _ _
  · rw [hl] at pn; simp only [pn, Option.bind_some]
    refine zero_bind _ _ fun _ => zero_bind _ _ fun _ => zero_ite _ _ (zero_bind _ _ fun _ => zero_bind _ _ fun _ => ?_)
    refine zero_bind _ _ fun _ => zero_bind _ _ fun _ => zero_ite _ _ (zero_bind _ _ fun _ => zero_bind _ _ fun _ => ?_)
    refine zero_bind _ _ fun _ => zero_bind _ _ fun _ => zero_ite _ _ (zero_bind _ _ fun _ => zero_bind _ _ fun _ => ?_)
    exact zero_nil _ _
  · rw [hl] at pn; simp only [pn, Option.bind_some]
    refine zero_bind _ _ fun _ => zero_bind _ _ fun _ => zero_ite _ _ (zero_bind _ _ fun _ => zero_bind _ _ fun _ => ?_)
    refine zero_bind _ _ fun _ => zero_bind _ _ fun _ => zero_ite _ _ (zero_bind _ _ fun _ => zero_bind _ _ fun _ => ?_)
    refine zero_bind _ _ fun _ => zero_bind _ _ fun _ => zero_ite _ _ (zero_bind _ _ fun _ => zero_bind _ _ fun _ => ?_)
    refine zero_bind _ _ fun _ => zero_bind _ _ fun _ => zero_ite _ _ (zero_bind _ _ fun _ => zero_bind _ _ fun _ => ?_)
    exact zero_nil _ _
  · omega

/-- The numbers asked for by the minute, hour, day-of-month and weekday fields. -/
structure Expr where
  minute : Option (List Nat)
  hour : Option (List Nat)
  dom : Option (List Nat)
  week : Option (List Nat)

def Expr.Matches (x : Expr) (t : Nat) : Prop :=
  Sel x.minute (minuteOf t) ∧ Sel x.hour (hourOf t) ∧ Sel x.dom (day t).d ∧ Sel x.week (weekdayOf t)

/-- For every base and every expression of stars and lists of numbers (days of the month up to
28, every month, and not both a day and a weekday asked for): the result is a time that matches,
not before the base, with the same seconds; and it is the base itself exactly when the base
already matches and the minute is not "*". -/
theorem cron_matches_partial (exp : List Byte) (t : Nat) (a b c e : List Byte) (r : List (List Byte)) (x : Expr)
    (hw : words exp = a :: b :: c :: [42#8] :: e :: r)
    (ta : Tok 2 a x.minute) (tb : Tok 2 b x.hour) (tc : Tok 2 c x.dom) (te : Tok 1 e x.week)
    (ra : InRange 0 60 x.minute) (rb : InRange 0 24 x.hour) (rc : InRange 1 29 x.dom) (re : InRange 0 7 x.week)
    (hx : x.dom = none ∨ x.week = none) :
    ∃ v : Nat, parse true exp t = some (v : Int) ∧ t ≤ v ∧ x.Matches v ∧ v % 60 = t % 60 ∧
      (v = t ↔ x.minute ≠ none ∧ x.Matches t) := by
  rw [parse_stages exp t a b c _ e r hw]
  obtain ⟨k1, e1, l1, m1, s1, n1⟩ := tok_minute t a x.minute ta ra
  rw [e1, Option.bind_some, if_neg (by omega), adv_minute t k1 l1, Option.bind_some]
  generalize ht1 : t + (k1 - minuteOf t) * 60 = t1
  obtain ⟨k2, e2, l2, m2, s2⟩ := tok_hour t1 (decide (t1 > t)) b x.hour tb rb
  rw [sH_some t t1 k2 b c _ e e2 l2]
  generalize ht2 : t1 + (k2 - hourOf t1) * 3600 = t2
  obtain ⟨k3, e3, l3, m3, s3⟩ := tok_day t2 (decide (t2 > t)) c x.dom tc rc
  rw [sD_some t t2 k3 c _ e e3 l3]
  generalize ht3 : t2 + (k3 - (day t2).d) * 86400 = t3
  rw [ht3] at m3
  have dp := day_pos t3
  obtain ⟨t4, e4, _, _, q, _⟩ := sM_some t t3 (day t3).m [42#8] e (by rw [field_star]; rfl) dp.2.1 dp.2.2
  have q := q rfl
  subst q
  obtain ⟨k5, e5, l5, m5, s5⟩ := tok_week t4 (decide (t4 > t)) e x.week te re
  rw [e4, sW_some t t4 k5 e e5 l5]
  refine ⟨_, rfl, by omega, ?_, ?_, ?_⟩
  · refine ⟨?_, ?_, ?_, ?_⟩
    · have : minuteOf (t4 + (k5 - weekdayOf t4) * 86400) = k1 % 60 := by
        unfold minuteOf at *; omega
      rw [this]; exact m1
    · have : hourOf (t4 + (k5 - weekdayOf t4) * 86400) = k2 % 24 := by
        unfold hourOf at *; omega
      rw [this]; exact m2
    · rcases hx with hx | hx
      · intro V hV; rw [hx] at hV; simp at hV
      · have : k5 = weekdayOf t4 := s5 (by intro V hV; rw [hx] at hV; simp at hV)
        rw [this, Nat.sub_self, Nat.zero_mul, Nat.add_zero]; exact m3
    · have : weekdayOf (t4 + (k5 - weekdayOf t4) * 86400) = k5 % 7 := by
        unfold weekdayOf at *; omega
      rw [this]; exact m5
  · omega
  · constructor
    · intro h
      refine ⟨fun hn => ?_, ?_⟩
      · have := n1 hn; omega
      · have z1 : t1 = t := by omega
        have z2 : t2 = t := by omega
        have z3 : t4 = t := by omega
        have y1 : k1 = minuteOf t := by omega
        have y2 : k2 = hourOf t := by rw [z1] at ht2 l2; omega
        have y5 : k5 = weekdayOf t := by rw [z3] at h l5; omega
        refine ⟨?_, ?_, ?_, ?_⟩
        · rw [y1, Nat.mod_eq_of_lt (minute_lt t)] at m1; exact m1
        · rw [y2, Nat.mod_eq_of_lt (hour_lt t)] at m2; exact m2
        · rw [z3] at m3; exact m3
        · rw [y5, Nat.mod_eq_of_lt (week_lt t)] at m5; exact m5
    · rintro ⟨hn, h1, h2, h3, h4⟩
      have y1 := s1 hn h1
      have z1 : t1 = t := by omega
      subst z1
      have y2 := s2 h2
      have z2 : t2 = t1 := by omega
      subst z2
      have y3 := s3 h3
      have z3 : t4 = t2 := by omega
      subst z3
      rw [s5 h4, Nat.sub_self, Nat.zero_mul, Nat.add_zero]

/-- So for lists the result is strictly later exactly when the base does not match; "every
minute of these" aside, a base that matches is returned unchanged, for ever. -/
theorem cron_stuck (exp : List Byte) (t : Nat) (a b c e : List Byte) (r : List (List Byte)) (x : Expr)
    (hw : words exp = a :: b :: c :: [42#8] :: e :: r)
    (ta : Tok 2 a x.minute) (tb : Tok 2 b x.hour) (tc : Tok 2 c x.dom) (te : Tok 1 e x.week)
    (ra : InRange 0 60 x.minute) (rb : InRange 0 24 x.hour) (rc : InRange 1 29 x.dom) (re : InRange 0 7 x.week)
    (hx : x.dom = none ∨ x.week = none) (hm : x.minute ≠ none) (h : x.Matches t) : parse true exp t = some (t : Int) := by
  obtain ⟨v, e, _, _, _, q⟩ := cron_matches_partial exp t a b c e r x hw ta tb tc te ra rb rc re hx
  rw [e, q.2 ⟨hm, h⟩]

/-- "* * * * *": one minute later, for every base. -/
theorem cron_every_minute (exp : List Byte) (t : Nat) (r : List (List Byte))
    (hw : words exp = [42#8] :: [42#8] :: [42#8] :: [42#8] :: [42#8] :: r) : parse true exp t = some ((t + 60 : Nat) : Int) := by
  rw [parse_stages exp t _ _ _ _ _ r hw, field_star, Option.bind_some]
  have hp : (minuteF (minuteOf t)).plain = ((minuteOf t + 1 : Nat) : Int) := by simp [minuteF]
  rw [hp, if_neg (by omega), adv_minute t _ (by omega), Option.bind_some]
  generalize ht1 : t + (minuteOf t + 1 - minuteOf t) * 60 = t1
  rw [sH_some t t1 (hourOf t1) _ _ _ _ (by rw [field_star]; rfl) (Nat.le_refl _), Nat.sub_self, Nat.zero_mul, Nat.add_zero,
    sD_some t t1 (day t1).d _ _ _ (by rw [field_star]; rfl) (Nat.le_refl _), Nat.sub_self, Nat.zero_mul, Nat.add_zero]
  have dp := day_pos t1
  obtain ⟨t4, e4, _, _, q, _⟩ := sM_some t t1 (day t1).m [42#8] [42#8] (by rw [field_star]; rfl) dp.2.1 dp.2.2
  rw [e4, q rfl, sW_some t t1 (weekdayOf t1) _ (by rw [field_star]; rfl) (Nat.le_refl _), Nat.sub_self, Nat.zero_mul, Nat.add_zero, ← ht1, Nat.add_sub_cancel_left]

/-- A list of months that are all over for the year makes mln_utc_adjust read outside
`mon_days` (undefined behaviour), for every base. -/
theorem cron_month_over (exp : List Byte) (t : Nat) (d e : List Byte) (V : List Nat) (r : List (List Byte))
    (hw : words exp = [42#8] :: [42#8] :: [42#8] :: d :: e :: r) (hd : Listing 2 d V) (hr : InRange 1 13 (some V))
    (hov : ∀ x ∈ V, x < (day (t + 60)).m) : parse true exp t = none := by
  rw [parse_stages exp t _ _ _ _ _ r hw, field_star, Option.bind_some]
  have hp : (minuteF (minuteOf t)).plain = ((minuteOf t + 1 : Nat) : Int) := by simp [minuteF]
  rw [hp, if_neg (by omega), adv_minute t _ (by omega), Option.bind_some]
  have ht1 : t + (minuteOf t + 1 - minuteOf t) * 60 = t + 60 := by omega
  rw [ht1]
  generalize t + 60 = t1 at hov
  rw [sH_some t t1 (hourOf t1) _ _ _ _ (by rw [field_star]; rfl) (Nat.le_refl _), Nat.sub_self, Nat.zero_mul, Nat.add_zero,
    sD_some t t1 (day t1).d _ _ _ (by rw [field_star]; rfl) (Nat.le_refl _), Nat.sub_self, Nat.zero_mul, Nat.add_zero]
  have dp := day_pos t1
  obtain ⟨k, e1, h1, ⟨x, hx, h2⟩, _⟩ := tok_field (monthF (day t1).m (decide (t1 > t))) 12 (day t1).m (month_plain _ _ dp.2.2) rfl 1 13 rfl
    (by simp [monthF]) rfl hd hr
  have := hov x hx
  have := hr.2 x hx
  rw [if_pos (by omega)] at h2
  exact sM_oob t t1 k d e e1 (by omega)

/-- Asking for the 31st in a month of 30 days yields the first of the next month. -/
theorem cron_day31 (exp : List Byte) (t : Nat) (r : List (List Byte))
    (hw : words exp = [42#8] :: [42#8] :: [0x33#8, 0x31#8] :: [42#8] :: [42#8] :: r)
    (h30 : dim (day (t + 60)).y (day (t + 60)).m = 30) : ∃ v : Nat, parse true exp t = some (v : Int) ∧ (day v).d = 1 := by
  rw [parse_stages exp t _ _ _ _ _ r hw, field_star, Option.bind_some]
  have hp : (minuteF (minuteOf t)).plain = ((minuteOf t + 1 : Nat) : Int) := by simp [minuteF]
  rw [hp, if_neg (by omega), adv_minute t _ (by omega), Option.bind_some]
  have ht1 : t + (minuteOf t + 1 - minuteOf t) * 60 = t + 60 := by omega
  rw [ht1]
  generalize t + 60 = t1 at h30
  rw [sH_some t t1 (hourOf t1) _ _ _ _ (by rw [field_star]; rfl) (Nat.le_refl _), Nat.sub_self, Nat.zero_mul, Nat.add_zero]
  have hv := dateOf_valid (t1 / 86400)
  have hdd : (day t1).d ≤ 30 := by rw [← h30]; exact hv.2.2.2
  obtain ⟨k, e1, h1, ⟨x, hx, h2⟩, _⟩ := tok_field (dayF (day t1).y (day t1).m (day t1).d (decide (t1 > t))) _ (day t1).d (day_plain _ _) rfl 1 32 rfl
    (by simp [dayF]) rfl (Listing.one [0x33#8, 0x31#8] (by simp) (by simp [dayF]) (by decide)) (by simp [InRange]; decide)
  have hx31 : x = 31 := by
    have h0 : val [0x33#8, 0x31#8] = 31 := by decide
    simpa [h0] using hx
  subst hx31
  rw [if_neg (by omega)] at h2
  subst h2
  rw [sD_some t t1 31 _ _ _ e1 (by omega)]
  have hday : (day (t1 + (31 - (day t1).d) * 86400)).d = 1 := by
    have := next_month (t1 / 86400) 0 (by omega)
    unfold day at *
    rw [show (t1 + (31 - (dateOf (t1 / 86400)).d) * 86400) / 86400 =
      t1 / 86400 + dim (dateOf (t1 / 86400)).y (dateOf (t1 / 86400)).m + 0 + 1 - (dateOf (t1 / 86400)).d by omega, this]
  generalize t1 + (31 - (day t1).d) * 86400 = t3 at hday
  have dp := day_pos t3
  obtain ⟨t4, e4, _, _, q, _⟩ := sM_some t t3 (day t3).m [42#8] [42#8] (by rw [field_star]; rfl) dp.2.1 dp.2.2
  rw [e4, q rfl, sW_some t t3 (weekdayOf t3) _ (by rw [field_star]; rfl) (Nat.le_refl _)]
  refine ⟨_, rfl, ?_⟩
  rw [Nat.sub_self, Nat.zero_mul, Nat.add_zero]; exact hday

/-- ASCII text. -/
def txt (s : String) : List Byte := s.toList.map fun c => BitVec.ofNat 8 c.toNat

/-- 2024-04-10 04:45:07 UTC and some expressions. -/
example : parse true (txt "* * * * *") 1712724307 = some 1712724367 := by decide +kernel
example : parse true (txt "30 5 * * *") 1712724307 = some 1712727007 := by decide +kernel
example : parse true (txt "0,10,50 6 * * *") 1712724307 = some 0 := by decide +kernel
example : parse true (txt "10,50,0\t6 * * 1,5") 1712724307 = some 1712904607 := by decide +kernel
example : parse true (txt "* * 31 * *") 1712724307 = some 1714538767 := by decide +kernel
example : parse true (txt "* * * 1 *") 1712724307 = none := by decide +kernel
example : parse true (txt "* * 5") 1712724307 = some 0 := by decide +kernel
example : parse true (txt "45 4 * * *") 1712724307 = some 1712724307 := by decide +kernel

/-- A field that is only a period puts the result before the base. -/
theorem cron_period_only_before : parse true (txt "/5 * * * *") 1712724307 = some 1712721607 := by decide +kernel

/-- The result is not the next matching time: 06:50 is returned although 06:10 matches and lies
after the base. -/
theorem cron_not_next : parse true (txt "10,50 6 * * *") 1712724307 = some 1712731807 ∧
    (1712724307 < 1712731807 - 2400 ∧ (⟨some [10, 50], some [6], none, none⟩ : Expr).Matches (1712731807 - 2400)) := by
  refine ⟨by decide +kernel, by decide, ?_⟩
  simp [Expr.Matches, Sel, minuteOf, hourOf]

/-- Day and weekday together: the weekday shift loses the day. -/
theorem cron_day_and_weekday : ∃ v : Nat, parse true (txt "* * 15 * 5") 1712724307 = some (v : Int) ∧ (day v).d = 19 :=
  by
  refine ⟨1713501967, by decide +kernel, ?_⟩
  unfold day
  rw [dateOf_eq _ 54 3 18 (by decide) (by decide) (by decide +kernel)]

end Verif.Cron
