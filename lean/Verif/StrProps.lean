import Verif.Str

/-
Properties C18, C19, C20, C21, C66, C67 and C68.
-/
namespace Verif.Str

/-! ## memcmp -/

theorem memcmp_zero : ∀ a b : List Byte, a.length = b.length → (memcmp a b = 0 ↔ a = b) := by
  intro a
  induction a with
  | nil => intro b h; cases b with
    | nil => simp [memcmp]
    | cons _ _ => simp at h
  | cons x a ih =>
    intro b h
    cases b with
    | nil => simp at h
    | cons y b =>
      simp only [memcmp]
      by_cases hxy : x = y
      · subst hxy; simp [ih b (by simpa using h)]
      · have : x.toNat ≠ y.toNat := fun hc => hxy (BitVec.eq_of_toNat_eq hc)
        rw [if_neg hxy]
        simp [hxy]; omega

/-! ## The word loop -/

/-- Word-wise comparison of two byte lists. -/
def wcmp : List Byte → List Byte → Int
  | a :: b :: c :: d :: l, a' :: b' :: c' :: d' :: l' =>
    let r := ((d ++ (c ++ (b ++ a)) : BitVec 32) - (d' ++ (c' ++ (b' ++ a')) : BitVec 32)).toInt
    if r ≠ 0 then r else wcmp l l'
  | _, _ => 0

theorem drop4 (s : List Byte) (i : Nat) (h : i + 4 ≤ s.length) :
    s.drop i = s[i] :: s[i + 1] :: s[i + 2] :: s[i + 3] :: s.drop (i + 4) := by
  rw [List.drop_eq_getElem_cons (by omega), List.drop_eq_getElem_cons (by omega), List.drop_eq_getElem_cons (by omega),
    List.drop_eq_getElem_cons (by omega)]

theorem load32_eq (s : List Byte) (i : Nat) (h : i + 4 ≤ s.length) :
    load32 s i = some (s[i + 3] ++ (s[i + 2] ++ (s[i + 1] ++ s[i]))) := by
  unfold load32
  rw [List.getElem?_eq_getElem (by omega), List.getElem?_eq_getElem (by omega), List.getElem?_eq_getElem (by omega),
    List.getElem?_eq_getElem (by omega)]
  rfl

theorem wordLoop_eq (s1 s2 : List Byte) (n : Nat) (h1 : n ≤ s1.length) (h2 : n ≤ s2.length) :
    ∀ fuel i, n < fuel + i → 4 ∣ n - i → i ≤ n →
      wordLoop s1 s2 n fuel i = some (wcmp ((s1.take n).drop i) ((s2.take n).drop i)) := by
  intro fuel
  induction fuel with
  | zero => intro i h _ h'; omega
  | succ fuel ih =>
    intro i hf hd hi
    simp only [wordLoop]
    by_cases hlt : i < n
    · have h4 : i + 4 ≤ n := by omega
      rw [if_pos hlt, load32_eq s1 i (by omega), load32_eq s2 i (by omega)]
      simp only [Option.bind_eq_bind, Option.bind_some]
      rw [drop4 (s1.take n) i (by simp; omega), drop4 (s2.take n) i (by simp; omega)]
      simp only [wcmp, List.getElem_take]
      split
      · rfl
      · exact ih (i + 4) (by omega) (by omega) h4
    · rw [if_neg hlt]
      have : i = n := by omega
      subst this
      rw [List.drop_eq_nil_of_le (by simp; omega), List.drop_eq_nil_of_le (by simp; omega)]
      rfl

theorem or_shift (x y k : Nat) (h : y < 2 ^ k) : x <<< k ||| y = x * 2 ^ k + y := by
  rw [← Nat.shiftLeft_add_eq_or_of_lt h, Nat.shiftLeft_eq]

theorem word_toNat (a b c d : Byte) : (d ++ (c ++ (b ++ a)) : BitVec 32).toNat =
    a.toNat + 256 * b.toNat + 65536 * c.toNat + 16777216 * d.toNat := by
  have ha := a.isLt
  have hb := b.isLt
  have hc := c.isLt
  simp only [BitVec.toNat_append]
  rw [or_shift b.toNat a.toNat 8 ha, or_shift c.toNat _ (8 + 8) (by omega), or_shift d.toNat _ (8 + (8 + 8)) (by omega)]
  omega

theorem word_inj (a b c d a' b' c' d' : Byte) (h : (d ++ (c ++ (b ++ a)) : BitVec 32) = (d' ++ (c' ++ (b' ++ a')) : BitVec 32)) :
    a = a' ∧ b = b' ∧ c = c' ∧ d = d' := by
  have h' := congrArg BitVec.toNat h
  rw [word_toNat, word_toNat] at h'
  have ha := a.isLt
  have hb := b.isLt
  have hc := c.isLt
  have ha' := a'.isLt
  have hb' := b'.isLt
  have hc' := c'.isLt
  refine ⟨BitVec.eq_of_toNat_eq ?_, BitVec.eq_of_toNat_eq ?_, BitVec.eq_of_toNat_eq ?_, BitVec.eq_of_toNat_eq ?_⟩ <;> omega

theorem toInt_sub_zero (x y : BitVec 32) : (x - y).toInt = 0 ↔ x = y := by
  constructor
  · intro h
    have : x - y = 0#32 := by
      apply BitVec.eq_of_toInt_eq; simpa using h
    have := BitVec.sub_eq_iff_eq_add.mp this
    simpa using this
  · intro h; subst h; simp

theorem wcmp_zero : ∀ n (a b : List Byte), a.length = 4 * n → b.length = 4 * n → (wcmp a b = 0 ↔ a = b) := by
  intro n
  induction n with
  | zero =>
    intro a b ha hb
    have : a = [] := List.eq_nil_of_length_eq_zero (by omega)
    have : b = [] := List.eq_nil_of_length_eq_zero (by omega)
    subst_vars; simp [wcmp]
  | succ n ih =>
    intro a b ha hb
    match a, ha with
    | a0 :: a1 :: a2 :: a3 :: a, ha =>
      match b, hb with
      | b0 :: b1 :: b2 :: b3 :: b, hb =>
        simp only [wcmp]
        have iha := ih a b (by simp at ha; omega) (by simp at hb; omega)
        by_cases hw : (a3 ++ (a2 ++ (a1 ++ a0)) : BitVec 32) = (b3 ++ (b2 ++ (b1 ++ b0)) : BitVec 32)
        · have h0 := (toInt_sub_zero _ _).mpr hw
          obtain ⟨e0, e1, e2, e3⟩ := word_inj _ _ _ _ _ _ _ _ hw
          subst e0 e1 e2 e3
          simp only [h0, ne_eq, not_true_eq_false, if_false, iha]
          simp
        · have h0 : ¬ ((a3 ++ (a2 ++ (a1 ++ a0)) : BitVec 32) - (b3 ++ (b2 ++ (b1 ++ b0)) : BitVec 32)).toInt = 0 :=
            fun h => hw ((toInt_sub_zero _ _).mp h)
          rw [if_pos h0]
          constructor
          · intro h; exact absurd h h0
          · intro h
            simp only [List.cons.injEq] at h
            obtain ⟨e0, e1, e2, e3, _⟩ := h
            subst e0 e1 e2 e3
            exact absurd rfl hw

theorem wordLoop_zero (s1 s2 : List Byte) (n : Nat) (h1 : n ≤ s1.length) (h2 : n ≤ s2.length) (h4 : n % 4 = 0) :
    ∃ r, wordLoop s1 s2 n (n + 1) 0 = some r ∧ (r = 0 ↔ s1.take n = s2.take n) := by
  refine ⟨_, wordLoop_eq s1 s2 n h1 h2 (n + 1) 0 (by omega) (by omega) (by omega), ?_⟩
  rw [List.drop_zero, List.drop_zero]
  exact wcmp_zero (n / 4) _ _ (by simp; omega) (by simp; omega)

/-! ## C18 -/

/-- mln_string_strcmp on distinct buffers is 0 exactly on equal strings, and never reads
outside them. -/
theorem strcmp_zero (s1 s2 : List Byte) : ∃ r, strcmp false s1 s2 = some r ∧ (r = 0 ↔ s1 = s2) := by
  unfold strcmp
  rw [if_neg (by decide)]
  by_cases hgt : s1.length > s2.length
  · exact ⟨1, by rw [if_pos hgt], by constructor; · intro h; cases h
                                     · intro h; rw [h] at hgt; omega⟩
  rw [if_neg hgt]
  by_cases hlt : s1.length < s2.length
  · exact ⟨-1, by rw [if_pos hlt], by constructor; · intro h; cases h
                                      · intro h; rw [h] at hlt; omega⟩
  rw [if_neg hlt]
  have hl : s1.length = s2.length := by omega
  split
  · exact ⟨_, rfl, memcmp_zero s1 s2 hl⟩
  · rename_i h
    obtain ⟨r, e, hr⟩ := wordLoop_zero s1 s2 s1.length (by omega) (by omega) (by omega)
    refine ⟨r, e, ?_⟩
    rw [hr, List.take_length, hl, List.take_length]

/-- The bytes of a C string: up to the first NUL. -/
def cstr (l : List Byte) : List Byte := l.takeWhile (fun b => decide (b ≠ 0))

theorem strlen_spec (l : List Byte) (h : 0#8 ∈ l) : strlen l = some (cstr l).length ∧ l.take (cstr l).length = cstr l ∧ (cstr l).length ≤ l.length := by
  induction l with
  | nil => simp at h
  | cons b l ih =>
    simp only [strlen, cstr, List.takeWhile_cons]
    by_cases hb : b = 0
    · simp [hb]
    · have : 0#8 ∈ l := by
        rcases List.mem_cons.mp h with h | h
        · exact absurd h.symm hb
        · exact h
      obtain ⟨e1, e2, e3⟩ := ih this
      simp only [hb, if_false, e1, Option.map_some, ne_eq, not_false_eq_true, decide_true, if_true, List.length_cons, List.take_succ_cons]
      refine ⟨rfl, ?_, ?_⟩
      · congr 1
      · exact Nat.succ_le_succ e3

/-- mln_string_const_strcmp is 0 exactly when the string equals the C string. -/
theorem constStrcmp_zero (s1 l : List Byte) (h : 0#8 ∈ l) :
    ∃ r, constStrcmp false s1 l = some r ∧ (r = 0 ↔ s1 = cstr l) := by
  obtain ⟨e1, e2, e3⟩ := strlen_spec l h
  unfold constStrcmp
  rw [if_neg (by decide), e1]
  simp only [Option.bind_eq_bind, Option.bind_some]
  by_cases hgt : s1.length > (cstr l).length
  · exact ⟨1, by rw [if_pos hgt], by constructor; · intro h; cases h
                                     · intro h; rw [h] at hgt; omega⟩
  rw [if_neg hgt]
  by_cases hlt : s1.length < (cstr l).length
  · exact ⟨-1, by rw [if_pos hlt], by constructor; · intro h; cases h
                                      · intro h; rw [h] at hlt; omega⟩
  rw [if_neg hlt]
  have hl : s1.length = (cstr l).length := by omega
  split
  · rw [e2]; exact ⟨_, rfl, memcmp_zero s1 _ hl⟩
  · obtain ⟨r, e, hr⟩ := wordLoop_zero s1 l (cstr l).length (by omega) e3 (by omega)
    refine ⟨r, e, ?_⟩
    rw [hr, e2, ← hl, List.take_length]

/-- mln_string_strncmp is 0 exactly when both strings have at least `n` bytes and these agree. -/
theorem strncmp_zero (s1 s2 : List Byte) (n : Nat) :
    ∃ r, strncmp false s1 s2 n = some r ∧ (r = 0 ↔ n ≤ s1.length ∧ n ≤ s2.length ∧ s1.take n = s2.take n) := by
  unfold strncmp
  rw [if_neg (by decide)]
  by_cases hs : s1.length < n ∨ s2.length < n
  · refine ⟨-1, by rw [if_pos hs], ?_⟩
    constructor
    · intro h; cases h
    · rintro ⟨a, b, _⟩; omega
  rw [if_neg hs]
  split
  · refine ⟨_, rfl, ?_⟩
    rw [memcmp_zero _ _ (by simp; omega)]
    constructor
    · intro h; exact ⟨by omega, by omega, h⟩
    · intro h; exact h.2.2
  · obtain ⟨r, e, hr⟩ := wordLoop_zero s1 s2 n (by omega) (by omega) (by omega)
    refine ⟨r, e, ?_⟩
    rw [hr]
    constructor
    · intro h; exact ⟨by omega, by omega, h⟩
    · intro h; exact h.2.2

/-- mln_string_const_strncmp likewise. -/
theorem constStrncmp_zero (s1 l : List Byte) (n : Nat) (h : 0#8 ∈ l) :
    ∃ r, constStrncmp false s1 l n = some r ∧ (r = 0 ↔ n ≤ s1.length ∧ n ≤ (cstr l).length ∧ s1.take n = (cstr l).take n) := by
  obtain ⟨e1, e2, e3⟩ := strlen_spec l h
  unfold constStrncmp
  rw [if_neg (by decide), e1]
  simp only [Option.bind_eq_bind, Option.bind_some]
  by_cases hs : s1.length < n ∨ (cstr l).length < n
  · refine ⟨-1, by rw [if_pos hs], ?_⟩
    constructor
    · intro h; cases h
    · rintro ⟨a, b, _⟩; omega
  rw [if_neg hs]
  have et : l.take n = (cstr l).take n := by
    rw [← e2, List.take_take, Nat.min_eq_left (by omega)]
  split
  · refine ⟨_, rfl, ?_⟩
    rw [memcmp_zero _ _ (by simp; omega), et]
    constructor
    · intro h; exact ⟨by omega, by omega, h⟩
    · intro h; exact h.2.2
  · obtain ⟨r, e, hr⟩ := wordLoop_zero s1 l n (by omega) (by omega) (by omega)
    refine ⟨r, e, ?_⟩
    rw [hr, et]
    constructor
    · intro h; exact ⟨by omega, by omega, h⟩
    · intro h; exact h.2.2

/-- mln_string_strseqcmp is 0 exactly on equal strings. -/
theorem strseqcmp_zero (s1 s2 : List Byte) : strseqcmp s1 s2 = 0 ↔ s1 = s2 := by
  unfold strseqcmp
  by_cases hgt : s1.length > s2.length
  · rw [if_pos hgt]
    have hne : s1 ≠ s2 := by intro h; rw [h] at hgt; omega
    simp only [hne, iff_false]
    repeat' split
    all_goals (first | assumption | decide)
  rw [if_neg hgt]
  by_cases hlt : s1.length < s2.length
  · rw [if_pos hlt]
    have hne : s1 ≠ s2 := by intro h; rw [h] at hlt; omega
    simp only [hne, iff_false]
    repeat' split
    all_goals (first | assumption | decide)
  rw [if_neg hlt]
  have hl : s1.length = s2.length := by omega
  by_cases h0 : s1.length = 0
  · rw [if_pos h0]
    have : s1 = [] := List.eq_nil_of_length_eq_zero h0
    have : s2 = [] := List.eq_nil_of_length_eq_zero (by omega)
    subst_vars; simp
  · rw [if_neg h0, List.take_length, hl, List.take_length]
    exact memcmp_zero s1 s2 hl

/-- On a shared data pointer the result is 0 even for different lengths: the restriction to
distinct buffers in C18 is needed. -/
theorem strcmp_same_buffer : strcmp true [97] [97, 98] = some 0 := rfl

example : strcmp false [97, 98, 99, 100] [97, 98, 99, 101] = some (-16777216) ∧ strcmp false [97] [98] = some (-1) ∧
    strcmp false [1, 2, 3, 4, 5, 6, 7, 8] [1, 2, 3, 4, 5, 6, 7, 8] = some 0 := by decide +kernel

/-! ## C19 -/

/-- Refutation: strcmp is not antisymmetric (words that differ by 2^31). -/
theorem strcmp_not_antisymm : strcmp false [0, 0, 0, 0] [0, 0, 0, 0x80] = some (-2147483648) ∧
    strcmp false [0, 0, 0, 0x80] [0, 0, 0, 0] = some (-2147483648) := by decide +kernel

/-- Refutation: strcmp is cyclic. -/
theorem strcmp_cyclic : ∃ a b c x y z, strcmp false a b = some x ∧ strcmp false b c = some y ∧ strcmp false c a = some z ∧
    x < 0 ∧ y < 0 ∧ z < 0 :=
  ⟨[0, 0, 0, 0], [0, 0, 0, 0x60], [0, 0, 0, 0xc0], -1610612736, -1610612736, -1073741824, by decide +kernel⟩

/-- Refutation: strseqcmp puts the empty string after a nonempty one and also before it. -/
theorem strseqcmp_not_antisymm (a : Byte) (l : List Byte) : strseqcmp [] (a :: l) = 1 ∧ strseqcmp (a :: l) [] = 1 := by
  simp [strseqcmp]

/-- Lexicographic order of lists of numbers (specification). -/
inductive Lex : List Nat → List Nat → Prop
  | nil (b bs) : Lex [] (b :: bs)
  | head (a b as bs) : a < b → Lex (a :: as) (b :: bs)
  | tail (a as bs) : Lex as bs → Lex (a :: as) (a :: bs)

theorem Lex.trans {a b c : List Nat} (h1 : Lex a b) (h2 : Lex b c) : Lex a c := by
  induction h1 generalizing c with
  | nil b bs => cases h2 with
    | head _ y _ ys _ => exact Lex.nil _ _
    | tail _ _ ys _ => exact Lex.nil _ _
  | head x y xs ys h => cases h2 with
    | head _ z _ zs h' => exact Lex.head _ _ _ _ (by omega)
    | tail _ _ zs _ => exact Lex.head _ _ _ _ h
  | tail x xs ys h ih => cases h2 with
    | head _ z _ zs h' => exact Lex.head _ _ _ _ h'
    | tail _ _ zs h' => exact Lex.tail _ _ _ (ih h')

theorem Lex.irrefl (a : List Nat) : ¬ Lex a a := by
  induction a with
  | nil => intro h; cases h
  | cons x a ih => intro h; cases h with
    | head _ _ _ _ h => omega
    | tail _ _ _ h => exact ih h

theorem memcmp_lex : ∀ a b : List Byte, a.length = b.length →
    (memcmp a b < 0 ↔ Lex (a.map BitVec.toNat) (b.map BitVec.toNat)) ∧
    (0 < memcmp a b ↔ Lex (b.map BitVec.toNat) (a.map BitVec.toNat)) := by
  intro a
  induction a with
  | nil => intro b h; cases b with
    | nil => simp [memcmp]; exact Lex.irrefl []
    | cons _ _ => simp at h
  | cons x a ih =>
    intro b h
    cases b with
    | nil => simp at h
    | cons y b =>
      simp only [memcmp, List.map_cons]
      by_cases hxy : x = y
      · subst hxy
        rw [if_pos rfl]
        obtain ⟨i1, i2⟩ := ih b (by simpa using h)
        refine ⟨⟨fun h => Lex.tail _ _ _ (i1.mp h), ?_⟩, ⟨fun h => Lex.tail _ _ _ (i2.mp h), ?_⟩⟩
        · intro h; cases h with
          | head _ _ _ _ h => omega
          | tail _ _ _ h => exact i1.mpr h
        · intro h; cases h with
          | head _ _ _ _ h => omega
          | tail _ _ _ h => exact i2.mpr h
      · have : x.toNat ≠ y.toNat := fun hc => hxy (BitVec.eq_of_toNat_eq hc)
        rw [if_neg hxy]
        refine ⟨⟨fun h => Lex.head _ _ _ _ (by omega), ?_⟩, ⟨fun h => Lex.head _ _ _ _ (by omega), ?_⟩⟩
        · intro h
          have : x.toNat < y.toNat := by
            generalize x.toNat = p at *
            generalize y.toNat = q at *
            cases h with
            | head _ _ _ _ h => exact h
            | tail _ _ _ h => exact absurd rfl this
          omega
        · intro h
          have : y.toNat < x.toNat := by
            generalize x.toNat = p at *
            generalize y.toNat = q at *
            cases h with
            | head _ _ _ _ h => exact h
            | tail _ _ _ h => exact absurd rfl this
          omega

/-- The little-endian words of a byte list, as numbers. -/
def words : List Byte → List Nat
  | a :: b :: c :: d :: l => (a.toNat + 256 * b.toNat + 65536 * c.toNat + 16777216 * d.toNat) :: words l
  | _ => []

/-- All bytes below 0x80. -/
def Ascii (s : List Byte) : Prop := ∀ b ∈ s, b.toNat < 128

theorem wcmp_lex : ∀ n (a b : List Byte), a.length = 4 * n → b.length = 4 * n → Ascii a → Ascii b →
    (wcmp a b < 0 ↔ Lex (words a) (words b)) ∧ (0 < wcmp a b ↔ Lex (words b) (words a)) := by
  intro n
  induction n with
  | zero =>
    intro a b ha hb _ _
    have : a = [] := List.eq_nil_of_length_eq_zero (by omega)
    have : b = [] := List.eq_nil_of_length_eq_zero (by omega)
    subst_vars; simp [wcmp, words]; exact Lex.irrefl []
  | succ n ih =>
    intro a b ha hb hA hB
    match a, ha with
    | a0 :: a1 :: a2 :: a3 :: a, ha =>
      match b, hb with
      | b0 :: b1 :: b2 :: b3 :: b, hb =>
        simp only [wcmp, words]
        obtain ⟨i1, i2⟩ := ih a b (by simp at ha; omega) (by simp at hb; omega) (fun x hx => hA x (by simp [hx])) (fun x hx => hB x (by simp [hx]))
        have hA3 : a3.toNat < 128 := hA a3 (by simp)
        have hB3 : b3.toNat < 128 := hB b3 (by simp)
        have w1 := word_toNat a0 a1 a2 a3
        have w2 := word_toNat b0 b1 b2 b3
        have q0 := a0.isLt
        have q1 := a1.isLt
        have q2 := a2.isLt
        have r0 := b0.isLt
        have r1 := b1.isLt
        have r2 := b2.isLt
        generalize (a3 ++ (a2 ++ (a1 ++ a0)) : BitVec 32) = w at *
        generalize (b3 ++ (b2 ++ (b1 ++ b0)) : BitVec 32) = v at *
        have e : (w - v).toInt = (w.toNat : Int) - v.toNat := by
          rw [BitVec.toInt_eq_toNat_cond, BitVec.toNat_sub]
          split <;> omega
        rw [e, ← w1, ← w2]
        by_cases hxy : w.toNat = v.toNat
        · rw [if_neg (by omega), hxy]
          refine ⟨⟨fun h => Lex.tail _ _ _ (i1.mp h), ?_⟩, ⟨fun h => Lex.tail _ _ _ (i2.mp h), ?_⟩⟩
          · intro h
            generalize v.toNat = q at h
            cases h with
            | head _ _ _ _ h => omega
            | tail _ _ _ h => exact i1.mpr h
          · intro h
            generalize v.toNat = q at h
            cases h with
            | head _ _ _ _ h => omega
            | tail _ _ _ h => exact i2.mpr h
        · rw [if_pos (by omega)]
          refine ⟨⟨fun h => Lex.head _ _ _ _ (by omega), ?_⟩, ⟨fun h => Lex.head _ _ _ _ (by omega), ?_⟩⟩
          · intro h
            have : w.toNat < v.toNat := by
              generalize w.toNat = p at hxy h
              generalize v.toNat = q at hxy h
              cases h with
              | head _ _ _ _ h => exact h
              | tail _ _ _ h => exact absurd rfl hxy
            omega
          · intro h
            have : v.toNat < w.toNat := by
              generalize w.toNat = p at hxy h
              generalize v.toNat = q at hxy h
              cases h with
              | head _ _ _ _ h => exact h
              | tail _ _ _ h => exact absurd rfl hxy
            omega

/-- The sort key of a string: its length, then its bytes (or its words when the code compares
words). -/
def key (s : List Byte) : List Nat :=
  s.length :: (if s.length > 280 ∨ s.length % 4 ≠ 0 then s.map BitVec.toNat else words s)

/-- C19, partial: on strings of 7-bit bytes the sign of mln_string_strcmp is the strict total
order of the keys.  (For lengths above 280 or not divisible by 4 the restriction to 7-bit
bytes is not used; see `strcmp_key_bytes`.)  Missing: strings with bytes ≥ 0x80 whose length
is a multiple of 4 up to 280, where the statement is false. -/
theorem strcmp_key_partial (s1 s2 : List Byte) (h1 : Ascii s1) (h2 : Ascii s2) :
    ∃ r, strcmp false s1 s2 = some r ∧ (r < 0 ↔ Lex (key s1) (key s2)) ∧ (0 < r ↔ Lex (key s2) (key s1)) := by
  unfold strcmp key
  rw [if_neg (by decide)]
  by_cases hgt : s1.length > s2.length
  · rw [if_pos hgt]
    refine ⟨1, rfl, ⟨fun h => absurd h (by decide), ?_⟩, ⟨fun _ => Lex.head _ _ _ _ hgt, fun _ => by decide⟩⟩
    intro h
    generalize s1.length = p at hgt h
    generalize s2.length = q at hgt h
    cases h with
    | head _ _ _ _ h => omega
    | tail _ _ _ h => omega
  rw [if_neg hgt]
  by_cases hlt : s1.length < s2.length
  · rw [if_pos hlt]
    refine ⟨-1, rfl, ⟨fun _ => Lex.head _ _ _ _ hlt, fun _ => by decide⟩, ⟨fun h => absurd h (by decide), ?_⟩⟩
    intro h
    generalize s1.length = p at hlt h
    generalize s2.length = q at hlt h
    cases h with
    | head _ _ _ _ h => omega
    | tail _ _ _ h => omega
  rw [if_neg hlt]
  have hl : s1.length = s2.length := by omega
  have tails : ∀ (q : Nat) (u v : List Nat), Lex (q :: u) (q :: v) ↔ Lex u v := by
    intro q u v
    constructor
    · intro h; cases h with
      | head _ _ _ _ h => omega
      | tail _ _ _ h => exact h
    · exact Lex.tail _ _ _
  rw [← hl, tails, tails]
  by_cases hb : s1.length > 280 ∨ s1.length % 4 ≠ 0
  · rw [if_pos hb, if_pos hb, if_pos hb]
    exact ⟨_, rfl, memcmp_lex s1 s2 hl⟩
  · rw [if_neg hb, if_neg hb, if_neg hb]
    refine ⟨_, wordLoop_eq s1 s2 s1.length (by omega) (by omega) _ 0 (by omega) (by omega) (by omega), ?_⟩
    rw [List.drop_zero, List.drop_zero, List.take_length, hl, List.take_length]
    exact wcmp_lex (s1.length / 4) s1 s2 (by omega) (by omega) h1 h2

/-- Without the word path no restriction on the bytes is needed. -/
theorem strcmp_key_bytes (s1 s2 : List Byte) (hb : s1.length > 280 ∨ s1.length % 4 ≠ 0) (hl : s1.length = s2.length) :
    ∃ r, strcmp false s1 s2 = some r ∧ (r < 0 ↔ Lex (s1.map BitVec.toNat) (s2.map BitVec.toNat)) ∧
      (0 < r ↔ Lex (s2.map BitVec.toNat) (s1.map BitVec.toNat)) := by
  unfold strcmp
  rw [if_neg (by decide), if_neg (by omega), if_neg (by omega), if_pos hb]
  exact ⟨_, rfl, memcmp_lex s1 s2 hl⟩

/-- C19, partial: on 7-bit strings strcmp is antisymmetric and transitive. -/
theorem strcmp_order_partial (a b c : List Byte) (ha : Ascii a) (hb : Ascii b) (hc : Ascii c) :
    (∃ x y, strcmp false a b = some x ∧ strcmp false b a = some y ∧ (x < 0 ↔ 0 < y)) ∧
    (∀ x y z, strcmp false a b = some x → strcmp false b c = some y → strcmp false a c = some z → x < 0 → y < 0 → z < 0) := by
  constructor
  · obtain ⟨x, e1, f1, g1⟩ := strcmp_key_partial a b ha hb
    obtain ⟨y, e2, f2, g2⟩ := strcmp_key_partial b a hb ha
    exact ⟨x, y, e1, e2, by rw [f1, g2]⟩
  · intro x y z h1 h2 h3 hx hy
    obtain ⟨x', e1, f1, g1⟩ := strcmp_key_partial a b ha hb
    obtain ⟨y', e2, f2, g2⟩ := strcmp_key_partial b c hb hc
    obtain ⟨z', e3, f3, g3⟩ := strcmp_key_partial a c ha hc
    rw [h1] at e1; rw [h2] at e2; rw [h3] at e3
    cases e1; cases e2; cases e3
    rw [f3]; exact (f1.mp hx).trans (f2.mp hy)

/-- On 7-bit text the order is not alphabetical: words compare by their last byte first. -/
example : strcmp false [97, 97, 97, 98] [98, 97, 97, 97] = some 16777215 := by decide +kernel

/-- The order of a dictionary: prefix first, then by the first differing byte. -/
theorem strseqcmp_prefix (a b : List Byte) (h : a.length < b.length) (hne : a ≠ []) :
    (strseqcmp a b < 0 ↔ Lex (a.map BitVec.toNat) (b.map BitVec.toNat)) ∧
    (0 < strseqcmp a b ↔ Lex (b.map BitVec.toNat) (a.map BitVec.toNat)) ∧
    (strseqcmp b a < 0 ↔ Lex (b.map BitVec.toNat) (a.map BitVec.toNat)) ∧
    (0 < strseqcmp b a ↔ Lex (a.map BitVec.toNat) (b.map BitVec.toNat)) := by
  have h0 : a.length ≠ 0 := by simpa using hne
  have e1 : strseqcmp a b = if memcmp a (b.take a.length) ≠ 0 then memcmp a (b.take a.length) else -1 := by
    unfold strseqcmp
    rw [if_neg (by omega), if_pos h, if_neg h0, List.take_length]
  have e2 : strseqcmp b a = if memcmp (b.take a.length) a ≠ 0 then memcmp (b.take a.length) a else 1 := by
    unfold strseqcmp
    rw [if_pos h, if_neg h0, List.take_length]
  have key : ∀ (a b : List Byte), a.length < b.length →
      ((if memcmp a (b.take a.length) ≠ 0 then memcmp a (b.take a.length) else -1) < 0 ↔ Lex (a.map BitVec.toNat) (b.map BitVec.toNat)) ∧
      (0 < (if memcmp a (b.take a.length) ≠ 0 then memcmp a (b.take a.length) else -1) ↔ Lex (b.map BitVec.toNat) (a.map BitVec.toNat)) ∧
      ((if memcmp (b.take a.length) a ≠ 0 then memcmp (b.take a.length) a else 1) < 0 ↔ Lex (b.map BitVec.toNat) (a.map BitVec.toNat)) ∧
      (0 < (if memcmp (b.take a.length) a ≠ 0 then memcmp (b.take a.length) a else 1) ↔ Lex (a.map BitVec.toNat) (b.map BitVec.toNat)) := by
    intro a
    induction a with
    | nil =>
      intro b hb
      cases b with
      | nil => simp at hb
      | cons y b =>
        simp [memcmp]
        refine ⟨Lex.nil _ _, ?_, Lex.nil _ _⟩
        intro h; cases h
    | cons x a ih =>
      intro b hb
      cases b with
      | nil => simp at hb
      | cons y b =>
        simp only [List.length_cons, List.take_succ_cons, memcmp, List.map_cons]
        by_cases hxy : x = y
        · subst hxy
          obtain ⟨i1, i2, i3, i4⟩ := ih b (by simpa using hb)
          have tails : ∀ (q : Nat) (u v : List Nat), Lex (q :: u) (q :: v) ↔ Lex u v := by
            intro q u v
            constructor
            · intro h; cases h with
              | head _ _ _ _ h => omega
              | tail _ _ _ h => exact h
            · exact Lex.tail _ _ _
          simp only [if_true, tails]
          exact ⟨i1, i2, i3, i4⟩
        · have hn : x.toNat ≠ y.toNat := fun hc => hxy (BitVec.eq_of_toNat_eq hc)
          have heads : ∀ (p q : Nat) (u v : List Nat), p ≠ q → (Lex (p :: u) (q :: v) ↔ p < q) := by
            intro p q u v hpq
            constructor
            · intro h; cases h with
              | head _ _ _ _ h => exact h
              | tail _ _ _ h => exact absurd rfl hpq
            · exact Lex.head _ _ _ _
          rw [if_neg hxy, if_neg (show ¬ y = x from fun h => hxy h.symm), heads _ _ _ _ hn, heads _ _ _ _ (Ne.symm hn), if_pos (show (x.toNat : Int) - y.toNat ≠ 0 by omega), if_pos (show (y.toNat : Int) - x.toNat ≠ 0 by omega)]
          refine ⟨?_, ?_, ?_, ?_⟩ <;> omega
  rw [e1, e2]
  exact key a b h

/-- C19, partial: on nonempty strings strseqcmp is the lexicographic order of the bytes. -/
theorem strseqcmp_lex_partial (a b : List Byte) (ha : a ≠ []) (hb : b ≠ []) :
    (strseqcmp a b < 0 ↔ Lex (a.map BitVec.toNat) (b.map BitVec.toNat)) ∧
    (0 < strseqcmp a b ↔ Lex (b.map BitVec.toNat) (a.map BitVec.toNat)) := by
  rcases Nat.lt_trichotomy a.length b.length with h | h | h
  · exact ⟨(strseqcmp_prefix a b h ha).1, (strseqcmp_prefix a b h ha).2.1⟩
  · unfold strseqcmp
    have h0 : a.length ≠ 0 := by simpa using ha
    rw [if_neg (by omega), if_neg (by omega), if_neg h0, List.take_length, h, List.take_length]
    exact memcmp_lex a b h
  · exact ⟨(strseqcmp_prefix b a h hb).2.2.1, (strseqcmp_prefix b a h hb).2.2.2⟩

end Verif.Str
