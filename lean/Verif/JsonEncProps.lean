import Verif.JsonProps
/-
C41, C43, C44, C78: JSON texts decode to their values, encoding writes the text and stays inside its
buffer, encoding and decoding is the identity.
-/
namespace Verif.Json
open Verif.Str (Byte strcmp)
variable {D : Type}

/-! ## Decoding of texts -/

theorem skip_nil {w : List Byte} (h : Blanks w) : skip w = [] := by
  induction w with
  | nil => rfl
  | cons b w ih =>
    simp only [skip, List.dropWhile_cons, h b (by simp), if_true] at ih ⊢
    exact ih fun x hx => h x (by simp [hx])

/-- Every JSON text of an object or array (in the grammar `Txt`), with any blanks around, decodes to
the value it denotes. -/
theorem decode_text {F : Fl D} {ofInt : Int → D} (hF : Exact F ofInt) (v : Json D) (t w1 w2 : List Byte) (h : Txt ofInt v t)
    (hv : (∃ kvs, v = .obj kvs) ∨ ∃ vs, v = .arr vs) (h1 : Blanks w1) (h2 : Blanks w2) : decode F {} (w1 ++ (t ++ w2)) = some (some v) := by
  have hp := (parse_txt hF t.length).1 v t h (Nat.le_refl _) (2 * (w1 ++ (t ++ w2)).length + 3) false 0 w1 w2 h1
    (fun b r hr => Or.inl (h2 b (by rw [hr]; simp))) (by simp; omega)
  unfold decode
  rw [hp]
  simp only
  have ha : aft v w2 = [] := by
    rcases hv with ⟨_, rfl⟩ | ⟨_, rfl⟩ <;> exact skip_nil h2
  rw [if_neg (by simpa using ha)]
  rcases hv with ⟨_, rfl⟩ | ⟨_, rfl⟩ <;> rfl

/-- C43 for one or more elements.  Missing: zero elements, see `array_empty`. -/
theorem json_array_partial {F : Fl D} {ofInt : Int → D} (hF : Exact F ofInt) (vs : List (Json D)) (t w1 w2 : List Byte) (h : Elems ofInt vs t)
    (h1 : Blanks w1) (h2 : Blanks w2) : decode F {} (w1 ++ (91 :: t ++ w2)) = some (some (.arr vs)) :=
  decode_text hF _ _ _ _ (Txt.arr vs t h) (Or.inr ⟨vs, rfl⟩) h1 h2

/-- Refutation of C43: the text `[]` decodes to an array of length 1. -/
theorem array_empty (F : Fl D) : decode F {} [91, 93] = some (some (.arr [.none])) := rfl

/-- Refutation of C43: `[`, blanks, `]` is rejected. -/
theorem array_empty_blank (F : Fl D) (w : List Byte) (h : Blanks w) (h0 : w ≠ []) : decode F {} (91 :: (w ++ [93])) = some none := by
  cases w with
  | nil => exact absurd rfl h0
  | cons b w =>
    have hb : b ≠ 93 := by
      rintro rfl
      exact absurd (h 93 (by simp)) (by decide)
    have hs : skip (b :: (w ++ [93])) = [93] := by
      rw [← List.cons_append]
      exact skip_blanks h (by decide) []
    have h93 : ∀ n d, parseJson F {} (n + 1) false d (b :: (w ++ [93])) = some none := by
      intro n d
      rw [parseJson, hs]
      rfl
    have hl : 2 * (91 :: (b :: w ++ [93])).length + 3 = (2 * w.length + 6) + 1 + 1 + 1 := by simp; omega
    unfold decode
    rw [hl, parseJson, skip_cons (by decide)]
    simp only
    rw [if_neg (by decide), if_pos trivial, if_neg (by simp), if_neg (by simp), List.cons_append, arrLoop.eq_def]
    simp only
    rw [if_neg hb, h93]

/-- Refutation of C43: a trailing comma adds an element. -/
theorem array_comma (F : Fl D) : decode F {} [91, 34, 34, 44, 93] = some (some (.arr [.str [], .none])) := rfl

/-! ## Encoding -/

/-- `"` and `\` get a backslash. -/
def esc : List Byte → List Byte
  | [] => []
  | b :: s => if b = 34 ∨ b = 92 then 92 :: b :: esc s else b :: esc s

def quoted (s : List Byte) : List Byte := 34 :: (esc s ++ [34])

/-- Parts with commas between them. -/
def commas : List (List Byte) → List Byte
  | [] => []
  | [a] => a
  | a :: b :: l => a ++ 44 :: commas (b :: l)

/-- Decimal digits without leading zeros. -/
def numText (F : Fl D) (x : D) : List Byte :=
  match F.toS64 x with
  | none => []
  | some i => if F.eqInt x i then decInt i else F.fmtF x

mutual
/-- The text of a value. -/
def enc (F : Fl D) : Json D → List Byte
  | .none => []
  | .obj kvs => 123 :: (commas (encKvs F kvs) ++ [125])
  | .arr vs => 91 :: (commas (encArr F vs) ++ [93])
  | .str s => quoted s
  | .num x => numText F x
  | .tru => wTrue
  | .fls => wFalse
  | .null => wNull

def encArr (F : Fl D) : List (Json D) → List (List Byte)
  | [] => []
  | v :: vs => enc F v :: encArr F vs

def encKvs (F : Fl D) : List (List Byte × Json D) → List (List Byte)
  | [] => []
  | (k, v) :: l => (quoted k ++ 58 :: enc F v) :: encKvs F l
end

/-- The number `x` occurs in the value. -/
inductive Occ (x : D) : Json D → Prop
  | num : Occ x (.num x)
  | arr (vs : List (Json D)) (v : Json D) (h : v ∈ vs) (h' : Occ x v) : Occ x (.arr vs)
  | obj (kvs : List (List Byte × Json D)) (k : List Byte) (v : Json D) (h : (k, v) ∈ kvs) (h' : Occ x v) : Occ x (.obj kvs)

/-- The buffer is not overrun and has at least its first size. -/
def W.Ok (w : W) : Prop := 512 ≤ w.size ∧ w.buf.length ≤ w.size

theorem put_ok (w : W) (s : List Byte) (h : w.Ok) (hs : s.length ≤ 512) : ∃ n, put w s = some ⟨w.buf ++ s, n⟩ ∧ W.Ok ⟨w.buf ++ s, n⟩ := by
  obtain ⟨h1, h2⟩ := h
  unfold put
  simp only
  by_cases h : w.size < w.buf.length + s.length
  · rw [if_pos h, if_pos (by omega)]
    exact ⟨_, rfl, by simp [W.Ok]; omega⟩
  · rw [if_neg h, if_pos (by omega)]
    exact ⟨_, rfl, by simp [W.Ok]; omega⟩

/-- `f` appends `s`. -/
def Appends (s : List Byte) (f : W → Option W) : Prop := ∀ w : W, w.Ok → ∃ n, f w = some ⟨w.buf ++ s, n⟩ ∧ W.Ok ⟨w.buf ++ s, n⟩

theorem app_put (s : List Byte) (h : s.length ≤ 512) : Appends s (fun w => put w s) := fun w hw => put_ok w s hw h

theorem app_id : Appends [] some := fun w hw => ⟨w.size, by simp, by simpa using hw⟩

theorem app_bind {s t : List Byte} {f g : W → Option W} (hf : Appends s f) (hg : Appends t g) : Appends (s ++ t) (fun w => (f w).bind g) := by
  intro w hw
  obtain ⟨n, h1, h2⟩ := hf w hw
  obtain ⟨m, h3, h4⟩ := hg _ h2
  exact ⟨m, by simp only [h1, Option.bind_some, h3]; simp, by simpa using h4⟩

theorem app_putStr (s : List Byte) : Appends (esc s) (fun w => putStr w s) := by
  induction s with
  | nil => exact app_id
  | cons b s ih =>
    unfold esc
    by_cases h : b = 34 ∨ b = 92
    · rw [if_pos h]
      have := app_bind (app_put [92] (by simp)) (app_bind (app_put [b] (by simp)) ih)
      intro w hw
      obtain ⟨n, h1, h2⟩ := this w hw
      refine ⟨n, ?_, h2⟩
      simp only [putStr, if_pos h]
      exact h1
    · rw [if_neg h]
      have := app_bind (app_put [b] (by simp)) ih
      intro w hw
      obtain ⟨n, h1, h2⟩ := this w hw
      refine ⟨n, ?_, h2⟩
      simp only [putStr, if_neg h]
      exact h1

theorem app_writeStr (s : List Byte) : Appends (quoted s) (fun w => writeStr w s) := by
  have := app_bind (app_put [34] (by simp)) (app_bind (app_putStr s) (app_put [34] (by simp)))
  exact this

/-- The parts, each followed by a comma. -/
def trail : List (List Byte) → List Byte
  | [] => []
  | a :: l => a ++ 44 :: trail l

theorem trail_commas (l : List (List Byte)) (h : l ≠ []) : trail l = commas l ++ [44] := by
  induction l with
  | nil => exact absurd rfl h
  | cons a l ih =>
    cases l with
    | nil => simp [trail, commas]
    | cons b l =>
      have := ih (by simp)
      rw [trail, this]
      simp [commas]

theorem app_back (s : List (List Byte)) {b : Byte} (w : W) (n : Nat) (h : W.Ok ⟨w.buf ++ trail s, n⟩) :
    ∃ m, put (back w.buf.length ⟨w.buf ++ trail s, n⟩) [b] = some ⟨w.buf ++ (commas s ++ [b]), m⟩ ∧ W.Ok ⟨w.buf ++ (commas s ++ [b]), m⟩ := by
  by_cases hs : s = []
  · subst hs
    simp only [trail, List.append_nil, commas, List.nil_append] at h ⊢
    unfold back
    rw [if_neg (by simp)]
    exact put_ok _ _ h (by simp)
  · rw [trail_commas s hs] at h ⊢
    unfold back
    rw [if_pos (by simp)]
    have e : (⟨(w.buf ++ (commas s ++ [44])).dropLast, n⟩ : W) = ⟨w.buf ++ commas s, n⟩ := by
      rw [← List.append_assoc, List.dropLast_concat]
    have ho : W.Ok ⟨w.buf ++ commas s, n⟩ := by
      obtain ⟨h1, h2⟩ := h
      refine ⟨h1, ?_⟩
      simp at h2 ⊢
      omega
    obtain ⟨m, h1, h2⟩ := put_ok _ [b] ho (by simp)
    simp only [List.append_assoc] at h1 h2
    exact ⟨m, by rw [e, h1], h2⟩

theorem decNat_len (k : Nat) : ∀ n, (decNat k n).length ≤ k := by
  induction k with
  | zero => intro n; simp [decNat]
  | succ k ih =>
    intro n
    unfold decNat
    split
    · simp
    · have := ih (n / 10)
      simp
      omega

theorem decInt_len (i : Int) : (decInt i).length ≤ 21 := by
  unfold decInt
  have := decNat_len 20 i.natAbs
  split
  · simp; omega
  · omega

mutual
theorem write_app {F : Fl D} (hf : ∀ x, (F.fmtF x).length ≤ 512) : ∀ (v : Json D), (∀ x, Occ x v → ∃ i, F.toS64 x = some i) → Appends (enc F v) (fun w => write F w v)
  | .none, _ => by
    unfold enc write
    exact app_id
  | .obj kvs, hn => by
    have hv := writeKvs_app hf kvs fun k v hv x hx => hn x (Occ.obj kvs k v hv hx)
    intro w hw
    obtain ⟨n, h1, h2⟩ := put_ok w [123] hw (by simp)
    obtain ⟨m, h3, h4⟩ := hv _ h2
    obtain ⟨q, h5, h6⟩ := app_back (encKvs F kvs) (b := 125) _ m h4
    simp only [List.append_assoc, List.cons_append, List.nil_append] at h3 h5 h6
    refine ⟨q, ?_, ?_⟩
    · unfold write
      simp only [h1, bind, Option.bind_some, h3]
      rw [enc]
      exact h5
    · rw [enc]
      exact h6
  | .arr vs, hn => by
    have hv := writeArr_app hf vs fun v hv x hx => hn x (Occ.arr vs v hv hx)
    intro w hw
    obtain ⟨n, h1, h2⟩ := put_ok w [91] hw (by simp)
    obtain ⟨m, h3, h4⟩ := hv _ h2
    obtain ⟨q, h5, h6⟩ := app_back (encArr F vs) (b := 93) _ m h4
    simp only [List.append_assoc, List.cons_append, List.nil_append] at h3 h5 h6
    refine ⟨q, ?_, ?_⟩
    · unfold write
      simp only [h1, bind, Option.bind_some, h3]
      rw [enc]
      exact h5
    · rw [enc]
      exact h6
  | .str s, _ => by
    unfold enc write
    exact app_writeStr s
  | .num x, hn => by
    obtain ⟨i, hi⟩ := hn x Occ.num
    unfold enc write numText
    simp only [hi, bind, Option.bind_some]
    apply app_put
    split
    · have := decInt_len i; omega
    · exact hf x
  | .tru, _ => by unfold enc write; exact app_put _ (by decide)
  | .fls, _ => by unfold enc write; exact app_put _ (by decide)
  | .null, _ => by unfold enc write; exact app_put _ (by decide)

theorem writeArr_app {F : Fl D} (hf : ∀ x, (F.fmtF x).length ≤ 512) : ∀ (vs : List (Json D)), (∀ v ∈ vs, ∀ x, Occ x v → ∃ i, F.toS64 x = some i) →
    Appends (trail (encArr F vs)) (fun w => writeArr F w vs)
  | [], _ => by
    unfold encArr trail writeArr
    exact app_id
  | v :: vs, hn => by
    have h1 := write_app hf v (hn v (by simp))
    have h2 := writeArr_app hf vs fun u hu => hn u (by simp [hu])
    unfold encArr trail writeArr
    exact app_bind h1 (app_bind (app_put [44] (by simp)) h2)

theorem writeKvs_app {F : Fl D} (hf : ∀ x, (F.fmtF x).length ≤ 512) : ∀ (kvs : List (List Byte × Json D)), (∀ k v, (k, v) ∈ kvs → ∀ x, Occ x v → ∃ i, F.toS64 x = some i) →
    Appends (trail (encKvs F kvs)) (fun w => writeKvs F w kvs)
  | [], _ => by
    unfold encKvs trail writeKvs
    exact app_id
  | (k, v) :: l, hn => by
    have h1 := write_app hf v (hn k v (by simp))
    have h2 := writeKvs_app hf l fun k' u hu => hn k' u (by simp [hu])
    unfold encKvs trail writeKvs
    have := app_bind (app_writeStr k) (app_bind (app_put [58] (by simp)) (app_bind h1 (app_bind (app_put [44] (by simp)) h2)))
    simp only [List.append_assoc, List.cons_append, List.nil_append] at this ⊢
    exact this
end

/-- C78: encoding any value stays inside its buffer and gives the text of the value, if its numbers
fit into a 64-bit integer (else the conversion of line 1009 is undefined, see `encode_huge`). -/
theorem json_encode_safe (F : Fl D) (hf : ∀ x, (F.fmtF x).length ≤ 512) (v : Json D) (hn : ∀ x, Occ x v → ∃ i, F.toS64 x = some i) :
    encode F v = some (enc F v) := by
  obtain ⟨n, h, _⟩ := write_app hf v hn ⟨[], 512⟩ (by simp [W.Ok])
  unfold encode
  simp only at h
  rw [h]
  rfl

/-- A number that does not fit into a 64-bit integer makes encoding undefined. -/
theorem encode_huge (F : Fl D) (x : D) (h : F.toS64 x = none) : encode F (.arr [.num x]) = none := by
  simp [encode, write, writeArr, put, h]

/-! ## Round trip -/

/-- The comparison of the code orders the keys: they can be listed so that each compares as greater
than all before it.  Different 7-bit keys can (`ordered_ascii`). -/
def Ordered (ks : List (List Byte)) : Prop :=
  ∃ l : List (List Byte), l.Perm ks ∧ l.Pairwise fun a b => ∃ r, strcmp false b a = some r ∧ 0 < r

/-- The values of C41: no empty array, integers up to 2^53, objects whose keys the comparison orders. -/
inductive Wf (ofInt : Int → D) : Json D → Prop
  | tru : Wf ofInt .tru
  | fls : Wf ofInt .fls
  | null : Wf ofInt .null
  | str (s : List Byte) : Wf ofInt (.str s)
  | num (i : Int) (h : |i| ≤ 2 ^ 53) : Wf ofInt (.num (ofInt i))
  | arr (vs : List (Json D)) (h0 : vs ≠ []) (h : ∀ v ∈ vs, Wf ofInt v) : Wf ofInt (.arr vs)
  | obj (kvs : List (List Byte × Json D)) (hk : Ordered (kvs.map (·.1)))
      (h : ∀ k v, (k, v) ∈ kvs → Wf ofInt v) : Wf ofInt (.obj kvs)

theorem esc_txt (s : List Byte) : StrTxt false (esc s) s := by
  induction s with
  | nil => exact StrTxt.nil _
  | cons b s ih =>
    unfold esc
    by_cases h : b = 34 ∨ b = 92
    · rw [if_pos h]
      refine StrTxt.esc _ _ _ _ _ ?_ ih
      rcases h with rfl | rfl <;> decide
    · rw [if_neg h]
      exact StrTxt.plain _ _ _ _ (fun e => h (Or.inl e)) (fun e => h (Or.inr e)) (fun _ => rfl) ih

theorem digits_append (s : List Byte) (b : Byte) : ∀ a, digits a (s ++ [b]) = digits a s * 10 + (b.toNat - 48) := by
  induction s with
  | nil => intro a; simp only [List.nil_append, digits_cons, digits_nil]
  | cons c s ih => intro a; rw [List.cons_append, digits_cons, digits_cons]; exact ih _

theorem digit_byte (n : Nat) (h : n < 10) : isDigit (BitVec.ofNat 8 (48 + n)) = true ∧ (BitVec.ofNat 8 (48 + n)).toNat - 48 = n ∧
    (n ≠ 0 → BitVec.ofNat 8 (48 + n) ≠ (48 : Byte)) := by
  revert n
  decide

theorem decNat_txt (k : Nat) : ∀ n, 0 < n → n < 10 ^ k → ∃ b t, decNat k n = b :: t ∧ (∀ c ∈ b :: t, isDigit c = true) ∧ b ≠ 48 ∧ digits 0 (b :: t) = n := by
  induction k with
  | zero => intro n h1 h2; simp at h2; omega
  | succ k ih =>
    intro n h1 h2
    unfold decNat
    by_cases h : n < 10
    · rw [if_pos h]
      obtain ⟨g1, g2, g3⟩ := digit_byte n h
      refine ⟨_, _, rfl, ?_, g3 (by omega), ?_⟩
      · intro c hc
        simp only [List.mem_cons, List.not_mem_nil, or_false] at hc
        rw [hc]
        exact g1
      · rw [digits_cons, digits_nil, g2, Nat.zero_mul, Nat.zero_add]
    · rw [if_neg h]
      obtain ⟨b, t, e1, e2, e3, e4⟩ := ih (n / 10) (by omega) (by rw [Nat.pow_succ] at h2; omega)
      obtain ⟨g1, g2, _⟩ := digit_byte (n % 10) (by omega)
      rw [e1]
      refine ⟨b, t ++ [BitVec.ofNat 8 (48 + n % 10)], rfl, ?_, e3, ?_⟩
      · intro c hc
        rw [← List.cons_append, List.mem_append] at hc
        rcases hc with hc | hc
        · exact e2 c hc
        · simp only [List.mem_cons, List.not_mem_nil, or_false] at hc
          rw [hc]
          exact g1
      · rw [← List.cons_append, digits_append, e4, g2]
        omega

theorem decInt_txt (i : Int) (h : |i| ≤ 2 ^ 53) : NumTxt i (decInt i) := by
  have ha : i.natAbs ≤ 2 ^ 53 := by
    rw [Int.abs_eq_natAbs] at h
    omega
  by_cases h0 : i = 0
  · subst h0
    exact NumTxt.zero
  · obtain ⟨b, t, e1, e2, e3, e4⟩ := decNat_txt 20 i.natAbs (by omega) (by omega)
    unfold decInt
    by_cases hn : i < 0
    · rw [if_pos hn, e1]
      have := NumTxt.neg b t e2 e3 (by rw [e4]; exact ha)
      rw [e4] at this
      rw [show -(i.natAbs : Int) = i by omega] at this
      exact this
    · rw [if_neg hn, e1]
      have := NumTxt.pos b t e2 e3 (by rw [e4]; exact ha)
      rw [e4] at this
      rw [show (i.natAbs : Int) = i by omega] at this
      exact this

theorem blanks_nil : Blanks [] := by intro b hb; simp at hb

theorem elems_txt {F : Fl D} {ofInt : Int → D} : ∀ (vs : List (Json D)), vs ≠ [] → (∀ v ∈ vs, Txt ofInt v (enc F v)) → Elems ofInt vs (commas (encArr F vs) ++ [93]) := by
  intro vs
  induction vs with
  | nil => intro h; exact absurd rfl h
  | cons v vs ih =>
    intro _ h
    cases vs with
    | nil => exact Elems.one v [] (enc F v) [] blanks_nil (h v (by simp)) blanks_nil
    | cons u vs =>
      have := ih (by simp) fun x hx => h x (by simp [hx])
      have := Elems.cons v (u :: vs) [] (enc F v) [] _ blanks_nil (h v (by simp)) blanks_nil this
      simp only [encArr, commas, List.append_assoc, List.nil_append, List.cons_append] at this ⊢
      exact this

theorem ordered_nodup {ks : List (List Byte)} (h : Ordered ks) : ks.Nodup := by
  obtain ⟨l, h1, h2⟩ := h
  refine h1.nodup_iff.1 (h2.imp ?_)
  rintro a b ⟨r, h3, h4⟩ rfl
  obtain ⟨z, h5, h6⟩ := Verif.Str.strcmp_zero a a
  rw [h5] at h3
  cases h3
  have := h6.2 rfl
  omega

theorem update_last (k : List Byte) (v : Json D) : ∀ acc : List (List Byte × Json D), (∀ a ∈ acc, a.1 ≠ k) →
    update acc k v = some (acc ++ [(k, v)]) := by
  intro acc
  induction acc with
  | nil => intro _; rfl
  | cons a acc ih =>
    intro h
    obtain ⟨r, h1, h2⟩ := Verif.Str.strcmp_zero k a.1
    have h3 := h a (by simp)
    rw [update, h1]
    simp only
    rw [if_neg (fun e => h3 (h2.1 e).symm), ih fun x hx => h x (by simp [hx])]
    rfl

theorem mems_txt {F : Fl D} {ofInt : Int → D} : ∀ (kvs acc : List (List Byte × Json D)), kvs ≠ [] → (∀ k v, (k, v) ∈ kvs → Txt ofInt v (enc F v)) →
    (acc ++ kvs).Pairwise (fun a b => a.1 ≠ b.1) → Mems ofInt acc (acc ++ kvs) (commas (encKvs F kvs) ++ [125]) := by
  intro kvs
  induction kvs with
  | nil => intro _ h; exact absurd rfl h
  | cons kv kvs ih =>
    obtain ⟨k, v⟩ := kv
    intro acc _ h hp
    have hu : update acc k v = some (acc ++ [(k, v)]) := by
      apply update_last
      intro a ha
      exact (List.pairwise_append.1 hp).2.2 a ha (k, v) (by simp)
    cases kvs with
    | nil =>
      have := Mems.one acc _ (esc k) k v [] [] [] (enc F v) [] blanks_nil (esc_txt k) blanks_nil blanks_nil (h k v (by simp)) blanks_nil hu
      simp only [encKvs, commas, quoted, List.append_assoc, List.nil_append, List.cons_append] at this ⊢
      exact this
    | cons b kvs =>
      have h1 := ih (acc ++ [(k, v)]) (by simp) (fun x y hx => h x y (by simp [hx])) (by simpa using hp)
      have := Mems.cons acc _ _ (esc k) k v [] [] [] (enc F v) [] _ blanks_nil (esc_txt k) blanks_nil blanks_nil (h k v (by simp)) blanks_nil hu h1
      simp only [encKvs, commas, quoted, List.append_assoc, List.nil_append, List.cons_append] at this ⊢
      exact this

/-- The text of a value denotes the value. -/
theorem enc_txt {F : Fl D} {ofInt : Int → D} (hF : Exact F ofInt) (v : Json D) (h : Wf ofInt v) : Txt ofInt v (enc F v) := by
  induction h with
  | tru => rw [enc]; exact Txt.tru
  | fls => rw [enc]; exact Txt.fls
  | null => rw [enc]; exact Txt.null
  | str s => rw [enc]; exact Txt.str _ _ (esc_txt s)
  | num i h =>
    rw [enc, numText, hF.toS64 i h]
    simp only [hF.eqInt i h, if_true]
    exact Txt.num i _ (decInt_txt i h)
  | arr vs h0 h ih => rw [enc]; exact Txt.arr _ _ (elems_txt vs h0 ih)
  | obj kvs hk h ih =>
    rw [enc]
    by_cases h0 : kvs = []
    · subst h0
      rw [encKvs]
      exact Txt.obj0 [] blanks_nil
    · exact Txt.obj _ _ (mems_txt kvs [] h0 ih (by simpa using List.pairwise_map.1 (ordered_nodup hk)))

theorem wf_nums {F : Fl D} {ofInt : Int → D} (hF : Exact F ofInt) (v : Json D) (h : Wf ofInt v) : ∀ x, Occ x v → ∃ i, F.toS64 x = some i := by
  induction h with
  | tru => intro x hx; cases hx
  | fls => intro x hx; cases hx
  | null => intro x hx; cases hx
  | str s => intro x hx; cases hx
  | num i h => intro x hx; cases hx; exact ⟨i, hF.toS64 i h⟩
  | arr vs h0 h ih => intro x hx; cases hx with | arr _ v hv hx => exact ih v hv x hx
  | obj kvs hk h ih => intro x hx; cases hx with | obj _ k v hv hx => exact ih k v hv x hx

/-- C41 for values without empty arrays and with integers up to 2^53.  Missing: empty arrays, see
`round_trip_empty`. -/
theorem json_round_trip_partial {F : Fl D} {ofInt : Int → D} (hF : Exact F ofInt) (hf : ∀ x, (F.fmtF x).length ≤ 512) (v : Json D) (h : Wf ofInt v)
    (hv : (∃ kvs, v = .obj kvs) ∨ ∃ vs, v = .arr vs) : ∃ t, encode F v = some t ∧ decode F {} t = some (some v) := by
  refine ⟨enc F v, json_encode_safe F hf v (wf_nums hF v h), ?_⟩
  have := decode_text hF v (enc F v) [] [] (enc_txt hF v h) hv blanks_nil blanks_nil
  simpa using this

/-- Refutation of C41: the empty array comes back with one element. -/
theorem round_trip_empty (F : Fl D) : ∃ t, encode F (.arr []) = some t ∧ decode F {} t = some (some (.arr [.none])) := ⟨[91, 93], rfl, rfl⟩

/-! ## Paths -/

theorem go_digits : ∀ (s : List Byte) (a : Nat), (∀ c ∈ s, isDigit c = true) → isIndex.go a s = some (if s = [] then a else digits a s % 2 ^ 64) := by
  intro s
  induction s with
  | nil => intro a _; rfl
  | cons b s ih =>
    intro a h
    rw [isIndex.go, if_pos (h b (by simp)), ih _ fun c hc => h c (by simp [hc])]
    rw [if_neg (List.cons_ne_nil _ _), digits_cons]
    by_cases h0 : s = []
    · subst h0; rw [if_pos rfl, digits_nil]
    · rw [if_neg h0]
      congr 1
      generalize a * 10 + (b.toNat - 48) = x
      clear ih h
      have : ∀ (s : List Byte) x y, x % 2 ^ 64 = y % 2 ^ 64 → digits x s % 2 ^ 64 = digits y s % 2 ^ 64 := by
        intro s
        induction s with
        | nil => intro x y h; rw [digits_nil, digits_nil]; exact h
        | cons c s ih =>
          intro x y h
          rw [digits_cons, digits_cons]
          apply ih
          generalize c.toNat - 48 = d
          omega
      exact this s _ _ (Nat.mod_mod _ _)

/-- What mln_json_parse takes for the index: the digits backwards. -/
theorem index_reversed (s : List Byte) (h : ∀ c ∈ s, isDigit c = true) : isIndex s = some (digits 0 s.reverse % 2 ^ 64) := by
  unfold isIndex
  rw [go_digits _ _ fun c hc => h c (by simpa using hc)]
  split
  · rename_i h; rw [h, digits_nil]; rfl
  · rfl

/-- C44 for components equal to their reversal, in particular of one digit.  Missing: all others,
see `path_index_wrong`. -/
theorem path_index_partial (vs : List (Json D)) (s : List Byte) (h : ∀ c ∈ s, isDigit c = true) (hr : s.reverse = s) (i : Nat) (hi : digits 0 s = i)
    (hl : i < vs.length) (hm : vs.length ≤ 2 ^ 64) : path (.arr vs) [s] = some (some vs[i]) := by
  rw [path, index_reversed s h, hr, hi]
  simp only
  rw [Nat.mod_eq_of_lt (by omega), dif_pos hl]
  rfl

/-- Refutation of C44: a component of two different digits never selects the numbered element. -/
theorem path_index_wrong (a b : Byte) (ha : isDigit a = true) (hb : isDigit b = true) (h : a ≠ b) :
    ∃ i, isIndex [a, b] = some i ∧ i ≠ digits 0 [a, b] := by
  refine ⟨digits 0 [b, a], ?_, ?_⟩
  · rw [index_reversed _ (by simp [ha, hb])]
    have h1 := (digit_facts a ha).1
    have h2 := (digit_facts b hb).1
    have e : [a, b].reverse = [b, a] := rfl
    rw [e, Nat.mod_eq_of_lt]
    rw [digits_cons, digits_cons, digits_nil]
    clear ha hb h
    generalize a.toNat - 48 = x at *
    generalize b.toNat - 48 = y at *
    omega
  · have : ∀ x y : Byte, isDigit x = true → isDigit y = true → y.toNat - 48 = x.toNat - 48 → x = y := by
      intro x y hx hy hxy
      have hd : ∀ b : Byte, isDigit b = true → 48 ≤ b.toNat := by decide +kernel
      have := hd x hx
      have := hd y hy
      exact BitVec.eq_of_toNat_eq (by omega)
    have h1 := (digit_facts a ha).1
    have h2 := (digit_facts b hb).1
    intro hc
    apply h
    apply this a b ha hb
    simp only [digits_cons, digits_nil] at hc
    clear this h ha hb
    generalize a.toNat - 48 = x at *
    generalize b.toNat - 48 = y at *
    omega

example : path (.arr [.tru, .fls, .null, .str []]) [[50]] = some (some (.null : Json D)) := rfl

end Verif.Json
