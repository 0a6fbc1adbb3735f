import Verif.Err
import Mathlib.Data.Nat.Bitwise
import Mathlib.Data.Nat.Digits.Defs
import Mathlib.Data.List.Basic
/-
Error values: what RET packs is what mln_error_string prints; buffers that are too small; the code 0.
-/
namespace Verif.Err

/-! ## Packing -/

/-- The three fields side by side. -/
theorem pack (f l c : Nat) (hl : l < 2 ^ 14) (hc : c < 2 ^ 8) :
    ((f <<< 22) ||| (l <<< 8) ||| c) = f * 2 ^ 22 + l * 2 ^ 8 + c := by
  have h1 : (f <<< 22) ||| (l <<< 8) = f * 2 ^ 22 + l * 2 ^ 8 := by
    have : l <<< 8 < 2 ^ 22 := by rw [Nat.shiftLeft_eq]; omega
    rw [← Nat.shiftLeft_add_eq_or_of_lt this, Nat.shiftLeft_eq, Nat.shiftLeft_eq]
  have h2 : (f * 2 ^ 22 + l * 2 ^ 8) = (f * 2 ^ 14 + l) <<< 8 := by rw [Nat.shiftLeft_eq]; omega
  rw [h1, h2, ← Nat.shiftLeft_add_eq_or_of_lt hc, Nat.shiftLeft_eq]

theorem fields (f l c : Nat) (hf : f < 2 ^ 9) (hl : l < 2 ^ 14) (hc : c < 2 ^ 8) :
    (((f * 2 ^ 22 + l * 2 ^ 8 + c) >>> 22) &&& 0x1ff = f) ∧ (((f * 2 ^ 22 + l * 2 ^ 8 + c) >>> 8) &&& 0x3fff = l) ∧
    ((f * 2 ^ 22 + l * 2 ^ 8 + c) &&& 0xff = c) := by
  have e9 : (0x1ff : Nat) = 2 ^ 9 - 1 := rfl
  have e14 : (0x3fff : Nat) = 2 ^ 14 - 1 := rfl
  have e8 : (0xff : Nat) = 2 ^ 8 - 1 := rfl
  rw [e9, e14, e8, Nat.and_two_pow_sub_one_eq_mod, Nat.and_two_pow_sub_one_eq_mod, Nat.and_two_pow_sub_one_eq_mod,
    Nat.shiftRight_eq_div_pow, Nat.shiftRight_eq_div_pow]
  omega

theorem lineBits_lt (n : Nat) : lineBits n < 2 ^ 14 ∧ lineBits n = min n 0x3fff := by
  unfold lineBits
  have e14 : (0x3fff : Nat) = 2 ^ 14 - 1 := rfl
  split
  · omega
  · rw [e14, Nat.and_two_pow_sub_one_eq_mod]; omega

theorem codeBits_lt (T : Tables) (n : Int) : codeBits T n < 2 ^ 8 := by
  unfold codeBits
  have e8 : (0xff : Nat) = 2 ^ 8 - 1 := rfl
  split
  · omega
  · split
    · omega
    · rw [e8, Nat.and_two_pow_sub_one_eq_mod]; omega

theorem fileBits_lt (T : Tables) (n : List Byte) : fileBits T n < 2 ^ 9 := by
  unfold fileBits
  split
  · omega
  · split <;> omega

theorem codeBits_known {T : Tables} {c : Nat} (h : c < T.nmsg) (h2 : c < 255) : codeBits T c = c := by
  have e8 : (0xff : Nat) = 2 ^ 8 - 1 := rfl
  unfold codeBits
  rw [if_neg (by omega), Int.toNat_natCast, e8, Nat.and_two_pow_sub_one_eq_mod]
  have : c % 2 ^ 8 = c := by omega
  rw [this, if_neg (by omega)]

theorem codeBits_unknown {T : Tables} {c : Int} (h : c < 0 ∨ 255 ≤ c ∨ T.nmsg ≤ c) : codeBits T c = 255 := by
  have e8 : (0xff : Nat) = 2 ^ 8 - 1 := rfl
  unfold codeBits
  split
  · rfl
  · rename_i hn
    rw [if_pos]
    rw [e8, Nat.and_two_pow_sub_one_eq_mod]
    omega

/-- What RET gives. -/
theorem ret_eq (T : Tables) (file : List Byte) (line : Nat) (c : Int) (h : codeBits T c ≠ 0) :
    ret T file line c = -((fileBits T file * 2 ^ 22 + lineBits line * 2 ^ 8 + codeBits T c : Nat) : Int) := by
  simp only [ret]
  rw [if_pos (by omega), pack _ _ _ (lineBits_lt line).1 (codeBits_lt T c)]

/-- RET is an `int`. -/
theorem ret_int (T : Tables) (file : List Byte) (line : Nat) (c : Int) :
    -(2 ^ 31) < ret T file line c ∧ ret T file line c ≤ 0 := by
  by_cases h : codeBits T c = 0
  · simp [ret, h]
  · rw [ret_eq T file line c h]
    have := fileBits_lt T file
    have := (lineBits_lt line).1
    have := codeBits_lt T c
    omega

/-! ## Codes -/

/-- CODE gives back the code of RET: every code that has a message, and 255 for every other one. -/
theorem code_ret (T : Tables) (file : List Byte) (line : Nat) (c : Int) :
    code (ret T file line c) = if 0 ≤ c ∧ c < 255 ∧ c < T.nmsg then c.toNat else 255 := by
  have hcode : code (ret T file line c) = codeBits T c := by
    by_cases h : codeBits T c = 0
    · simp [ret, h, code]
    · rw [ret_eq T file line c h, code, neg_neg, Int.toNat_natCast]
      exact (fields _ _ _ (fileBits_lt T file) (lineBits_lt line).1 (codeBits_lt T c)).2.2
  rw [hcode]
  split
  · rename_i h
    obtain ⟨n, rfl⟩ := Int.eq_ofNat_of_zero_le h.1
    exact codeBits_known (by simpa using h.2.2) (by have := h.2.1; omega)
  · rename_i h
    exact codeBits_unknown (by omega)

/-- With a table of messages the code 0 is success. -/
theorem ret_zero_partial (T : Tables) (file : List Byte) (line : Nat) (h : 0 < T.nmsg) : ret T file line 0 = 0 := by
  have : codeBits T 0 = 0 := codeBits_known (c := 0) h (by decide)
  simp [ret, this]

/-- Without one it is an error, wherever it is. -/
theorem ret_zero (T : Tables) (file : List Byte) (line : Nat) (h : T.nmsg = 0) :
    ret T file line 0 < 0 ∧ code (ret T file line 0) = 255 := by
  have hb : codeBits T 0 = 255 := codeBits_unknown (.inr (.inr (by simp [h])))
  constructor
  · rw [ret_eq T file line 0 (by omega)]; omega
  · rw [code_ret, if_neg (by simp [h])]

/-! ## Texts -/

/-- What RET in the file `file` at the line `line` with the code `c` is to be printed as. -/
def shows (T : Tables) (file : List Byte) (line : Nat) (c : Nat) : List Byte :=
  (match T.files with
    | none => unkownFile
    | some fs => if file ∈ fs.take 511 then file else unkownFile) ++ 58#8 ::
  ((if line < 16383 then dec line else unknownLine) ++ 58#8 ::
   (match T.msgs with
    | none => unknownCode
    | some ms => if h : c < ms.length ∧ c < 255 then ms[c]'h.1 else unknownCode))

theorem digits_length : ∀ n, n < 16384 → (Nat.toDigits 10 n).length ≤ 5 := by
  intro n h
  exact Nat.toDigits_length 10 n 5 (by omega) (by omega)

theorem intstr_eq (n : Nat) (h : n < 16384) : intstr n = dec n := by
  unfold intstr
  rw [List.take_of_length_le]
  simp only [dec, List.length_map]
  have := digits_length n h
  omega

theorem idxOf_take (fs : List (List Byte)) (x : List Byte) :
    x ∈ fs.take 511 ↔ fs.idxOf x < 511 ∧ fs.idxOf x < fs.length := by
  constructor
  · intro h
    have h1 : (fs.take 511).idxOf x < (fs.take 511).length := List.idxOf_lt_length_of_mem h
    have h2 : fs.idxOf x = (fs.take 511).idxOf x := by
      conv_lhs => rw [← List.take_append_drop 511 fs]
      exact List.idxOf_append_of_mem h
    rw [h2]
    simp at h1
    omega
  · rintro ⟨h1, h2⟩
    have : fs[fs.idxOf x] = x := List.getElem_idxOf h2
    rw [List.mem_take_iff_getElem]
    exact ⟨fs.idxOf x, by omega, this⟩

theorem files_ok (T : Tables) (file : List Byte) :
    fileText T (fileBits T file) = some (match T.files with
      | none => unkownFile
      | some fs => if file ∈ fs.take 511 then file else unkownFile) := by
  unfold fileText
  cases hf : T.files with
  | none => rfl
  | some fs =>
    simp only [fileBits, hf]
    by_cases h : fs.idxOf file ≥ 0x1ff ∨ fs.idxOf file ≥ fs.length
    · rw [if_pos h, if_pos rfl, if_neg]
      rw [idxOf_take]; omega
    · rw [if_neg h, if_neg (by omega), if_pos ((idxOf_take fs file).mpr (by omega))]
      rw [List.getElem?_eq_getElem (by omega), List.getElem_idxOf (by omega)]

theorem msgs_ok (T : Tables) (c : Nat) :
    msgText T (codeBits T c) = some (match T.msgs with
      | none => unknownCode
      | some ms => if h : c < ms.length ∧ c < 255 then ms[c]'h.1 else unknownCode) := by
  unfold msgText
  cases hm : T.msgs with
  | none => rfl
  | some ms =>
    have hn : T.nmsg = ms.length := by simp [Tables.nmsg, hm]
    by_cases h : c < ms.length ∧ c < 255
    · rw [codeBits_known (by omega) h.2]
      dsimp only
      rw [if_neg (by omega), dif_pos h, List.getElem?_eq_getElem h.1]
    · rw [codeBits_unknown (by omega)]
      dsimp only
      rw [if_pos rfl, dif_neg h]

/-- The text of a value of RET is the file, the line and the message. -/
theorem message_ret (T : Tables) (file : List Byte) (line c : Nat) (hc : c ≠ 0 ∨ T.nmsg = 0) :
    message T (ret T file line c) = some (shows T file line c) := by
  have hcb : codeBits T c ≠ 0 := by
    rcases Nat.lt_or_ge c T.nmsg with h | h
    · rcases Nat.lt_or_ge c 255 with h2 | h2
      · rw [codeBits_known h h2]; omega
      · rw [codeBits_unknown (by omega)]; omega
    · rw [codeBits_unknown (by omega)]; omega
  obtain ⟨hl1, hl2⟩ := lineBits_lt line
  have hf1 := fileBits_lt T file
  have hc1 := codeBits_lt T c
  obtain ⟨f1, f2, f3⟩ := fields _ _ _ hf1 hl1 hc1
  have hi := ret_int T file line c
  rw [ret_eq T file line c hcb] at hi ⊢
  unfold message
  rw [if_neg (by omega), if_pos (by omega), if_neg (by omega)]
  simp only [neg_neg, Int.toNat_natCast, f1, f2, f3]
  rw [files_ok T file, msgs_ok T c]
  simp only [shows]
  congr 4
  by_cases h : line < 16383
  · rw [if_neg (by omega), if_pos h, hl2, intstr_eq _ (by omega)]
    congr 1; omega
  · rw [if_pos (by omega), if_neg h]

/-- The strings of the tables hold no byte 0. -/
def Plain (T : Tables) : Prop :=
  (∀ fs ∈ T.files, ∀ f ∈ fs, 0#8 ∉ f) ∧ (∀ ms ∈ T.msgs, ∀ m ∈ ms, 0#8 ∉ m)

/-- A text that is shorter than the buffer by two bytes is printed as it is. -/
theorem errorString_ok {T : Tables} {err : Int} {s : List Byte} (hs : message T err = some s) (h0 : 0#8 ∉ s)
    {b : List Byte} (hb : s.length + 2 ≤ b.length) :
    ∃ b', errorString T err b = some b' ∧ b'.length = b.length ∧ cstr b' = s := by
  have hn : (if b.length = 0 then 2 ^ 64 - 1 else b.length - 1) = b.length - 1 := if_neg (by omega)
  have ht : s.take (b.length - 1 - 1) = s := List.take_of_length_le (by omega)
  have h1 : snprintf b (b.length - 1) s = some (s ++ [0#8] ++ b.drop (s.length + 1)) := by
    unfold snprintf
    rw [if_neg (by omega), ht]
    simp only [List.length_append, List.length_cons, List.length_nil]
    rw [if_pos (by omega)]
  have hl : (s ++ [0#8] ++ b.drop (s.length + 1)).length = b.length := by simp; omega
  refine ⟨s ++ [0#8] ++ b.drop (s.length + 1), ?_, hl, ?_⟩
  · simp only [errorString, hs, hn, h1, Option.bind_eq_bind, Option.bind_some]
    rw [if_pos (by omega)]
    congr 1
    rw [List.append_assoc, List.set_append_right _ _ (by simp)]
    simp
  · unfold cstr
    rw [List.append_assoc, List.takeWhile_append_of_pos]
    · simp
    · intro a ha
      simp
      rintro rfl
      exact h0 ha

theorem dec_plain (n : Nat) : 0#8 ∉ dec n := by
  intro h
  obtain ⟨c, hc, h2⟩ := List.mem_map.mp h
  have hd := Nat.isDigit_of_mem_toDigits (by omega) (by omega) hc
  simp only [Char.isDigit, Bool.and_eq_true, decide_eq_true_eq] at hd
  obtain ⟨h3, h4⟩ := hd
  have h5 : 48 ≤ c.toNat := h3
  have h6 : c.toNat ≤ 57 := h4
  have := congrArg BitVec.toNat h2
  simp only [BitVec.toNat_ofNat] at this
  omega

theorem shows_plain {T : Tables} (hT : Plain T) (file : List Byte) (hf : 0#8 ∉ file) (line c : Nat) :
    0#8 ∉ shows T file line c := by
  unfold shows
  simp only [List.mem_append, List.mem_cons, not_or]
  refine ⟨?_, by decide, ?_, by decide, ?_⟩
  · split
    · decide
    · split
      · exact hf
      · decide
  · split
    · exact dec_plain line
    · decide
  · split
    · decide
    · rename_i ms hm
      split
      · exact hT.2 ms hm _ (List.getElem_mem _)
      · decide

/-- RET and mln_error_string together: file, line and message. -/
theorem error_round {T : Tables} (hT : Plain T) {file : List Byte} (hf : 0#8 ∉ file) {line c : Nat}
    (hc : c ≠ 0 ∨ T.nmsg = 0) {b : List Byte} (hb : (shows T file line c).length + 2 ≤ b.length) :
    ∃ b', errorString T (ret T file line c) b = some b' ∧ b'.length = b.length ∧ cstr b' = shows T file line c :=
  errorString_ok (message_ret T file line c hc) (shows_plain hT file hf line c) hb

/-! ## Small buffers -/

theorem snprintf_length {b b' : List Byte} {n : Nat} {s : List Byte} (h : snprintf b n s = some b') :
    b'.length = b.length := by
  unfold snprintf at h
  by_cases hn : n = 0
  · rw [if_pos hn] at h; cases h; rfl
  · rw [if_neg hn] at h
    dsimp only at h
    by_cases hw : (s.take (n - 1) ++ [0#8]).length ≤ b.length
    · rw [if_pos hw] at h
      cases h
      rw [List.length_append, List.length_drop]
      omega
    · rw [if_neg hw] at h; cases h

/-- A text that is as long as the buffer or longer: the byte 0 is written behind the end. -/
theorem errorString_overflow {T : Tables} {err : Int} {s : List Byte} (hs : message T err = some s)
    {b : List Byte} (hb : b.length ≤ s.length) : errorString T err b = none := by
  simp only [errorString, hs, Option.bind_eq_bind, Option.bind_some]
  cases h : snprintf b (if b.length = 0 then 2 ^ 64 - 1 else b.length - 1) s with
  | none => rfl
  | some b' =>
    have hl := snprintf_length h
    rw [Option.bind_some, if_neg (by omega)]

/-- A text that fits exactly: its last byte is missing. -/
theorem errorString_short {T : Tables} {err : Int} {s : List Byte} (hs : message T err = some s) (h0 : 0#8 ∉ s)
    (hne : s ≠ []) {b : List Byte} (hb : b.length = s.length + 1) :
    ∃ b', errorString T err b = some b' ∧ cstr b' = s.dropLast := by
  have hp := List.length_pos_iff.mpr hne
  have hn : (if b.length = 0 then 2 ^ 64 - 1 else b.length - 1) = s.length := by rw [if_neg (by omega)]; omega
  obtain ⟨x, hx⟩ : ∃ x, b.drop s.length = [x] := by
    have : (b.drop s.length).length = 1 := by simp; omega
    exact List.length_eq_one_iff.mp this
  have hdl : (s.take (s.length - 1)) = s.dropLast := by rw [List.dropLast_eq_take]
  have h1 : snprintf b s.length s = some (s.dropLast ++ [0#8] ++ [x]) := by
    unfold snprintf
    rw [if_neg (by omega), hdl]
    have : (s.dropLast ++ [0#8]).length = s.length := by simp; omega
    simp only [this]
    rw [if_pos (by omega), hx]
  refine ⟨(s.dropLast ++ [0#8] ++ [x]).set s.length 0#8, ?_, ?_⟩
  · simp only [errorString, hs, hn, h1, Option.bind_eq_bind, Option.bind_some]
    rw [if_pos (by simp; omega)]
  · unfold cstr
    rw [List.append_assoc, List.set_append_right _ _ (by simp), List.takeWhile_append_of_pos]
    · have : s.length - s.dropLast.length = 1 := by simp; omega
      rw [this]
      simp
    · intro a ha
      simp
      rintro rfl
      exact h0 (List.dropLast_subset _ ha)

/-! ## Values that RET did not give -/

/-- An index behind the end of the table of files is looked up all the same. -/
theorem file_outside {T : Tables} {fs} (hf : T.files = some fs) {i l c : Nat} (hi : fs.length ≤ i) (hi2 : i < 511)
    (hl : l < 2 ^ 14) (hc : c < 2 ^ 8) (hp : 0 < i * 2 ^ 22 + l * 2 ^ 8 + c) (b : List Byte) :
    errorString T (-((i * 2 ^ 22 + l * 2 ^ 8 + c : Nat) : Int)) b = none := by
  obtain ⟨f1, f2, f3⟩ := fields i l c (by omega) hl hc
  have : message T (-((i * 2 ^ 22 + l * 2 ^ 8 + c : Nat) : Int)) = none := by
    unfold message
    rw [if_neg (by omega), if_pos (by omega), if_neg (by omega)]
    have hx : fileText T i = none := by simp [fileText, hf, show i ≠ 511 by omega, hi]
    simp only [neg_neg, Int.toNat_natCast, f1, f3, hx]
  simp only [errorString, this, Option.bind_eq_bind, Option.bind_none]

/-! ## Examples -/

/-- a.c:7:bad -/
def exT : Tables := { files := some [[97#8, 46#8, 99#8]], msgs := some [[111#8, 107#8], [98#8, 97#8, 100#8]] }

example : ret exT [97#8, 46#8, 99#8] 7 1 = -(7 * 256 + 1) := by decide +kernel
example : (errorString exT (ret exT [97#8, 46#8, 99#8] 7 1) (List.replicate 16 1#8)).map cstr =
    some [97#8, 46#8, 99#8, 58#8, 55#8, 58#8, 98#8, 97#8, 100#8] := by decide +kernel
/-- A buffer of 9 bytes for a text of 9: written outside; one of 10: a byte is missing. -/
example : errorString exT (ret exT [97#8, 46#8, 99#8] 7 1) (List.replicate 9 1#8) = none := by decide +kernel
example : (errorString exT (ret exT [97#8, 46#8, 99#8] 7 1) (List.replicate 10 1#8)).map cstr =
    some [97#8, 46#8, 99#8, 58#8, 55#8, 58#8, 98#8, 97#8] := by decide +kernel
/-- The hypotheses of `error_round` can be met. -/
example : ∃ b', errorString exT (ret exT [97#8, 46#8, 99#8] 7 (1 : Nat)) (List.replicate 16 1#8) = some b' ∧
    b'.length = 16 ∧ cstr b' = [97#8, 46#8, 99#8, 58#8, 55#8, 58#8, 98#8, 97#8, 100#8] :=
  error_round (T := exT) ⟨by simp [exT], by simp [exT]⟩ (by decide) (.inl (by decide)) (by decide +kernel)

end Verif.Err
