import Verif.Log
namespace Verif.Log
open Conf (Item)

/-! ## Specification -/

/-- The bytes written to a descriptor. -/
def text (fd : Nat) (l : Lg) : List Byte := (l.out.filter (·.1 = fd)).flatMap (·.2)

/-- What a conversion shows of an argument. -/
inductive Shows : Byte → Arg → List Byte → Prop
  | s (bs) : Shows 115#8 (.str bs) bs
  | S (bs) : Shows 83#8 (.mstr bs) bs
  | l (n : Int) : -2 ^ 63 ≤ n → n < 2 ^ 63 → Shows 108#8 (.long (BitVec.ofInt 64 n)) (dec n)
  | i (n : Int) : -2 ^ 63 ≤ n → n < 2 ^ 63 → Shows 105#8 (.long (BitVec.ofInt 64 n)) (dec n)
  | d (n : Int) : -2 ^ 31 ≤ n → n < 2 ^ 31 → Shows 100#8 (.int (BitVec.ofInt 32 n)) (dec n)
  | c (b : Byte) (n : BitVec 32) : n.toNat % 256 = b.toNat → Shows 99#8 (.int n) [b]
  | x (n : Nat) : n < 2 ^ 32 → Shows 120#8 (.int (BitVec.ofNat 32 n)) (digits 16 n)
  | X (n : Nat) : n < 2 ^ 64 → Shows 88#8 (.long (BitVec.ofNat 64 n)) (digits 16 n)
  | u (n : Nat) : n < 2 ^ 32 → Shows 117#8 (.int (BitVec.ofNat 32 n)) (digits 10 n)
  | U (n : Nat) : n < 2 ^ 64 → Shows 85#8 (.long (BitVec.ofNat 64 n)) (digits 10 n)
  | I (n : Nat) : n < 2 ^ 64 → Shows 73#8 (.long (BitVec.ofNat 64 n)) (digits 10 n)
  | f (neg m) : m < 10 ^ 252 → Shows 102#8 (.dbl neg m) (fixed neg m)

/-- A format, its arguments, and the text they stand for. -/
inductive Renders : List Byte → List Arg → List Byte → Prop
  | nil : Renders [] [] []
  | lit {f a t} (b : Byte) : b ≠ 37#8 → Renders f a t → Renders (b :: f) a (b :: t)
  | conv {c x v f a t} : Shows c x v → Renders f a t → Renders (37#8 :: c :: f) (x :: a) (v ++ t)

/-- The letters of conversions. -/
def letters : List Byte := [115#8, 83#8, 108#8, 105#8, 100#8, 99#8, 102#8, 120#8, 88#8, 117#8, 85#8, 73#8]

/-- Numbers that are shown in full. -/
structure Src.Ok (s : Src) : Prop where
  line : -2 ^ 31 ≤ s.line ∧ s.line < 2 ^ 31
  pid : -2 ^ 31 ≤ s.pid ∧ s.pid < 2 ^ 31
  year : -2 ^ 63 ≤ s.now.year ∧ s.now.year < 2 ^ 63
  month : 0 ≤ s.now.month ∧ s.now.month < 100
  day : 0 ≤ s.now.day ∧ s.now.day < 100
  hour : 0 ≤ s.now.hour ∧ s.now.hour < 100
  minute : 0 ≤ s.now.minute ∧ s.now.minute < 100
  second : 0 ≤ s.now.second ∧ s.now.second < 100

/-- The start of a line, in the file and on the terminal. -/
def head (colour : Bool) (level : Nat) (src : Src) : List Byte :=
  if level = 0 then []
  else stamp src.now ++
    (if colour then levelColour level ++ levelName level ++ txt "\x1b[0m: " else levelName level ++ txt ": ") ++
    (if 2 ≤ level then src.file ++ 58#8 :: src.func ++ 58#8 :: dec src.line ++ txt ": " else []) ++
    (txt "PID:" ++ dec src.pid ++ [32#8])

/-- `f` was written to the file and `t` to the terminal if it gets a copy; nothing else changed. -/
def Adds (l l' : Lg) (f t : List Byte) : Prop :=
  l' = { l with out := l'.out } ∧ text l.fd l' = text l.fd l ++ f ∧
    text 2 l' = text 2 l ++ if l.init = true ∧ l.inDaemon = false then t else []

/-! ## Writing -/

theorem adds_trans {a b c f t f' t'} (h : Adds a b f t) (h' : Adds b c f' t') : Adds a c (f ++ f') (t ++ t') := by
  obtain ⟨h1, h2, h3⟩ := h
  obtain ⟨k1, k2, k3⟩ := h'
  have e1 : b.fd = a.fd := by rw [h1]
  have e2 : b.init = a.init := by rw [h1]
  have e3 : b.inDaemon = a.inDaemon := by rw [h1]
  rw [e1] at k2
  rw [e2, e3] at k3
  refine ⟨by rw [k1, h1], by rw [k2, h2, List.append_assoc], ?_⟩
  rw [k3, h3]
  split <;> simp

theorem adds_nil (l) : Adds l l [] [] := ⟨rfl, by simp, by simp⟩

theorem adds_both {l : Lg} (hf : l.fd ≠ 2) (f t : List Byte) :
    Adds l { l with out := l.out ++ [(l.fd, f)] ++ if l.tty then [(2, t)] else [] } f t := by
  refine ⟨rfl, ?_, ?_⟩
  · unfold text
    dsimp only
    rw [List.filter_append, List.filter_append, List.flatMap_append, List.flatMap_append]
    split <;> simp [Ne.symm hf]
  · unfold text
    dsimp only
    rw [List.filter_append, List.filter_append, List.flatMap_append, List.flatMap_append]
    by_cases ht : l.tty = true
    · have : l.init = true ∧ l.inDaemon = false := by simpa [Lg.tty] using ht
      simp [hf, ht, this]
    · have : ¬ (l.init = true ∧ l.inDaemon = false) := by simpa [Lg.tty] using ht
      simp [hf, ht, this]

theorem write_adds {l : Lg} (hf : l.fd ≠ 2) (bs) : Adds l (write l bs) bs bs := adds_both hf bs bs

theorem adds_fd {a b f t} (h : Adds a b f t) (hf : a.fd ≠ 2) : b.fd ≠ 2 := by
  rw [h.1]; exact hf

theorem writeNum_ok {l : Lg} {t} (h : t.length ≤ 254) : writeNum l t = .ok (write l t) := by
  rw [writeNum, if_neg (by omega), List.take_of_length_le h, List.take_left' rfl]

theorem digits_length {base n k} (hb : 1 < base) (hk : 0 < k) (h : n < base ^ k) : (digits base n).length ≤ k := by
  rw [digits, List.length_map]
  exact (Nat.length_toDigits_le_iff hb hk).2 h

theorem dec_length {n : Int} {k} (hk : 0 < k) (h : n.natAbs < 10 ^ k) : (dec n).length ≤ k + 1 := by
  unfold dec
  have := digits_length (base := 10) (by omega) hk h
  split <;> simp <;> omega

theorem dec2_length {n : Int} (h : 0 ≤ n) (h' : n < 100) : (dec2 n).length ≤ 3 := by
  unfold dec2
  split
  · have := dec_length (n := n) (k := 1) (by omega) (by omega)
    simp; omega
  · exact dec_length (k := 2) (by omega) (by omega)

theorem fixed_length {neg m} (h : m < 10 ^ 252) : (fixed neg m).length ≤ 254 := by
  have h1 := digits_length (base := 10) (n := m / 1000000) (k := 246) (by omega) (by omega) (by
    rw [Nat.div_lt_iff_lt_mul (by omega), show (1000000 : Nat) = 10 ^ 6 from rfl, ← Nat.pow_add]; exact h)
  have h2 := digits_length (base := 10) (n := 1000000 + m % 1000000) (k := 7) (by omega) (by omega) (by omega)
  unfold fixed
  simp only [List.length_append, List.length_cons, List.length_drop]
  split <;> simp <;> omega

/-! ## A message -/

theorem toInt_of {w : Nat} {n : Int} (hw : 0 < w) (h : -2 ^ (w - 1) ≤ n) (h' : n < 2 ^ (w - 1)) :
    (BitVec.ofInt w n).toInt = n := by
  rw [BitVec.toInt_ofInt]
  have e : ((2 ^ w : Nat) : Int) = 2 * 2 ^ (w - 1) := by
    obtain ⟨v, rfl⟩ : ∃ v, w = v + 1 := ⟨w - 1, by omega⟩
    push_cast
    simp [Int.pow_succ, Int.mul_comm]
  rw [Int.bmod_eq_of_le_mul_two] <;> omega

theorem conv_shows {c x v} (h : Shows c x v) (l args) : conv l c (x :: args) = .ok (some (write l v, args)) := by
  have big : ∀ {n : Int}, -2 ^ 63 ≤ n → n < 2 ^ 63 → (dec n).length ≤ 254 := by
    intro n h1 h2
    have := dec_length (n := n) (k := 20) (by omega) (by omega)
    omega
  have nat : ∀ {b n : Nat}, 1 < b → n < b ^ 64 → (digits b n).length ≤ 254 := by
    intro b n h1 h2
    have := digits_length h1 (k := 64) (by omega) h2
    omega
  cases h with
  | s bs => rfl
  | S bs => rfl
  | l n h1 h2 =>
    show (writeNum l (dec (BitVec.ofInt 64 n).toInt)).bind _ = _
    rw [toInt_of (by omega) h1 h2, writeNum_ok (big h1 h2)]; rfl
  | i n h1 h2 =>
    show (writeNum l (dec (BitVec.ofInt 64 n).toInt)).bind _ = _
    rw [toInt_of (by omega) h1 h2, writeNum_ok (big h1 h2)]; rfl
  | d n h1 h2 =>
    show (writeNum l (dec (BitVec.ofInt 32 n).toInt)).bind _ = _
    rw [toInt_of (by omega) h1 h2, writeNum_ok (big (by omega) (by omega))]; rfl
  | c b n h =>
    show Res.ok (some (write l [n.setWidth 8], args)) = _
    rw [show n.setWidth 8 = b from BitVec.eq_of_toNat_eq (by simpa using h)]
  | x n h =>
    show (writeNum l (digits 16 (BitVec.ofNat 32 n).toNat)).bind _ = _
    rw [BitVec.toNat_ofNat, Nat.mod_eq_of_lt h, writeNum_ok (nat (by omega) (by omega))]; rfl
  | X n h =>
    show (writeNum l (digits 16 (BitVec.ofNat 64 n).toNat)).bind _ = _
    rw [BitVec.toNat_ofNat, Nat.mod_eq_of_lt h, writeNum_ok (nat (by omega) (by omega))]; rfl
  | u n h =>
    show (writeNum l (digits 10 (BitVec.ofNat 32 n).toNat)).bind _ = _
    rw [BitVec.toNat_ofNat, Nat.mod_eq_of_lt h, writeNum_ok (nat (by omega) (by omega))]; rfl
  | U n h =>
    show (writeNum l (digits 10 (BitVec.ofNat 64 n).toNat)).bind _ = _
    rw [BitVec.toNat_ofNat, Nat.mod_eq_of_lt h, writeNum_ok (nat (by omega) (by omega))]; rfl
  | I n h =>
    show (writeNum l (digits 10 (BitVec.ofNat 64 n).toNat)).bind _ = _
    rw [BitVec.toNat_ofNat, Nat.mod_eq_of_lt h, writeNum_ok (nat (by omega) (by omega))]; rfl
  | f neg m h =>
    show (writeNum l (fixed neg m)).bind _ = _
    rw [writeNum_ok (fixed_length h)]; rfl

theorem message_renders {f a t} (h : Renders f a t) : ∀ acc l, l.fd ≠ 2 →
    ∃ l', message acc l f a = .ok l' ∧ Adds l l' (acc ++ t) (acc ++ t) := by
  induction h with
  | nil =>
    intro acc l hf
    rw [message]
    by_cases ha : acc = []
    · subst ha; exact ⟨l, rfl, adds_nil l⟩
    · rw [if_pos ha]
      refine ⟨_, rfl, ?_⟩
      rw [List.append_nil]; exact write_adds hf acc
  | lit b hb _ ih =>
    intro acc l hf
    rw [message.eq_def]
    simp only [if_pos hb]
    obtain ⟨l', h1, h2⟩ := ih (acc ++ [b]) l hf
    exact ⟨l', h1, by simpa using h2⟩
  | @conv c x v f a t hs _ ih =>
    intro acc l hf
    rw [message.eq_def]
    simp only [ne_eq, not_true_eq_false, if_false, conv_shows hs]
    have a1 := write_adds hf acc
    have a2 := write_adds (adds_fd a1 hf) v
    obtain ⟨l', h1, h2⟩ := ih [] _ (adds_fd a2 (adds_fd a1 hf))
    refine ⟨l', h1, ?_⟩
    have := adds_trans (adds_trans a1 a2) h2
    simpa using this

theorem stamp_length {s : Src} (h : s.Ok) : (stamp s.now).length ≤ 254 := by
  have h1 := dec2_length h.month.1 h.month.2
  have h2 := dec2_length h.day.1 h.day.2
  have h3 := dec2_length h.hour.1 h.hour.2
  have h4 := dec2_length h.minute.1 h.minute.2
  have h5 := dec2_length h.second.1 h.second.2
  have h6 := dec_length (n := s.now.year) (k := 20) (by omega) (by have := h.year; omega)
  have h7 : (txt " UTC ").length = 5 := by decide +kernel
  unfold stamp
  simp only [List.length_append, List.length_cons]
  omega

/-- The start of the line. -/
theorem process_head {l : Lg} {level src} (hl : l.level ≤ level) (h4 : level ≤ 4) (hf : l.fd ≠ 2)
    (hs : src.Ok) :
    ∃ l1, l1.fd ≠ 2 ∧ Adds l l1 (head false level src) (head true level src) ∧
      ∀ msg args, process l level src msg args = message [] l1 msg args := by
  have b1 : ∀ {l}, writeNum l (stamp src.now) = .ok (write l (stamp src.now)) := writeNum_ok (stamp_length hs)
  have b2 : ∀ {l}, writeNum l (dec src.line) = .ok (write l (dec src.line)) := by
    intro l
    apply writeNum_ok
    have := dec_length (n := src.line) (k := 20) (by omega) (by have := hs.line; omega)
    omega
  have b3 : ∀ {l}, writeNum l (txt "PID:" ++ dec src.pid ++ [32#8]) = .ok (write l (txt "PID:" ++ dec src.pid ++ [32#8])) := by
    intro l
    apply writeNum_ok
    have := dec_length (n := src.pid) (k := 20) (by omega) (by have := hs.pid; omega)
    have e : (txt "PID:").length = 4 := by decide +kernel
    simp only [List.length_append, List.length_singleton, e]
    omega
  by_cases h0 : level = 0
  · subst h0
    refine ⟨l, hf, adds_nil l, fun msg args => ?_⟩
    rw [process, if_neg (by omega)]
    rfl
  · have okb : ∀ {α β} (a : α) (f : α → Res β), (Res.ok a >>= f) = f a := fun _ _ => rfl
    have a1 := write_adds hf (stamp src.now)
    have f1 := adds_fd a1 hf
    have a2 : Adds (write l (stamp src.now)) (levelWrite (write l (stamp src.now)) level) (levelName level ++ txt ": ")
        (levelColour level ++ levelName level ++ txt "\x1b[0m: ") := by
      rw [levelWrite, if_pos ⟨by omega, h4⟩]
      exact adds_both f1 _ _
    have f2 := adds_fd a2 f1
    have a12 := adds_trans a1 a2
    generalize hl2 : levelWrite (write l (stamp src.now)) level = l2 at a12 f2
    by_cases hd : 2 ≤ level
    · have a3 := write_adds f2 src.file
      have f3 := adds_fd a3 f2
      have a4 := write_adds f3 [58#8]
      have f4 := adds_fd a4 f3
      have a5 := write_adds f4 src.func
      have f5 := adds_fd a5 f4
      have a6 := write_adds f5 [58#8]
      have f6 := adds_fd a6 f5
      have a7 := write_adds f6 (dec src.line)
      have f7 := adds_fd a7 f6
      have a8 := write_adds f7 (txt ": ")
      have f8 := adds_fd a8 f7
      have a9 := write_adds f8 (txt "PID:" ++ dec src.pid ++ [32#8])
      have f9 := adds_fd a9 f8
      refine ⟨_, f9, ?_, fun msg args => ?_⟩
      rotate_left
      · rw [process, if_neg (by omega)]
        simp only [if_pos (show level > 0 by omega), b1, b2, b3, okb, if_pos hd, hl2]
      · have := adds_trans (adds_trans (adds_trans (adds_trans (adds_trans (adds_trans (adds_trans a12 a3) a4) a5) a6) a7) a8) a9
        simpa [head, h0, hd] using this
    · have a9 := write_adds f2 (txt "PID:" ++ dec src.pid ++ [32#8])
      have f9 := adds_fd a9 f2
      refine ⟨_, f9, ?_, fun msg args => ?_⟩
      rotate_left
      · rw [process, if_neg (by omega)]
        simp only [if_pos (show level > 0 by omega), b1, b2, b3, okb, if_neg hd, hl2]
      · have := adds_trans a12 a9
        simpa [head, h0, hd] using this

/-- A message at or above the level in force is written as a whole: the start of the line, and the
text its format and arguments stand for, to the file and, unless the program runs as a daemon, to the
terminal. -/
theorem process_writes {l : Lg} {level src msg args t} (hl : l.level ≤ level) (h4 : level ≤ 4) (hf : l.fd ≠ 2)
    (hs : src.Ok) (h : Renders msg args t) :
    ∃ l', process l level src msg args = .ok l' ∧
      Adds l l' (head false level src ++ t) (head true level src ++ t) := by
  obtain ⟨l1, f1, a1, e1⟩ := process_head hl h4 hf hs
  obtain ⟨l', h1, h2⟩ := message_renders h [] l1 f1
  exact ⟨l', by rw [e1, h1], adds_trans a1 h2⟩

/-- The same through mln_log, and the lock is free again. -/
theorem sysLog_writes {l : Lg} {level src msg args t} (hl : l.level ≤ level) (h4 : level ≤ 4) (hf : l.fd ≠ 2)
    (hh : l.held = false) (hs : src.Ok) (h : Renders msg args t) :
    ∃ l', sysLog l level src msg args = .ok l' ∧
      Adds l l' (head false level src ++ t) (head true level src ++ t) := by
  obtain ⟨l', h1, h2⟩ := process_writes (l := { l with held := true }) hl h4 hf hs h
  refine ⟨{ l' with held := false }, ?_, ?_, h2.2.1, h2.2.2⟩
  · rw [sysLog, if_neg (by simp [hh])]
    show Res.bind (process _ _ _ _ _) _ = _
    rw [h1]; rfl
  · have := h2.1
    rw [this]
    show _ = ({ l with out := l'.out } : Lg)
    rw [← hh]

/-- A message below the level in force leaves no trace, whatever its format and arguments. -/
theorem below_silent {l : Lg} {level src msg args} (h : level < l.level) (hh : l.held = false) :
    sysLog l level src msg args = .ok l := by
  rw [sysLog, if_neg (by simp [hh]), process, if_pos h]
  show Res.ok { { l with held := true } with held := false } = _
  rw [← hh]

/-! ## Conversions that there are not -/

/-- After a part of the format: what is written, and what is still held back. -/
theorem message_part {f a t} (h : Renders f a t) : ∀ acc l r b, l.fd ≠ 2 →
    ∃ acc' l' pre, message acc l (f ++ r) (a ++ b) = message acc' l' r b ∧ Adds l l' pre pre ∧
      pre ++ acc' = acc ++ t ∧ l'.fd ≠ 2 := by
  induction h with
  | nil =>
    intro acc l r b hf
    exact ⟨acc, l, [], rfl, adds_nil l, by simp, hf⟩
  | lit b hb _ ih =>
    intro acc l r b' hf
    obtain ⟨acc', l', pre, h1, h2, h3, h4⟩ := ih (acc ++ [b]) l r b' hf
    refine ⟨acc', l', pre, ?_, h2, by simpa using h3, h4⟩
    rw [List.cons_append, message.eq_def]
    simp only [if_pos hb]
    exact h1
  | @conv c x v f a t hs _ ih =>
    intro acc l r b hf
    have a1 := write_adds hf acc
    have a2 := write_adds (adds_fd a1 hf) v
    obtain ⟨acc', l', pre, h1, h2, h3, h4⟩ := ih [] _ r b (adds_fd a2 (adds_fd a1 hf))
    refine ⟨acc', l', acc ++ v ++ pre, ?_, adds_trans (adds_trans a1 a2) h2, ?_, h4⟩
    · rw [List.cons_append, List.cons_append, List.cons_append, message.eq_def]
      simp only [ne_eq, not_true_eq_false, if_false, conv_shows hs]
      exact h1
    · rw [List.append_assoc, h3]; simp

theorem conv_unknown {l c args} (h : c ∉ letters) : conv l c args = .ok none := by
  simp only [letters, List.mem_cons, not_or] at h
  obtain ⟨h1, h2, h3, h4, h5, h6, h7, h8, h9, h10, h11, h12, -⟩ := h
  unfold conv
  rw [if_neg h1, if_neg h2, if_neg (by simp [h3, h4]), if_neg h5, if_neg h6, if_neg h7, if_neg h8, if_neg h9,
    if_neg h10, if_neg (by simp [h11, h12])]

/-- A percent sign that no known letter follows, doubled or not, ends the message: what comes after it
is replaced by an error text. -/
theorem percent_cut {l : Lg} {level src f a t c r b} (hl : l.level ≤ level) (h4 : level ≤ 4) (hf : l.fd ≠ 2)
    (hs : src.Ok) (h : Renders f a t) (hc : c ∉ letters) :
    ∃ l', process l level src (f ++ 37#8 :: c :: r) (a ++ b) = .ok l' ∧
      Adds l l' (head false level src ++ (t ++ (errFmt ++ [10#8]))) (head true level src ++ (t ++ (errFmt ++ [10#8]))) := by
  obtain ⟨l1, f1, a1, e1⟩ := process_head hl h4 hf hs
  obtain ⟨acc, l2, pre, h1, h2, h3, h4⟩ := message_part h [] l1 (37#8 :: c :: r) b f1
  have w1 := write_adds h4 acc
  have w2 := write_adds (adds_fd w1 h4) errFmt
  have w3 := write_adds (adds_fd w2 (adds_fd w1 h4)) [10#8]
  refine ⟨write (write (write l2 acc) errFmt) [10#8], ?_, ?_⟩
  · rw [e1, h1, message.eq_def]
    simp only [ne_eq, not_true_eq_false, if_false, conv_unknown hc]
  · rw [List.nil_append] at h3
    have := adds_trans a1 (adds_trans h2 (adds_trans w1 (adds_trans w2 w3)))
    rw [← h3]
    simpa using this

/-! ## Doubles -/

theorem fixed_big {neg m} (h : 10 ^ 255 ≤ m) : 257 ≤ (fixed neg m).length := by
  have h1 : ¬ (digits 10 (m / 1000000)).length ≤ 249 := by
    rw [digits, List.length_map, Nat.length_toDigits_le_iff (by omega) (by omega), Nat.not_lt,
      Nat.le_div_iff_mul_le (by omega), show (1000000 : Nat) = 10 ^ 6 from rfl, ← Nat.pow_add]
    exact h
  have h2 : ¬ (digits 10 (1000000 + m % 1000000)).length ≤ 6 := by
    rw [digits, List.length_map, Nat.length_toDigits_le_iff (by omega) (by omega)]
    omega
  unfold fixed
  simp only [List.length_append, List.length_cons, List.length_drop]
  omega

/-- From 10^249 on a double is written with bytes from behind the buffer its text was put in. -/
theorem double_bad {l : Lg} {level src f a t neg m r b} (hl : l.level ≤ level) (h4 : level ≤ 4) (hf : l.fd ≠ 2)
    (hs : src.Ok) (h : Renders f a t) (hm : 10 ^ 255 ≤ m) :
    process l level src (f ++ 37#8 :: 102#8 :: r) (a ++ .dbl neg m :: b) = .bad := by
  obtain ⟨l1, f1, a1, e1⟩ := process_head hl h4 hf hs
  obtain ⟨acc, l2, pre, h1, h2, h3, h4⟩ := message_part h [] l1 (37#8 :: 102#8 :: r) (.dbl neg m :: b) f1
  rw [e1, h1, message.eq_def]
  have hb : ∀ l, conv l 102#8 (.dbl neg m :: b) = .bad := by
    intro l
    show (writeNum l (fixed neg m)).bind _ = _
    rw [writeNum, if_pos (by have := fixed_big (neg := neg) hm; omega)]
    rfl
  simp only [ne_eq, not_true_eq_false, if_false, hb]

/-! ## The level -/

/-- The levels by name. -/
def levelNames : List (List Byte) := [txt "none", txt "report", txt "debug", txt "warn", txt "error"]

/-- `log_level` is there but does not name a level. -/
def NoLevel (arg : Option (List Item)) : Prop :=
  ∃ is, arg = some is ∧ ∀ s, is.head? = some (.str s) → s ∉ levelNames

theorem itemSearch_one (is : List Item) : Conf.itemSearch is 1 = is.head? := by
  unfold Conf.itemSearch
  cases is with
  | nil => rfl
  | cons a l => rw [if_neg (by simp)]; rfl

theorem setLevel_ok {l : Lg} {s k r isInit src} (h : levelNames[k]? = some s) :
    setLevel l (some (.str s :: r)) isInit src = .ok (0, { l with level := k }) := by
  match k, h with
  | 0, h => cases h; rw [setLevel, itemSearch_one]; rfl
  | 1, h => cases h; rw [setLevel, itemSearch_one]; rfl
  | 2, h => cases h; rw [setLevel, itemSearch_one]; rfl
  | 3, h => cases h; rw [setLevel, itemSearch_one]; rfl
  | 4, h => cases h; rw [setLevel, itemSearch_one]; rfl

theorem setLevel_bad {l : Lg} {arg isInit src} (h : NoLevel arg) :
    ∃ msg, setLevel l arg isInit src =
      if isInit then .ok (-1, l) else (sysLog l 4 src msg []).bind fun l => .ok (-1, l) := by
  obtain ⟨is, rfl, h⟩ := h
  rw [setLevel]
  simp only [itemSearch_one]
  cases hi : is.head? with
  | none => exact ⟨_, rfl⟩
  | some x =>
    cases x with
    | str s =>
      have hn := h s hi
      simp only [levelNames, List.mem_cons, not_or] at hn
      obtain ⟨n0, n1, n2, n3, n4, -⟩ := hn
      dsimp only
      rw [if_neg n0, if_neg n1, if_neg n2, if_neg n3, if_neg n4]
      exact ⟨_, rfl⟩
    | chr b => exact ⟨_, rfl⟩
    | bool b => exact ⟨_, rfl⟩
    | int b => exact ⟨_, rfl⟩
    | real b => exact ⟨_, rfl⟩

/-- At the start a level that is none is refused. -/
theorem start_refuses {l : Lg} {arg src} (h : NoLevel arg) : setLevel l arg true src = .ok (-1, l) := by
  obtain ⟨m, hm⟩ := setLevel_bad (l := l) (isInit := true) (src := src) h
  rw [hm]; rfl

/-! ## The file -/

theorem getLog_keeps {l : Lg} {root dflt arg isInit sys r l'} (h : getLog l root dflt arg isInit sys = .ok (r, l')) :
    l'.held = l.held ∧ l'.level = l.level ∧ l'.init = l.init ∧ l'.inDaemon = l.inDaemon ∧ l'.out = l.out ∧
      (r ≠ 0 → isInit = false → l'.fd = l.fd ∧ l'.closed = l.closed ∧ l'.logPath = l.logPath) := by
  unfold getLog at h
  split at h
  · cases h; exact ⟨rfl, rfl, rfl, rfl, rfl, fun _ _ => ⟨rfl, rfl, rfl⟩⟩
  · split at h
    · cases h
    · split at h
      · cases h
      · split at h
        · cases h
        · dsimp only at h
          split at h
          · cases h; exact ⟨rfl, rfl, rfl, rfl, rfl, fun _ _ => ⟨rfl, rfl, rfl⟩⟩
          · split at h
            · cases h; exact ⟨rfl, rfl, rfl, rfl, rfl, fun _ _ => ⟨rfl, rfl, rfl⟩⟩
            · split at h
              · cases h
              · cases isInit with
                | true =>
                  rw [if_pos rfl] at h
                  split at h <;> cases h <;> exact ⟨rfl, rfl, rfl, rfl, rfl, fun _ h => by cases h⟩
                | false =>
                  rw [if_neg (by simp)] at h
                  cases h
                  exact ⟨rfl, rfl, rfl, rfl, rfl, fun h _ => absurd rfl h⟩

/-- The path that is meant. -/
def resolved (root s : List Byte) : List Byte :=
  if s.head? = some 47#8 ∨ s.head? = some 46#8 then s else root ++ 47#8 :: s

theorem lastSlash_spec (d n z : List Byte) (hn : 47#8 ∉ n) :
    lastSlash (d ++ 47#8 :: n ++ z) (d.length + 1 + n.length) = some d.length := by
  have key : ∀ k, k ≤ n.length → lastSlash (d ++ 47#8 :: n ++ z) (d.length + 1 + k) = some d.length := by
    intro k
    induction k with
    | zero =>
      intro _
      rw [Nat.add_zero, lastSlash, if_pos]
      simp
    | succ k ih =>
      intro hk
      rw [← Nat.add_assoc, lastSlash, if_neg]
      · exact ih (by omega)
      · intro hc
        apply hn
        have : (d ++ 47#8 :: n ++ z)[d.length + 1 + k]? = n[k]? := by
          rw [List.append_assoc, List.getElem?_append_right (by omega),
            show d.length + 1 + k - d.length = k + 1 by omega, List.cons_append, List.getElem?_cons_succ,
            List.getElem?_append_left (by omega)]
        rw [this] at hc
        exact List.mem_of_getElem? hc
  exact key _ (Nat.le_refl _)

theorem lastSlash_none {mem : List Byte} : ∀ {n}, 47#8 ∉ mem.take n → lastSlash mem n = none := by
  intro n
  induction n with
  | zero => intro _; rfl
  | succ n ih =>
    intro h
    rw [lastSlash, if_neg, ih]
    · intro hc
      exact h ((List.take_subset_take_left mem (Nat.le_succ n)) hc)
    · intro hc
      apply h
      exact List.mem_of_getElem? (i := n) (by rw [List.getElem?_take]; simpa using hc)

/-- The memory that holds the path. -/
theorem pathOf_spec {root dflt s : List Byte} (h : (resolved root s).length ≤ 1022) :
    ∃ z, pathOf root dflt (some [.str s]) = some (resolved root s ++ z, (resolved root s).length) := by
  unfold pathOf resolved at *
  have e : s.head? = some 47#8 ∨ s.head? = some 46#8 ↔ ¬ (s.headD 0#8 ≠ 47#8 ∧ s.headD 0#8 ≠ 46#8) := by
    cases s with
    | nil => simp
    | cons a s =>
      simp only [List.head?_cons, Option.some.injEq, List.headD_cons]
      by_cases h1 : a = 47#8 <;> by_cases h2 : a = 46#8 <;> simp [h1, h2]
  dsimp only
  by_cases hs : s.head? = some 47#8 ∨ s.head? = some 46#8
  · rw [if_pos hs] at h ⊢
    rw [if_neg (e.1 hs), show min s.length 1023 = s.length by omega]
    exact ⟨_, rfl⟩
  · rw [if_neg hs] at h ⊢
    rw [if_pos (by by_contra hc; exact hs (e.2 hc))]
    refine ⟨(List.replicate 1024 0#8).take (1024 - (root ++ 47#8 :: s).length), ?_⟩
    rw [List.take_of_length_le h, List.take_append, List.take_of_length_le (by omega)]

/-- A path in a directory whose name has less than 512 bytes: the file is the one that is meant, the
directory and the file for the pid belong to it, and on a reload the file used before is closed unless
it is a standard one. -/
theorem path_taken_partial {l : Lg} {root dflt s d n isInit fd} (hp : resolved root s = d ++ 47#8 :: n)
    (hn : 47#8 ∉ n) (hd : d.length < 512) (hl : (resolved root s).length ≤ 1022) :
    getLog l root dflt (some [.str s]) isInit { fd := some fd } = .ok (0, { l with
      dirPath := d, logPath := resolved root s, fd := fd,
      pidPath := if isInit then d ++ txt "/melon.pid" else l.pidPath,
      closed := if isInit = false ∧ 2 < l.fd then l.closed ++ [l.fd] else l.closed }) := by
  obtain ⟨z, hz⟩ := pathOf_spec (dflt := dflt) hl
  rw [getLog, hz]
  dsimp only
  rw [if_neg (by simp)]
  have e : lastSlash (resolved root s ++ z) (resolved root s).length = some d.length := by
    have := lastSlash_spec d n z hn
    rw [hp]
    convert this using 2
    simp; omega
  rw [e]
  dsimp only
  rw [if_neg (by omega), if_neg (by simp), if_neg (by omega)]
  have e1 : (resolved root s ++ z).take d.length = d := by rw [hp, List.append_assoc, List.take_left' rfl]
  have e2 : (resolved root s ++ z).take (resolved root s).length = resolved root s := List.take_left' rfl
  have e3 : (d ++ txt "/melon.pid").length ≤ 1022 := by
    have : (txt "/melon.pid").length = 10 := by decide +kernel
    simp only [List.length_append]; omega
  rw [e1, e2]
  cases isInit with
  | true => rw [if_pos rfl, if_pos rfl, List.take_of_length_le e3]; simp
  | false => simp

/-- A longer name of the directory is written past the end of `dir_path`. -/
theorem long_dir_bad {l : Lg} {root dflt s d n isInit sys} (hp : resolved root s = d ++ 47#8 :: n)
    (hn : 47#8 ∉ n) (hd : 512 ≤ d.length) (hl : (resolved root s).length ≤ 1022) :
    getLog l root dflt (some [.str s]) isInit sys = .bad := by
  obtain ⟨z, hz⟩ := pathOf_spec (dflt := dflt) hl
  rw [getLog, hz]
  dsimp only
  rw [if_neg (by simp)]
  have e : lastSlash (resolved root s ++ z) (resolved root s).length = some d.length := by
    have := lastSlash_spec d n z hn
    rw [hp]
    convert this using 2
    simp; omega
  rw [e]
  dsimp only
  rw [if_pos hd]

/-- A file beside the program, such as `.log`: a copy of 2^64-1 bytes. -/
theorem dot_file_bad {l : Lg} {root dflt s isInit sys} (h : s.head? = some 46#8) (hs : 47#8 ∉ s) :
    getLog l root dflt (some [.str s]) isInit sys = .bad := by
  have hd : s.headD 0#8 = 46#8 := by
    cases s with
    | nil => cases h
    | cons a s => cases h; rfl
  rw [getLog, pathOf]
  dsimp only
  rw [hd, if_neg (by simp)]
  dsimp only
  rw [if_neg (by simp; omega), lastSlash_none]
  intro hc
  have := List.mem_of_mem_take hc
  simp at this
  exact hs this

/-- A relative path that is too long for the buffer is read behind it. -/
theorem long_path_bad {l : Lg} {root dflt s isInit sys} (h1 : s.head? ≠ some 47#8) (h2 : s.head? ≠ some 46#8)
    (hl : 1024 < (resolved root s).length) :
    getLog l root dflt (some [.str s]) isInit sys = .bad := by
  have e : s.headD 0#8 ≠ 47#8 ∧ s.headD 0#8 ≠ 46#8 := by
    cases s with
    | nil => decide
    | cons a s => simpa using And.intro h1 h2
  rw [resolved, if_neg (by simp [h1, h2])] at hl
  rw [getLog, pathOf]
  dsimp only
  rw [if_pos e]
  dsimp only
  rw [if_pos]
  rw [List.length_take]
  omega

/-! ## Reloading -/

/-- With a level that is one, or none given, a reload returns and the lock is free. -/
theorem reload_ok {l : Lg} {root dflt path sys src l1 r1} (hh : l.held = false)
    (hg : getLog { l with held := true } root dflt path false sys = .ok (r1, l1)) :
    reload l root dflt path none sys src = .ok (0, { l1 with held := false }) ∧
    ∀ k s rest, levelNames[k]? = some s →
      reload l root dflt path (some (.str s :: rest)) sys src = .ok (0, { l1 with held := false, level := k }) := by
  constructor
  · rw [reload, if_neg (by simp [hh])]
    show Res.bind (getLog _ _ _ _ _ _) _ = _
    rw [hg]; rfl
  · intro k s rest hk
    rw [reload, if_neg (by simp [hh])]
    show Res.bind (getLog _ _ _ _ _ _) _ = _
    rw [hg]
    show Res.bind (setLevel _ _ _ _) _ = _
    rw [setLevel_ok hk]; rfl

/-- With anything else as level, a reload never returns: the error is logged while the lock is held. -/
theorem reload_hangs {l : Lg} {root dflt path level sys src l1 r1} (hh : l.held = false)
    (hg : getLog { l with held := true } root dflt path false sys = .ok (r1, l1)) (hl : NoLevel level) :
    reload l root dflt path level sys src = .hang := by
  obtain ⟨m, hm⟩ := setLevel_bad (l := l1) (isInit := false) (src := src) hl
  rw [reload, if_neg (by simp [hh])]
  show Res.bind (getLog _ _ _ _ _ _) _ = _
  rw [hg]
  show Res.bind (setLevel _ _ _ _) _ = _
  rw [hm, if_neg (by simp), sysLog, if_pos (by rw [(getLog_keeps hg).1])]
  rfl

/-- A file that cannot be opened on a reload: the messages go where they went before. -/
theorem reload_keeps {l : Lg} {root dflt path sys src l1 r1} (hh : l.held = false)
    (hg : getLog { l with held := true } root dflt path false sys = .ok (r1, l1)) (hr : r1 ≠ 0) :
    ∃ l', reload l root dflt path none sys src = .ok (0, l') ∧ l'.fd = l.fd ∧ l'.closed = l.closed ∧
      l'.logPath = l.logPath ∧ l'.level = l.level := by
  obtain ⟨-, h2, -, -, -, h6⟩ := getLog_keeps hg
  obtain ⟨h6, h7, h8⟩ := h6 hr rfl
  exact ⟨_, (reload_ok (src := src) hh hg).1, h6, h7, h8, h2⟩

/-! ## Cases -/

private def src : Src where
  file := txt "a.c"
  func := txt "f"
  line := 12
  now := { year := 2024, month := 2, day := 29, hour := 7, minute := 5, second := 59, week := 4 }
  pid := 77

private def lg : Lg := { fd := 5, level := 2, init := true }

example : src.Ok := ⟨by decide, by decide, by decide, by decide, by decide, by decide, by decide, by decide⟩

example : Renders [110#8, 37#8, 100#8, 32#8, 37#8, 115#8, 10#8] [.int (BitVec.ofInt 32 (-3)), .str [111#8, 107#8]]
    (110#8 :: (dec (-3) ++ 32#8 :: ([111#8, 107#8] ++ [10#8]))) :=
  .lit _ (by decide) (.conv (.d (-3) (by decide) (by decide)) (.lit _ (by decide)
    (.conv (.s _) (.lit _ (by decide) .nil))))

private def shown (fd : Nat) : Res Lg → List Byte
  | .ok l => text fd l
  | _ => []

/-- A warning, in the file and on the terminal. -/
example : shown 5 (sysLog lg 3 src (txt "n=%d %s\n") [.int (-3), .str (txt "ok")]) =
    txt "02/29/2024 07:05:59 UTC WARN: a.c:f:12: PID:77 n=-3 ok\n" := by decide +kernel
example : shown 2 (sysLog lg 3 src (txt "n=%d %s\n") [.int (-3), .str (txt "ok")]) =
    txt "02/29/2024 07:05:59 UTC \x1b[33mWARN\x1b[0m: a.c:f:12: PID:77 n=-3 ok\n" := by decide +kernel

example : sysLog lg 1 src (txt "%s") [] = .ok lg := by decide +kernel

/-- "100%% done". -/
example : shown 5 (process { lg with level := 0 } 0 src (txt "100%% done\n") []) =
    txt "100Log message format error.\n" := by decide +kernel

/-- 10^250. -/
example : process { lg with level := 0 } 0 src (txt "%f") [.dbl false (10 ^ 256)] = .bad := by decide +kernel
example : fixed true 3141593 = txt "-3.141593" := by decide +kernel

example : NoLevel (some [.str (txt "warning")]) := ⟨_, rfl, by intro s h; cases h; decide +kernel⟩
example : reload lg (txt "/r") (txt "/r/logs/melon.log") none (some [.str (txt "warning")]) { fd := some 6 } src = .hang := by
  decide +kernel
example : reload lg (txt "/r") (txt "/r/logs/melon.log") (some [.str (txt "x/y.log")]) (some [.str (txt "warn")]) { fd := some 6 } src =
    .ok (0, { lg with dirPath := txt "/r/x", logPath := txt "/r/x/y.log", fd := 6, level := 3, closed := [5] }) := by
  decide +kernel
example : getLog lg (txt "/r") [] (some [.str (txt ".log")]) true { fd := some 6 } = .bad := by decide +kernel
example : getLog lg (txt "/r") [] (some [.str (47#8 :: List.replicate 600 97#8 ++ txt "/b")]) true { fd := some 6 } = .bad := by
  decide +kernel

end Verif.Log
