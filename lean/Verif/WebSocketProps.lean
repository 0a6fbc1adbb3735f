import Verif.WebSocket
import Verif.Asn1Props

/-
WebSocket frames: the bytes generated (RFC 6455), parsing them (C47), and reads past the received
bytes (C48).
-/

namespace Verif.WebSocket

/-! ### The wire format -/

/-- Spec, RFC 6455 5.2 and 5.3: the frame with payload `p`. -/
def wire (w : Ws) (p : List Nat) : List Nat :=
  let n := p.length
  [128 * w.fin.toNat + 64 * w.rsv1.toNat + 32 * w.rsv2.toNat + 16 * w.rsv3.toNat + w.opcode,
   128 * w.maskbit.toNat + (if n ≤ 125 then n else if n < 65536 then 126 else 127)] ++
  (if n ≤ 125 then [] else if n < 65536 then [n / 256, n % 256] else (List.range 8).map fun i => n / 256 ^ (7 - i) % 256) ++
  (if w.maskbit then (List.range 4).map (fun i => w.key / 256 ^ (3 - i) % 256) ++ p.mapIdx fun i c => c ^^^ (w.key / 256 ^ (3 - i % 4) % 256) else p)

/-- Spec, RFC 6455 5.5.1: a close frame's payload starts with the status code. -/
def payload (w : Ws) : List Nat :=
  if w.opcode = 8 then [w.status / 256, w.status % 256] ++ w.content.getD [] else w.content.getD []

/-- Field ranges of the C struct. -/
structure Wf (w : Ws) : Prop where
  op : w.opcode < 16
  key : w.key < 4294967296
  status : w.status < 65536

theorem and_ff (n : Nat) : n &&& 0xff = n % 256 := Nat.and_two_pow_sub_one_eq_mod _ 8

theorem shr_ff (n k : Nat) : n >>> k &&& 0xff = n / 2 ^ k % 256 := by rw [and_ff, Nat.shiftRight_eq_div_pow]

theorem keyByte_spec (m i : Nat) : keyByte m i = m / 256 ^ (3 - i % 4) % 256 := by
  unfold keyByte
  rw [shr_ff]
  have : i % 4 = 0 ∨ i % 4 = 1 ∨ i % 4 = 2 ∨ i % 4 = 3 := by omega
  rcases this with h | h | h | h <;> rw [h] <;> norm_num

theorem maskFrom_spec (m : Nat) : ∀ (l : List Nat) (i : Nat), maskFrom m i l = l.mapIdx fun j c => c ^^^ keyByte m (i + j) := by
  intro l
  induction l with
  | nil => intro i; rfl
  | cons c cs ih =>
    intro i
    rw [maskFrom, List.mapIdx_cons, ih, Nat.add_zero]
    congr 1
    congr 1
    funext j c
    rw [show i + 1 + j = i + (j + 1) by omega]

theorem maskFrom_append (m : Nat) : ∀ (a b : List Nat) (i : Nat), maskFrom m i a ++ maskFrom m (i + a.length) b = maskFrom m i (a ++ b) := by
  intro a
  induction a with
  | nil => intro b i; rfl
  | cons c cs ih =>
    intro b i
    simp only [maskFrom, List.cons_append, List.length_cons]
    rw [← ih b (i + 1), show i + 1 + cs.length = i + (cs.length + 1) by omega]

theorem maskFrom_length (m : Nat) : ∀ (l : List Nat) (i : Nat), (maskFrom m i l).length = l.length := by
  intro l
  induction l with
  | nil => intro i; rfl
  | cons c cs ih => intro i; simp [maskFrom, ih]

theorem maskFrom_invol (m : Nat) : ∀ (l : List Nat) (i : Nat), maskFrom m i (maskFrom m i l) = l := by
  intro l
  induction l with
  | nil => intro i; rfl
  | cons c cs ih => intro i; simp [maskFrom, ih, Nat.xor_assoc]

theorem byte1_spec (w : Ws) (h : w.opcode < 16) : byte1 w = 128 * w.fin.toNat + 64 * w.rsv1.toNat + 32 * w.rsv2.toNat + 16 * w.rsv3.toNat + w.opcode := by
  have key : ∀ f r1 r2 r3 : Bool, ∀ o < 16, (((((if f then 0x80 else 0) ||| (if r1 then 0x40 else 0)) ||| (if r2 then 0x20 else 0)) ||| (if r3 then 0x10 else 0)) ||| (o &&& 0xf)) =
      128 * f.toNat + 64 * r1.toNat + 32 * r2.toNat + 16 * r3.toNat + o := by decide +kernel
  exact key w.fin w.rsv1 w.rsv2 w.rsv3 w.opcode h

theorem payload_length (w : Ws) : (payload w).length = (if w.opcode = 8 then (w.content.getD []).length + 2 else (w.content.getD []).length) := by
  unfold payload; split <;> simp

/-- The frame generated is the RFC 6455 frame of the fields, for every payload length; control
frames with more than 125 bytes are refused. -/
theorem generate_spec (w : Ws) (hw : Wf w) (hn : (payload w).length < 18446744073709551616) :
    generate w (w.content.getD []).length = some (
      if (w.opcode = 8 ∨ w.opcode = 9 ∨ w.opcode = 10) ∧ (payload w).length > 125 then .error .error else .ok (wire w (payload w))) := by
  unfold generate
  rw [if_neg (by rintro ⟨h1, h2⟩; rw [h1] at h2; simp at h2)]
  simp only
  rw [← payload_length w]
  by_cases hctl : (w.opcode = 8 ∨ w.opcode = 9 ∨ w.opcode = 10) ∧ (payload w).length > 125
  · rw [if_pos hctl, if_pos hctl]
  · rw [if_neg hctl, if_neg hctl]
    have hst : (if w.opcode = 8 then [w.status >>> 8 &&& 0xff, w.status &&& 0xff] else []) ++ w.content.getD [] = payload w := by
      unfold payload
      split
      · rw [shr_ff, and_ff, Nat.mod_eq_of_lt (show w.status / 2 ^ 8 < 256 by have := hw.status; omega)]; norm_num
      · rfl
    generalize (if w.opcode = 8 then [w.status >>> 8 &&& 0xff, w.status &&& 0xff] else []) = st at *
    rw [List.take_length]
    have hm : maskFrom w.key 0 st ++ maskFrom w.key st.length (w.content.getD []) = (payload w).mapIdx fun i c => c ^^^ (w.key / 256 ^ (3 - i % 4) % 256) := by
      have := maskFrom_append w.key st (w.content.getD []) 0
      rw [Nat.zero_add] at this
      rw [this, hst, maskFrom_spec]
      congr 1
      funext j c
      rw [Nat.zero_add, keyByte_spec]
    rw [List.append_assoc _ (maskFrom w.key 0 st), hm, hst]
    generalize payload w = p at *
    rw [byte1_spec w hw.op]
    have hk4 : [w.key >>> 24 &&& 0xff, w.key >>> 16 &&& 0xff, w.key >>> 8 &&& 0xff, w.key &&& 0xff] = (List.range 4).map (fun i => w.key / 256 ^ (3 - i) % 256) := by
      simp [and_ff, Nat.shiftRight_eq_div_pow, List.range_succ]
    rw [hk4]
    have h127 : ∀ b : Bool, ∀ k < 128, ((if b then 0x80 else 0) ||| (k &&& 0x7f)) = 128 * b.toNat + k := by decide +kernel
    rw [h127 w.maskbit _ (by split <;> first | split <;> omega | omega)]
    have hshift : p.length >>> 16 ≠ 0 ↔ ¬ p.length < 65536 := by rw [Nat.shiftRight_eq_div_pow]; omega
    simp only [hshift]
    unfold wire
    simp only
    by_cases h125 : p.length ≤ 125
    · simp only [show ¬ p.length > 125 by omega, h125, if_true, if_false]
      rw [if_neg (show ¬ p.length = 126 by omega), if_neg (show ¬ p.length = 127 by omega)]
      rw [if_pos]
      cases w.maskbit <;> simp <;> omega
    · simp only [show p.length > 125 by omega, h125, if_true, if_false]
      by_cases h16 : p.length < 65536
      · simp only [h16, not_true_eq_false, if_false, if_true, and_ff, Nat.shiftRight_eq_div_pow]
        rw [show p.length / 2 ^ 8 % 256 = p.length / 256 by omega]
        rw [if_pos]
        cases w.maskbit <;> simp <;> omega
      · simp only [h16, not_false_eq_true, if_false, if_true, and_ff, Nat.shiftRight_eq_div_pow]
        rw [if_neg (show ¬ (127 = 126) by decide)]
        have h8 : [p.length / 2 ^ 56 % 256, p.length / 2 ^ 48 % 256, p.length / 2 ^ 40 % 256, p.length / 2 ^ 32 % 256, p.length / 2 ^ 24 % 256, p.length / 2 ^ 16 % 256, p.length / 2 ^ 8 % 256, p.length % 256] = (List.range 8).map fun i => p.length / 256 ^ (7 - i) % 256 := by
          simp [List.range_succ]
        rw [h8, if_pos]
        cases w.maskbit <;> simp <;> omega

/-! ### Parsing a complete frame -/

theorem field_app (a b : List Nat) (rest : List (List Nat)) : field a.length (a ++ b, rest) = some (some (a, b, rest)) := by
  cases a with
  | nil =>
    cases b with
    | nil => simp [field]
    | cons x xs => simp [field]
  | cons x xs => simp [field]

/-- What a complete frame with these parts means to the parser. -/
def parsed (w : Ws) (b1 b2 len : Nat) (kb s c : List Nat) : Ws :=
  let key := kb.foldl (fun a q => (a <<< 8) ||| q) 0
  let isClose := b1 &&& 0xf = 8 ∧ len > 1
  let status := if len ≠ 0 then (if isClose then s.foldl (fun a q => (a <<< 8) ||| q) 0 else 0) else w.status
  let masked := b2 &&& 0x80 ≠ 0
  let unmaskStatus := masked ∧ b1 &&& 0xf = 8 ∧ status ≠ 0
  { fin := b1 &&& 0x80 ≠ 0, rsv1 := b1 &&& 0x40 ≠ 0, rsv2 := b1 &&& 0x20 ≠ 0, rsv3 := b1 &&& 0x10 ≠ 0,
    opcode := b1 &&& 0xf, maskbit := masked, key := if masked then key else 0,
    status := if unmaskStatus then (((status >>> 8 &&& 0xff) ^^^ keyByte key 0) <<< 8) ||| ((status &&& 0xff) ^^^ keyByte key 1) else status,
    content := if len ≠ 0 then some (if masked then maskFrom key (if unmaskStatus then 2 else 0) c else c) else none }

/-- **C48, partial.** A frame that is complete in the buffer is parsed without reading outside
it, whatever its bytes are and whatever follows: the parser consumes exactly the frame.  (Not for
frames that end early or continue in the next buffer: see `parse_cut_…` below.) -/
theorem parse_complete_partial (sh : Nat → Nat → Nat) (w : Ws) (b1 b2 len : Nat) (ext kb s c tail : List Nat) (rest : List (List Nat))
    (hext : ext.length = if b2 &&& 0x7f = 127 then 8 else if b2 &&& 0x7f = 126 then 2 else 0)
    (hlen : len = if b2 &&& 0x7f = 127 then Asn1.lenVal sh ext 0 else if b2 &&& 0x7f = 126 then Asn1.lenVal sh ext 0 else b2 &&& 0x7f)
    (hkb : kb.length = if b2 &&& 0x80 ≠ 0 then 4 else 0)
    (hs : s.length = if len ≠ 0 ∧ b1 &&& 0xf = 8 ∧ len > 1 then 2 else 0)
    (hc : s.length + c.length = len) :
    parse sh w ((b1 :: b2 :: (ext ++ kb ++ s ++ c ++ tail)) :: rest) = some (.ok (parsed w b1 b2 len kb s c, (tail :: rest).dropWhile (·.isEmpty))) := by
  unfold parse
  rw [show byte ([], (b1 :: b2 :: (ext ++ kb ++ s ++ c ++ tail)) :: rest) = some (b1, b2 :: (ext ++ kb ++ s ++ c ++ tail), rest) by simp [byte]]
  simp only
  rw [show byte (b2 :: (ext ++ kb ++ s ++ c ++ tail), rest) = some (b2, ext ++ kb ++ s ++ c ++ tail, rest) by simp [byte]]
  simp only
  have e1 : (if b2 &&& 0x7f = 127 then field 8 (ext ++ kb ++ s ++ c ++ tail, rest) else if b2 &&& 0x7f = 126 then field 2 (ext ++ kb ++ s ++ c ++ tail, rest) else some (some ([], ext ++ kb ++ s ++ c ++ tail, rest))) =
      some (some (ext, kb ++ s ++ c ++ tail, rest)) := by
    have := field_app ext (kb ++ s ++ c ++ tail) rest
    simp only [List.append_assoc] at this ⊢
    split at hext
    · next h => rw [if_pos h, ← hext]; exact this
    · next h =>
      rw [if_neg h]
      split at hext
      · next h => rw [if_pos h, ← hext]; exact this
      · next h => rw [if_neg h, List.length_eq_zero_iff.1 hext]; rfl
  simp only [Option.bind_eq_bind]
  rw [e1]
  simp only [Option.bind_some]
  rw [← hlen]
  have e2 : (if b2 &&& 0x80 ≠ 0 then field 4 (kb ++ s ++ c ++ tail, rest) else some (some ([], kb ++ s ++ c ++ tail, rest))) = some (some (kb, s ++ c ++ tail, rest)) := by
    have := field_app kb (s ++ c ++ tail) rest
    simp only [List.append_assoc] at this ⊢
    split at hkb
    · next h => rw [if_pos h, ← hkb]; exact this
    · next h => rw [if_neg h, List.length_eq_zero_iff.1 hkb]; rfl
  rw [e2]
  simp only [Option.bind_some]
  have e3 : (if len ≠ 0 ∧ b1 &&& 0xf = 8 ∧ len > 1 then field 2 (s ++ c ++ tail, rest) else some (some ([], s ++ c ++ tail, rest))) = some (some (s, c ++ tail, rest)) := by
    have := field_app s (c ++ tail) rest
    simp only [List.append_assoc] at this ⊢
    split at hs
    · next h => rw [if_pos h, ← hs]; exact this
    · next h => rw [if_neg h, List.length_eq_zero_iff.1 hs]; rfl
  rw [e3]
  simp only [Option.bind_some]
  have e4 : (if len ≠ 0 then field (if b1 &&& 0xf = 8 ∧ len > 1 then len - 2 else len) (c ++ tail, rest) else some (some ([], c ++ tail, rest))) = some (some (c, tail, rest)) := by
    have := field_app c tail rest
    by_cases h0 : len = 0
    · rw [if_neg (by simpa using h0)]
      have : c = [] := List.length_eq_zero_iff.1 (by omega)
      rw [this]; rfl
    · rw [if_pos h0]
      have hcl : (if b1 &&& 0xf = 8 ∧ len > 1 then len - 2 else len) = c.length := by
        by_cases hcc : b1 &&& 0xf = 8 ∧ len > 1
        · rw [if_pos ⟨h0, hcc⟩] at hs; rw [if_pos hcc]; omega
        · rw [if_neg (fun h => hcc h.2)] at hs; rw [if_neg hcc]; omega
      rw [hcl]; exact this
  rw [e4]
  rfl

/-! ### Round trip -/

theorem fold_two (a b : Nat) (hb : b < 256) : [a, b].foldl (fun a q => (a <<< 8) ||| q) 0 = a * 256 + b := by
  simp only [List.foldl_cons, List.foldl_nil, Nat.zero_shiftLeft, Nat.zero_or]
  rw [← Nat.shiftLeft_add_eq_or_of_lt (show b < 2 ^ 8 by omega), Nat.shiftLeft_eq]

theorem fold_key (k : Nat) (hk : k < 4294967296) : ((List.range 4).map (fun i => k / 256 ^ (3 - i) % 256)).foldl (fun a q => (a <<< 8) ||| q) 0 = k := by
  have e : (List.range 4).map (fun i => k / 256 ^ (3 - i) % 256) = [k / 16777216 % 256, k / 65536 % 256, k / 256 % 256, k % 256] := by simp [List.range_succ]
  rw [e]
  simp only [List.foldl_cons, List.foldl_nil, Nat.zero_shiftLeft, Nat.zero_or]
  have step : ∀ a b, b < 256 → (a <<< 8 ||| b) = a * 256 + b := by
    intro a b hb
    rw [← Nat.shiftLeft_add_eq_or_of_lt (show b < 2 ^ 8 by omega), Nat.shiftLeft_eq]
  rw [step _ (k / 65536 % 256) (by omega), step _ (k / 256 % 256) (by omega), step _ (k % 256) (by omega)]
  omega

theorem byte1_fields (w : Ws) (h : w.opcode < 16) : ∃ b1, b1 = 128 * w.fin.toNat + 64 * w.rsv1.toNat + 32 * w.rsv2.toNat + 16 * w.rsv3.toNat + w.opcode ∧
    (b1 &&& 0x80 ≠ 0 ↔ w.fin = true) ∧ (b1 &&& 0x40 ≠ 0 ↔ w.rsv1 = true) ∧ (b1 &&& 0x20 ≠ 0 ↔ w.rsv2 = true) ∧ (b1 &&& 0x10 ≠ 0 ↔ w.rsv3 = true) ∧ b1 &&& 0xf = w.opcode := by
  have key : ∀ f r1 r2 r3 : Bool, ∀ o < 16,
      ((128 * f.toNat + 64 * r1.toNat + 32 * r2.toNat + 16 * r3.toNat + o) &&& 0x80 ≠ 0 ↔ f = true) ∧ ((128 * f.toNat + 64 * r1.toNat + 32 * r2.toNat + 16 * r3.toNat + o) &&& 0x40 ≠ 0 ↔ r1 = true) ∧
      ((128 * f.toNat + 64 * r1.toNat + 32 * r2.toNat + 16 * r3.toNat + o) &&& 0x20 ≠ 0 ↔ r2 = true) ∧ ((128 * f.toNat + 64 * r1.toNat + 32 * r2.toNat + 16 * r3.toNat + o) &&& 0x10 ≠ 0 ↔ r3 = true) ∧
      (128 * f.toNat + 64 * r1.toNat + 32 * r2.toNat + 16 * r3.toNat + o) &&& 0xf = o := by decide +kernel
  exact ⟨_, rfl, key w.fin w.rsv1 w.rsv2 w.rsv3 w.opcode h⟩

theorem byte2_fields : ∀ b : Bool, ∀ k < 128, ((128 * b.toNat + k) &&& 0x80 ≠ 0 ↔ b = true) ∧ (128 * b.toNat + k) &&& 0x7f = k := by decide +kernel

theorem xor_zero {a b : Nat} (h : a ^^^ b = 0) : a = b := by
  have := congrArg (· ^^^ b) h
  simpa [Nat.xor_assoc] using this

/-- Spec: the fields a receiver should see for a sent frame.  An empty payload has no content;
a key is visible only with the mask bit; the status belongs to close frames, and a receiver's
stored status survives a frame without payload. -/
def received (w0 w : Ws) : Ws :=
  { w with
    key := if w.maskbit then w.key else 0
    status := if w.opcode = 8 then w.status else if payload w = [] then w0.status else 0
    content := if payload w = [] then none else some (w.content.getD []) }

/-- **C47, partial.** Parsing a frame gives the fields and the
content back and leaves what follows.  Not for masked close frames whose status equals the upper
half of the key (`parse_close_collision`).  Longer payloads, below 2^31 bytes, need shifts that C leaves
undefined to do the obvious thing on zero bytes. -/
theorem parse_wire_partial (sh : Nat → Nat → Nat) (w0 w : Ws) (hw : Wf w) (hn : (payload w).length < 65536 ∨ ((payload w).length < 2147483648 ∧ ∀ k, sh 0 k % 18446744073709551616 = 0))
    (hcol : ¬ (w.opcode = 8 ∧ w.maskbit = true ∧ w.status = w.key / 65536)) (tail : List Nat) (rest : List (List Nat)) :
    parse sh w0 ((wire w (payload w) ++ tail) :: rest) = some (.ok (received w0 w, (tail :: rest).dropWhile (·.isEmpty))) := by
  obtain ⟨b1, hb1, f1, f2, f3, f4, f5⟩ := byte1_fields w hw.op
  obtain ⟨n, hnn⟩ : ∃ n, n = (payload w).length := ⟨_, rfl⟩
  obtain ⟨l7, hl7⟩ : ∃ l7, l7 = (if n ≤ 125 then n else if n < 65536 then 126 else 127) := ⟨_, rfl⟩
  have hl7b : l7 < 128 := by rw [hl7]; split <;> first | omega | (split <;> omega)
  obtain ⟨g1, g2⟩ := byte2_fields w.maskbit l7 hl7b
  obtain ⟨ext, hext⟩ : ∃ ext, ext = (if n ≤ 125 then ([] : List Nat) else if n < 65536 then [n / 256, n % 256] else (List.range 8).map fun i => n / 256 ^ (7 - i) % 256) := ⟨_, rfl⟩
  have hlen : n = if (128 * w.maskbit.toNat + l7) &&& 0x7f = 127 then Asn1.lenVal sh ext 0 else if (128 * w.maskbit.toNat + l7) &&& 0x7f = 126 then Asn1.lenVal sh ext 0 else (128 * w.maskbit.toNat + l7) &&& 0x7f := by
    rw [g2]
    by_cases h : n ≤ 125
    · rw [if_pos h] at hl7
      rw [hl7, if_neg (by omega), if_neg (by omega)]
    · rw [if_neg h] at hl7 hext
      by_cases h16 : n < 65536
      · rw [if_pos h16] at hl7 hext
        rw [if_neg (by omega), if_pos hl7, hext]
        have := Asn1.lenVal_be sh [n / 256, n % 256] 0 (by simp; omega) (by simp)
        rw [Nat.zero_shiftLeft] at this
        rw [this]
        simp
        omega
      · rw [if_neg h16] at hl7 hext
        obtain ⟨hn31, hsh⟩ : n < 2147483648 ∧ ∀ k, sh 0 k % 18446744073709551616 = 0 := by
          rcases hn with hn | hn
          · omega
          · rw [← hnn] at hn; exact hn
        have he : ext = [0, 0, 0, 0, n / 16777216, n / 65536 % 256, n / 256 % 256, n % 256] := by
          rw [hext]
          simp [List.range_succ]
          omega
        rw [if_pos hl7, he]
        have h0 : ∀ k, Asn1.shl sh 0 k = 0 := by
          intro k
          unfold Asn1.shl
          split
          · simp
          · exact hsh k
        have := Asn1.lenVal_be sh [n / 16777216, n / 65536 % 256, n / 256 % 256, n % 256] 0 (by simp; omega) (Or.inr ⟨rfl, by simp; omega⟩)
        rw [Nat.zero_shiftLeft] at this
        rw [Asn1.lenVal, Asn1.lenVal, Asn1.lenVal, Asn1.lenVal, h0, h0, h0, h0]
        simp only [Nat.zero_or]
        rw [this]
        simp
        omega
  have hextl : ext.length = if (128 * w.maskbit.toNat + l7) &&& 0x7f = 127 then 8 else if (128 * w.maskbit.toNat + l7) &&& 0x7f = 126 then 2 else 0 := by
    rw [g2, hext]
    by_cases h : n ≤ 125
    · rw [if_pos h] at hl7
      rw [if_pos h, hl7, if_neg (by omega), if_neg (by omega)]; rfl
    · rw [if_neg h] at hl7
      rw [if_neg h]
      by_cases h16 : n < 65536
      · rw [if_pos h16] at hl7
        rw [if_pos h16, hl7]; rfl
      · rw [if_neg h16] at hl7
        rw [if_neg h16, hl7]; rfl
  obtain ⟨kb, hkb⟩ : ∃ kb, kb = (if w.maskbit then (List.range 4).map (fun i => w.key / 256 ^ (3 - i) % 256) else []) := ⟨_, rfl⟩
  have hkbl : kb.length = if (128 * w.maskbit.toNat + l7) &&& 0x80 ≠ 0 then 4 else 0 := by
    rw [hkb]
    by_cases h : w.maskbit = true
    · rw [if_pos h, if_pos (g1.2 h)]; rfl
    · rw [if_neg h, if_neg (fun hh => h (g1.1 hh))]; rfl
  -- the status bytes and the content on the wire
  obtain ⟨st, hst⟩ : ∃ st, st = (if w.opcode = 8 then [w.status / 256, w.status % 256] else []) := ⟨_, rfl⟩
  have hpay : payload w = st ++ w.content.getD [] := by rw [hst, payload]; split <;> simp
  obtain ⟨s, hs⟩ : ∃ s, s = (if w.maskbit then maskFrom w.key 0 st else st) := ⟨_, rfl⟩
  obtain ⟨c, hc⟩ : ∃ c, c = (if w.maskbit then maskFrom w.key st.length (w.content.getD []) else w.content.getD []) := ⟨_, rfl⟩
  have hsl : s.length = st.length := by rw [hs]; split; exact maskFrom_length _ _ _; rfl
  have hcl : c.length = (w.content.getD []).length := by rw [hc]; split; exact maskFrom_length _ _ _; rfl
  have hstl : st.length = if w.opcode = 8 then 2 else 0 := by rw [hst]; split <;> rfl
  have hnl : n = st.length + (w.content.getD []).length := by rw [hnn, hpay, List.length_append]
  have hwire : wire w (payload w) ++ tail = b1 :: (128 * w.maskbit.toNat + l7) :: (ext ++ kb ++ s ++ c ++ tail) := by
    unfold wire
    simp only
    rw [← hnn, ← hb1, ← hl7]
    rw [← hext]
    have hbody : (if w.maskbit then (List.range 4).map (fun i => w.key / 256 ^ (3 - i) % 256) ++ (payload w).mapIdx fun i c => c ^^^ (w.key / 256 ^ (3 - i % 4) % 256) else payload w) = kb ++ s ++ c := by
      by_cases h : w.maskbit = true
      · rw [if_pos h] at hkb hs hc ⊢
        rw [hkb, hs, hc, List.append_assoc]
        congr 1
        have := maskFrom_append w.key st (w.content.getD []) 0
        rw [Nat.zero_add] at this
        rw [this, ← hpay, maskFrom_spec]
        congr 1
        funext j c
        rw [Nat.zero_add, keyByte_spec]
      · rw [if_neg h] at hkb hs hc ⊢
        rw [hkb, hs, hc, hpay]; rfl
    rw [hbody]
    simp
  rw [hwire]
  have hsl2 : s.length = if n ≠ 0 ∧ b1 &&& 0xf = 8 ∧ n > 1 then 2 else 0 := by
    rw [hsl, hstl, f5]
    by_cases h8 : w.opcode = 8
    · rw [if_pos h8] at hstl ⊢
      rw [if_pos ⟨by omega, h8, by omega⟩]
    · rw [if_neg h8, if_neg (fun h => h8 h.2.1)]
  rw [parse_complete_partial sh w0 b1 (128 * w.maskbit.toNat + l7) n ext kb s c tail rest hextl hlen hkbl hsl2 (by omega)]
  congr 3
  -- the fields
  generalize 128 * w.maskbit.toNat + l7 = b2 at *
  have hkey : w.maskbit = true → kb.foldl (fun a q => (a <<< 8) ||| q) 0 = w.key := by
    intro h; rw [hkb, if_pos h]; exact fold_key w.key hw.key
  have hp0 : payload w = [] ↔ n = 0 := by rw [hnn]; exact List.length_eq_zero_iff.symm
  unfold parsed received
  simp only [f5]
  have hisc : (w.opcode = 8 ∧ n > 1) ↔ w.opcode = 8 := ⟨fun h => h.1, fun h => ⟨h, by rw [if_pos h] at hstl; omega⟩⟩
  simp only [hisc]
  by_cases hmb : w.maskbit = true
  · have hm80 := g1.2 hmb
    have hm80 : (b2 &&& 0x80 = 0) = False := by simpa using hm80
    simp only [hkey hmb]
    simp only [hm80, hmb, if_true, true_and, ne_eq, not_false_eq_true, decide_true]
    rw [if_pos hmb] at hs hc
    by_cases h8 : w.opcode = 8
    · have hn0 : n ≠ 0 := by rw [if_pos h8] at hstl; omega
      rw [if_pos h8] at hst
      rw [hst] at hs hc
      simp only [maskFrom, List.length_cons, List.length_nil] at hs hc
      have hk0 : keyByte w.key 0 = w.key / 16777216 := by rw [keyByte_spec]; have := hw.key; simp; omega
      have hk1 : keyByte w.key 1 = w.key / 65536 % 256 := by rw [keyByte_spec]; simp
      have hx0 : w.status / 256 ^^^ keyByte w.key 0 < 256 := Nat.xor_lt_two_pow (n := 8) (by have := hw.status; omega) (by have := hw.key; omega)
      have hx1 : w.status % 256 ^^^ keyByte w.key 1 < 256 := Nat.xor_lt_two_pow (n := 8) (by omega) (by omega)
      have hsf : s.foldl (fun a q => (a <<< 8) ||| q) 0 = (w.status / 256 ^^^ keyByte w.key 0) * 256 + (w.status % 256 ^^^ keyByte w.key 1) := by
        rw [hs]; exact fold_two _ _ hx1
      have hne : s.foldl (fun a q => (a <<< 8) ||| q) 0 ≠ 0 := by
        rw [hsf]
        intro h
        have e0 : w.status / 256 ^^^ keyByte w.key 0 = 0 := by omega
        have e1 : w.status % 256 ^^^ keyByte w.key 1 = 0 := by omega
        have e0 := xor_zero e0
        have e1 := xor_zero e1
        apply hcol
        refine ⟨h8, hmb, ?_⟩
        omega
      simp only [h8, hne, hn0, if_true, not_false_eq_true, and_self]
      have hst' : (((s.foldl (fun a q => (a <<< 8) ||| q) 0 >>> 8 &&& 0xff) ^^^ keyByte w.key 0) <<< 8 ||| (s.foldl (fun a q => (a <<< 8) ||| q) 0 &&& 0xff) ^^^ keyByte w.key 1) = w.status := by
        rw [hsf, shr_ff, and_ff]
        generalize hX : w.status / 256 ^^^ keyByte w.key 0 = X at *
        generalize hY : w.status % 256 ^^^ keyByte w.key 1 = Y at *
        rw [show (X * 256 + Y) / 2 ^ 8 % 256 = X by omega, show (X * 256 + Y) % 256 = Y by omega, ← hX, ← hY]
        rw [Nat.xor_assoc, Nat.xor_self, Nat.xor_zero, Nat.xor_assoc, Nat.xor_self, Nat.xor_zero]
        rw [← Nat.shiftLeft_add_eq_or_of_lt (show w.status % 256 < 2 ^ 8 by omega), Nat.shiftLeft_eq]
        omega
      rw [hst', hc, maskFrom_invol]
      have hpe : payload w ≠ [] := fun h => hn0 (hp0.1 h)
      simp only [hpe, if_false]
      congr 1
      · simp [f1]
      · simp [f2]
      · simp [f3]
      · simp [f4]
    · have hst0 : st.length = 0 := by rw [hstl, if_neg h8]
      simp only [h8, if_false, false_and]
      rw [hc, hst0, maskFrom_invol]
      by_cases hn0 : n = 0
      · have hpe := hp0.2 hn0
        simp only [hn0, hpe, not_true_eq_false, if_false, if_true]
        congr 1
        · simp [f1]
        · simp [f2]
        · simp [f3]
        · simp [f4]
      · have hpe : payload w ≠ [] := fun h => hn0 (hp0.1 h)
        simp only [hn0, hpe, not_false_eq_true, if_false, if_true]
        congr 1
        · simp [f1]
        · simp [f2]
        · simp [f3]
        · simp [f4]
  · have hm80 : ¬ (b2 &&& 0x80 ≠ 0) := fun h => hmb (g1.1 h)
    have hmf : w.maskbit = false := by simpa using hmb
    rw [if_neg hmb] at hs hc
    simp only [hm80, if_false, false_and]
    by_cases h8 : w.opcode = 8
    · have hn0 : n ≠ 0 := by rw [if_pos h8] at hstl; omega
      have hpe : payload w ≠ [] := fun h => hn0 (hp0.1 h)
      have hsf : s.foldl (fun a q => (a <<< 8) ||| q) 0 = w.status := by
        rw [hs, hst, if_pos h8, fold_two _ _ (by omega)]; omega
      simp only [h8, hn0, hpe, if_true, ne_eq, not_false_eq_true, if_false, hsf, hc, hmf]
      congr 1
      · simp [f1]
      · simp [f2]
      · simp [f3]
      · simp [f4]
    · simp only [h8, if_false]
      by_cases hn0 : n = 0
      · have hpe := hp0.2 hn0
        simp only [hn0, hpe, ne_eq, not_true_eq_false, if_false, if_true, hmf]
        congr 1
        · simp [f1]
        · simp [f2]
        · simp [f3]
        · simp [f4]
      · have hpe : payload w ≠ [] := fun h => hn0 (hp0.1 h)
        simp only [hn0, hpe, ne_eq, not_false_eq_true, if_false, if_true, hmf, hc]
        congr 1
        · simp [f1]
        · simp [f2]
        · simp [f3]
        · simp [f4]

/-- **C47, partial.** Sending and receiving: what `mln_websocket_generate` writes, parsed by the
other side, gives the same fields and content (exceptions as in `parse_wire_partial`). -/
theorem parse_generate_partial (sh : Nat → Nat → Nat) (w0 w : Ws) (hw : Wf w) (hn : (payload w).length < 65536) (hctl : w.opcode = 8 ∨ w.opcode = 9 ∨ w.opcode = 10 → (payload w).length ≤ 125)
    (hcol : ¬ (w.opcode = 8 ∧ w.maskbit = true ∧ w.status = w.key / 65536)) :
    ∃ bytes, generate w (w.content.getD []).length = some (.ok bytes) ∧ parse sh w0 [bytes] = some (.ok (received w0 w, [])) := by
  refine ⟨wire w (payload w), ?_, ?_⟩
  · rw [generate_spec w hw (by omega), if_neg]
    rintro ⟨h1, h2⟩
    have := hctl h1
    omega
  · have := parse_wire_partial sh w0 w hw (Or.inl hn) hcol [] []
    simpa using this

/-- The status of a masked close frame is unmasked only if its masked form is not zero.  Whenever
the status equals the upper half of the key, the receiver gets status 0 and content that is
combined with the wrong key bytes. -/
theorem parse_close_collision (sh : Nat → Nat → Nat) (w0 : Ws) (key : Nat) (hk : key < 4294967296) (c : List Nat) (hc : c.length ≤ 123) :
    ∃ bytes r, generate { fin := true, rsv1 := false, rsv2 := false, rsv3 := false, opcode := 8, maskbit := true, key := key, status := key / 65536, content := some c } c.length = some (.ok bytes) ∧
      parse sh w0 [bytes] = some (.ok (r, [])) ∧ r.status = 0 ∧ r.content = some (maskFrom key 0 (maskFrom key 2 c)) := by
  obtain ⟨w, hwdef⟩ : ∃ w : Ws, w = { fin := true, rsv1 := false, rsv2 := false, rsv3 := false, opcode := 8, maskbit := true, key := key, status := key / 65536, content := some c } := ⟨_, rfl⟩
  have hw : Wf w := by rw [hwdef]; exact ⟨by show 8 < 16; omega, hk, by show key / 65536 < 65536; omega⟩
  have hpl : payload w = [key / 65536 / 256, key / 65536 % 256] ++ c := by rw [hwdef]; simp [payload]
  have hg := generate_spec w hw (by rw [hpl]; simp; omega)
  rw [if_neg (by rw [hpl]; simp; omega)] at hg
  rw [hwdef] at hg
  refine ⟨_, parsed w0 136 (130 + c.length) (c.length + 2) ((List.range 4).map (fun i => key / 256 ^ (3 - i) % 256)) [0, 0] (maskFrom key 2 c), hg, ?_⟩
  rw [← hwdef, hpl]
  have hwire : wire w ([key / 65536 / 256, key / 65536 % 256] ++ c) = 136 :: (130 + c.length) :: ([] ++ (List.range 4).map (fun i => key / 256 ^ (3 - i) % 256) ++ [0, 0] ++ maskFrom key 2 c ++ []) := by
    unfold wire
    simp only [hwdef, List.length_append, List.length_cons, List.length_nil]
    rw [if_pos (by omega), if_pos (by omega), if_pos trivial]
    have e0 : key / 65536 / 256 ^^^ (key / 256 ^ 3 % 256) = 0 := by
      rw [show key / 256 ^ 3 % 256 = key / 65536 / 256 by omega]; exact Nat.xor_self _
    have e1 : key / 65536 % 256 ^^^ (key / 256 ^ 2 % 256) = 0 := by
      rw [show key / 256 ^ 2 % 256 = key / 65536 % 256 by omega]; exact Nat.xor_self _
    have hm : ([key / 65536 / 256, key / 65536 % 256] ++ c).mapIdx (fun i c => c ^^^ (key / 256 ^ (3 - i % 4) % 256)) = [0, 0] ++ maskFrom key 2 c := by
      rw [maskFrom_spec]
      simp only [List.cons_append, List.nil_append, List.mapIdx_cons]
      rw [show 3 - 0 % 4 = 3 by omega, e0, show 3 - (0 + 1) % 4 = 2 by omega, e1]
      congr 3
      funext j x
      rw [keyByte_spec, show j + 1 + 1 = 2 + j by omega]
    rw [hm]
    simp
    omega
  rw [hwire]
  have hb2 : ∀ n < 126, (130 + n) &&& 0x7f = n + 2 ∨ n ≥ 126 - 2 := by decide +kernel
  have hb80 : ∀ n < 124, (130 + n) &&& 0x80 ≠ 0 := by decide +kernel
  have h7f : (130 + c.length) &&& 0x7f = c.length + 2 := by
    rcases hb2 c.length (by omega) with h | h
    · exact h
    · omega
  have h80 := hb80 c.length (by omega)
  have hp := parse_complete_partial sh w0 136 (130 + c.length) (c.length + 2) [] ((List.range 4).map (fun i => key / 256 ^ (3 - i) % 256)) [0, 0] (maskFrom key 2 c) [] []
    (by rw [h7f, if_neg (by omega), if_neg (by omega)]; rfl)
    (by rw [h7f, if_neg (by omega), if_neg (by omega)])
    (by rw [if_pos h80]; simp)
    (by rw [if_pos ⟨by omega, by decide, by omega⟩]; rfl)
    (by rw [maskFrom_length]; simp; omega)
  refine ⟨by simpa using hp, ?_, ?_⟩
  · simp [parsed]
  · simp only [parsed, fold_key key hk]
    have hm80 : (130 + c.length &&& 0x80 = 0) = False := by simpa using h80
    simp [hm80]

/-! ### Cut frames -/

/-- A frame whose content is only partly received: the parser copies the missing bytes from
behind the buffer. -/
theorem parse_cut_content (sh : Nat → Nat → Nat) (w : Ws) (b1 n : Nat) (hn : n ≤ 125) (hop : b1 &&& 0xf ≠ 8) (body : List Nat) (h0 : body ≠ []) (hb : body.length < n) (rest : List (List Nat)) :
    parse sh w ((b1 :: n :: body) :: rest) = none := by
  have h7f : ∀ n < 126, n &&& 0x7f = n ∧ n &&& 0x80 = 0 := by decide +kernel
  obtain ⟨e1, e2⟩ := h7f n (by omega)
  have hf : field n (body, rest) = none := by
    cases body with
    | nil => exact absurd rfl h0
    | cons x xs => simp only [field]; rw [if_neg (by omega)]
  simp [parse, byte, e1, e2, show n ≠ 127 by omega, show n ≠ 126 by omega, hop, show n ≠ 0 by omega, hf]

/-- The same for a two-byte length of which one byte has arrived. -/
theorem parse_cut_length (sh : Nat → Nat → Nat) (w : Ws) (b1 b2 x : Nat) (h : b2 &&& 0x7f = 126) (rest : List (List Nat)) : parse sh w ([b1, b2, x] :: rest) = none := by
  simp [parse, byte, h, field]

/-- The same for an eight-byte length and a masking key. -/
theorem parse_cut_length8 (sh : Nat → Nat → Nat) (w : Ws) (b1 b2 : Nat) (h : b2 &&& 0x7f = 127) (body : List Nat) (h0 : body ≠ []) (h8 : body.length < 8) (rest : List (List Nat)) : parse sh w ((b1 :: b2 :: body) :: rest) = none := by
  have hf : field 8 (body, rest) = none := by
    cases body with
    | nil => exact absurd rfl h0
    | cons x xs => simp only [field]; rw [if_neg (by omega)]
  simp [parse, byte, h, hf]

theorem parse_cut_key (sh : Nat → Nat → Nat) (w : Ws) (b1 b2 : Nat) (h : b2 &&& 0x7f < 126) (hm : b2 &&& 0x80 ≠ 0) (body : List Nat) (h0 : body ≠ []) (h8 : body.length < 4) (rest : List (List Nat)) : parse sh w ((b1 :: b2 :: body) :: rest) = none := by
  have hf : field 4 (body, rest) = none := by
    cases body with
    | nil => exact absurd rfl h0
    | cons x xs => simp only [field]; rw [if_neg (by omega)]
  simp [parse, byte, show b2 &&& 0x7f ≠ 127 by omega, show b2 &&& 0x7f ≠ 126 by omega, hm, hf]

/-- With nothing received after the two header bytes the parser asks for more, as it should. -/
theorem parse_header_only (sh : Nat → Nat → Nat) (w : Ws) (b1 b2 : Nat) (h : b2 &&& 0x7f ≠ 0 ∨ b2 &&& 0x80 ≠ 0) : parse sh w [[b1, b2]] = some (.error .notyet) := by
  by_cases h127 : b2 &&& 0x7f = 127
  · simp [parse, byte, h127, field]
  · by_cases h126 : b2 &&& 0x7f = 126
    · simp [parse, byte, h126, field]
    · by_cases hm : b2 &&& 0x80 = 0
      · have hl : b2 &&& 0x7f ≠ 0 := by
          rcases h with h | h
          · exact h
          · exact absurd hm h
        by_cases hcl : b1 &&& 0xf = 8 ∧ b2 &&& 0x7f > 1
        · simp [parse, byte, h127, h126, hm, hl, hcl, field]
        · simp [parse, byte, h127, h126, hm, hl, hcl, field]
      · simp [parse, byte, h127, h126, hm, field]

/-- The close frame does not depend on the status asked for. -/
theorem closeGenerate_ignores_status (w : Ws) (reason : Option (List Nat)) (s s' : Nat) (client server : Bool) (key : Nat) :
    closeGenerate w reason s client server key = closeGenerate w reason s' client server key := rfl

/-! ### Instances -/

def text : Ws := { fin := true, rsv1 := false, rsv2 := false, rsv3 := false, opcode := 1, maskbit := true, key := 0x37fa213d, status := 0, content := some [72, 101, 108, 108, 111] }
def fresh : Ws := { fin := false, rsv1 := false, rsv2 := false, rsv3 := false, opcode := 0, maskbit := false, key := 0, status := 0, content := none }

/-- The masked "Hello" of RFC 6455 5.7. -/
example : generate text 5 = some (.ok [0x81, 0x85, 0x37, 0xfa, 0x21, 0x3d, 0x7f, 0x9f, 0x4d, 0x51, 0x58]) := by decide +kernel
example : parse (fun _ _ => 0) fresh [[0x81], [], [0x85], [0x37, 0xfa, 0x21, 0x3d, 0x7f, 0x9f, 0x4d, 0x51, 0x58, 0x81, 0]] = some (.ok (text, [[0x81, 0]])) := by decide +kernel
example : parse (fun _ _ => 0) fresh [[0x81, 0x05, 72, 101], [108, 108, 111]] = none := by decide +kernel
example : (closeGenerate fresh none 1000 false true 0) = some (.ok [0x88, 2, 0, 0]) := by decide +kernel

end Verif.WebSocket
