import Verif.WsHand
import Verif.Sha1Props
import Verif.Base64Props
import Verif.HttpFieldProps
import Verif.HttpRoundProps
/-
Properties of the WebSocket handshake of src/mln_websocket.c.
-/
namespace Verif.WsHand
open Verif.Http

/-! ## Specification (RFC 6455, section 4) -/

/-- The accept value for a key: base64 of SHA-1 of the key followed by the fixed text. -/
def rfcAccept (key : List Byte) : List Byte :=
  Base64.rfcEncode (Sha1.fipsBytes (Sha1.fipsSha1 (key ++ b! "258EAFA5-E914-47DA-95CA-C5AB0DC85B11")))

/-- The names the handshake itself uses. -/
def reserved : List (List Byte) :=
  [b! "Upgrade", b! "Connection", b! "Sec-WebSocket-Accept", b! "Sec-WebSocket-Key",
   b! "Sec-WebSocket-Version", b! "Sec-WebSocket-Extensions"]

/-- Further fields a user may ask for: they can be sent and are none of the handshake's. -/
def Plain (es : List (List Byte × List Byte)) : Prop :=
  ∀ f ∈ es, GoodName f.1 ∧ Text f.1 ∧ GoodValue (some f.2) ∧ ∀ k ∈ reserved, ¬ SameName k f.1

/-- A text cut at every separator. -/
def pieces (sep : Byte) (s : List Byte) : List (List Byte) :=
  s.foldr (fun b acc => if b = sep then [] :: acc else (b :: acc.headD []) :: acc.tail) [[]]

/-- The names of the extensions in a list `name;param;…,name;param;…`. -/
def extensionNames (s : List Byte) : List (List Byte) :=
  ((pieces 44#8 s).filter (· ≠ [])).map (·.takeWhile (· ≠ 59#8))

/-- Memory never runs out. -/
def Env.Rich (e : Env) : Prop := (∀ i, e.ok i = true) ∧ (∀ i, e.gen i = true) ∧ e.junk.length = 64

/-! ## The digest -/

theorem digest_eq {junk : List Byte} (hj : junk.length = 64) (key) :
    digest junk key = some (rfcAccept key) := by
  obtain ⟨m, h1, h2⟩ := Sha1.sha1_split junk hj [] (key ++ guid)
  simp only [Md.feed, List.flatten_nil, List.nil_append] at h1 h2
  unfold digest
  rw [h1]
  simp only [Option.bind_eq_bind, Option.bind_some]
  rw [Sha1.sha1_tobytes _ _ 20 (by simp), h2]
  have e : (Sha1.fipsBytes (Sha1.fipsSha1 (key ++ guid))).take 20 ++ (List.replicate 20 (0 : Byte)).drop 20 =
      Sha1.fipsBytes (Sha1.fipsSha1 (key ++ guid)) := by
    rw [List.take_of_length_le (by simp [Sha1.fipsBytes])]; simp
  rw [e]
  simp only [Option.bind_some]
  rw [(Base64.encode_eq_rfc _).2]
  rfl

/-! ## Base64 text -/

theorem letter_good : ∀ n : Fin 64, blank (Base64.letter n.val) = false ∧ Base64.letter n.val ≠ 10#8 ∧
    Base64.letter n.val ≠ 0#8 := by decide +kernel

theorem letter_good' {n : Nat} (h : n < 64) : blank (Base64.letter n) = false ∧ Base64.letter n ≠ 10#8 ∧
    Base64.letter n ≠ 0#8 := letter_good ⟨n, h⟩

theorem eq_good : blank Base64.eq' = false ∧ Base64.eq' ≠ 10#8 ∧ Base64.eq' ≠ 0#8 := by decide +kernel

theorem rfc_good : ∀ (l : List Byte), ∀ b ∈ Base64.rfcEncode l, blank b = false ∧ b ≠ 10#8 ∧ b ≠ 0#8 := by
  intro l
  fun_induction Base64.rfcEncode l with
  | case1 => intro b hb; cases hb
  | _ =>
    intro b hb
    simp only [List.mem_cons, List.not_mem_nil, or_false] at hb
    rcases hb with rfl | rfl | rfl | rfl | hb
    all_goals first
      | exact eq_good
      | (apply letter_good'; omega)
      | (rename_i ih; exact ih b hb)

theorem rfc_value {l : List Byte} (h : l ≠ []) : GoodValue (some (Base64.rfcEncode l)) := by
  refine ⟨?_, fun hc => (rfc_good l _ hc).2.1 rfl, ?_⟩
  · intro hc
    have e := Base64.rfcEncode_length l
    rw [hc] at e
    have : 0 < l.length := List.length_pos_iff.2 h
    simp only [List.length_nil, Base64.encLen] at e
    split at e <;> omega
  · intro b hb
    exact (rfc_good l b (List.mem_of_mem_head? hb)).1

theorem accept_value (key) : GoodValue (some (rfcAccept key)) := rfc_value (by simp [Sha1.fipsBytes])

/-! ## Setting fields -/

theorem update_mem {P : List Byte × Option (List Byte) → Prop} {k v} (hk : P (k, some v)) :
    ∀ es, (∀ e ∈ es, P e) → ∀ e ∈ updateField k v es, P e := by
  intro es
  induction es with
  | nil => intro _ e he; cases he
  | cons a es ih =>
    intro h e he
    rw [updateField] at he
    split at he
    · rcases List.mem_cons.1 he with rfl | he
      · exact hk
      · exact h e (List.mem_cons_of_mem _ he)
    · rcases List.mem_cons.1 he with rfl | he
      · exact h e (List.mem_cons_self ..)
      · exact ih (fun e he => h e (List.mem_cons_of_mem _ he)) e he

/-- Setting a field with memory: only the fields change. -/
theorem put_rich {e : Env} (he : e.Rich) (n h k v) :
    ∃ fs, put e n h k v = (OK, { h with fields := fs }) ∧
      (h.fields.any (hit k) = false → fs = h.fields ++ [(k, some v)]) ∧
      fieldGet { h with fields := fs } k = some v ∧
      (∀ k', Text k → Text k' → ¬ SameName k' k → fieldGet { h with fields := fs } k' = fieldGet h k') ∧
      ∀ P : List Byte × Option (List Byte) → Prop, P (k, some v) → (∀ x ∈ h.fields, P x) → ∀ x ∈ fs, P x := by
  have e1 : put e n h k v = fieldSet true true true h k v := by
    unfold put
    rw [he.1, he.1, he.1]
  rw [e1]
  by_cases ha : h.fields.any (hit k) = true
  · refine ⟨updateField k v h.fields, ?_, ?_, ?_⟩
    · simp [fieldSet, ha]
    · intro hc; rw [ha] at hc; cases hc
    · have e2 : fieldSet true true true h k v = (OK, { h with fields := updateField k v h.fields }) := by
        simp [fieldSet, ha]
      obtain ⟨g1, g2⟩ := set_get e2
      exact ⟨g1, g2, fun P hk hp => update_mem hk _ hp⟩
  · have e2 : fieldSet true true true h k v = (OK, { h with fields := h.fields ++ [(k, some v)] }) := by
      simp [fieldSet, ha]
    obtain ⟨g1, g2⟩ := set_get e2
    refine ⟨_, e2, fun _ => rfl, g1, g2, ?_⟩
    intro P hk hp x hx
    rcases List.mem_append.1 hx with hx | hx
    · exact hp x hx
    · rw [List.mem_singleton] at hx; subst hx; exact hk

theorem putAll_rich {e : Env} (he : e.Rich) : ∀ es n h,
    ∃ fs, putAll e n h es = (true, { h with fields := fs }) ∧
      (es = [] → fs = h.fields) ∧
      (∀ k, Text k → (∀ f ∈ es, Text f.1 ∧ ¬ SameName k f.1) →
        fieldGet { h with fields := fs } k = fieldGet h k) ∧
      ∀ P : List Byte × Option (List Byte) → Prop, (∀ f ∈ es, P (f.1, some f.2)) →
        (∀ x ∈ h.fields, P x) → ∀ x ∈ fs, P x := by
  intro es
  induction es with
  | nil =>
    intro n h
    exact ⟨h.fields, rfl, fun _ => rfl, fun k _ _ => rfl, fun P _ hp => hp⟩
  | cons a es ih =>
    intro n h
    obtain ⟨k, v⟩ := a
    obtain ⟨fs, p1, _, _, p3, p4⟩ := put_rich he n h k v
    obtain ⟨fs', q1, _, q3, q4⟩ := ih (n + 3) { h with fields := fs }
    refine ⟨fs', ?_, by simp, ?_, ?_⟩
    · rw [putAll]
      simp only [p1, if_true]
      exact q1
    · intro k' ht hf
      have hkv := hf (k, v) (List.mem_cons_self ..)
      rw [← p3 k' hkv.1 ht hkv.2]
      exact q3 k' ht fun f hf' => hf f (List.mem_cons_of_mem _ hf')
    · intro P hP hx
      exact q4 P (fun f hf => hP f (List.mem_cons_of_mem _ hf))
        (p4 P (hP (k, v) (List.mem_cons_self ..)) hx)

/-- The end of the generators, with memory: the message goes out. -/
theorem finish_rich {e : Env} (he : e.Rich) {h s} (hs : ∀ fs, StartLine { h with fields := fs } s)
    (hb : h.body = []) (ws : Ws) :
    ∃ fs out, finish e ws h [] none =
        some (.ok, { ws with http := { h with fields := fs, body := [], done := false, error := 200 } }, out) ∧
      out.flatten = message s { h with fields := fs } ∧
      (ws.fields = [] → fs = h.fields) ∧
      (∀ k, Text k → (∀ f ∈ ws.fields, Text f.1 ∧ ¬ SameName k f.1) →
        fieldGet { h with fields := fs } k = fieldGet h k) ∧
      ∀ P : List Byte × Option (List Byte) → Prop, (∀ f ∈ ws.fields, P (f.1, some f.2)) →
        (∀ x ∈ h.fields, P x) → ∀ x ∈ fs, P x := by
  obtain ⟨fs, p1, p2, p3, p4⟩ := putAll_rich he ws.fields 60 h
  rcases generate_spec (ok := e.gen) (base := []) (hs fs) with ⟨new, g1, g2, _⟩ | ⟨⟨i, hi⟩, _⟩
  · refine ⟨fs, new, ?_, g2, p2, p3, p4⟩
    have e0 : generate e.gen none { h with fields := fs } [] (some 0) =
        generate e.gen none { h with fields := fs } [] none := rfl
    rw [List.length_nil, Nat.zero_sub, e0] at g1
    unfold finish
    rw [p1]
    simp only [Option.bind_eq_bind]
    rw [g1]
    simp [DONE, ERROR, hb]
  · rw [he.2.1] at hi; cases hi

/-! ## Extensions -/

theorem pieces_cons (sep b s) : pieces sep (b :: s) =
    if b = sep then [] :: pieces sep s else (b :: (pieces sep s).headD []) :: (pieces sep s).tail := rfl

theorem pieces_part (sep : Byte) : ∀ s, pieces sep s =
    (part sep s).1 :: (match (part sep s).2 with | [] => [] | _ :: r => pieces sep r) := by
  intro s
  induction s with
  | nil => rfl
  | cons b s ih =>
    rw [pieces_cons, part]
    by_cases hb : b = sep
    · rw [if_pos hb, if_pos hb]
    · rw [if_neg hb, if_neg hb, ih]
      simp

theorem part_sep (sep : Byte) : ∀ s, ∀ b r, (part sep s).2 = b :: r → b = sep := by
  intro s
  induction s with
  | nil => intro b r h; simp [part] at h
  | cons a s ih =>
    intro b r h
    rw [part] at h
    split at h
    · rename_i ha
      simp only [List.cons.injEq] at h
      exact h.1 ▸ ha
    · exact ih b r h

theorem slice_spec (sep : Byte) (s) : slice sep s = (pieces sep s).filter (· ≠ []) := by
  fun_induction slice sep s with
  | case1 => rfl
  | case2 s ih =>
    rw [pieces_cons, if_pos rfl, ih]
    simp
  | case3 b s hb r ih =>
    rw [pieces_cons, if_neg hb, pieces_part sep s, ih]
    simp only [List.headD_cons, List.tail_cons]
    rw [List.filter_cons_of_pos (by simp)]
    congr 1
    change _ = List.filter _ (match r.2 with | [] => [] | _ :: r => pieces sep r)
    cases hr : r.2 with
    | nil => rfl
    | cons a t =>
      rw [part_sep sep s a t hr, pieces_cons, if_pos rfl]
      simp

theorem taken_eq {p : List Byte} (hp : 0#8 ∉ p) : p.take (taken p) = p.takeWhile (· ≠ 59#8) := by
  have e : p.takeWhile (· ≠ 0#8) = p := by
    rw [List.takeWhile_eq_self_iff]
    intro x hx
    simp only [decide_eq_true_eq]
    exact fun h => hp (h ▸ hx)
  unfold taken semicolon
  rw [e]
  clear e hp
  induction p with
  | nil => rfl
  | cons a p ih =>
    rw [List.findIdx?_cons, List.takeWhile_cons]
    by_cases ha : a = 59#8
    · simp [ha]
    · simp only [ha, decide_false, Bool.false_eq_true, if_false, ne_eq, not_false_eq_true, decide_true, if_true]
      rw [← ih]
      cases List.findIdx? (fun x => decide (x = 59#8)) p <;> simp

theorem taken_le (p : List Byte) : taken p ≤ p.length := by
  unfold taken semicolon
  cases h : List.findIdx? (fun x => decide (x = 59#8)) (List.takeWhile (fun x => decide (x ≠ 0#8)) p) with
  | none => exact Nat.le_refl _
  | some i =>
    obtain ⟨h1, _⟩ := List.findIdx?_eq_some_iff_getElem.1 h
    exact Nat.le_trans (Nat.le_of_lt h1) (List.IsPrefix.length_le (List.takeWhile_prefix _))

/-- What the second loop writes. -/
def extText (ps : List (List Byte)) : List Byte := ps.flatMap fun p => p.take (taken p) ++ [44#8]

theorem extText_length : ∀ ps, (extText ps).length = extSize ps := by
  intro ps
  induction ps with
  | nil => rfl
  | cons p ps ih =>
    have := taken_le p
    unfold extText at ih ⊢
    rw [List.flatMap_cons, List.length_append, ih, extSize, List.length_append, List.length_take,
      Nat.min_eq_left this]
    rfl

theorem extLoop_spec (n : Nat) : ∀ ps buf, extLoop n ps buf =
    if ps = [] ∨ buf.length + extSize ps ≤ n then some (buf ++ extText ps) else none := by
  intro ps
  induction ps with
  | nil => intro buf; simp [extLoop, extText]
  | cons p ps ih =>
    intro buf
    have hp := taken_le p
    have hl : (p.take (taken p)).length = taken p := by rw [List.length_take, Nat.min_eq_left hp]
    have hz : extSize (p :: ps) = taken p + 1 + extSize ps := rfl
    rw [extLoop]
    unfold push
    rw [hl]
    by_cases h1 : buf.length + taken p ≤ n
    · rw [if_pos h1]
      simp only [Option.bind_eq_bind, Option.bind_some, List.length_append, hl, List.length_singleton]
      by_cases h2 : buf.length + taken p + 1 ≤ n
      · rw [if_pos h2]
        simp only [Option.bind_some]
        rw [ih]
        have hb : (buf ++ p.take (taken p) ++ [44#8]).length = buf.length + taken p + 1 := by simp [hl, Nat.add_assoc]
        rw [hb]
        by_cases h3 : ps = []
        · subst h3
          have h0 : extSize [] = 0 := rfl
          rw [if_pos (Or.inl rfl), if_pos (Or.inr (by omega))]
          simp [extText]
        · by_cases h4 : buf.length + extSize (p :: ps) ≤ n
          · rw [if_pos (Or.inr (by omega)), if_pos (Or.inr h4)]
            simp [extText]
          · rw [if_neg (by simp only [h3, false_or]; omega), if_neg (by simp only [reduceCtorEq, false_or]; omega)]
      · rw [if_neg h2, if_neg (by simp only [reduceCtorEq, false_or]; omega)]
        rfl
    · rw [if_neg h1, if_neg (by simp only [reduceCtorEq, false_or]; omega)]
      rfl

theorem extText_drop : ∀ ps, (extText ps).dropLast = [44#8].intercalate (ps.map fun p => p.take (taken p)) := by
  intro ps
  induction ps with
  | nil => rfl
  | cons p ps ih =>
    cases ps with
    | nil => simp [extText]
    | cons q ps =>
      have e : extText (p :: q :: ps) = p.take (taken p) ++ [44#8] ++ extText (q :: ps) := by
        simp [extText]
      rw [e, List.dropLast_append_of_ne_nil (by simp [extText]), ih]
      simp [List.intercalate]

theorem slice_nil_iff (s) : slice 44#8 s = [] ↔ ∀ b ∈ s, b = 44#8 := by
  induction s with
  | nil => simp [slice]
  | cons b s ih =>
    rw [slice]
    by_cases hb : b = 44#8
    · rw [if_pos hb, ih]; simp [hb]
    · rw [if_neg hb]; simp [hb]

theorem slice_mem (sep : Byte) (s) : ∀ p ∈ slice sep s, ∀ b ∈ p, b ∈ s := by
  have hpart : ∀ t, (∀ b ∈ (part sep t).1, b ∈ t) ∧ ∀ b ∈ (part sep t).2, b ∈ t := by
    intro t
    induction t with
    | nil => simp [part]
    | cons a t ih =>
      rw [part]
      split
      · simp
      · constructor
        · intro b hb
          rcases List.mem_cons.1 hb with rfl | hb
          · exact List.mem_cons_self ..
          · exact List.mem_cons_of_mem _ (ih.1 b hb)
        · intro b hb
          exact List.mem_cons_of_mem _ (ih.2 b hb)
  fun_induction slice sep s with
  | case1 => intro p hp; cases hp
  | case2 s ih => intro p hp b hb; exact List.mem_cons_of_mem _ (ih p hp b hb)
  | case3 a s ha r ih =>
    intro p hp b hb
    rcases List.mem_cons.1 hp with rfl | hp
    · rcases List.mem_cons.1 hb with rfl | hb
      · exact List.mem_cons_self ..
      · exact List.mem_cons_of_mem _ ((hpart s).1 b hb)
    · exact List.mem_cons_of_mem _ ((hpart s).2 b (ih p hp b hb))

theorem extSize_zero (ps) : extSize ps = 0 ↔ ps = [] := by
  cases ps with
  | nil => simp [extSize]
  | cons p ps => simp [extSize]

/-- With any list of extensions but commas alone, the function writes one byte behind the bytes it
asked for. -/
theorem extension_overflow {e : Env} (he : e.Rich) (hg : ∀ n, e.give n = n) {s : List Byte}
    (hs : ∃ b ∈ s, b ≠ 44#8) : extensionTokens e s = none := by
  have hne : slice 44#8 s ≠ [] := by
    rw [ne_eq, slice_nil_iff]
    obtain ⟨b, h1, h2⟩ := hs
    exact fun h => h2 (h b h1)
  have h0 : extSize (slice 44#8 s) ≠ 0 := by rw [ne_eq, extSize_zero]; exact hne
  unfold extensionTokens
  simp only [he.1, Bool.not_true, Bool.false_eq_true, if_false, if_neg h0]
  rw [extLoop_spec, hg, if_neg (by simp only [hne, false_or, List.length_nil]; omega)]
  rfl

/-- When the block has a byte more, the result is the names of the extensions with commas between
them. -/
theorem extension_names_partial {e : Env} (he : e.Rich) (hg : ∀ n, n < e.give n) {s : List Byte}
    (ht : Text s) (hs : ∃ b ∈ s, b ≠ 44#8) :
    extensionTokens e s = some (some ([44#8].intercalate (extensionNames s))) := by
  have hne : slice 44#8 s ≠ [] := by
    rw [ne_eq, slice_nil_iff]
    obtain ⟨b, h1, h2⟩ := hs
    exact fun h => h2 (h b h1)
  have h0 : extSize (slice 44#8 s) ≠ 0 := by rw [ne_eq, extSize_zero]; exact hne
  have hx := hg (extSize (slice 44#8 s) - 1)
  unfold extensionTokens
  simp only [he.1, Bool.not_true, Bool.false_eq_true, if_false, if_neg h0]
  rw [extLoop_spec, if_pos (by right; simp only [List.length_nil]; omega)]
  simp only [Option.bind_eq_bind, Option.bind_some, List.nil_append, extText_drop]
  unfold extensionNames
  rw [← slice_spec]
  congr 3
  apply List.map_congr_left
  intro p hp
  exact taken_eq fun hc => ht (slice_mem _ s p hp _ hc)

example : extensionNames (b! "a;x=1,bc,,d;y") = [b! "a", b! "bc", b! "d"] := by decide +kernel

example : extensionTokens { give := fun n => n + 1 } (b! "a;x=1,bc,,d;y") = some (some (b! "a,bc,d")) := by
  decide +kernel

/-! ## The answer -/

theorem status_line (fs) : StartLine { status := 101, version := 1, type := RESPONSE, fields := fs }
    (b! "HTTP/1.1 101 Switching Protocols") :=
  StartLine.response (h := { status := 101, version := 1, type := RESPONSE, fields := fs })
    (v := b! "HTTP/1.1") (c := b! "101") (t := b! "Switching Protocols") rfl rfl
    (by show ((101 : Nat), b! "101", b! "Switching Protocols") ∈ statuses
        simp [statuses])

theorem base_text : Text kUpgrade ∧ Text kConnection ∧ Text kAccept ∧ Text kKey ∧ Text kVersion ∧
    Text kProtocol ∧ Text kExtensions := by
  unfold Text
  refine ⟨?_, ?_, ?_, ?_, ?_, ?_, ?_⟩ <;> decide +kernel

theorem not_same {a b : List Byte} (ha : Text a) (hb : Text b) (h : caseEq a b = false) : ¬ SameName a b := by
  rw [← caseEq_text ha hb, h]
  simp

theorem answerFields_rich {e : Env} (he : e.Rich) (ws : Ws) (fs0 : List (List Byte × Option (List Byte))) (accept)
    (h1 : fs0.any (hit kAccept) = false) (h2 : fs0.any (hit kUpgrade) = false)
    (h3 : fs0.any (hit kConnection) = false) :
    ∃ fs out, answerFields e ws { status := 101, version := 1, type := RESPONSE, fields := fs0 } accept [] none =
        some (.ok, { ws with http := { status := 101, version := 1, type := RESPONSE, fields := fs } }, out) ∧
      out.flatten = message (b! "HTTP/1.1 101 Switching Protocols")
        { status := 101, version := 1, type := RESPONSE, fields := fs } ∧
      (ws.fields = [] → fs = fs0 ++ [(kAccept, some accept), (kUpgrade, some websocket), (kConnection, some kUpgrade)]) ∧
      (∀ k, Text k → (∀ f ∈ ws.fields, Text f.1 ∧ ¬ SameName k f.1) →
        fieldGet { fields := fs } k = fieldGet { fields := fs0 ++
          [(kAccept, some accept), (kUpgrade, some websocket), (kConnection, some kUpgrade)] } k) ∧
      ∀ P : List Byte × Option (List Byte) → Prop, (∀ f ∈ ws.fields, P (f.1, some f.2)) →
        (∀ x ∈ fs0 ++ [(kAccept, some accept), (kUpgrade, some websocket), (kConnection, some kUpgrade)], P x) →
        ∀ x ∈ fs, P x := by
  have hit1 : ∀ v, hit kUpgrade (kAccept, v) = false := by intro v; exact (by decide +kernel : hit kUpgrade (kAccept, none) = false)
  have hit2 : ∀ v, hit kConnection (kAccept, v) = false := by intro v; exact (by decide +kernel : hit kConnection (kAccept, none) = false)
  have hit3 : ∀ v, hit kConnection (kUpgrade, v) = false := by intro v; exact (by decide +kernel : hit kConnection (kUpgrade, none) = false)
  obtain ⟨f1, p1, a1, _⟩ := put_rich he 36 { status := 101, version := 1, type := RESPONSE, fields := fs0 } kAccept accept
  have a1 := a1 h1
  obtain ⟨f2, p2, a2, _⟩ := put_rich he 39 { status := 101, version := 1, type := RESPONSE, fields := f1 } kUpgrade websocket
  have a2 := a2 (by subst a1; simp only [List.any_append, h2, Bool.false_or, List.any_cons, hit1, List.any_nil])
  obtain ⟨f3, p3, a3, _⟩ := put_rich he 42 { status := 101, version := 1, type := RESPONSE, fields := f2 } kConnection kUpgrade
  have a3 := a3 (by
    subst a2; subst a1
    simp only [List.any_append, h3, Bool.false_or, List.any_cons, hit2, hit3, List.any_nil])
  obtain ⟨fs, out, q1, q2, q3, q4, q5⟩ := finish_rich he (h := { status := 101, version := 1, type := RESPONSE, fields := f3 })
    (s := b! "HTTP/1.1 101 Switching Protocols") status_line rfl ws
  have hf3 : f3 = fs0 ++ [(kAccept, some accept), (kUpgrade, some websocket), (kConnection, some kUpgrade)] := by
    subst a1; subst a2; subst a3; simp
  rw [← hf3]
  refine ⟨fs, out, ?_, q2, q3, ?_, q5⟩
  · unfold answerFields
    rw [p1]
    dsimp only
    rw [if_neg (by decide), p2]
    dsimp only
    rw [if_neg (by decide), p3]
    dsimp only
    rw [if_neg (by decide)]
    exact q1
  · intro k hk hf
    exact q4 k hk hf

/-- The protocol field of the answer: all values the request has. -/
def protoPart (h : Http) : List (List Byte × Option (List Byte)) :=
  match (h.fields.filter (hit kProtocol)).filterMap (fun e => e.2) with
  | [] => []
  | v :: vs => [(b! "Sec-WebSocket-Protocol", some ([44#8].intercalate (v :: vs)))]

theorem proto_cases (h : Http) : (fieldIterator true true h kProtocol = none ∧ protoPart h = []) ∨
    ∃ v, fieldIterator true true h kProtocol = some v ∧ protoPart h = [(kProtocol, some v)] := by
  rw [iterator_spec]
  unfold protoPart
  cases (h.fields.filter (hit kProtocol)).filterMap (fun e => e.2) with
  | nil => left; simp
  | cons v vs => right; exact ⟨_, by rw [if_neg (by simp)], rfl⟩

theorem accept_rich {e : Env} (he : e.Rich) {h : Http} {k} (hk : fieldGet h kKey = some k) :
    acceptField e h = some (some (rfcAccept k)) := by
  unfold acceptField
  simp only [hk, he.1, Bool.not_true, Bool.false_eq_true, if_false, digest_eq he.2.2, Option.bind_eq_bind,
    Option.bind_some]

theorem putOpt_rich {e : Env} (he : e.Rich) (n) (fs : List (List Byte × Option (List Byte))) (k v)
    (hk : fs.any (hit k) = false) :
    putOpt e n { status := 101, version := 1, type := RESPONSE, fields := fs } k v =
      (OK, { status := 101, version := 1, type := RESPONSE, fields := (fs ++ v.toList.map fun v => (k, some v)) }) := by
  cases v with
  | none => simp [putOpt]
  | some v =>
    obtain ⟨f, p, a, _⟩ := put_rich he n { status := 101, version := 1, type := RESPONSE, fields := fs } k v
    rw [putOpt, p, a hk]
    rfl

/-- The answer, given what the list of extensions becomes. -/
theorem response_step {e : Env} (he : e.Rich) (ws : Ws) {k x}
    (hk : fieldGet ws.http kKey = some k)
    (hx : extensionValue e ws.http = some x) :
    ∃ fs out, response e ws [] none =
        some (.ok, { ws with http := { status := 101, version := 1, type := RESPONSE, fields := fs } }, out) ∧
      out.flatten = message (b! "HTTP/1.1 101 Switching Protocols")
        { status := 101, version := 1, type := RESPONSE, fields := fs } ∧
      (ws.fields = [] → fs = protoPart ws.http ++ x.toList.map (fun v => (kExtensions, some v)) ++
        [(kAccept, some (rfcAccept k)), (kUpgrade, some websocket), (kConnection, some kUpgrade)]) ∧
      (∀ k', Text k' → (∀ f ∈ ws.fields, Text f.1 ∧ ¬ SameName k' f.1) →
        fieldGet { fields := fs } k' = fieldGet { fields := (protoPart ws.http ++ x.toList.map (fun v => (kExtensions, some v)) ++
          [(kAccept, some (rfcAccept k)), (kUpgrade, some websocket), (kConnection, some kUpgrade)]) } k') ∧
      ∀ P : List Byte × Option (List Byte) → Prop, (∀ f ∈ ws.fields, P (f.1, some f.2)) →
        (∀ y ∈ protoPart ws.http ++ x.toList.map (fun v => (kExtensions, some v)) ++
          [(kAccept, some (rfcAccept k)), (kUpgrade, some websocket), (kConnection, some kUpgrade)], P y) →
        ∀ y ∈ fs, P y := by
  have n1 : ∀ n : List Byte, (n = kProtocol ∨ n = kExtensions) → ∀ v, hit kAccept (n, v) = false ∧
      hit kUpgrade (n, v) = false ∧ hit kConnection (n, v) = false := by
    rintro n (rfl | rfl) v
    · exact (by decide +kernel : hit kAccept (kProtocol, none) = false ∧
        hit kUpgrade (kProtocol, none) = false ∧ hit kConnection (kProtocol, none) = false)
    · exact (by decide +kernel : hit kAccept (kExtensions, none) = false ∧
        hit kUpgrade (kExtensions, none) = false ∧ hit kConnection (kExtensions, none) = false)
  have n2 : ∀ v, hit kExtensions (kProtocol, v) = false := fun v =>
    (by decide +kernel : hit kExtensions (kProtocol, none) = false)
  have hp : ∃ p, fieldIterator true true ws.http kProtocol = p ∧
      protoPart ws.http = p.toList.map fun v => (kProtocol, some v) := by
    rcases proto_cases ws.http with ⟨h1, h2⟩ | ⟨p, h1, h2⟩
    · exact ⟨none, h1, h2⟩
    · exact ⟨some p, h1, h2⟩
  obtain ⟨p, hp1, hp2⟩ := hp
  rw [hp2]
  have m1 := putOpt_rich he 45 [] kProtocol p rfl
  have m2 := putOpt_rich he 48 (p.toList.map fun v => (kProtocol, some v)) kExtensions x
    (by cases p <;> simp [n2])
  rw [List.nil_append] at m1
  have main := answerFields_rich he ws (p.toList.map (fun v => (kProtocol, some v)) ++
    x.toList.map fun v => (kExtensions, some v)) (rfcAccept k)
    (by cases p <;> cases x <;> simp [(n1 _ (Or.inl rfl) _).1, (n1 _ (Or.inr rfl) _).1])
    (by cases p <;> cases x <;> simp [(n1 _ (Or.inl rfl) _).2.1, (n1 _ (Or.inr rfl) _).2.1])
    (by cases p <;> cases x <;> simp [(n1 _ (Or.inl rfl) _).2.2, (n1 _ (Or.inr rfl) _).2.2])
  have hr : response e ws [] none = answerFields e ws
      { status := 101, version := 1, type := RESPONSE, fields := (p.toList.map (fun v => (kProtocol, some v)) ++
        x.toList.map fun v => (kExtensions, some v)) } (rfcAccept k) [] none := by
    unfold response
    simp only [he.1, Bool.not_true, Bool.false_eq_true, and_false, if_false, Option.bind_eq_bind]
    rw [hx]
    simp only [Option.bind_some]
    rw [accept_rich he hk]
    simp only [Option.bind_some, reset]
    simp only [hp1, m1, m2, ne_eq, not_true_eq_false, if_false]
  rw [hr]
  exact main

/-- The bytes of the answer when the user asks for no further fields and the request has no list of
extensions. -/
theorem response_bytes_partial {e : Env} (he : e.Rich) {ws : Ws} {k}
    (hk : fieldGet ws.http kKey = some k) (hf : ws.fields = [])
    (hx : (ws.http.fields.filter (hit kExtensions)).filterMap (fun e => e.2) = []) :
    ∃ ws' out, response e ws [] none = some (.ok, ws', out) ∧
      out.flatten = b! "HTTP/1.1 101 Switching Protocols\r\n" ++
        (match (ws.http.fields.filter (hit kProtocol)).filterMap (fun e => e.2) with
          | [] => []
          | v :: vs => b! "Sec-WebSocket-Protocol: " ++ [44#8].intercalate (v :: vs) ++ b! "\r\n") ++
        (b! "Sec-WebSocket-Accept: " ++ rfcAccept k ++
          b! "\r\nUpgrade: websocket\r\nConnection: Upgrade\r\n\r\n") := by
  have hx' : extensionValue e ws.http = some none := by
    unfold extensionValue
    rw [he.1, he.1, iterator_spec, if_pos hx]
  obtain ⟨fs, out, h1, h2, h3, _⟩ := response_step he ws hk hx'
  refine ⟨_, out, h1, ?_⟩
  rw [h2, h3 hf]
  unfold message protoPart
  cases (ws.http.fields.filter (hit kProtocol)).filterMap (fun e => e.2) with
  | nil => simp [fieldLine, CRLF, kAccept, kUpgrade, kConnection, websocket]
  | cons v vs => simp [fieldLine, CRLF, kAccept, kUpgrade, kConnection, websocket]

/-! ## The request -/

theorem keyGenerate_rich {e : Env} (he : e.Rich) :
    keyGenerate e = some (some (Base64.rfcEncode (keyBytes e))) := by
  unfold keyGenerate
  simp only [he.1, Bool.not_true, Bool.false_eq_true, if_false, (Base64.encode_eq_rfc _).2, Option.bind_eq_bind,
    Option.bind_some]

theorem keyBytes_length (e : Env) : (keyBytes e).length = 16 := rfl

/-- The four fields of a request. -/
def askFields (key : List Byte) : List (List Byte × Option (List Byte)) :=
  [(kKey, some key), (kUpgrade, some websocket), (kConnection, some kUpgrade), (kVersion, some (b! "13"))]

/-- The message of a request. -/
def ask (ws : Ws) (fs : List (List Byte × Option (List Byte))) : Http :=
  { method := 0, version := 1, type := REQUEST, uri := some (ws.uri.getD (b! "/")), args := ws.args, fields := fs }

theorem ask_line (ws : Ws) (fs) : StartLine (ask ws fs)
    (b! "GET" ++ b! " " ++ target (ask ws []) ++ b! " " ++ b! "HTTP/1.1") :=
  StartLine.request (h := ask ws fs) (m := b! "GET") (v := b! "HTTP/1.1") rfl rfl rfl

theorem request_step {e : Env} (he : e.Rich) (ws : Ws) :
    ∃ fs out, request e ws [] none = some (.ok, { ws with http := ask ws fs }, out) ∧
      out.flatten = message (b! "GET" ++ b! " " ++ target (ask ws []) ++ b! " " ++ b! "HTTP/1.1") (ask ws fs) ∧
      (ws.fields = [] → fs = askFields (Base64.rfcEncode (keyBytes e))) ∧
      (∀ k', Text k' → (∀ f ∈ ws.fields, Text f.1 ∧ ¬ SameName k' f.1) →
        fieldGet { fields := fs } k' = fieldGet { fields := askFields (Base64.rfcEncode (keyBytes e)) } k') ∧
      ∀ P : List Byte × Option (List Byte) → Prop, (∀ f ∈ ws.fields, P (f.1, some f.2)) →
        (∀ y ∈ askFields (Base64.rfcEncode (keyBytes e)), P y) → ∀ y ∈ fs, P y := by
  generalize hkey : Base64.rfcEncode (keyBytes e) = key
  have n : hit kUpgrade (kKey, none) = false ∧ hit kConnection (kKey, none) = false ∧
      hit kConnection (kUpgrade, none) = false ∧ hit kVersion (kKey, none) = false ∧
      hit kVersion (kUpgrade, none) = false ∧ hit kVersion (kConnection, none) = false := by decide +kernel
  have n1 : ∀ v, hit kUpgrade (kKey, v) = false := fun v => n.1
  have n2 : ∀ v, hit kConnection (kKey, v) = false := fun v => n.2.1
  have n3 : ∀ v, hit kConnection (kUpgrade, v) = false := fun v => n.2.2.1
  have n4 : ∀ v, hit kVersion (kKey, v) = false := fun v => n.2.2.2.1
  have n5 : ∀ v, hit kVersion (kUpgrade, v) = false := fun v => n.2.2.2.2.1
  have n6 : ∀ v, hit kVersion (kConnection, v) = false := fun v => n.2.2.2.2.2
  have step : ∀ i fs k v, fs.any (hit k) = false → (put e i (ask ws fs) k v).2 = ask ws (fs ++ [(k, some v)]) := by
    intro i fs k v hk
    obtain ⟨f, p, a, _⟩ := put_rich he i (ask ws fs) k v
    rw [p, a hk]
    rfl
  have hr : request e ws [] none = finish e ws (ask ws (askFields key)) [] none := by
    unfold request
    simp only [he.1, Bool.not_true, Bool.false_eq_true, and_false, if_false, Option.bind_eq_bind]
    rw [keyGenerate_rich he, hkey]
    simp only [Option.bind_some]
    have e0 : ({ reset ws.http with
      method := 0, version := 1, type := REQUEST, uri := some (ws.uri.getD (b! "/")), args := ws.args } : Http) =
        ask ws [] := rfl
    rw [e0, step 36 _ _ _ rfl, step 39 _ _ _ (by simp [n1]), step 42 _ _ _ (by simp [n2, n3]),
      step 45 _ _ _ (by simp [n4, n5, n6])]
    rfl
  obtain ⟨fs, out, q1, q2, q3, q4, q5⟩ := finish_rich he (h := ask ws (askFields key)) (fun fs => ask_line ws fs) rfl ws
  rw [hr]
  exact ⟨fs, out, q1, q2, q3, q4, q5⟩

/-- The bytes of the request when the user asks for no further fields. -/
theorem request_bytes {e : Env} (he : e.Rich) {ws : Ws} (hf : ws.fields = []) :
    ∃ ws' out, request e ws [] none = some (.ok, ws', out) ∧
      out.flatten = b! "GET " ++ ws.uri.getD (b! "/") ++ (match ws.args with | none => [] | some a => b! "?" ++ a) ++
        (b! " HTTP/1.1\r\nSec-WebSocket-Key: " ++ Base64.rfcEncode (keyBytes e) ++
          b! "\r\nUpgrade: websocket\r\nConnection: Upgrade\r\nSec-WebSocket-Version: 13\r\n\r\n") := by
  obtain ⟨fs, out, h1, h2, h3, _⟩ := request_step he ws
  refine ⟨_, out, h1, ?_⟩
  rw [h2, h3 hf]
  cases h : ws.args <;>
    simp [message, askFields, ask, target, fieldLine, CRLF, kKey, kUpgrade, kConnection, kVersion, websocket, h]

end Verif.WsHand
