import Verif.WsHandProps
/-
The whole WebSocket handshake of src/mln_websocket.c, and where it goes wrong.
-/
namespace Verif.WsHand
open Verif.Http

/-! ## What a client accepts -/

/-- What the client must find in an answer to the key `k` (RFC 6455, section 4.1), with the case of
letters in the accept value left open. -/
def Accepts (h : Http) (k : List Byte) : Prop :=
  h.status = 101 ∧ h.type = RESPONSE ∧
    (∃ u, fieldGet h (b! "Upgrade") = some u ∧ SameName u (b! "websocket")) ∧
    (∃ c, fieldGet h (b! "Connection") = some c ∧ SameName c (b! "Upgrade")) ∧
    ∃ a, fieldGet h (b! "Sec-WebSocket-Accept") = some a ∧ SameName (rfcAccept k) a

theorem accept_text (k) : Text (rfcAccept k) := fun h => (rfc_good _ _ h).2.2 rfl

theorem validate_iff_partial {e : Env} (he : e.Rich) {ws : Ws} {k} (hk : ws.key = some k)
    (ht : ∀ n v, fieldGet ws.http n = some v → Text v) :
    (∃ r, validate e ws = some r) ∧ (validate e ws = some .ok ↔ Accepts ws.http k) := by
  have t1 : Text websocket := by unfold Text; decide +kernel
  have t2 := base_text.1
  unfold validate Accepts
  simp only [hk]
  change _ ∧ (_ ↔ _ ∧ _ ∧ (∃ u, fieldGet ws.http kUpgrade = some u ∧ SameName u websocket) ∧
    (∃ c, fieldGet ws.http kConnection = some c ∧ SameName c kUpgrade) ∧
    ∃ a, fieldGet ws.http kAccept = some a ∧ SameName (rfcAccept k) a)
  by_cases h1 : ws.http.status = 101
  · rw [if_neg (by simp [h1])]
    cases h2 : fieldGet ws.http kUpgrade with
    | none => simp
    | some u =>
      have c1 := caseEq_text (ht _ _ h2) t1
      dsimp only
      by_cases h3 : caseEq u websocket = true
      · rw [if_neg (by simp [h3])]
        cases h4 : fieldGet ws.http kConnection with
        | none => simp
        | some c =>
          have c2 := caseEq_text (ht _ _ h4) t2
          dsimp only
          by_cases h5 : caseEq c kUpgrade = true
          · rw [if_neg (by simp [h5])]
            unfold validateAccept
            cases h6 : fieldGet ws.http kAccept with
            | none => simp
            | some a =>
              have c3 := caseEq_text (accept_text k) (ht _ _ h6)
              simp only [he.1, Bool.not_true, Bool.false_eq_true, if_false, digest_eq he.2.2,
                Option.bind_eq_bind, Option.bind_some]
              by_cases h7 : caseEq (rfcAccept k) a = true
              · rw [if_pos h7]
                by_cases h8 : ws.http.type = RESPONSE
                · simp [h1, h8, c1.1 h3, c2.1 h5, c3.1 h7]
                · simp [h8]
              · rw [if_neg h7]
                have h7' : ¬ SameName (rfcAccept k) a := fun h => h7 (c3.2 h)
                simp [h7']
          · rw [if_pos (by simp [h5])]
            have h5' : ¬ SameName c kUpgrade := fun h => h5 (c2.2 h)
            simp [h5']
      · rw [if_pos (by simp [h3])]
        have h3' : ¬ SameName u websocket := fun h => h3 (c1.2 h)
        simp [h3']
  · rw [if_pos h1]
    simp [h1]

/-! ## The whole handshake -/

theorem sameName_refl (a : List Byte) : SameName a a := List.forall₂_same.2 fun x _ => sameLetter_refl x

theorem good_names : ∀ k ∈ [kUpgrade, kConnection, kAccept, kKey, kVersion, kProtocol], GoodName k := by
  unfold GoodName
  decide +kernel

theorem good_values : GoodValue (some websocket) ∧ GoodValue (some kUpgrade) ∧ GoodValue (some (b! "13")) := by
  refine ⟨⟨by decide, by decide, ?_⟩, ⟨by decide, by decide, ?_⟩, ⟨by decide, by decide, ?_⟩⟩ <;>
  · intro b hb
    simp only [websocket, kUpgrade, List.head?_cons, Option.some.injEq] at hb
    subst hb
    decide

theorem intercalate_good : ∀ vs : List (List Byte), vs ≠ [] → (∀ v ∈ vs, GoodValue (some v)) →
    GoodValue (some ([44#8].intercalate vs)) := by
  intro vs
  induction vs with
  | nil => intro h; exact absurd rfl h
  | cons v vs ih =>
    intro _ h
    cases vs with
    | nil => simpa using h v (List.mem_cons_self ..)
    | cons w ws =>
      have e : [44#8].intercalate (v :: w :: ws) = v ++ [44#8] ++ [44#8].intercalate (w :: ws) := by
        simp [List.intercalate]
      obtain ⟨a1, a2, a3⟩ := h v (List.mem_cons_self ..)
      obtain ⟨b1, b2, b3⟩ := ih (by simp) fun x hx => h x (List.mem_cons_of_mem _ hx)
      rw [e]
      refine ⟨by simp, ?_, ?_⟩
      · simp only [List.mem_append, List.mem_singleton, not_or]
        exact ⟨⟨a2, by decide⟩, b2⟩
      · intro b hb
        apply a3
        cases v with
        | nil => exact absurd rfl a1
        | cons x v => simpa using hb

theorem handshake {e1 e2 e3 : Env} (r1 : e1.Rich) (r2 : e2.Rich) (r3 : e3.Rich) (c s : Ws)
    (hu : ∀ u, c.uri = some u → u ≠ [] ∧ ∀ b ∈ u, blank b = false ∧ b ≠ 63#8 ∧ b ≠ 10#8)
    (ha : ∀ a, c.args = some a → a ≠ [] ∧ ∀ b ∈ a, blank b = false ∧ b ≠ 10#8)
    (hc : Plain c.fields) (hs : Plain s.fields) :
    ∃ c' out1 key, request e1 c [] none = some (.ok, c', out1) ∧
      fieldGet c'.http (b! "Sec-WebSocket-Key") = some key ∧
      ∃ q n1, ∀ ch1, flat ch1 = out1.flatten → ∀ n ≥ n1, ∃ x1, parse none n [] {} ch1 = some (DONE, q, x1) ∧
        flat x1 = [] ∧ isWebsocket q = .ok ∧
      ∃ s' out2, response e2 { s with http := q } [] none = some (.ok, s', out2) ∧
      ∃ a n2, ∀ ch2, flat ch2 = out2.flatten → ∀ n ≥ n2, ∃ x2, parse none n [] {} ch2 = some (DONE, a, x2) ∧
        flat x2 = [] ∧ validate e3 { c' with http := a, key := some key } = some .ok := by
  obtain ⟨fs, out1, a1, a2, _, a4, a5⟩ := request_step r1 c
  have hplain : ∀ es, Plain es → ∀ k ∈ reserved, ∀ f ∈ es, Text f.1 ∧ ¬ SameName k f.1 :=
    fun es he k hk f hf => ⟨(he f hf).2.1, (he f hf).2.2.2 k hk⟩
  have hkey : fieldGet { fields := fs } kKey = some (Base64.rfcEncode (keyBytes e1)) := by
    rw [a4 kKey base_text.2.2.2.1 (hplain _ hc _ (by simp [reserved, kKey]))]
    unfold fieldGet askFields
    rw [List.find?_cons_of_pos (hit_refl _ _)]
  have hup : fieldGet { fields := fs } kUpgrade = some websocket := by
    rw [a4 kUpgrade base_text.1 (hplain _ hc _ (by simp [reserved, kUpgrade]))]
    have n : hit kUpgrade (kKey, none) = false := by decide +kernel
    unfold fieldGet askFields
    rw [List.find?_cons_of_neg (by rw [show hit kUpgrade (kKey, some (Base64.rfcEncode (keyBytes e1))) = false from n]; simp),
      List.find?_cons_of_pos (hit_refl _ _)]
  have hgood : ∀ x ∈ fs, GoodName x.1 ∧ GoodValue x.2 := by
    apply a5
    · intro f hf; exact ⟨(hc f hf).1, (hc f hf).2.2.1⟩
    · intro y hy
      simp only [askFields, List.mem_cons, List.not_mem_nil, or_false] at hy
      rcases hy with rfl | rfl | rfl | rfl
      · exact ⟨good_names _ (by simp), rfc_value (by intro h; have := keyBytes_length e1; simp [h] at this)⟩
      · exact ⟨good_names _ (by simp), good_values.1⟩
      · exact ⟨good_names _ (by simp), good_values.2.1⟩
      · exact ⟨good_names _ (by simp), good_values.2.2⟩
  have hext : ∀ x ∈ fs, hit kExtensions x = false := by
    apply a5
    · intro f hf
      rw [Bool.eq_false_iff, ne_eq, hit_iff, caseEq_text base_text.2.2.2.2.2.2 (hc f hf).2.1]
      exact fun h => (hc f hf).2.2.2 _ (by simp [reserved, kExtensions]) h.2
    · intro y hy
      have n : hit kExtensions (kKey, none) = false ∧ hit kExtensions (kUpgrade, none) = false ∧
        hit kExtensions (kConnection, none) = false ∧ hit kExtensions (kVersion, none) = false := by decide +kernel
      simp only [askFields, List.mem_cons, List.not_mem_nil, or_false] at hy
      rcases hy with rfl | rfl | rfl | rfl
      · exact n.1
      · exact n.2.1
      · exact n.2.2.1
      · exact n.2.2.2
  have hsend : Sendable (ask c fs) := by
    refine ⟨fun _ => ⟨?_, ?_, ?_⟩, hgood⟩
    · simp only [target, ask, Option.getD_some]
      cases hcu : c.uri with
      | none => simp
      | some u => have := (hu u hcu).1; simp [this]
    · intro u h
      simp only [ask, Option.some.injEq] at h
      subst h
      cases hcu : c.uri with
      | none =>
        intro b hb
        simp only [Option.getD_none, List.mem_singleton] at hb
        subst hb; decide
      | some u => exact (hu u hcu).2
    · intro a h
      exact ha a h
  refine ⟨_, out1, Base64.rfcEncode (keyBytes e1), a1, hkey, arrives (ask c fs), fs.length + 3, ?_⟩
  intro ch1 hch1 n hn
  obtain ⟨x1, b1, b2⟩ := parse_message (rest := []) (c := ch1) (n := n) (ask_line c fs) hsend
    (by rw [hch1, a2]; simp) hn
  refine ⟨x1, b1, b2, ?_⟩
  have hq : arrives (ask c fs) = { type := REQUEST, version := 1, uri := some (c.uri.getD (b! "/")), args := c.args, fields := fs } := rfl
  rw [hq]
  have hg : ∀ (h : Http) k, fieldGet h k = fieldGet { fields := h.fields } k := fun _ _ => rfl
  refine ⟨?_, ?_⟩
  · unfold isWebsocket
    rw [hg, hup]
    simp [caseEq_refl]
  generalize hqq : ({ type := REQUEST, version := 1, uri := some (c.uri.getD (b! "/")), args := c.args, fields := fs } : Http) = q
  have hqf : q.fields = fs := by rw [← hqq]
  have hx : extensionValue e2 q = some none := by
    unfold extensionValue
    rw [r2.1, r2.1, iterator_spec, if_pos]
    rw [List.filter_eq_nil_iff.2]
    · rfl
    · intro x hx
      rw [hqf] at hx
      simp [hext x hx]
  obtain ⟨fs2, out2, d1, d2, _, d4, d5⟩ := response_step r2 { s with http := q }
    (k := Base64.rfcEncode (keyBytes e1)) (by dsimp only; rw [hg, hqf]; exact hkey) hx
  simp only [Option.toList_none, List.map_nil, List.append_nil] at d4 d5
  have hproto : ∀ x ∈ protoPart q, (∃ v, x = (kProtocol, some v)) ∧ GoodValue x.2 := by
    intro x hx
    unfold protoPart at hx
    cases hv : (q.fields.filter (hit kProtocol)).filterMap (fun e => e.2) with
    | nil => rw [hv] at hx; cases hx
    | cons v vs =>
      rw [hv] at hx
      simp only [List.mem_singleton] at hx
      subst hx
      refine ⟨⟨_, rfl⟩, ?_⟩
      apply intercalate_good _ (by simp)
      intro w hw
      rw [← hv] at hw
      obtain ⟨y, hy, hw⟩ := List.mem_filterMap.1 hw
      have hy := (List.mem_filter.1 hy).1
      rw [hqf] at hy
      have := (hgood y hy).2
      rw [hw] at this
      exact this
  have hsend2 : Sendable { status := 101, version := 1, type := RESPONSE, fields := fs2 } := by
    refine ⟨fun h => ?_, ?_⟩
    · simp [RESPONSE, REQUEST] at h
    · apply d5
      · intro f hf; exact ⟨(hs f hf).1, (hs f hf).2.2.1⟩
      · intro y hy
        rcases List.mem_append.1 hy with hy | hy
        · obtain ⟨⟨v, rfl⟩, h2⟩ := hproto y hy
          exact ⟨good_names _ (by simp), h2⟩
        · simp only [List.mem_cons, List.not_mem_nil, or_false] at hy
          rcases hy with rfl | rfl | rfl
          · exact ⟨good_names _ (by simp), accept_value _⟩
          · exact ⟨good_names _ (by simp), good_values.1⟩
          · exact ⟨good_names _ (by simp), good_values.2.1⟩
  refine ⟨_, out2, d1, arrives { status := 101, version := 1, type := RESPONSE, fields := fs2 }, fs2.length + 3, ?_⟩
  intro ch2 hch2 n hn
  obtain ⟨x2, f1, f2⟩ := parse_message (rest := []) (c := ch2) (n := n) (status_line fs2) hsend2
    (by rw [hch2, d2]; simp) hn
  refine ⟨x2, f1, f2, ?_⟩
  have look : ∀ k' v, k' ∈ reserved → Text k' →
      fieldGet { fields := [(kAccept, some (rfcAccept (Base64.rfcEncode (keyBytes e1)))), (kUpgrade, some websocket),
        (kConnection, some kUpgrade)] } k' = some v → hit k' (kProtocol, none) = false →
      fieldGet (arrives { status := 101, version := 1, type := RESPONSE, fields := fs2 }) k' = some v := by
    intro k' v hk' hkt hv hpn
    have e1 : (arrives { status := 101, version := 1, type := RESPONSE, fields := fs2 }).fields = fs2 := rfl
    rw [hg, e1, d4 k' hkt (hplain _ hs k' hk')]
    unfold fieldGet at hv ⊢
    rw [List.find?_append, List.find?_eq_none.2]
    · simpa using hv
    · intro x hx
      obtain ⟨⟨w, rfl⟩, _⟩ := hproto x hx
      rw [show hit k' (kProtocol, some w) = false from hpn]
      simp
  have m : hit kUpgrade (kAccept, none) = false ∧ hit kConnection (kAccept, none) = false ∧
      hit kConnection (kUpgrade, none) = false ∧ hit kUpgrade (kProtocol, none) = false ∧
      hit kConnection (kProtocol, none) = false ∧ hit kAccept (kProtocol, none) = false := by decide +kernel
  have l1 := look kUpgrade websocket (by simp [reserved, kUpgrade]) base_text.1 (by
    unfold fieldGet
    rw [List.find?_cons_of_neg (by rw [show hit kUpgrade (kAccept, some _) = false from m.1]; simp),
      List.find?_cons_of_pos (hit_refl _ _)]) m.2.2.2.1
  have l2 := look kConnection kUpgrade (by simp [reserved, kConnection]) base_text.2.1 (by
    unfold fieldGet
    rw [List.find?_cons_of_neg (by rw [show hit kConnection (kAccept, some _) = false from m.2.1]; simp),
      List.find?_cons_of_neg (by rw [show hit kConnection (kUpgrade, some _) = false from m.2.2.1]; simp),
      List.find?_cons_of_pos (hit_refl _ _)]) m.2.2.2.2.1
  have l3 := look kAccept _ (by simp [reserved, kAccept]) base_text.2.2.1 (by
    unfold fieldGet
    rw [List.find?_cons_of_pos (hit_refl _ _)]) m.2.2.2.2.2
  have hst : (arrives { status := 101, version := 1, type := RESPONSE, fields := fs2 }).status = 101 ∧
      (arrives { status := 101, version := 1, type := RESPONSE, fields := fs2 }).type = RESPONSE := ⟨rfl, rfl⟩
  unfold validate validateAccept
  simp only [hst.1, hst.2, l1, l2, l3, caseEq_refl, r3.1, digest_eq r3.2.2, Bool.not_true, Bool.false_eq_true,
    if_false, ne_eq, not_true_eq_false, Option.bind_eq_bind, Option.bind_some, if_true]

end Verif.WsHand
