import Verif.WsShakeProps
/-
The WebSocket handshake of src/mln_websocket.c: failing allocations, and where it goes wrong.
-/
namespace Verif.WsHand
open Verif.Http

/-! ## Failing allocations -/

theorem put_shape (e : Env) (n h k v) : ∃ fs, (put e n h k v).2 = { h with fields := fs } := by
  unfold put fieldSet
  split
  · exact ⟨h.fields, rfl⟩
  · split
    · exact ⟨_, rfl⟩
    · split
      · exact ⟨_, rfl⟩
      · exact ⟨h.fields, rfl⟩

theorem putOpt_shape (e : Env) (n h k v) : ∃ fs, (putOpt e n h k v).2 = { h with fields := fs } := by
  cases v with
  | none => exact ⟨h.fields, rfl⟩
  | some v => exact put_shape ..

theorem putAll_shape (e : Env) : ∀ es n h, ∃ fs, (putAll e n h es).2 = { h with fields := fs } := by
  intro es
  induction es with
  | nil => intro n h; exact ⟨h.fields, rfl⟩
  | cons a es ih =>
    intro n h
    obtain ⟨fs, hf⟩ := put_shape e n h a.1 a.2
    rw [putAll]
    split
    · obtain ⟨fs', hf'⟩ := ih (n + 3) (put e n h a.1 a.2).2
      refine ⟨fs', ?_⟩
      rw [hf', hf]
    · exact ⟨fs, hf⟩

theorem generate_total {ok h s} (hs : StartLine h s) (out : List (List Byte)) :
    ∃ g, generate ok none h out (some (out.length - 1)) = some g := by
  rcases generate_spec (ok := ok) (base := out) hs with ⟨new, g1, _⟩ | ⟨_, d, g1⟩
  · exact ⟨_, g1⟩
  · exact ⟨_, g1⟩

theorem finish_total (e : Env) {h s} (hs : ∀ fs, StartLine { h with fields := fs } s) (ws : Ws) (out : List (List Byte)) :
    ∃ r, finish e ws h out (some (out.length - 1)) = some r := by
  obtain ⟨fs, hf⟩ := putAll_shape e ws.fields 60 h
  unfold finish
  split
  · exact ⟨_, rfl⟩
  · rename_i h' hp
    rw [hp] at hf
    dsimp only at hf
    subst hf
    obtain ⟨g, hg⟩ := generate_total (ok := e.gen) (hs fs) out
    simp only [Option.bind_eq_bind, hg, Option.bind_some]
    split <;> exact ⟨_, rfl⟩

/-- With a key in the request and no list of extensions, the answer is generated or refused whatever
allocation fails; no memory is used that is not there. -/
theorem response_total_partial {e : Env} (hj : e.junk.length = 64) {ws : Ws} {k}
    (hk : fieldGet ws.http kKey = some k) (hx : ∃ x, extensionValue e ws.http = some x)
    (out : List (List Byte)) : ∃ r, response e ws out (some (out.length - 1)) = some r := by
  obtain ⟨x, hx⟩ := hx
  have acc : ∃ a, acceptField e ws.http = some a := by
    unfold acceptField
    rw [hk]
    dsimp only
    split
    · exact ⟨_, rfl⟩
    · rw [digest_eq hj]
      simp only [Option.bind_eq_bind, Option.bind_some]
      split
      · exact ⟨_, rfl⟩
      · split <;> exact ⟨_, rfl⟩
  obtain ⟨a, acc⟩ := acc
  have ans : ∀ fs v, ∃ r, answerFields e ws { status := 101, version := 1, type := RESPONSE, fields := fs } v out
      (some (out.length - 1)) = some r := by
    intro fs v
    unfold answerFields
    obtain ⟨f1, h1⟩ := put_shape e 36 { status := 101, version := 1, type := RESPONSE, fields := fs } kAccept v
    dsimp only
    split
    · exact ⟨_, rfl⟩
    rw [h1]
    obtain ⟨f2, h2⟩ := put_shape e 39 { status := 101, version := 1, type := RESPONSE, fields := f1 } kUpgrade websocket
    dsimp only
    split
    · exact ⟨_, rfl⟩
    rw [h2]
    obtain ⟨f3, h3⟩ := put_shape e 42 { status := 101, version := 1, type := RESPONSE, fields := f2 } kConnection kUpgrade
    dsimp only
    split
    · exact ⟨_, rfl⟩
    rw [h3]
    exact finish_total e status_line ws out
  unfold response
  dsimp only
  split
  · exact ⟨_, rfl⟩
  · rw [hx, acc]
    simp only [Option.bind_eq_bind, Option.bind_some, reset]
    cases a with
    | none => exact ⟨_, rfl⟩
    | some a =>
      dsimp only
      obtain ⟨f1, h1⟩ := putOpt_shape e 45 { status := 101, version := 1, type := RESPONSE } kProtocol
        (fieldIterator (e.ok 30) (e.ok 31) ws.http kProtocol)
      by_cases c1 : (putOpt e 45 { status := 101, version := 1, type := RESPONSE } kProtocol
        (fieldIterator (e.ok 30) (e.ok 31) ws.http kProtocol)).1 = OK
      · simp only [c1, ne_eq, not_true_eq_false, if_false, h1]
        obtain ⟨f2, h2⟩ := putOpt_shape e 48 { status := 101, version := 1, type := RESPONSE, fields := f1 } kExtensions x
        by_cases c2 : (putOpt e 48 { status := 101, version := 1, type := RESPONSE, fields := f1 } kExtensions x).1 = OK
        · simp only [c2, not_true_eq_false, if_false, h2]
          exact ans f2 a
        · simp only [c2, not_false_eq_true, if_true]
          exact ⟨_, rfl⟩
      · simp only [c1, ne_eq, not_false_eq_true, if_true]
        exact ⟨_, rfl⟩

/-- Generating a request never uses memory that is not there. -/
theorem request_total (e : Env) (ws : Ws) (out : List (List Byte)) :
    ∃ r, request e ws out (some (out.length - 1)) = some r := by
  have key : ∃ a, keyGenerate e = some a := by
    unfold keyGenerate
    split
    · exact ⟨_, rfl⟩
    · rw [(Base64.encode_eq_rfc _).2]
      simp only [Option.bind_eq_bind, Option.bind_some]
      split <;> exact ⟨_, rfl⟩
  obtain ⟨a, key⟩ := key
  unfold request
  split
  · exact ⟨_, rfl⟩
  · split
    · exact ⟨_, rfl⟩
    · rw [key]
      simp only [Option.bind_eq_bind, Option.bind_some]
      cases a with
      | none => exact ⟨_, rfl⟩
      | some a =>
        dsimp only
        have step : ∀ i fs k v, ∃ fs', (put e i (ask ws fs) k v).2 = ask ws fs' := by
          intro i fs k v
          obtain ⟨f, h⟩ := put_shape e i (ask ws fs) k v
          exact ⟨f, h⟩
        have e0 : ({ reset ws.http with method := 0, version := 1, type := REQUEST, uri := some (ws.uri.getD (b! "/")), args := ws.args } : Http) =
          ask ws [] := rfl
        rw [e0]
        obtain ⟨f1, h1⟩ := step 36 [] kKey a
        rw [h1]
        obtain ⟨f2, h2⟩ := step 39 f1 kUpgrade websocket
        rw [h2]
        obtain ⟨f3, h3⟩ := step 42 f2 kConnection kUpgrade
        rw [h3]
        obtain ⟨f4, h4⟩ := step 45 f3 kVersion (b! "13")
        rw [h4]
        exact finish_total e (h := ask ws f4) (fun fs => ask_line ws fs) ws out

/-- When the allocations for the key's field fail, the request is sent without a key, and the result is
success all the same. -/
theorem request_without_key {e : Env} (h36 : e.ok 36 = false) (hok : ∀ i, i ≠ 36 → e.ok i = true)
    (hgen : ∀ i, e.gen i = true) {ws : Ws} (hf : ws.fields = []) :
    ∃ ws' out, request e ws [] none = some (.ok, ws', out) ∧
      out.flatten = b! "GET " ++ ws.uri.getD (b! "/") ++ (match ws.args with | none => [] | some a => b! "?" ++ a) ++
        b! " HTTP/1.1\r\nUpgrade: websocket\r\nConnection: Upgrade\r\nSec-WebSocket-Version: 13\r\n\r\n" := by
  have n : hit kConnection (kUpgrade, none) = false ∧
      hit kVersion (kUpgrade, none) = false ∧ hit kVersion (kConnection, none) = false := by decide +kernel
  have n3 : ∀ v, hit kConnection (kUpgrade, v) = false := fun v => n.1
  have n5 : ∀ v, hit kVersion (kUpgrade, v) = false := fun v => n.2.1
  have n6 : ∀ v, hit kVersion (kConnection, v) = false := fun v => n.2.2
  have step : ∀ i fs k v, 36 < i → fs.any (hit k) = false → (put e i (ask ws fs) k v).2 = ask ws (fs ++ [(k, some v)]) := by
    intro i fs k v hi hk
    have hk' : (ask ws fs).fields.any (hit k) = false := hk
    unfold put fieldSet
    rw [hok i (by omega), hok (i + 1) (by omega), hok (i + 2) (by omega), hk']
    rfl
  have hr : request e ws [] none = finish e ws (ask ws
      [(kUpgrade, some websocket), (kConnection, some kUpgrade), (kVersion, some (b! "13"))]) [] none := by
    unfold request keyGenerate
    simp only [hok 50 (by decide), hok 51 (by decide), hok 40 (by decide), hok 41 (by decide), Bool.not_true,
      Bool.false_eq_true, and_false, if_false, (Base64.encode_eq_rfc _).2, Option.bind_eq_bind, Option.bind_some]
    have e0 : ({ reset ws.http with method := 0, version := 1, type := REQUEST, uri := some (ws.uri.getD (b! "/")), args := ws.args } : Http) =
        ask ws [] := rfl
    have e1 : ∀ k v, (put e 36 (ask ws []) k v).2 = ask ws [] := by
      intro k v
      unfold put fieldSet
      rw [h36]
      rfl
    rw [e0, e1, step 39 _ _ _ (by decide) rfl, step 42 _ _ _ (by decide) (by simp [n3]),
      step 45 _ _ _ (by decide) (by simp [n5, n6])]
    rfl
  have hs := ask_line ws [(kUpgrade, some websocket), (kConnection, some kUpgrade), (kVersion, some (b! "13"))]
  rcases generate_spec (ok := e.gen) (base := []) hs with ⟨new, g1, g2, _⟩ | ⟨⟨i, hi⟩, _⟩
  · have e0 : ∀ h : Http, generate e.gen none h [] (some 0) = generate e.gen none h [] none := fun _ => rfl
    rw [List.length_nil, Nat.zero_sub, e0] at g1
    refine ⟨{ ws with http := ask ws [(kUpgrade, some websocket), (kConnection, some kUpgrade),
      (kVersion, some (b! "13"))] }, new, ?_, ?_⟩
    · rw [hr]
      unfold finish
      rw [hf, putAll]
      simp only [Option.bind_eq_bind]
      rw [g1]
      simp only [Option.bind_some, List.nil_append]
      rw [if_neg (by decide)]
      simp [ask]
    · rw [g2]
      cases h : ws.args <;>
        simp [message, ask, target, fieldLine, CRLF, kUpgrade, kConnection, kVersion, websocket, h]
  · rw [hgen] at hi; cases hi

/-! ## A request without a key -/

/-- A request without the key makes the server follow a NULL pointer. -/
theorem missing_key {e : Env} (he : e.Rich) {ws : Ws} (hk : fieldGet ws.http kKey = none)
    (out tail) : response e ws out tail = none := by
  unfold response
  simp only [he.1, Bool.not_true, Bool.false_eq_true, and_false, if_false, Option.bind_eq_bind]
  have e1 : acceptField e ws.http = none := by
    unfold acceptField
    rw [hk]
  rw [e1]
  cases extensionValue e ws.http <;> rfl

/-- Such a request passes the test that it is one for a WebSocket. -/
theorem missing_key_is_websocket {h : Http} {u} (ht : h.type = REQUEST)
    (hu : fieldGet h kUpgrade = some u) (hw : u = websocket) : isWebsocket h = .ok := by
  unfold isWebsocket
  rw [hu, hw]
  simp [caseEq_refl, ht]

/-- What a server does with bytes it receives: the answer to the test, and whether the answer can be
generated. -/
def serve (bytes : List Byte) : Option (Nat × Ret × Bool) :=
  (parse none 9 [] {} (inMemory [bytes])).map fun r =>
    (r.1, isWebsocket r.2.1, (response {} { http := r.2.1 } [] none).isSome)

example : serve (b! "GET / HTTP/1.1\r\nUpgrade: websocket\r\n\r\n") = some (DONE, .ok, false) := by
  decide +kernel

/-- The same when the name of the field is written with other capitals. -/
example : serve (b! "GET / HTTP/1.1\r\nUpgrade: websocket\r\nSec-Websocket-Key: AQIDBAUGBwgJCgsMDQ4PEA==\r\n\r\n") =
    some (DONE, .ok, false) := by decide +kernel

example : serve (b! "GET / HTTP/1.1\r\nUpgrade: websocket\r\nSec-WebSocket-Key: AQIDBAUGBwgJCgsMDQ4PEA==\r\n\r\n") =
    some (DONE, .ok, true) := by decide +kernel

/-! ## Extensions -/

theorem mem_intercalate {c : Byte} {vs : List (List Byte)} {v b} (hv : v ∈ vs) (hb : b ∈ v) :
    b ∈ [c].intercalate vs := by
  induction vs with
  | nil => cases hv
  | cons a vs ih =>
    cases vs with
    | nil =>
      simp only [List.mem_singleton] at hv
      subst hv
      simpa using hb
    | cons d vs =>
      have e : [c].intercalate (a :: d :: vs) = a ++ [c] ++ [c].intercalate (d :: vs) := by
        simp [List.intercalate]
      rw [e]
      rcases List.mem_cons.1 hv with rfl | hv
      · simp [hb]
      · simp [ih hv]

/-- Every request with a list of extensions makes the server write behind the bytes it asked for. -/
theorem extensions_overflow {e : Env} (he : e.Rich) (hg : ∀ n, e.give n = n) {ws : Ws} {n v b}
    (hm : (n, some v) ∈ ws.http.fields) (hn : hit kExtensions (n, some v) = true) (hb : b ∈ v) (hc : b ≠ 44#8)
    (out tail) : response e ws out tail = none := by
  have hmem : v ∈ (ws.http.fields.filter (hit kExtensions)).filterMap (fun e => e.2) :=
    List.mem_filterMap.2 ⟨(n, some v), List.mem_filter.2 ⟨hm, hn⟩, rfl⟩
  have hx : extensionValue e ws.http = none := by
    unfold extensionValue
    rw [he.1, he.1, iterator_spec, if_neg (List.ne_nil_of_mem hmem)]
    exact extension_overflow he hg ⟨b, mem_intercalate hmem hb, hc⟩
  unfold response
  simp only [he.1, Bool.not_true, Bool.false_eq_true, and_false, if_false, Option.bind_eq_bind]
  rw [hx]
  rfl

example : response {} { http := { type := REQUEST, fields := [(b! "Upgrade", some (b! "websocket")),
      (b! "Sec-WebSocket-Key", some (b! "x3JJHMbDL1EzLkh9GBhXDw==")),
      (b! "Sec-WebSocket-Extensions", some (b! "permessage-deflate"))] } } [] none = none :=
  extensions_overflow (n := b! "Sec-WebSocket-Extensions") (v := b! "permessage-deflate") (b := 112#8)
    ⟨fun _ => rfl, fun _ => rfl, rfl⟩ (fun _ => rfl) (by simp) (by decide +kernel) (by decide) (by decide) _ _

/-! ## The client -/

/-- Generating the request does not store the key it sends. -/
theorem request_keeps_key {e : Env} {ws ws' : Ws} {out tail r out'}
    (h : request e ws out tail = some (r, ws', out')) : ws'.key = ws.key := by
  have fin : ∀ h0 r ws' out', finish e ws h0 out tail = some (r, ws', out') → ws'.key = ws.key := by
    intro h0 r ws' out' h
    unfold finish at h
    split at h
    · simp only [Option.some.injEq, Prod.mk.injEq] at h
      rw [← h.2.1]
    · simp only [Option.bind_eq_bind, Option.bind_eq_some_iff] at h
      obtain ⟨g, _, h⟩ := h
      split at h
      · simp only [Option.some.injEq, Prod.mk.injEq] at h
        rw [← h.2.1]
      · simp only [Option.some.injEq, Prod.mk.injEq] at h
        rw [← h.2.1]
  unfold request at h
  split at h
  · simp only [Option.some.injEq, Prod.mk.injEq] at h
    rw [← h.2.1]
  · split at h
    · simp only [Option.some.injEq, Prod.mk.injEq] at h
      rw [← h.2.1]
    · simp only [Option.bind_eq_bind, Option.bind_eq_some_iff] at h
      obtain ⟨k, _, h⟩ := h
      cases k with
      | none =>
        simp only [Option.some.injEq, Prod.mk.injEq] at h
        rw [← h.2.1]
      | some k => exact fin _ _ _ _ h

/-- So a client that was new before the request follows a NULL pointer at every good answer. -/
theorem validate_no_key {e1 e3 : Env} {ws ws' : Ws} {out tail r out'} (hk : ws.key = none)
    (h : request e1 ws out tail = some (r, ws', out')) {a : Http} {k}
    (ht : ∀ n v, fieldGet a n = some v → Text v) (ha : Accepts a k) :
    validate e3 { ws' with http := a } = none := by
  have hk' := (request_keeps_key h).trans hk
  obtain ⟨h1, h2, ⟨u, h3, h4⟩, ⟨c, h5, h6⟩, x, h7, h8⟩ := ha
  have t1 : Text websocket := by unfold Text; decide +kernel
  have c1 := (caseEq_text (ht _ _ h3) t1).2 h4
  have c2 := (caseEq_text (ht _ _ h5) base_text.1).2 h6
  change fieldGet a kUpgrade = some u at h3
  change fieldGet a kConnection = some c at h5
  change fieldGet a kAccept = some x at h7
  unfold validate validateAccept
  simp only [h1, ne_eq, not_true_eq_false, if_false, h3, c1, h5, h7, hk', Bool.not_true, Bool.false_eq_true]
  rw [if_neg (by rw [show caseEq c kUpgrade = true from c2]; simp)]
  rfl

/-- An answer as the RFC asks for, with any accept value and connection list. -/
def answer (accept connection : List Byte) : Http :=
  { status := 101, version := 1, type := RESPONSE,
    fields := [(b! "Upgrade", some (b! "websocket")), (b! "Connection", some connection),
      (b! "Sec-WebSocket-Accept", some accept)] }

theorem answer_get (a c : List Byte) : fieldGet (answer a c) kUpgrade = some websocket ∧
    fieldGet (answer a c) kConnection = some c ∧ fieldGet (answer a c) kAccept = some a := by
  have m : hit kAccept (kUpgrade, none) = false ∧ hit kConnection (kUpgrade, none) = false ∧
      hit kAccept (kConnection, none) = false := by decide +kernel
  have e : answer a c = { status := 101, version := 1, type := RESPONSE, fields := [(kUpgrade, some websocket),
    (kConnection, some c), (kAccept, some a)] } := rfl
  rw [e]
  refine ⟨?_, ?_, ?_⟩
  · unfold fieldGet
    rw [List.find?_cons_of_pos (hit_refl _ _)]
  · unfold fieldGet
    rw [List.find?_cons_of_neg (by
      rw [show hit kConnection (kUpgrade, some websocket) = false from m.2.1]; simp),
      List.find?_cons_of_pos (hit_refl _ _)]
  · unfold fieldGet
    rw [List.find?_cons_of_neg (by
      rw [show hit kAccept (kUpgrade, some websocket) = false from m.1]; simp),
      List.find?_cons_of_neg (by
      rw [show hit kAccept (kConnection, some c) = false from m.2.2]; simp),
      List.find?_cons_of_pos (hit_refl _ _)]

/-- An accept value with wrong capitals is accepted. -/
theorem accept_any_case {e : Env} (he : e.Rich) {k a : List Byte} (ha : SameName (rfcAccept k) a) (ht : Text a) :
    validate e { http := answer a (b! "Upgrade"), key := some k } = some .ok := by
  obtain ⟨h1, h2, h3⟩ := answer_get a (b! "Upgrade")
  have c3 := (caseEq_text (accept_text k) ht).2 ha
  have c1 : caseEq (b! "Upgrade") kUpgrade = true := caseEq_refl _
  have s : (answer a (b! "Upgrade")).status = 101 ∧ (answer a (b! "Upgrade")).type = RESPONSE := ⟨rfl, rfl⟩
  unfold validate validateAccept
  simp only [s.1, s.2, h1, h2, h3, c1, c3, caseEq_refl, he.1, digest_eq he.2.2, Bool.not_true, Bool.false_eq_true,
    if_false, ne_eq, not_true_eq_false, Option.bind_eq_bind, Option.bind_some, if_true]

/-- The key and the accept value of RFC 6455, section 1.3. -/
theorem rfc_example : rfcAccept (b! "dGhlIHNhbXBsZSBub25jZQ==") = b! "s3pPLMBiTxaQ9kYGzzhZRbK+xOo=" := by
  have h : digest (List.replicate 64 0) (b! "dGhlIHNhbXBsZSBub25jZQ==") = some (b! "s3pPLMBiTxaQ9kYGzzhZRbK+xOo=") := by
    decide +kernel
  rw [digest_eq (by simp)] at h
  exact Option.some.inj h

/-- A connection list with more than the one word is refused. -/
theorem connection_list_refused (e : Env) (k p : List Byte) :
    validate e { http := answer (rfcAccept k) (p ++ b! ", Upgrade"), key := some k } = some .notws := by
  obtain ⟨h1, h2, h3⟩ := answer_get (rfcAccept k) (p ++ b! ", Upgrade")
  have s : (answer (rfcAccept k) (p ++ b! ", Upgrade")).status = 101 := rfl
  have c1 : caseEq (p ++ b! ", Upgrade") kUpgrade = false := by
    rw [Bool.eq_false_iff, ne_eq, caseEq_iff]
    intro h
    have := h.1
    simp only [List.length_append, List.length_cons, List.length_nil, kUpgrade] at this
    omega
  unfold validate
  simp only [s, h1, h2, c1, caseEq_refl, Bool.not_true, Bool.not_false, Bool.false_eq_true,
    if_false, ne_eq, not_true_eq_false, if_true]

/-- Another value than the RFC's that the client accepts. -/
theorem accept_wrong_value : ∃ k a, a ≠ rfcAccept k ∧
    validate {} { http := answer a (b! "Upgrade"), key := some k } = some .ok := by
  refine ⟨b! "dGhlIHNhbXBsZSBub25jZQ==", b! "S3PPLMBITXAQ9KYGZZHZRBK+XOO=", ?_, ?_⟩
  · rw [rfc_example]; decide
  · apply accept_any_case ⟨fun _ => rfl, fun _ => rfl, rfl⟩
    · rw [rfc_example, ← caseEq_text]
      · decide +kernel
      · unfold Text; decide
      · unfold Text; decide
    · unfold Text; decide

/-! ## The fields of the object -/

theorem wsHit_refl (k v) : wsHit k (k, v) = true := by
  unfold wsHit
  simp [caseEq_refl]

theorem wsHit_iff (k : List Byte) (e) : wsHit k e = true ↔ wsBucket k = wsBucket e.1 ∧ caseEq k e.1 = true := by
  unfold wsHit
  simp

theorem ws_find_update (k v) : ∀ es, es.any (wsHit k) = true →
    (wsUpdate k v es).find? (wsHit k) = some (k, v) := by
  intro es
  induction es with
  | nil => intro h; cases h
  | cons e es ih =>
    intro h
    rw [wsUpdate]
    by_cases he : wsHit k e = true
    · rw [if_pos he, List.find?_cons_of_pos (wsHit_refl k v)]
    · rw [if_neg he, List.find?_cons_of_neg (by simpa using he)]
      apply ih
      simpa [he] using h

theorem ws_find_update_other {k k' v} (hk : wsHit k' (k, v) = false) (ho : ∀ e, wsHit k e = true → wsHit k' e = false) :
    ∀ es, (wsUpdate k v es).find? (wsHit k') = es.find? (wsHit k') := by
  intro es
  induction es with
  | nil => rfl
  | cons e es ih =>
    rw [wsUpdate]
    by_cases he : wsHit k e = true
    · rw [if_pos he, List.find?_cons_of_neg (by simp [hk]), List.find?_cons_of_neg (by simp [ho e he])]
    · rw [if_neg he, List.find?_cons, List.find?_cons, ih]

/-- A field that was set is found with its value, and fields with other names are as before. -/
theorem ws_set_get {okK okV okN ws k v ws'} (hs : setField okK okV okN ws k v = (.ok, ws')) :
    getField ws' k = some v ∧
      ∀ k', Text k → Text k' → ¬ SameName k' k → getField ws' k' = getField ws k' := by
  unfold setField at hs
  have hk' : ∀ k', Text k → Text k' → ¬ SameName k' k → wsHit k' (k, v) = false := by
    intro k' ht ht' hn
    rw [Bool.eq_false_iff, ne_eq, wsHit_iff, caseEq_text ht' ht]
    exact fun h => hn h.2
  split at hs
  · simp at hs
  · split at hs
    · rename_i ha
      simp only [Prod.mk.injEq, true_and] at hs
      subst hs
      refine ⟨by unfold getField; rw [ws_find_update k v _ ha]; rfl, ?_⟩
      intro k' ht ht' hn
      unfold getField
      rw [ws_find_update_other (hk' k' ht ht' hn)]
      intro e he
      rw [Bool.eq_false_iff, ne_eq, wsHit_iff]
      rw [wsHit_iff, caseEq_iff] at he
      rintro ⟨_, h2⟩
      rw [caseEq_iff] at h2
      apply hn
      rw [← caseEq_text ht' ht, caseEq_iff]
      exact ⟨h2.1.trans he.2.1.symm, forall2_trans h2.2 (forall2_symm he.2.2)⟩
    · rename_i ha
      split at hs
      · simp only [Prod.mk.injEq, true_and] at hs
        subst hs
        have hnone : ws.fields.find? (wsHit k) = none := by
          rw [List.find?_eq_none]
          intro x hx hc
          exact ha (List.any_eq_true.2 ⟨x, hx, hc⟩)
        refine ⟨?_, ?_⟩
        · unfold getField
          rw [List.find?_append, hnone]
          simp [wsHit_refl]
        · intro k' ht ht' hn
          unfold getField
          rw [List.find?_append, List.find?_cons_of_neg (by simp [hk' k' ht ht' hn])]
          simp
      · simp at hs

example : getField (setField true true true {} (b! "Host") (b! "a")).2 (b! "Host") = some (b! "a") := by
  decide +kernel

/-- Fields are not found under a name in other case, as in the table of a message. -/
example : getField (setField true true true {} (b! "Host") (b! "a")).2 (b! "host") = none := by
  decide +kernel

/-- The key of a request is the four random numbers, most significant byte first: no bits of them
are lost. -/
theorem keyBytes_eq (e : Env) : keyBytes e = (List.range 4).flatMap fun i => (List.range 4).map fun j => (e.rand i).extractLsb' (8 * (3 - j)) 8 := by
  unfold keyBytes
  congr 1
  funext i
  simp only [List.range, List.range.loop, List.map_cons, List.map_nil, List.cons.injEq, and_true]
  refine ⟨?_, ?_, ?_, ?_⟩ <;>
  · apply BitVec.eq_of_getLsbD_eq
    intro k hk
    have : k = 0 ∨ k = 1 ∨ k = 2 ∨ k = 3 ∨ k = 4 ∨ k = 5 ∨ k = 6 ∨ k = 7 := by omega
    rcases this with rfl | rfl | rfl | rfl | rfl | rfl | rfl | rfl <;> simp

end Verif.WsHand
