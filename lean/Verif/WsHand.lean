import Verif.Http
import Verif.Sha1
import Verif.Base64
/-
Model of the handshake functions of src/mln_websocket.c: mln_websocket_is_websocket,
mln_websocket_validate, the fields of mln_websocket_t, mln_websocket_handshake_request_generate,
mln_websocket_handshake_response_generate and the static functions they call.

Simplifications:
* the table of fields has a fixed number of 37 buckets (`expandable` is 0), so it is the list of
  its entries in order of insertion (see Http.lean);
* each allocation is a Boolean of the environment, by the place in the code; for the buffer of
  mln_websocket_extension_tokens the environment also tells how many bytes the block really has;
* what is freed or lost is left out; the handler of the message and the connection are left out;
* lengths stay below 2^32.
`none` is a NULL pointer followed or a byte read or written outside the memory it belongs to.
-/
namespace Verif.WsHand
open Verif.Http

/-- What the functions meet: `ok i` the allocations, `gen` those of mln_http_generate, `give n` the
size of the block that an allocation of `n` bytes yields, `junk` the buffer of mln_sha1_t that
mln_sha1_init leaves as it is, `rand` the values of rand(). -/
structure Env where
  ok : Nat → Bool := fun _ => true
  gen : Nat → Bool := fun _ => true
  give : Nat → Nat := id
  junk : List Byte := List.replicate 64 0
  rand : Nat → BitVec 32 := fun _ => 0

/-- Return values, include/mln_websocket.h lines 17-21. -/
inductive Ret where
  | error
  | ok
  | failed
  | notws
  deriving DecidableEq, Repr

/-- The fields of mln_websocket_t the handshake uses, include/mln_websocket.h lines 60-67. -/
structure Ws where
  http : Http := {}
  fields : List (List Byte × List Byte) := []
  uri : Option (List Byte) := none
  args : Option (List Byte) := none
  key : Option (List Byte) := none
  deriving DecidableEq, Repr

/-- mln_websocket_hash_calc, lines 64-74. -/
def wsBucket (k : List Byte) : Nat := (k.map (fun b => b.toNat * 3)).sum % 2 ^ 64 % 37

/-- The test of a search: bucket, then mln_websocket_hash_cmp (lines 76-80). -/
def wsHit (k : List Byte) (e : List Byte × List Byte) : Bool :=
  wsBucket k = wsBucket e.1 && caseEq k e.1

/-- mln_hash_update on the entries, when one is found. -/
def wsUpdate (k v : List Byte) : List (List Byte × List Byte) → List (List Byte × List Byte)
  | [] => []
  | e :: es => if wsHit k e then (k, v) :: es else e :: wsUpdate k v es

/-- mln_websocket_set_field, lines 205-221. -/
def setField (okKey okVal okNew : Bool) (ws : Ws) (k v : List Byte) : Ret × Ws :=
  if !okKey || !okVal then (.failed, ws)
  else if ws.fields.any (wsHit k) then (.ok, { ws with fields := wsUpdate k v ws.fields })
  else if okNew then (.ok, { ws with fields := ws.fields ++ [(k, v)] })
  else (.failed, ws)

/-- mln_websocket_get_field, lines 223-227; `none` is NULL. -/
def getField (ws : Ws) (k : List Byte) : Option (List Byte) :=
  (ws.fields.find? (wsHit k)).map (·.2)

def kUpgrade : List Byte := b! "Upgrade"
def kConnection : List Byte := b! "Connection"
def kAccept : List Byte := b! "Sec-WebSocket-Accept"
def kKey : List Byte := b! "Sec-WebSocket-Key"
def kVersion : List Byte := b! "Sec-WebSocket-Version"
def kProtocol : List Byte := b! "Sec-WebSocket-Protocol"
def kExtensions : List Byte := b! "Sec-WebSocket-Extensions"
def websocket : List Byte := b! "websocket"
def guid : List Byte := b! "258EAFA5-E914-47DA-95CA-C5AB0DC85B11"

/-- mln_websocket_is_websocket, lines 148-155. -/
def isWebsocket (h : Http) : Ret :=
  match fieldGet h kUpgrade with
  | none => .notws
  | some t =>
    if !caseEq websocket t then .notws
    else if h.type ≠ REQUEST then .error
    else .ok

/-- The middle of mln_websocket_validate_accept (lines 189-197) and of mln_websocket_accept_field
(lines 389-398): the digest of the key and the guid as text. -/
def digest (junk key : List Byte) : Option (List Byte) := do
  let m ← Md.update Sha1.alg (Md.start Sha1.alg junk) (key ++ guid) true
  let t ← Sha1.tobytes m.st (List.replicate 20 0) 20
  Base64.encode t

/-- mln_websocket_validate_accept, lines 177-203. -/
def validateAccept (e : Env) (h : Http) (wskey : Option (List Byte)) : Option Ret :=
  match fieldGet h kAccept with
  | none => some .notws
  | some v =>
    match wskey with
    | none => none
    | some key =>
      if !e.ok 0 then some .error
      else do
        let d ← digest e.junk key
        if !e.ok 1 then some .error
        else some (if caseEq d v then .ok else .error)

/-- mln_websocket_validate, lines 157-175. -/
def validate (e : Env) (ws : Ws) : Option Ret :=
  let h := ws.http
  if h.status ≠ 101 then some .notws
  else
    match fieldGet h kUpgrade with
    | none => some .notws
    | some t =>
      if !caseEq t websocket then some .notws
      else
        match fieldGet h kConnection with
        | none => some .notws
        | some t =>
          if !caseEq t kUpgrade then some .notws
          else do
            let r ← validateAccept e h ws.key
            if r ≠ .ok then some r
            else if h.type ≠ RESPONSE then some .error
            else some .ok

/-- mln_websocket_accept_field, lines 380-403; the inner `none` is NULL. -/
def acceptField (e : Env) (h : Http) : Option (Option (List Byte)) :=
  match fieldGet h kKey with
  | none => none
  | some v =>
    if !e.ok 10 then some none
    else do
      let d ← digest e.junk v
      if !e.ok 11 then some none
      else if !e.ok 12 then some none
      else some (some d)

/-- The next part of mln_string_slice: the bytes up to a separator, and the rest. -/
def part (sep : Byte) : List Byte → List Byte × List Byte
  | [] => ([], [])
  | b :: bs => if b = sep then ([], b :: bs) else let r := part sep bs; (b :: r.1, r.2)

theorem part_length (sep : Byte) : ∀ s, (part sep s).2.length ≤ s.length := by
  intro s
  induction s with
  | nil => simp [part]
  | cons b bs ih =>
    rw [part]
    split
    · simp
    · simp only [List.length_cons]; omega

/-- mln_string_slice with one separator, src/mln_string.c lines 578-626: separators are skipped,
then the bytes up to the next one are a part. -/
def slice (sep : Byte) : List Byte → List (List Byte)
  | [] => []
  | b :: bs =>
    if b = sep then slice sep bs
    else
      let r := part sep bs
      (b :: r.1) :: slice sep r.2
termination_by s => s.length
decreasing_by
  · simp
  · have := part_length sep bs
    simp only [List.length_cons]; omega

/-- strchr(p->data, ';') - p->data for a part; the part ends at a zero (the separator was
overwritten) or at the zero behind the string. -/
def semicolon (p : List Byte) : Option Nat := (p.takeWhile (· ≠ 0#8)).findIdx? (· = 59#8)

/-- The number of bytes taken from a part. -/
def taken (p : List Byte) : Nat := (semicolon p).getD p.length

/-- The first loop, lines 338-344. -/
def extSize : List (List Byte) → Nat
  | [] => 0
  | p :: ps => (taken p + 1) + extSize ps

/-- A byte written into a block of `n` bytes of which the first ones are written. -/
def push (n : Nat) (buf : List Byte) (bs : List Byte) : Option (List Byte) :=
  if buf.length + bs.length ≤ n then some (buf ++ bs) else none

/-- The second loop, lines 354-363; the buffer is the bytes written so far. -/
def extLoop (n : Nat) : List (List Byte) → List Byte → Option (List Byte)
  | [], buf => some buf
  | p :: ps, buf => do
    let buf ← push n buf (p.take (taken p))
    let buf ← push n buf [44#8]
    extLoop n ps buf

/-- mln_websocket_extension_tokens, lines 324-372; the inner `none` is NULL. -/
def extensionTokens (e : Env) (s : List Byte) : Option (Option (List Byte)) :=
  if !e.ok 20 then some none
  else if !e.ok 21 then some none
  else
    let ps := slice 44#8 s
    let size := extSize ps
    if size = 0 then some none
    else
      let size := size - 1
      if !e.ok 22 then some none
      else do
        let buf ← extLoop (e.give size) ps []
        -- buf[--size] = '0'; the string is the bytes before
        let buf := buf.dropLast
        if !e.ok 23 then some none else some (some buf)

/-- mln_http_field_set at the place `n`. -/
def put (e : Env) (n : Nat) (h : Http) (k v : List Byte) : Nat × Http :=
  fieldSet (e.ok n) (e.ok (n + 1)) (e.ok (n + 2)) h k v

/-- The same if there is a value, lines 293-307. -/
def putOpt (e : Env) (n : Nat) (h : Http) (k : List Byte) : Option (List Byte) → Nat × Http
  | none => (OK, h)
  | some v => put e n h k v

/-- mln_hash_iterate with mln_websocket_iterate_set_fields, lines 374-378: `false` is -1. -/
def putAll (e : Env) : Nat → Http → List (List Byte × List Byte) → Bool × Http
  | _, h, [] => (true, h)
  | n, h, (k, v) :: es =>
    let r := put e n h k v
    if r.1 = OK then putAll e (n + 3) r.2 es else (false, r.2)

/-- Return value, the object, and the chain written. -/
abbrev Out := Ret × Ws × List (List Byte)

/-- The end of both generators, lines 315-321 and 452-458: the fields of the object, and the
message. -/
def finish (e : Env) (ws : Ws) (h : Http) (out : List (List Byte)) (tail : Option Nat) : Option Out :=
  match putAll e 60 h ws.fields with
  | (false, h) => some (.failed, { ws with http := h }, out)
  | (true, h) => do
    let g ← generate e.gen none h out tail
    if g.1 = ERROR then some (.failed, { ws with http := g.2.1 }, g.2.2.1)
    else some (.ok, { ws with http := g.2.1 }, g.2.2.1)

/-- The fields of the answer that are always there, lines 308-313. -/
def answerFields (e : Env) (ws : Ws) (h : Http) (accept : List Byte) (out : List (List Byte))
    (tail : Option Nat) : Option Out :=
  let (r, h) := put e 36 h kAccept accept
  if r ≠ OK then some (.failed, { ws with http := h }, out)
  else
    let (r, h) := put e 39 h kUpgrade websocket
    if r ≠ OK then some (.failed, { ws with http := h }, out)
    else
      let (r, h) := put e 42 h kConnection kUpgrade
      if r ≠ OK then some (.failed, { ws with http := h }, out)
      else finish e ws h out tail

/-- The value of the field with the extensions, lines 268-273; the inner `none` is NULL. -/
def extensionValue (e : Env) (h : Http) : Option (Option (List Byte)) :=
  match fieldIterator (e.ok 33) (e.ok 34) h kExtensions with
  | none => some none
  | some s => extensionTokens e s

/-- mln_websocket_handshake_response_generate, lines 253-322. -/
def response (e : Env) (ws : Ws) (out : List (List Byte)) (tail : Option Nat) : Option Out :=
  let proto := fieldIterator (e.ok 30) (e.ok 31) ws.http kProtocol
  if proto ≠ none ∧ !e.ok 32 then some (.failed, ws, out)
  else do
    let ext ← extensionValue e ws.http
    let accept ← acceptField e ws.http
    match accept with
    | none => some (.failed, ws, out)
    | some accept =>
      let h : Http := { reset ws.http with status := 101, version := 1, type := RESPONSE }
      let (r, h) := putOpt e 45 h kProtocol proto
      if r ≠ OK then some (.failed, { ws with http := h }, out)
      else
        let (r, h) := putOpt e 48 h kExtensions ext
        if r ≠ OK then some (.failed, { ws with http := h }, out)
        else answerFields e ws h accept out tail

/-- The sixteen bytes of mln_websocket_client_handshake_key_generate, lines 469-478. -/
def keyBytes (e : Env) : List Byte :=
  (List.range 4).flatMap fun i =>
    let t := e.rand i
    [((t >>> 24) &&& 0xff).truncate 8, ((t >>> 16) &&& 0xff).truncate 8,
     ((t >>> 8) &&& 0xff).truncate 8, (t &&& 0xff).truncate 8]

/-- mln_websocket_client_handshake_key_generate, lines 461-486; the inner `none` is NULL. -/
def keyGenerate (e : Env) : Option (Option (List Byte)) := do
  if !e.ok 40 then some none
  else
    let k ← Base64.encode (keyBytes e)
    if !e.ok 41 then some none else some (some k)

/-- mln_websocket_handshake_request_generate, lines 405-459.  The tests `< 0` of the values of
mln_http_field_set are never true (they are 0 and 2). -/
def request (e : Env) (ws : Ws) (out : List (List Byte)) (tail : Option Nat) : Option Out :=
  if !e.ok 50 then some (.failed, ws, out)
  else if ws.args ≠ none ∧ !e.ok 51 then some (.failed, ws, out)
  else do
    let h : Http := { reset ws.http with
      method := 0, version := 1, type := REQUEST, uri := some (ws.uri.getD (b! "/")), args := ws.args }
    let k ← keyGenerate e
    match k with
    | none => some (.failed, { ws with http := h }, out)
    | some key =>
      let h := (put e 36 h kKey key).2
      let h := (put e 39 h kUpgrade websocket).2
      let h := (put e 42 h kConnection kUpgrade).2
      let h := (put e 45 h kVersion (b! "13")).2
      finish e ws h out tail

end Verif.WsHand
