import Verif.Str
/-
Model of src/mln_http.c: the parser and the generator of HTTP messages and the header fields.

Simplifications:
* a chain is the list of its nodes, a node is a buffer or none (`c->buf == NULL`), a buffer is
  the bytes from `left_pos` to `last` and the mark `in_file`; a chain that is written is the list of
  the contents of its buffers; the marks `last_buf` and `last_in_chain` are left out;
* the table of header fields has a fixed number of 31 buckets (`expandable` is 0), so it is the
  list of its entries in order of insertion, and a search looks for the first entry in the same
  bucket with the same name up to case;
* each allocation is a Boolean; what is freed is left out;
* lengths stay below 2^32.
-/
namespace Verif.Http

abbrev Byte := BitVec 8

/-- The bytes of a string literal. -/
macro "b!" s:str : term => do
  let elems ← s.getString.toUTF8.toList.toArray.mapM fun b =>
    `((BitVec.ofNat 8 $(Lean.quote b.toNat)))
  `(([$elems,*] : List (BitVec 8)))

/-- mln_buf_t. -/
structure Buf where
  inFile : Bool
  left : List Byte
deriving DecidableEq, Repr

/-- mln_chain_t. -/
abbrev Chain := List (Option Buf)

/-- Return values, include/mln_http.h lines 21-23. -/
def OK : Nat := 0
def DONE : Nat := 1
def ERROR : Nat := 2

/-- Types, include/mln_http.h lines 17-19. -/
def UNKNOWN : Nat := 0
def REQUEST : Nat := 1
def RESPONSE : Nat := 2

/-- M_HTTP_BAD_REQUEST, M_HTTP_INTERNAL_SERVER_ERROR, M_HTTP_UNPARSEABLE_RESPONSE_HEADERS. -/
def BAD : Nat := 400
def INTERNAL : Nat := 500
def UNPARSEABLE : Nat := 600

/-- http_version, lines 51-54. -/
def versions : List (List Byte) := [b! "HTTP/1.0", b! "HTTP/1.1"]

/-- http_method, lines 56-65. -/
def methods : List (List Byte) :=
  [b! "GET", b! "POST", b! "HEAD", b! "PUT", b! "DELETE", b! "TRACE", b! "CONNECT", b! "OPTIONS"]

/-- mln_http_status, lines 67-124: code and message. -/
def statuses : List (Nat × List Byte × List Byte) :=
  [(100, b! "100", b! "Continue"), (101, b! "101", b! "Switching Protocols"),
   (102, b! "102", b! "Processing"), (200, b! "200", b! "OK"), (201, b! "201", b! "Created"),
   (202, b! "202", b! "Accepted"), (203, b! "203", b! "Non-Authoritative Information"),
   (204, b! "204", b! "No Content"), (205, b! "205", b! "Reset Content"),
   (206, b! "206", b! "Partial Content"), (207, b! "207", b! "Multi-Status"),
   (300, b! "300", b! "Multiple Choices"), (301, b! "301", b! "Moved Permanently"),
   (302, b! "302", b! "Move temporarily"), (303, b! "303", b! "See Other"),
   (304, b! "304", b! "Not Modified"), (305, b! "305", b! "Use Proxy"),
   (306, b! "306", b! "Switch Proxy"), (307, b! "307", b! "Temporary Redirect"),
   (400, b! "400", b! "Bad Request"), (401, b! "401", b! "Unauthorized"),
   (402, b! "402", b! "Payment Required"), (403, b! "403", b! "Forbidden"),
   (404, b! "404", b! "Not Found"), (405, b! "405", b! "Method Not Allowed"),
   (406, b! "406", b! "Not Acceptable"), (407, b! "407", b! "Proxy Authentication Required"),
   (408, b! "408", b! "Request Timeout"), (409, b! "409", b! "Conflict"), (410, b! "410", b! "Gone"),
   (411, b! "411", b! "Length Required"), (412, b! "412", b! "Precondition Failed"),
   (413, b! "413", b! "Request Entity Too Large"), (414, b! "414", b! "Request-URI Too Long"),
   (415, b! "415", b! "Unsupported Media Type"),
   (416, b! "416", b! "Requested Range Not Satisfiable"), (417, b! "417", b! "Expectation Failed"),
   (421, b! "421", b! "There are too many connections from your internet address"),
   (422, b! "422", b! "Unprocessable Entity"), (423, b! "423", b! "Locked"),
   (424, b! "424", b! "Failed Dependency"), (425, b! "425", b! "Unordered Collection"),
   (426, b! "426", b! "Upgrade Required"), (449, b! "449", b! "Retry With"),
   (500, b! "500", b! "Internal Server Error"), (501, b! "501", b! "Not Implemented"),
   (502, b! "502", b! "Bad Gateway"), (503, b! "503", b! "Service Unavailable"),
   (504, b! "504", b! "Gateway Timeout"), (505, b! "505", b! "HTTP Version Not Supported"),
   (506, b! "506", b! "Variant Also Negotiates"), (507, b! "507", b! "Insufficient Storage"),
   (509, b! "509", b! "Bandwidth Limit Exceeded"), (510, b! "510", b! "Not Extended"),
   (600, b! "600", b! "Unparseable Response Headers")]

/-- mln_http_t, include/mln_http.h lines 105-123. -/
structure Http where
  type : Nat := 0
  method : Nat := 0
  version : Nat := 0
  status : Nat := 200
  error : Nat := 200
  uri : Option (List Byte) := none
  args : Option (List Byte) := none
  msg : Option (List Byte) := none
  fields : List (List Byte × Option (List Byte)) := []
  body : List (List Byte) := []
  done : Bool := false
deriving DecidableEq, Repr

/-- mln_http_hash_calc, lines 988-998. -/
def bucket (k : List Byte) : Nat := (k.map (fun b => b.toNat * 3)).sum % 2 ^ 64 % 31

/-- !mln_string_strcasecmp on strings in different places. -/
def caseEq (a b : List Byte) : Bool := Str.strcasecmp false a b = some 0

/-- The test of a search: the bucket of the key (mln_http_hash_calc), then the names
(mln_http_hash_cmp, lines 1000-1004). -/
def hit (k : List Byte) (e : List Byte × Option (List Byte)) : Bool :=
  bucket k = bucket e.1 && caseEq k e.1

/-! ## Parsing -/

/-- mln_http_line_length, lines 149-177: the bytes before the first newline; `none` is
M_HTTP_RET_OK. -/
def lineLength : Chain → Nat → Option Nat
  | [], _ => none
  | none :: c, n => lineLength c n
  | some b :: c, n =>
    if b.inFile ∨ b.left = [] then lineLength c n
    else
      let l := (b.left.takeWhile (fun x => x ≠ 10#8)).length
      if l = b.left.length then lineLength c (n + l) else some (n + l)

/-- The loop of mln_http_process_line, lines 198-213: the bytes copied and the chain left. -/
def copyLine : Chain → List Byte × Chain
  | [] => ([], [])
  | none :: c => copyLine c
  | some b :: c =>
    if b.inFile ∨ b.left = [] then copyLine c
    else
      let l := b.left.takeWhile (fun x => x ≠ 10#8)
      if l.length = b.left.length then
        let (r, c') := copyLine c
        (l ++ r, c')
      else (l, some { b with left := b.left.drop (l.length + 1) } :: c)

/-- Lines 215-217: zeros at the end go, but for the first byte. -/
def trimZeros : List Byte → List Byte
  | [] => []
  | b :: bs => b :: (bs.reverse.dropWhile (fun x => x = 0#8)).reverse

/-- A blank. -/
def blank (b : Byte) : Bool := b = 32#8 || b = 9#8

/-- The outcomes of the allocations of one line. -/
structure Al where
  buf : Bool := true
  uri : Bool := true
  args : Bool := true
  msg : Bool := true
  name : Bool := true
  value : Bool := true
  insert : Bool := true

/-- mln_http_atou, lines 869-882; `none` is M_HTTP_RET_ERROR. -/
def atou : Nat → List Byte → Option Nat
  | st, [] => some st
  | st, b :: bs =>
    if 48 ≤ b.toNat ∧ b.toNat ≤ 57 then atou ((st * 10 % 2 ^ 32 + (b.toNat - 48)) % 2 ^ 32) bs else none

/-- The search in http_version and http_method. -/
def indexOf (l : List (List Byte)) (s : List Byte) : Option Nat := l.findIdx? (fun v => caseEq s v)

/-- The third part of the first line, lines 345-380. -/
def headThird (a : Al) (h : Http) (buf : List Byte) : Nat × Http :=
  let buf := buf.dropWhile blank
  if buf = [] then
    if h.type = REQUEST then (OK, { h with version := 0 }) else (OK, { h with msg := none })
  else if h.type = REQUEST then
    match indexOf versions buf with
    | none => (ERROR, { h with error := BAD })
    | some v => (OK, { h with version := v })
  else if !a.msg then (ERROR, { h with error := INTERNAL })
  else (OK, { h with msg := some buf })

/-- The second part of the first line of a request, lines 302-332. -/
def headUri (a : Al) (h : Http) (buf : List Byte) : Nat × Http :=
  let tok := buf.takeWhile (fun b => !blank b)
  let rest := buf.dropWhile (fun b => !blank b)
  let u := tok.takeWhile (fun b => b ≠ 63#8)
  let q := tok.dropWhile (fun b => b ≠ 63#8)
  if q.length ≤ 1 then
    if !a.uri then (ERROR, { h with error := INTERNAL })
    else headThird a { h with uri := some u, args := none } rest
  else if !a.uri then (ERROR, { h with error := INTERNAL })
  else if !a.args then (ERROR, { h with uri := some u, error := INTERNAL })
  else headThird a { h with uri := some u, args := some (q.drop 1) } rest

/-- The second part of the first line of a response, lines 333-343. -/
def headStatus (a : Al) (h : Http) (buf : List Byte) : Nat × Http :=
  match atou 0 (buf.takeWhile (fun b => !blank b)) with
  | none => (ERROR, { h with error := UNPARSEABLE })
  | some st => headThird a { h with status := st } (buf.dropWhile (fun b => !blank b))

/-- The second part of the first line, lines 287-343. -/
def headSecond (a : Al) (h : Http) (buf : List Byte) : Nat × Http :=
  let buf := buf.dropWhile blank
  if buf = [] then
    (ERROR, { h with error := if h.type = REQUEST then BAD else UNPARSEABLE })
  else if h.type = REQUEST then headUri a h buf
  else headStatus a h buf

/-- mln_http_parse_headline, lines 240-381. -/
def parseHeadline (a : Al) (h : Http) (buf : List Byte) : Nat × Http :=
  let buf := buf.dropWhile blank
  if buf = [] then (OK, { h with done := true })
  else
    let tok := buf.takeWhile (fun b => !blank b)
    let rest := buf.dropWhile (fun b => !blank b)
    match indexOf versions tok with
    | some v => headSecond a { h with type := RESPONSE, version := v } rest
    | none =>
      match indexOf methods tok with
      | some m => headSecond a { h with type := REQUEST, method := m } rest
      | none => (ERROR, { h with error := BAD })

/-- mln_hash_insert into the header fields. -/
def insertField (a : Al) (h : Http) (k : List Byte) (v : Option (List Byte)) : Nat × Http :=
  if a.insert then (OK, { h with fields := h.fields ++ [(k, v)] })
  else (ERROR, { h with error := INTERNAL })

/-- The error of a bad field. -/
def badField (h : Http) : Http := { h with error := if h.type = REQUEST then BAD else UNPARSEABLE }

/-- mln_http_parse_field, lines 383-474. -/
def parseField (a : Al) (h : Http) (buf : List Byte) : Nat × Http :=
  let buf := buf.dropWhile blank
  if buf = [] then (OK, { h with done := true })
  else
    let name := buf.takeWhile (fun b => !blank b && b ≠ 58#8)
    if name = [] then (ERROR, badField h)
    else if !a.name then (ERROR, { h with error := INTERNAL })
    else
      match (buf.drop name.length).dropWhile blank with
      | [] => insertField a h name none
      | c :: rest =>
        if c ≠ 58#8 then (ERROR, badField h)
        else
          let v := rest.dropWhile blank
          if v = [] then insertField a h name none
          else if !a.value then (ERROR, { h with error := INTERNAL })
          else insertField a h name (some v)

/-- mln_http_process_line, lines 179-238.  `none`: a byte is written behind the buffer of
`len + 1` bytes, or bytes of it are read that were not written. -/
def processLine (a : Al) (h : Http) (c : Chain) (len : Nat) : Option (Nat × Http × Chain) :=
  if !a.buf then some (ERROR, { h with error := INTERNAL }, c)
  else
    let (line, c') := copyLine c
    if line.length ≠ len then none
    else
      let line := trimZeros line
      if line = [] ∨ line = [13#8] then some (OK, { h with done := true }, c')
      else
        let line := if line.getLast? = some 13#8 then line.dropLast else line
        let (r, h') := if h.type = UNKNOWN then parseHeadline a h line else parseField a h line
        some (r, h', c')

/-- A body handler: the value, the message and the chain after it. -/
abbrev Handler := Http → Chain → Nat × Http × Chain

/-- The end of mln_http_parse, lines 142-146: the handler with the value `ret`. -/
def finish (hd : Option Handler) (ret : Nat) (h : Http) (c : Chain) : Nat × Http × Chain :=
  let (ret, h, c) := match hd with
    | some f => f h c
    | none => (ret, h, c)
  if ret = DONE then (ret, { h with done := false }, c) else (ret, h, c)

/-- mln_http_parse, lines 127-147.  Line 137 assigns the value of the comparison to `rc`, so a line
that cannot be parsed gives 1, which is M_HTTP_RET_DONE.  `none`: the fuel is spent, or a line is
copied wrongly. -/
def parse (hd : Option Handler) : Nat → List Al → Http → Chain → Option (Nat × Http × Chain)
  | 0, _, _, _ => none
  | n + 1, as, h, c =>
    if h.done then some (finish hd DONE h c)
    else
      match lineLength c 0 with
      | none => some (OK, h, c)
      | some len => do
        let (r, h, c) ← processLine (as.headD {}) h c len
        if r = ERROR then some (1, h, c) else parse hd n as.tail h c

/-! ## Header fields -/

/-- mln_http_field_get, lines 809-818: the value, `none` is NULL. -/
def fieldGet (h : Http) (k : List Byte) : Option (List Byte) :=
  match h.fields.find? (hit k) with
  | some e => e.2
  | none => none

/-- mln_hash_update on the list of entries. -/
def updateField (k v : List Byte) : List (List Byte × Option (List Byte)) →
    List (List Byte × Option (List Byte))
  | [] => []
  | e :: es => if hit k e then (k, some v) :: es else e :: updateField k v es

/-- mln_http_field_set, lines 781-807; `val` is not NULL. -/
def fieldSet (okKey okVal okNew : Bool) (h : Http) (k v : List Byte) : Nat × Http :=
  if !okKey || !okVal then (ERROR, h)
  else if h.fields.any (hit k) then (OK, { h with fields := updateField k v h.fields })
  else if okNew then (OK, { h with fields := h.fields ++ [(k, some v)] })
  else (ERROR, h)

/-- The values mln_hash_search_iterator gives for the key, without NULL. -/
def values (h : Http) (k : List Byte) : List (List Byte) :=
  (h.fields.filter (hit k)).filterMap (·.2)

/-- The second loop of mln_http_field_iterator, lines 842-849. -/
def join : Nat → List (List Byte) → List Byte
  | _, [] => []
  | cnt, v :: vs => v ++ ((if cnt > 1 then [44#8] else []) ++ join (cnt - 1) vs)

/-- mln_http_field_iterator, lines 820-857; `none` is NULL. -/
def fieldIterator (okBuf okDup : Bool) (h : Http) (k : List Byte) : Option (List Byte) :=
  let vs := values h k
  if vs.length < 1 then none
  else if !okBuf || !okDup then none
  else some (join vs.length vs)

/-- mln_hash_remove on the list of entries. -/
def removeField (k : List Byte) (es : List (List Byte × Option (List Byte))) :
    List (List Byte × Option (List Byte)) := es.eraseP (hit k)

/-- The loop of mln_http_field_remove, lines 864-866; the fuel is the number of entries. -/
def removeLoop (k : List Byte) : Nat → List (List Byte × Option (List Byte)) →
    List (List Byte × Option (List Byte))
  | 0, es => es
  | n + 1, es =>
    match es.find? (hit k) with
    | some (_, some _) => removeLoop k n (removeField k es)
    | _ => es

/-- mln_http_field_remove, lines 859-867. -/
def fieldRemove (h : Http) (k : List Byte) : Http :=
  { h with fields := removeLoop k h.fields.length h.fields }

/-- mln_http_reset, lines 954-982. -/
def reset (_ : Http) : Http := {}

/-! ## Generating -/

/-- struct mln_http_chain_s, lines 15-21: the contents of the chain from `head`, the number of
the node `tail` points to, and the bytes left in the buffer. -/
structure Hc where
  out : List (List Byte)
  tail : Option Nat
  left : Nat
deriving DecidableEq, Repr

/-- Lines 621-654: a new buffer after the tail.  `none` is the NULL pointer followed at
line 651. -/
def newBuf (hc : Hc) : Option Hc :=
  if hc.out = [] then some { out := [[]], tail := some 0, left := 1024 }
  else
    match hc.tail with
    | none => none
    | some t => some { out := hc.out.take (t + 1) ++ [[]], tail := some (t + 1), left := 1024 }

/-- Lines 656-675: as many bytes as fit. -/
def fill (hc : Hc) (n : Nat) (buf : List Byte) : Hc :=
  match hc.tail with
  | none => { hc with left := 0 }
  | some t => { hc with out := hc.out.modify t (· ++ buf.take n), left := hc.left - n }

/-- mln_http_generate_write, lines 610-679; the Boolean is success.  `ok` says whether the
allocations for the buffer with a number succeed; the outer `none` is a NULL pointer or the end of
the fuel. -/
def write (ok : Nat → Bool) : Nat → Hc → List Byte → Option (Bool × Hc)
  | 0, _, _ => none
  | n + 1, hc, buf =>
    if buf = [] then some (true, hc)
    else if hc.left = 0 then
      if ok hc.out.length then do
        let hc ← newBuf hc
        let m := min buf.length hc.left
        write ok n (fill hc m buf) (buf.drop m)
      else some (false, hc)
    else
      let m := min buf.length hc.left
      write ok n (fill hc m buf) (buf.drop m)

/-- A sequence of writes that stops at the first failure. -/
def writeAll (ok : Nat → Bool) (hc : Hc) : List (List Byte) → Option (Bool × Hc)
  | [] => some (true, hc)
  | p :: ps => do
    let (r, hc) ← write ok (p.length + 1) hc p
    if r then writeAll ok hc ps else some (false, hc)

/-- The pieces mln_http_generate_uri writes, lines 738-757. -/
def uriPieces (h : Http) : List (List Byte) :=
  (match h.uri with
    | none => [b! "/"]
    | some u => [u]) ++
  (match h.args with
    | none => []
    | some a => [b! "?", a])

/-- The pieces mln_http_generate_fields_hash_iterate_handler writes, lines 759-778. -/
def fieldPieces (e : List Byte × Option (List Byte)) : List (List Byte) :=
  [e.1, b! ": "] ++ (match e.2 with | none => [] | some v => [v]) ++ [b! "\r\n"]

/-- The fields and the empty line, lines 540-548. -/
def tailPieces (h : Http) : List (List Byte) := h.fields.flatMap fieldPieces ++ [b! "\r\n"]

/-- The pieces of the first line, lines 517-538, and the error if one of
mln_http_generate_version (681-699), mln_http_generate_status (701-722) and
mln_http_generate_method (724-736) finds no entry. -/
def headPieces (h : Http) : List (List Byte) × Option Nat :=
  if h.type = RESPONSE then
    match versions[h.version]? with
    | none => ([], some UNPARSEABLE)
    | some v =>
      match statuses.find? (fun s => s.1 = h.status) with
      | none => ([v, b! " "], some UNPARSEABLE)
      | some s => ([v, b! " ", s.2.1, b! " ", s.2.2], none)
  else
    match methods[h.method]? with
    | none => ([], some BAD)
    | some m =>
      match versions[h.version]? with
      | none => ([m, b! " "] ++ uriPieces h ++ [b! " "], some (if h.type = REQUEST then BAD else UNPARSEABLE))
      | some v => ([m, b! " "] ++ uriPieces h ++ [b! " ", v], none)

/-- What mln_http_generate gives: the value, the message, the chain and the number of the node
the tail points to. -/
abbrev Gen := Nat × Http × List (List Byte) × Option Nat

/-- The label `err`, lines 570-573. -/
def genErr (h : Http) : Gen := (ERROR, h, [], none)

/-- The end of mln_http_generate, lines 551-568. -/
def genEnd (h : Http) (hc : Hc) : Option Gen :=
  let out := { h with body := [], done := false, error := 200 }
  if hc.out = [] then some (DONE, out, h.body, if h.body = [] then none else some (h.body.length - 1))
  else
    match hc.tail with
    | none => none
    | some t => some (DONE, out, hc.out.take (t + 1) ++ h.body,
        if h.body = [] then none else some (t + h.body.length))

/-- mln_http_generate from line 517 on. -/
def genWrite (ok : Nat → Bool) (h : Http) (hc : Hc) : Option Gen :=
  match headPieces h with
  | (ps, some e) => do
    let (r, _) ← writeAll ok hc ps
    some (genErr { h with error := if r then e else INTERNAL })
  | (ps, none) => do
    let (r, hc) ← writeAll ok hc (ps ++ [b! "\r\n"] ++ tailPieces h)
    if r then genEnd h hc else some (genErr { h with error := INTERNAL })

/-- mln_http_generate, lines 476-574, with the chain `out` and the node its tail points to.
`none`: a pointer that is NULL or was never set is followed; with the type M_HTTP_UNKNOWN the label
`err` releases the chain from `hc.head`, which is not set yet. -/
def generate (ok : Nat → Bool) (hd : Option (Http → Nat × Http)) (h : Http) (out : List (List Byte))
    (tail : Option Nat) : Option Gen :=
  if h.type = UNKNOWN then none
  else
    let hc : Hc := { out := out, tail := if out = [] then none else tail, left := 0 }
    if !h.done then
      match hd with
      | some f =>
        let (r, h) := f h
        if r = ERROR then some (genErr h)
        else if r = OK then some (OK, { h with error := 200 }, hc.out, hc.tail)
        else genWrite ok { h with done := true } hc
      | none => genWrite ok { h with done := true } hc
    else genWrite ok h hc

end Verif.Http
