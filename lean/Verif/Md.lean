/-
The buffering code shared (textually, up to names) by
  mln_md5_calc     /repo/src/mln_md5.c lines 71-121,
  mln_sha1_calc    /repo/src/mln_sha.c lines 90-140,
  mln_sha256_calc  /repo/src/mln_sha.c lines 385-435.
The three copies differ in the compression function and in the byte order of the
length field; both are parameters here and are instantiated in `Md5.lean`, `Sha.lean`.

`memcpy`/`memset`/array stores into `buf[64]` are checked: `none` is an access outside
the buffer.  The `while` loop carries fuel.  `input` is the list of the `len` bytes
the caller passes.  `len + pos` is not allowed to wrap (it would need a 2^64 byte
buffer); `length` is the 64-bit counter with wrap-around.
-/
namespace Verif.Md

abbrev Byte := BitVec 8

/-- The context structure: chaining value, `length`, `pos`, `buf`. -/
structure Ctx (S : Type) where
  st : S
  length : BitVec 64
  pos : Nat
  buf : List Byte

/-- What distinguishes the three hashes: initial value, compression function
(`*_calc_block` reading `buf`), and the eight stores of `length` into `buf[56..63]`. -/
structure Alg (S : Type) where
  init : S
  block : S → List Byte → S
  lenBytes : BitVec 64 → List Byte

/-- `memcpy(&buf[pos], src, len)` into the 64 byte buffer. -/
def store (buf : List Byte) (pos : Nat) (src : List Byte) : Option (List Byte) :=
  if pos + src.length ≤ buf.length then some (buf.take pos ++ src ++ buf.drop (pos + src.length))
  else none

variable {S : Type} (A : Alg S)

/-- `*_init`: `buf` keeps whatever it contained. -/
def start (buf : List Byte) : Ctx S := { st := A.init, length := 0, pos := 0, buf := buf }

/-- The loop `while (len + pos > 64)`. Returns the context and the remaining input. -/
def absorb : Nat → Ctx S → List Byte → Option (Ctx S × List Byte)
  | 0, _, _ => none
  | fuel + 1, m, input =>
    if input.length + m.pos > 64 then
      if m.pos > 64 then none  -- `size` would wrap around
      else do
        let size := 64 - m.pos
        let buf ← store m.buf m.pos (input.take size)
        absorb fuel { m with st := A.block m.st buf, buf := buf, pos := 0 } (input.drop size)
    else some (m, input)

/-- The `is_last` branch. -/
def finish (m : Ctx S) : Option (Ctx S) := do
  let m : Ctx S ←
    if m.pos < 56 then do
      let buf ← store m.buf m.pos (List.replicate (56 - m.pos) 0)
      let buf ← store buf m.pos [0x80]
      some { m with buf := buf }
    else if m.pos < 64 then do
      let buf ← store m.buf m.pos (List.replicate (64 - m.pos) 0)
      let buf ← store buf m.pos [0x80]
      let st := A.block m.st buf
      let buf ← store buf 0 (List.replicate 56 0)
      some { m with st := st, pos := 0, buf := buf }
    else do
      let st := A.block m.st m.buf
      let buf ← store m.buf 0 (List.replicate 56 0)
      let buf ← store buf 0 [0x80]
      some { m with st := st, pos := 0, buf := buf }
  let length : BitVec 64 := m.length <<< (3 : Nat)
  let buf ← store m.buf 56 (A.lenBytes length)
  some { st := A.block m.st buf, length := length, pos := 0, buf := buf }

/-- `*_calc`. -/
def update (m : Ctx S) (input : List Byte) (isLast : Bool) : Option (Ctx S) := do
  let m := { m with length := m.length + BitVec.ofNat 64 input.length }
  let (m, input) ← absorb A (input.length + 2) m input
  let m ←
    if input.length > 0 then do
      let buf ← store m.buf m.pos input
      some { m with buf := buf, pos := m.pos + input.length }
    else some m
  if isLast then finish A m else some m

/-- A caller feeding pieces, the last one flagged. -/
def feed : Ctx S → List (List Byte) → List Byte → Option (Ctx S)
  | m, [], last => update A m last true
  | m, p :: ps, last => do
    let m ← update A m p false
    feed m ps last

/-- A run of `buf[i++] = b; if (i >= len) return;` (flag set) or `buf[i++] = b;` (flag
clear), the shape of all `*_tobytes` bodies. -/
def exportBytes : List (Byte × Bool) → Nat → Nat → List Byte → Option (List Byte)
  | [], _, _, buf => some buf
  | (b, chk) :: rest, len, i, buf => do
    let buf ← store buf i [b]
    if chk && decide (i + 1 ≥ len) then some buf else exportBytes rest len (i + 1) buf

/-- mln_md5_hex_tostring (mln_md5.c lines 254-256), mln_sha_hex_tostring (mln_sha.c
lines 52-54). -/
def hexDigit (c : Byte) : Byte := if c.toNat < 10 then 0x30 + c else 0x61 + (c - 10)

/-- `for (i = 0; i < len; ++i) { *buf++ = hex(hi); *buf++ = hex(lo); } *buf = 0;` with
`at` the current offset of `buf`. -/
def hexLoop : List Byte → Nat → List Byte → Option (List Byte)
  | [], at', buf => store buf at' [0]
  | b :: bs, at', buf => do
    let buf ← store buf at' [hexDigit ((b >>> 4) &&& 0xf)]
    let buf ← store buf (at' + 1) [hexDigit (b &&& 0xf)]
    hexLoop bs (at' + 2) buf

/-- The common body of `*_tostring`: `n` is `sizeof(bytes)`. -/
def exportHex (bytes : Option (List Byte)) (n : Nat) (buf : List Byte) (len : Nat) : Option (List Byte) :=
  if len = 0 then some buf
  else do
    let bytes ← bytes
    let k := if len > 2 * n then n else (len - 1) / 2
    hexLoop (bytes.take k) 0 buf

/-! ### Specification: Merkle–Damgård with the 0x80 / zeros / 64-bit length padding -/

/-- Fold a compression function over consecutive 64-byte blocks. -/
def foldBlocks (f : S → List Byte → S) (s : S) (l : List Byte) : S :=
  if l.length = 0 then s else foldBlocks f (f s (l.take 64)) (l.drop 64)
termination_by l.length
decreasing_by simp; omega

/-- RFC 1321 section 3.1-3.2, FIPS 180-4 section 5.1.1: one bit, then the least number
of zeros such that the length field ends a block, then the bit length modulo 2^64. -/
def pad (lenBytes : BitVec 64 → List Byte) (msg : List Byte) : List Byte :=
  msg ++ 0x80 :: List.replicate ((119 - msg.length % 64) % 64) 0 ++
    lenBytes (BitVec.ofNat 64 (8 * msg.length))

/-! ### Lemmas -/

theorem foldBlocks_nil (f : S → List Byte → S) (s : S) : foldBlocks f s [] = s := by
  rw [foldBlocks]; simp

theorem foldBlocks_block (f : S → List Byte → S) (s : S) (b l : List Byte) (h : b.length = 64) :
    foldBlocks f s (b ++ l) = foldBlocks f (f s b) l := by
  rw [foldBlocks, if_neg (by rw [List.length_append]; omega), ← h, List.take_left, List.drop_left]

theorem foldBlocks_one (f : S → List Byte → S) (s : S) (b : List Byte) (h : b.length = 64) :
    foldBlocks f s b = f s b := by
  have := foldBlocks_block f s b [] h
  rw [List.append_nil, foldBlocks_nil] at this
  exact this

theorem foldBlocks_append (f : S → List Byte → S) (n : Nat) : ∀ (s : S) (p q : List Byte), p.length = 64 * n →
    foldBlocks f s (p ++ q) = foldBlocks f (foldBlocks f s p) q := by
  induction n with
  | zero => intro s p q h; simp at h; subst h; simp [foldBlocks_nil]
  | succ n ih =>
    intro s p q h
    have hp : p = p.take 64 ++ p.drop 64 := (List.take_append_drop 64 p).symm
    have h1 : (p.take 64).length = 64 := by simp; omega
    rw [hp, List.append_assoc, foldBlocks_block _ _ _ _ h1, foldBlocks_block _ _ _ _ h1]
    exact ih _ _ _ (by simp; omega)

theorem store_eq (pre mid post src : List Byte) (pos : Nat) (hp : pos = pre.length) (hm : mid.length = src.length) :
    store (pre ++ mid ++ post) pos src = some (pre ++ src ++ post) := by
  subst hp
  unfold store
  have e : pre.length + src.length = (pre ++ mid).length := by simp [hm]
  rw [if_pos (by simp; omega), e, List.drop_left, List.append_assoc pre mid post, List.take_left]

theorem store_len {buf : List Byte} {pos : Nat} {src r : List Byte} (h : store buf pos src = some r) :
    r.length = buf.length := by
  unfold store at h
  split at h
  · injection h with h; subst h; simp; omega
  · cases h

/-- The context after `msg` has been fed: complete blocks are compressed, the rest is
in the buffer (which may be completely full). -/
def Inv (m : Ctx S) (msg : List Byte) : Prop :=
  ∃ d t, msg = d ++ t ∧ (∃ n, d.length = 64 * n) ∧ m.st = foldBlocks A.block A.init d ∧
    m.length = BitVec.ofNat 64 msg.length ∧ m.pos = t.length ∧ (∃ r, m.buf = t ++ r) ∧ m.buf.length = 64

theorem inv_start (buf : List Byte) (h : buf.length = 64) : Inv A (start A buf) [] :=
  ⟨[], [], rfl, ⟨0, rfl⟩, by simp [start, foldBlocks_nil], by simp [start], rfl, ⟨buf, rfl⟩, h⟩

theorem absorb_ok : ∀ (fuel : Nat) (m : Ctx S) (input d t : List Byte) (n : Nat),
    d.length = 64 * n → m.st = foldBlocks A.block A.init d → m.pos = t.length → (∃ r, m.buf = t ++ r) →
    m.buf.length = 64 → input.length + (if t.length = 64 then 1 else 0) < fuel →
    ∃ m' d' t' rest n', absorb A fuel m input = some (m', rest) ∧ d ++ t ++ input = d' ++ t' ++ rest ∧
      d'.length = 64 * n' ∧ m'.st = foldBlocks A.block A.init d' ∧ m'.pos = t'.length ∧
      (∃ r, m'.buf = t' ++ r) ∧ m'.buf.length = 64 ∧ t'.length + rest.length ≤ 64 ∧ m'.length = m.length := by
  intro fuel
  induction fuel with
  | zero => intro m input d t n _ _ _ _ _ h; omega
  | succ fuel ih =>
    intro m input d t n hd hst hpos hbuf hlen hf
    obtain ⟨r, hr⟩ := hbuf
    have htl : t.length + r.length = 64 := by rw [← hlen, hr]; simp
    unfold absorb
    by_cases hc : input.length + m.pos > 64
    · rw [if_pos hc, if_neg (by omega)]
      have hs : store m.buf m.pos (input.take (64 - m.pos)) = some (t ++ input.take (64 - m.pos)) := by
        have := store_eq t r [] (input.take (64 - m.pos)) m.pos hpos (by simp; omega)
        simpa [hr] using this
      simp only [hs, Option.bind_eq_bind, Option.bind_some]
      have hbl : (t ++ input.take (64 - m.pos)).length = 64 := by simp; omega
      obtain ⟨m', d', t', rest, n', h1, h2, h3⟩ := ih
        { m with st := A.block m.st (t ++ input.take (64 - m.pos)), buf := t ++ input.take (64 - m.pos), pos := 0 }
        (input.drop (64 - m.pos)) (d ++ (t ++ input.take (64 - m.pos))) [] (n + 1)
        (by rw [List.length_append, hbl, hd]; omega)
        (by
          rw [foldBlocks_append _ n _ _ _ hd, ← hst, foldBlocks_one _ _ _ hbl])
        rfl ⟨_, rfl⟩ hbl (by
          simp only [List.length_nil, List.length_drop]
          split at hf <;> simp <;> omega)
      refine ⟨m', d', t', rest, n', h1, ?_, h3⟩
      rw [← h2]; simp
    · rw [if_neg hc]
      exact ⟨m, d, t, input, n, rfl, rfl, hd, hst, hpos, ⟨r, hr⟩, hlen, by omega, rfl⟩

theorem update_ok (m : Ctx S) (msg input : List Byte) (h : Inv A m msg) :
    ∃ m', update A m input false = some m' ∧ Inv A m' (msg ++ input) ∧
      update A m input true = finish A m' := by
  obtain ⟨d, t, h1, ⟨n, h2⟩, h3, h4, h5, h6, h7⟩ := h
  obtain ⟨m1, d', t', rest, n', k1, k2, k3, k4, k5, ⟨r, k6⟩, k7, k8, k9⟩ := absorb_ok A (input.length + 2)
    { m with length := m.length + BitVec.ofNat 64 input.length } input d t n h2 h3 h5 h6 h7 (by split <;> omega)
  have htl : t'.length + r.length = 64 := by rw [← k7, k6]; simp
  unfold update
  simp only [k1, Option.bind_eq_bind, Option.bind_some]
  have hmsg : msg ++ input = d' ++ (t' ++ rest) := by rw [h1, k2, List.append_assoc]
  have hlen : m1.length = BitVec.ofNat 64 (msg ++ input).length := by
    rw [k9]; simp only [h4, List.length_append, BitVec.ofNat_add]
  by_cases hr : rest.length > 0
  · have hs : store m1.buf m1.pos rest = some (t' ++ rest ++ r.drop rest.length) := by
      have := store_eq t' (r.take rest.length) (r.drop rest.length) rest m1.pos k5 (by simp; omega)
      rwa [List.append_assoc, List.take_append_drop, ← k6] at this
    simp only [if_pos hr, hs, Option.bind_some]
    refine ⟨_, rfl, ⟨d', t' ++ rest, hmsg, ⟨n', k3⟩, k4, hlen, ?_, ⟨_, rfl⟩, ?_⟩, rfl⟩
    · simp [k5]
    · simp; omega
  · have : rest = [] := by simpa using hr
    subst this
    simp only [if_neg hr]
    refine ⟨_, rfl, ⟨d', t', by rw [hmsg]; simp, ⟨n', k3⟩, k4, hlen, k5, ⟨r, k6⟩, k7⟩, rfl⟩

theorem shl3 (n : Nat) : (BitVec.ofNat 64 n) <<< 3 = BitVec.ofNat 64 (8 * n) := by
  apply BitVec.eq_of_toNat_eq
  simp [BitVec.toNat_shiftLeft, Nat.shiftLeft_eq]
  omega

/-- Padding in the buffer: bytes `t`, then 0x80, then `k` zeros, then `post`. -/
theorem store_pad (t r post : List Byte) (k : Nat) (h : r.length = k + 1) :
    (store (t ++ r ++ post) t.length (List.replicate (k + 1) 0)).bind (fun b => store b t.length [0x80]) =
      some (t ++ 0x80 :: List.replicate k 0 ++ post) := by
  rw [store_eq t r post _ _ rfl (by simp [h]), Option.bind_some]
  have := store_eq t [0] (List.replicate k 0 ++ post) [0x80] t.length rfl rfl
  simpa [List.replicate_succ] using this

theorem finish_ok (hl : ∀ x, (A.lenBytes x).length = 8) (m : Ctx S) (msg : List Byte) (h : Inv A m msg) :
    ∃ m', finish A m = some m' ∧ m'.st = foldBlocks A.block A.init (pad A.lenBytes msg) := by
  obtain ⟨d, t, h1, ⟨n, h2⟩, h3, h4, h5, ⟨r, h6⟩, h7⟩ := h
  have htl : t.length + r.length = 64 := by rw [← h7, h6]; simp
  have hlb : m.length <<< 3 = BitVec.ofNat 64 (8 * msg.length) := by rw [h4, shl3]
  have hml : msg.length % 64 = t.length % 64 := by rw [h1]; simp; omega
  generalize hL : A.lenBytes (BitVec.ofNat 64 (8 * msg.length)) = L
  have hLl : L.length = 8 := by rw [← hL]; exact hl _
  have hpad : pad A.lenBytes msg = d ++ (t ++ 0x80 :: List.replicate ((119 - t.length % 64) % 64) 0 ++ L) := by
    unfold pad; rw [hL, hml, h1]; simp
  rw [hpad, foldBlocks_append _ n _ _ _ h2, ← h3]
  unfold finish
  by_cases c1 : t.length < 56
  · have e1 : (119 - t.length % 64) % 64 = 55 - t.length := by omega
    obtain ⟨r1, r2, hr, hr1⟩ : ∃ r1 r2, r = r1 ++ r2 ∧ r1.length = 56 - t.length :=
      ⟨r.take (56 - t.length), r.drop (56 - t.length), by simp, by simp; omega⟩
    have hr2 : r2.length = 8 := by
      have := congrArg List.length hr
      simp at this; omega
    have hs := store_pad t r1 r2 (55 - t.length) (by omega)
    rw [show 55 - t.length + 1 = 56 - t.length by omega, List.append_assoc, ← hr, ← h6] at hs
    rw [Option.bind_eq_some_iff] at hs
    obtain ⟨b, hs1, hs2⟩ := hs
    have hs3 := store_eq (t ++ 0x80 :: List.replicate (55 - t.length) 0) r2 [] L 56 (by simp; omega) (by rw [hr2, hLl])
    rw [List.append_nil, List.append_nil] at hs3
    simp only [h5, if_pos c1, hs1, hs2, Option.bind_eq_bind, Option.bind_some, hlb, hL, hs3]
    refine ⟨_, rfl, ?_⟩
    rw [e1, foldBlocks_one]
    simp; omega
  · by_cases c2 : t.length < 64
    · have e1 : (119 - t.length % 64) % 64 = 63 - t.length + 56 := by omega
      have hs := store_pad t r [] (63 - t.length) (by omega)
      rw [show 63 - t.length + 1 = 64 - t.length by omega, List.append_nil, List.append_nil, ← h6] at hs
      rw [Option.bind_eq_some_iff] at hs
      obtain ⟨b, hs1, hs2⟩ := hs
      generalize hB : t ++ 0x80 :: List.replicate (63 - t.length) (0 : Byte) = B at hs2
      have hBl : B.length = 64 := by rw [← hB]; simp; omega
      have hs3 := store_eq [] (B.take 56) (B.drop 56) (List.replicate 56 0) 0 rfl (by simp; omega)
      rw [List.nil_append, List.nil_append, List.take_append_drop] at hs3
      have hs4 := store_eq (List.replicate 56 0) (B.drop 56) [] L 56 (by simp) (by simp; omega)
      rw [List.append_nil, List.append_nil] at hs4
      simp only [h5, if_neg c1, if_pos c2, hs1, hs2, hs3, Option.bind_eq_bind, Option.bind_some, hlb, hL, hs4]
      refine ⟨_, rfl, ?_⟩
      have : t ++ 0x80 :: List.replicate (63 - t.length + 56) 0 ++ L = B ++ (List.replicate 56 0 ++ L) := by
        rw [← hB, ← List.replicate_append_replicate]; simp
      rw [e1, this, foldBlocks_block _ _ _ _ hBl, foldBlocks_one]
      simp; omega
    · have e0 : t.length = 64 := by omega
      have e1 : (119 - t.length % 64) % 64 = 55 := by omega
      have hr : r = [] := by
        apply List.eq_nil_of_length_eq_zero; omega
      subst hr
      rw [List.append_nil] at h6
      have hs3 := store_eq [] (t.take 56) (t.drop 56) (List.replicate 56 0) 0 rfl (by simp; omega)
      rw [List.nil_append, List.nil_append, List.take_append_drop] at hs3
      have hs4 := store_eq [] [0] (List.replicate 55 0 ++ t.drop 56) [0x80] 0 rfl rfl
      have hs5 := store_eq (0x80 :: List.replicate 55 0) (t.drop 56) [] L 56 (by simp) (by simp; omega)
      rw [List.append_nil, List.append_nil] at hs5
      simp only [List.nil_append, ← List.append_assoc] at hs4
      rw [show ([0] : List Byte) ++ List.replicate 55 0 = List.replicate 56 0 from rfl,
        show ([0x80] : List Byte) ++ List.replicate 55 0 = 0x80 :: List.replicate 55 0 from rfl] at hs4
      simp only [h5, h6, if_neg c1, if_neg c2, hs3, hs4, hs5, Option.bind_eq_bind, Option.bind_some, hlb, hL]
      refine ⟨_, rfl, ?_⟩
      rw [e1, List.append_assoc, foldBlocks_block _ _ _ _ e0, foldBlocks_one]
      simp [hLl]

/-- The generic splitting theorem: whatever the pieces, the final chaining value is the
fold of the compression function over the padded concatenation, and no store leaves
the buffer. -/
theorem feed_ok (hl : ∀ x, (A.lenBytes x).length = 8) : ∀ (ps : List (List Byte)) (m : Ctx S) (msg last : List Byte),
    Inv A m msg → ∃ m', feed A m ps last = some m' ∧
      m'.st = foldBlocks A.block A.init (pad A.lenBytes (msg ++ ps.flatten ++ last)) := by
  intro ps
  induction ps with
  | nil =>
    intro m msg last h
    obtain ⟨m1, k1, k2, k3⟩ := update_ok A m msg last h
    simp only [feed, k3, List.flatten_nil, List.append_nil]
    exact finish_ok A hl m1 _ k2
  | cons p ps ih =>
    intro m msg last h
    obtain ⟨m1, k1, k2, k3⟩ := update_ok A m msg p h
    obtain ⟨m', j1, j2⟩ := ih m1 _ last k2
    refine ⟨m', by simp [feed, k1, j1], ?_⟩
    rw [j2]; simp

/-! ### Exports -/

/-- OR of shifted bytes is concatenation. -/
theorem cat4 (b3 b2 b1 b0 : Byte) : b0.setWidth 32 ||| (b1.setWidth 32 <<< 8) ||| (b2.setWidth 32 <<< 16) ||| (b3.setWidth 32 <<< 24) =
   (b3 ++ (b2 ++ (b1 ++ b0)) : BitVec 32) := by
  apply BitVec.eq_of_getLsbD_eq
  intro i hi
  have e1 : BitVec.getLsbD (b3 ++ (b2 ++ (b1 ++ b0)) : BitVec 32) i = BitVec.getLsbD (b3 ++ (b2 ++ (b1 ++ b0))) i := rfl
  rw [e1]
  simp only [BitVec.getLsbD_append, BitVec.getLsbD_or, BitVec.getLsbD_setWidth, BitVec.getLsbD_shiftLeft, hi, decide_true, Bool.true_and]
  by_cases h0 : i < 8
  · simp [h0, show i < 16 by omega, show i < 24 by omega]
  · have g0 : b0.getLsbD i = false := BitVec.getLsbD_of_ge _ _ (by omega)
    by_cases h1 : i < 16
    · simp [h0, h1, show i < 24 by omega, g0]; omega
    · have g1 : b1.getLsbD (i - 8) = false := BitVec.getLsbD_of_ge _ _ (by omega)
      by_cases h2 : i < 24
      · simp [h0, h1, h2, g0, g1]; omega
      · have g2 : b2.getLsbD (i - 16) = false := BitVec.getLsbD_of_ge _ _ (by omega)
        simp [h0, h1, h2, g0, g1, g2]
        omega

/-- If a length check follows every store that could be the last one allowed, the stores
stay inside the `len`-byte buffer and leave the digest prefix there. -/
theorem exportBytes_ok : ∀ (l : List (Byte × Bool)) (len i : Nat) (buf : List Byte), buf.length = len → i < len →
    (∀ k b, l[k]? = some (b, false) → k + 1 = l.length ∨ i + k + 1 ≠ len) →
    exportBytes l len i buf = some (buf.take i ++ (l.map (·.1)).take (len - i) ++ buf.drop (i + l.length)) := by
  intro l
  induction l with
  | nil => intro len i buf h1 h2 _; simp [exportBytes]
  | cons p rest ih =>
    obtain ⟨b, chk⟩ := p
    intro len i buf h1 h2 h3
    have hs : store buf i [b] = some (buf.take i ++ [b] ++ buf.drop (i + 1)) := by
      unfold store; rw [if_pos (by simp; omega)]; simp
    simp only [exportBytes, hs, Option.bind_eq_bind, Option.bind_some]
    have hlast : buf.drop (i + 1 + rest.length) = [] ∨ i + 1 < len := by
      by_cases h : i + 1 < len
      · exact .inr h
      · exact .inl (by simp; omega)
    by_cases hi : i + 1 < len
    · have : (chk && decide (i + 1 ≥ len)) = false := by
        simp; omega
      rw [this]
      simp only [Bool.false_eq_true, if_false]
      have hbl : (buf.take i ++ [b] ++ buf.drop (i + 1)).length = len := by simp; omega
      have hti : (buf.take i).length = i := by simp; omega
      rw [ih len (i + 1) _ hbl hi (fun k b' hk => by
        rcases h3 (k + 1) b' (by simpa using hk) with h | h
        · left; simpa using h
        · right; omega)]
      have e1 : (buf.take i ++ [b] ++ buf.drop (i + 1)).take (i + 1) = buf.take i ++ [b] := by
        rw [List.take_append_of_le_length (by simp; omega), List.take_of_length_le (by simp; omega)]
      have e2 : (buf.take i ++ [b] ++ buf.drop (i + 1)).drop (i + 1 + rest.length) = buf.drop (i + (rest.length + 1)) := by
        rw [List.drop_append, List.drop_eq_nil_of_le (by simp; omega), List.nil_append, List.drop_drop]
        congr 1
        simp; omega
      rw [e1, e2, List.map_cons, show len - i = (len - (i + 1)) + 1 by omega, List.take_succ_cons]
      simp
    · have hl : len = i + 1 := by omega
      subst hl
      have hfin : (if (chk && decide (i + 1 ≥ i + 1)) = true then some (buf.take i ++ [b] ++ buf.drop (i + 1))
          else exportBytes rest (i + 1) (i + 1) (buf.take i ++ [b] ++ buf.drop (i + 1))) =
          some (buf.take i ++ [b] ++ buf.drop (i + 1)) := by
        cases chk with
        | true => simp
        | false =>
          rcases h3 0 b rfl with h | h
          · have : rest = [] := by simpa using h
            subst this; simp [exportBytes]
          · omega
      rw [hfin]
      simp
      omega

/-- If no length check follows the store that fills the buffer and more stores come, the
next one is outside. -/
theorem exportBytes_overrun : ∀ (l : List (Byte × Bool)) (len i k : Nat) (buf : List Byte) (b : Byte), buf.length = len →
    i + k + 1 = len → l[k]? = some (b, false) → k + 1 < l.length → exportBytes l len i buf = none := by
  intro l
  induction l with
  | nil => intro len i k buf b _ _ h _; simp at h
  | cons p rest ih =>
    obtain ⟨c, chk⟩ := p
    intro len i k buf b h1 h2 h3 h4
    have hs : store buf i [c] = some (buf.take i ++ [c] ++ buf.drop (i + 1)) := by
      unfold store; rw [if_pos (by simp; omega)]; simp
    have hbl : (buf.take i ++ [c] ++ buf.drop (i + 1)).length = len := by simp; omega
    simp only [exportBytes, hs, Option.bind_eq_bind, Option.bind_some]
    cases k with
    | zero =>
      simp only [List.getElem?_cons_zero, Option.some.injEq, Prod.mk.injEq] at h3
      rw [h3.2]
      simp only [Bool.false_and, Bool.false_eq_true, if_false]
      match rest, h4 with
      | (d, chk') :: rest, _ =>
        have : store (buf.take i ++ [c] ++ buf.drop (i + 1)) (i + 1) [d] = none := by
          unfold store; rw [if_neg]; rw [hbl]; simp; omega
        simp only [exportBytes, this, Option.bind_eq_bind, Option.bind_none]
    | succ k =>
      have : (chk && decide (i + 1 ≥ len)) = false := by simp; omega
      rw [this]
      simp only [Bool.false_eq_true, if_false]
      exact ih len (i + 1) k _ b hbl (by omega) (by simpa using h3) (by simpa using h4)

/-- Specification of the hexadecimal rendering: two lower-case digits per byte. -/
def hexSpec (l : List Byte) : List Byte :=
  l.flatMap fun b => [b.toNat / 16, b.toNat % 16].map fun d => (("0123456789abcdef".toList.map fun c => BitVec.ofNat 8 c.toNat).getD d 0)

theorem hex_ok : ∀ b : Byte, [hexDigit ((b >>> 4) &&& 0xf), hexDigit (b &&& 0xf)] = hexSpec [b] := by decide +kernel

theorem hexLoop_ok : ∀ (bs d r : List Byte), 2 * bs.length < r.length →
    hexLoop bs d.length (d ++ r) = some (d ++ hexSpec bs ++ 0 :: r.drop (2 * bs.length + 1)) := by
  intro bs
  induction bs with
  | nil =>
    intro d r h
    match r, h with
    | x :: r, _ =>
      have := store_eq d [x] r [0] d.length rfl rfl
      simpa [hexLoop, hexSpec] using this
  | cons b bs ih =>
    intro d r h
    match r, h with
    | x :: y :: r, h =>
      have e1 := store_eq d [x] (y :: r) [hexDigit ((b >>> 4) &&& 0xf)] d.length rfl rfl
      have e2 := store_eq (d ++ [hexDigit ((b >>> 4) &&& 0xf)]) [y] r [hexDigit (b &&& 0xf)] (d.length + 1) (by simp) rfl
      have e3 := ih (d ++ [hexDigit ((b >>> 4) &&& 0xf), hexDigit (b &&& 0xf)]) r (by simp at h; omega)
      simp only [List.append_assoc, List.cons_append, List.nil_append, List.length_append, List.length_cons, List.length_nil] at e1 e2 e3 ⊢
      simp only [hexLoop, e1, e2, Option.bind_eq_bind, Option.bind_some]
      rw [e3, show 2 * (bs.length + 1) + 1 = (2 * bs.length + 1) + 2 by omega]
      rw [show hexSpec (b :: bs) = hexSpec [b] ++ hexSpec bs by simp [hexSpec], ← hex_ok]
      simp
    | [_], h => simp at h
    | [], h => simp at h

/-- `*_tostring` with a `len`-byte buffer: as many complete bytes as fit, NUL-terminated. -/
theorem exportHex_ok (bytes : List Byte) (n : Nat) (hn : bytes.length = n) (buf : List Byte) (len : Nat) (hl : buf.length = len) (h0 : 0 < len) :
    exportHex (some bytes) n buf len = some (hexSpec (bytes.take ((len - 1) / 2)) ++ 0 :: buf.drop (2 * min n ((len - 1) / 2) + 1)) := by
  unfold exportHex
  rw [if_neg (by omega)]
  simp only [Option.bind_eq_bind, Option.bind_some]
  have hk : (if len > 2 * n then n else (len - 1) / 2) = min n ((len - 1) / 2) := by split <;> omega
  rw [hk]
  have := hexLoop_ok (bytes.take (min n ((len - 1) / 2))) [] buf (by simp; omega)
  simp only [List.length_nil, List.nil_append] at this
  rw [this]
  have e : bytes.take (min n ((len - 1) / 2)) = bytes.take ((len - 1) / 2) := by
    rw [← List.take_take, List.take_of_length_le (l := bytes.take _) (by simp; omega)]
  rw [e]
  congr 4
  simp [hn, Nat.min_comm]

end Verif.Md
