import Verif.Md5
/-
C09 (MD5 splitting and conformance to RFC 1321) and the MD5 part of C12.
-/
namespace Verif.Md5
open Verif.Md

/-! ### Specification: RFC 1321 section 3.4 in loop form -/

/-- The constants T[1..64] of RFC 1321 (floor(4294967296 * |sin i|)). -/
def rfcT : List W := [
  0xd76aa478, 0xe8c7b756, 0x242070db, 0xc1bdceee,
  0xf57c0faf, 0x4787c62a, 0xa8304613, 0xfd469501,
  0x698098d8, 0x8b44f7af, 0xffff5bb1, 0x895cd7be,
  0x6b901122, 0xfd987193, 0xa679438e, 0x49b40821,
  0xf61e2562, 0xc040b340, 0x265e5a51, 0xe9b6c7aa,
  0xd62f105d, 0x02441453, 0xd8a1e681, 0xe7d3fbc8,
  0x21e1cde6, 0xc33707d6, 0xf4d50d87, 0x455a14ed,
  0xa9e3e905, 0xfcefa3f8, 0x676f02d9, 0x8d2a4c8a,
  0xfffa3942, 0x8771f681, 0x6d9d6122, 0xfde5380c,
  0xa4beea44, 0x4bdecfa9, 0xf6bb4b60, 0xbebfbc70,
  0x289b7ec6, 0xeaa127fa, 0xd4ef3085, 0x04881d05,
  0xd9d4d039, 0xe6db99e5, 0x1fa27cf8, 0xc4ac5665,
  0xf4292244, 0x432aff97, 0xab9423a7, 0xfc93a039,
  0x655b59c3, 0x8f0ccc92, 0xffeff47d, 0x85845dd1,
  0x6fa87e4f, 0xfe2ce6e0, 0xa3014314, 0x4e0811a1,
  0xf7537e82, 0xbd3af235, 0x2ad7d2bb, 0xeb86d391
]

/-- Shift amounts: round `r`, position `i mod 4`. -/
def rfcS (i : Nat) : Nat :=
  ([[7, 12, 17, 22], [5, 9, 14, 20], [4, 11, 16, 23], [6, 10, 15, 21]].getD (i / 16) []).getD (i % 4) 0

/-- Which message word step `i` uses. -/
def rfcK (i : Nat) : Nat :=
  if i / 16 = 0 then i % 16 else if i / 16 = 1 then (5 * i + 1) % 16 else if i / 16 = 2 then (3 * i + 5) % 16 else 7 * i % 16

/-- The round functions. -/
def rfcFn (i : Nat) (x y z : W) : W :=
  if i / 16 = 0 then (x &&& y) ||| (~~~x &&& z)
  else if i / 16 = 1 then (x &&& z) ||| (y &&& ~~~z)
  else if i / 16 = 2 then x ^^^ y ^^^ z
  else y ^^^ (x ||| ~~~z)

/-- Step `i` on (a, b, c, d): `a' = b + ((a + f(b,c,d) + X[k] + T[i]) <<< s)` and the
registers rotate. -/
def rfcStep (X : Nat → W) (q : W × W × W × W) (i : Nat) : W × W × W × W :=
  (q.2.2.2, q.2.1 + (q.1 + rfcFn i q.2.1 q.2.2.1 q.2.2.2 + X (rfcK i) + rfcT.getD i 0).rotateLeft (rfcS i), q.2.1, q.2.2.1)

/-- Message word `j` of a block: four bytes, low order first. -/
def rfcWord (buf : List Byte) (j : Nat) : W :=
  (buf.getD (4 * j + 3) 0 ++ (buf.getD (4 * j + 2) 0 ++ (buf.getD (4 * j + 1) 0 ++ buf.getD (4 * j) 0)))

/-- One block. -/
def rfcBlock (m : St) (buf : List Byte) : St :=
  let q := (List.range 64).foldl (rfcStep (rfcWord buf)) (m.A, m.B, m.C, m.D)
  { A := m.A + q.1, B := m.B + q.2.1, C := m.C + q.2.2.1, D := m.D + q.2.2.2 }

/-- The eight length bytes, low order first. -/
def rfcLen (x : BitVec 64) : List Byte := (List.range 8).map fun i => BitVec.ofNat 8 (x.toNat / 256 ^ i)

/-- MD5 of a message. -/
def rfcMd5 (msg : List Byte) : St :=
  foldBlocks rfcBlock { A := 0x67452301, B := 0xefcdab89, C := 0x98badcfe, D := 0x10325476 } (pad rfcLen msg)

/-- The 16 digest bytes: A, B, C, D, low order byte first. -/
def rfcBytes (m : St) : List Byte :=
  [m.A, m.B, m.C, m.D].flatMap fun w => (List.range 4).map fun i => BitVec.ofNat 8 (w.toNat / 256 ^ i)

/-! ### The unrolled block function is the RFC loop -/

theorem rotl_eq (x : W) (n : Nat) (h : n < 32) : rotl x n = x.rotateLeft n := by
  unfold rotl BitVec.rotateLeft BitVec.rotateLeftAux
  rw [Nat.mod_eq_of_lt h]

theorem word_eq (buf : List Byte) (j : Nat) : word buf j = rfcWord buf j := cat4 _ _ _ _

/-- The instruction the RFC prescribes at step `i`, in terms of fixed registers. -/
def instrOf (i : Nat) : Instr :=
  { m := if i / 16 = 0 then .FF else if i / 16 = 1 then .GG else if i / 16 = 2 then .HH else .II
    ra := (4 - i % 4) % 4, rb := (5 - i % 4) % 4, rc := (6 - i % 4) % 4, rd := (7 - i % 4) % 4
    g := rfcK i, si := i / 16, sj := i % 4, ti := i / 16, tj := i % 16 }

theorem prog_eq : prog = (List.range 64).map instrOf := by decide +kernel

theorem tab_eq : ∀ i, i < 64 → (tiTab.getD (i / 16) []).getD (i % 16) 0 = rfcT.getD i 0 := by decide +kernel
theorem s_eq : ∀ i, i < 64 → (sTab.getD (i / 16) []).getD (i % 4) 0 = rfcS i ∧ rfcS i < 32 ∧ rfcK i < 16 := by decide +kernel

theorem fn_eq (i : Nat) : (instrOf i).m.fn = rfcFn i := by
  funext x y z
  unfold instrOf rfcFn
  simp only
  split
  · rfl
  · split
    · rfl
    · split <;> rfl

/-- The four registers as seen at step `i`. -/
def view (r : List W) (i : Nat) : W × W × W × W :=
  (r.getD ((4 - i % 4) % 4) 0, r.getD ((5 - i % 4) % 4) 0, r.getD ((6 - i % 4) % 4) 0, r.getD ((7 - i % 4) % 4) 0)

theorem exec_step (X : Nat → W) (r : List W) (hr : r.length = 4) (i : Nat) (hi : i < 64) :
    (exec ((List.range 16).map X) r (instrOf i)).length = 4 ∧
    view (exec ((List.range 16).map X) r (instrOf i)) (i + 1) = rfcStep X (view r i) i := by
  constructor
  · simp [exec, hr]
  · obtain ⟨s1, s2, s3⟩ := s_eq i hi
    have hX : ((List.range 16).map X).getD (rfcK i) 0 = X (rfcK i) := by
      simp [List.getD_eq_getElem?_getD, s3]
    unfold exec rfcStep view
    rw [fn_eq]
    simp only [instrOf]
    rw [hX, tab_eq i hi, s1, rotl_eq _ _ s2]
    obtain ⟨a, b, c, d, rfl⟩ : ∃ a b c d, r = [a, b, c, d] := by
      match r, hr with
      | [a, b, c, d], _ => exact ⟨a, b, c, d, rfl⟩
    have h4 : i % 4 = 0 ∨ i % 4 = 1 ∨ i % 4 = 2 ∨ i % 4 = 3 := by omega
    rcases h4 with h | h | h | h
    · simp [h, show (i + 1) % 4 = 1 by omega]
    · simp [h, show (i + 1) % 4 = 2 by omega]
    · simp [h, show (i + 1) % 4 = 3 by omega]
    · simp [h, show (i + 1) % 4 = 0 by omega]

theorem run_eq (X : Nat → W) (r0 : List W) (hr : r0.length = 4) : ∀ n, n ≤ 64 →
    (((List.range n).map instrOf).foldl (exec ((List.range 16).map X)) r0).length = 4 ∧
    view (((List.range n).map instrOf).foldl (exec ((List.range 16).map X)) r0) n =
      (List.range n).foldl (rfcStep X) (view r0 0) := by
  intro n
  induction n with
  | zero => intro _; exact ⟨hr, rfl⟩
  | succ n ih =>
    intro hn
    obtain ⟨h1, h2⟩ := ih (by omega)
    simp only [List.range_succ, List.map_append, List.map_cons, List.map_nil, List.foldl_append, List.foldl_cons, List.foldl_nil] at h1 h2 ⊢
    rw [← h2]
    exact exec_step X _ h1 n (by omega)

theorem block_eq (m : St) (buf : List Byte) : block m buf = rfcBlock m buf := by
  unfold block rfcBlock
  have hw : word buf = rfcWord buf := funext (word_eq buf)
  obtain ⟨h1, h2⟩ := run_eq (rfcWord buf) [m.A, m.B, m.C, m.D] rfl 64 (Nat.le_refl _)
  rw [← prog_eq] at h1 h2
  simp only [hw]
  have hv : view [m.A, m.B, m.C, m.D] 0 = (m.A, m.B, m.C, m.D) := rfl
  rw [hv] at h2
  generalize List.foldl _ _ prog = r at h2
  rw [← h2]
  rfl

theorem lenBytes_eq (x : BitVec 64) : lenBytes x = rfcLen x := by
  simp [lenBytes, rfcLen, List.range, List.range.loop, ← BitVec.toNat_inj, Nat.shiftRight_eq_div_pow]

/-- **C09.**  Whatever the pieces (including empty ones) and whatever the buffer held
before, feeding them one after the other, the last one flagged, never leaves the
buffer and produces the RFC 1321 digest of the concatenation. -/
theorem md5_split (buf : List Byte) (hb : buf.length = 64) (ps : List (List Byte)) (last : List Byte) :
    ∃ m', feed alg (start alg buf) ps last = some m' ∧ m'.st = rfcMd5 (ps.flatten ++ last) := by
  obtain ⟨m', h1, h2⟩ := feed_ok alg (fun x => rfl) ps (start alg buf) [] last (inv_start alg buf hb)
  refine ⟨m', h1, ?_⟩
  rw [h2]
  have e1 : alg.block = rfcBlock := funext fun m => funext fun b => block_eq m b
  have e2 : alg.lenBytes = rfcLen := funext lenBytes_eq
  rw [e1, e2]
  rfl

/-- **C12** (MD5).  With a buffer of `len` bytes, mln_md5_tobytes stays inside it, writes the
first `min len 16` digest bytes and nothing else. -/
theorem md5_tobytes (m : St) (buf : List Byte) (len : Nat) (hl : buf.length = len) :
    tobytes m buf len = some ((rfcBytes m).take len ++ buf.drop 16) := by
  unfold tobytes
  have hb : (stores m).map (·.1) = rfcBytes m := by
    simp [stores, rfcBytes, List.range, List.range.loop, ← BitVec.toNat_inj, Nat.shiftRight_eq_div_pow]
  by_cases h0 : len = 0
  · rw [if_pos h0]; subst h0; simp at hl; subst hl; simp
  · rw [if_neg h0, exportBytes_ok _ _ _ _ hl (by omega)]
    · rw [hb]; simp [stores]
    · intro k b hk
      left
      match k with
      | 15 => rfl
      | 0 | 1 | 2 | 3 | 4 | 5 | 6 | 7 | 8 | 9 | 10 | 11 | 12 | 13 | 14 => simp [stores] at hk
      | k + 16 => simp [stores] at hk

/-- **C12** (MD5).  With a buffer of `len > 0` bytes, mln_md5_tostring stays inside it and
writes the leading digest bytes in hexadecimal and a terminating NUL. -/
theorem md5_tostring (m : St) (buf : List Byte) (len : Nat) (hl : buf.length = len) (h0 : 0 < len) :
    tostring m buf len =
      some (hexSpec ((rfcBytes m).take ((len - 1) / 2)) ++ 0 :: buf.drop (2 * min 16 ((len - 1) / 2) + 1)) := by
  unfold tostring
  rw [md5_tobytes m _ 16 (by simp)]
  have : (rfcBytes m).take 16 ++ (List.replicate 16 (0 : Byte)).drop 16 = rfcBytes m := by
    rw [List.take_of_length_le (by simp [rfcBytes])]; simp
  rw [this]
  exact exportHex_ok _ 16 (by simp [rfcBytes]) buf len hl h0

/-- Known answer, three pieces: MD5("message digest") = f96b697d7cb7938d525a2f31aaf161d0. -/
example : (feed alg (start alg (List.replicate 64 7)) [[109, 101, 115, 115], []] [97, 103, 101, 32, 100, 105, 103, 101, 115, 116]).map
    (fun c => rfcBytes c.st) = some [0xf9, 0x6b, 0x69, 0x7d, 0x7c, 0xb7, 0x93, 0x8d, 0x52, 0x5a, 0x2f, 0x31, 0xaa, 0xf1, 0x61, 0xd0] := by
  decide +kernel

end Verif.Md5
