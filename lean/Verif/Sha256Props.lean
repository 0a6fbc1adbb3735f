import Verif.Sha256
/-
C11 (SHA-256 splitting and conformance to FIPS 180-4) and the SHA-256 part of C12.
The export of a 20, 24 or 28 byte prefix writes one byte too many: refuted below.
-/
namespace Verif.Sha256
open Verif.Md

/-! ### Specification: FIPS 180-4 sections 4.1.2, 4.2.2, 6.2 -/

def fipsS0 (x : W) : W := x.rotateRight 2 ^^^ x.rotateRight 13 ^^^ x.rotateRight 22
def fipsS1 (x : W) : W := x.rotateRight 6 ^^^ x.rotateRight 11 ^^^ x.rotateRight 25
def fipsG0 (x : W) : W := x.rotateRight 7 ^^^ x.rotateRight 18 ^^^ (x >>> 3)
def fipsG1 (x : W) : W := x.rotateRight 17 ^^^ x.rotateRight 19 ^^^ (x >>> 10)

/-- The first 64 primes. -/
def primes : List Nat := [
  2, 3, 5, 7, 11, 13, 17, 19, 23, 29, 31, 37, 41, 43, 47, 53,
  59, 61, 67, 71, 73, 79, 83, 89, 97, 101, 103, 107, 109, 113, 127, 131,
  137, 139, 149, 151, 157, 163, 167, 173, 179, 181, 191, 193, 197, 199, 211, 223,
  227, 229, 233, 239, 241, 251, 257, 263, 269, 271, 277, 281, 283, 293, 307, 311
]

/-- K_t: the first 32 bits of the fractional part of the cube root of the t-th prime. -/
def IsCubeRootFrac (k : W) (p : Nat) : Prop :=
  ∃ q, (q * 2 ^ 32 + k.toNat) ^ 3 ≤ p * 2 ^ 96 ∧ p * 2 ^ 96 < (q * 2 ^ 32 + k.toNat + 1) ^ 3

/-- The message schedule W_t. -/
def fipsW (M : Nat → W) (t : Nat) : W :=
  if t < 16 then M t
  else fipsG1 (fipsW M (t - 2)) + fipsW M (t - 7) + fipsG0 (fipsW M (t - 15)) + fipsW M (t - 16)

/-- K_0 .. K_63 of FIPS 180-4 section 4.2.2. -/
def fipsK : List W := [
  0x428a2f98, 0x71374491, 0xb5c0fbcf, 0xe9b5dba5,
  0x3956c25b, 0x59f111f1, 0x923f82a4, 0xab1c5ed5,
  0xd807aa98, 0x12835b01, 0x243185be, 0x550c7dc3,
  0x72be5d74, 0x80deb1fe, 0x9bdc06a7, 0xc19bf174,
  0xe49b69c1, 0xefbe4786, 0x0fc19dc6, 0x240ca1cc,
  0x2de92c6f, 0x4a7484aa, 0x5cb0a9dc, 0x76f988da,
  0x983e5152, 0xa831c66d, 0xb00327c8, 0xbf597fc7,
  0xc6e00bf3, 0xd5a79147, 0x06ca6351, 0x14292967,
  0x27b70a85, 0x2e1b2138, 0x4d2c6dfc, 0x53380d13,
  0x650a7354, 0x766a0abb, 0x81c2c92e, 0x92722c85,
  0xa2bfe8a1, 0xa81a664b, 0xc24b8b70, 0xc76c51a3,
  0xd192e819, 0xd6990624, 0xf40e3585, 0x106aa070,
  0x19a4c116, 0x1e376c08, 0x2748774c, 0x34b0bcb5,
  0x391c0cb3, 0x4ed8aa4a, 0x5b9cca4f, 0x682e6ff3,
  0x748f82ee, 0x78a5636f, 0x84c87814, 0x8cc70208,
  0x90befffa, 0xa4506ceb, 0xbef9a3f7, 0xc67178f2
]

/-- Step t on (a, .., h). -/
def fipsStep (M : Nat → W) (s : St) (t : Nat) : St :=
  let T1 := s.H7 + fipsS1 s.H4 + ((s.H4 &&& s.H5) ^^^ (~~~s.H4 &&& s.H6)) + fipsK.getD t 0 + fipsW M t
  let T2 := fipsS0 s.H0 + ((s.H0 &&& s.H1) ^^^ (s.H0 &&& s.H2) ^^^ (s.H1 &&& s.H2))
  { H7 := s.H6, H6 := s.H5, H5 := s.H4, H4 := s.H3 + T1, H3 := s.H2, H2 := s.H1, H1 := s.H0, H0 := T1 + T2 }

/-- Message word `j`: four bytes, high order first. -/
def fipsWord (buf : List Byte) (j : Nat) : W :=
  (buf.getD (4 * j) 0 ++ (buf.getD (4 * j + 1) 0 ++ (buf.getD (4 * j + 2) 0 ++ buf.getD (4 * j + 3) 0)))

def fipsBlock (s : St) (buf : List Byte) : St :=
  let h := (List.range 64).foldl (fipsStep (fipsWord buf)) s
  { H0 := h.H0 + s.H0, H1 := h.H1 + s.H1, H2 := h.H2 + s.H2, H3 := h.H3 + s.H3,
    H4 := h.H4 + s.H4, H5 := h.H5 + s.H5, H6 := h.H6 + s.H6, H7 := h.H7 + s.H7 }

/-- The eight length bytes, high order first. -/
def fipsLen (x : BitVec 64) : List Byte := ((List.range 8).map fun i => BitVec.ofNat 8 (x.toNat / 256 ^ i)).reverse

/-- SHA-256 of a message. -/
def fipsSha256 (msg : List Byte) : St :=
  foldBlocks fipsBlock
    { H0 := 0x6a09e667, H1 := 0xbb67ae85, H2 := 0x3c6ef372, H3 := 0xa54ff53a,
      H4 := 0x510e527f, H5 := 0x9b05688c, H6 := 0x1f83d9ab, H7 := 0x5be0cd19 } (pad fipsLen msg)

/-- The 32 digest bytes. -/
def fipsBytes (m : St) : List Byte :=
  [m.H0, m.H1, m.H2, m.H3, m.H4, m.H5, m.H6, m.H7].flatMap fun w =>
    ((List.range 4).map fun i => BitVec.ofNat 8 (w.toNat / 256 ^ i)).reverse

/-- `primes` lists exactly the primes up to 311, in increasing order. -/
theorem primes_ok : primes.Pairwise (· < ·) ∧
    ∀ n, n ≤ 311 → (n ∈ primes ↔ 2 ≤ n ∧ ∀ d, d < 18 → 2 ≤ d → d < n → n % d ≠ 0) := by
  constructor
  · decide +kernel
  · have h : ∀ n, n < 312 → (n ∈ primes ↔ 2 ≤ n ∧ ∀ d, d < 18 → 2 ≤ d → d < n → n % d ≠ 0) := by decide +kernel
    intro n hn
    exact h n (by omega)

/-- The constant table really is the cube-root table. -/
theorem fipsK_roots : fipsK.length = 64 ∧ primes.length = 64 ∧
    ∀ kp ∈ fipsK.zip primes, IsCubeRootFrac kp.1 kp.2 := by
  have h : ∀ kp ∈ fipsK.zip primes, ∃ q, q < 8 ∧ (q * 2 ^ 32 + kp.1.toNat) ^ 3 ≤ kp.2 * 2 ^ 96 ∧
      kp.2 * 2 ^ 96 < (q * 2 ^ 32 + kp.1.toNat + 1) ^ 3 := by decide +kernel
  refine ⟨rfl, rfl, fun kp hk => ?_⟩
  obtain ⟨q, _, h1⟩ := h kp hk
  exact ⟨q, h1⟩

/-! ### The code is the FIPS loop -/

theorem S_eq (x : W) (n : Nat) (h : n < 32) : S x n = x.rotateRight n := by
  unfold S BitVec.rotateRight BitVec.rotateRightAux
  rw [Nat.mod_eq_of_lt h]

/-- Split-half addition is addition modulo 2^32. -/
theorem safeAdd_eq (x y : W) : safeAdd x y = x + y := by
  unfold safeAdd
  have hx := x.isLt
  have hy := y.isLt
  have m16 : (65535#32).toNat = 2 ^ 16 - 1 := rfl
  apply BitVec.eq_of_toNat_eq
  simp only [BitVec.toNat_or, BitVec.toNat_shiftLeft, BitVec.toNat_add, BitVec.toNat_ushiftRight, BitVec.toNat_and]
  have e : BitVec.toNat (0xffff : W) = 2 ^ 16 - 1 := rfl
  rw [e]
  simp only [Nat.and_two_pow_sub_one_eq_mod, Nat.shiftRight_eq_div_pow]
  rw [Nat.shiftLeft_eq, show (2:Nat) ^ 32 = 2 ^ 16 * 2 ^ 16 by decide, Nat.mul_mod_mul_right, Nat.mul_comm _ (2 ^ 16),
    ← Nat.two_pow_add_eq_or_of_lt (Nat.mod_lt _ (by decide))]
  omega

theorem sigma_eq (x : W) : Sigma0 x = fipsS0 x ∧ Sigma1 x = fipsS1 x ∧ Gamma0 x = fipsG0 x ∧ Gamma1 x = fipsG1 x := by
  simp [Sigma0, Sigma1, Gamma0, Gamma1, fipsS0, fipsS1, fipsG0, fipsG1, S_eq, R]

theorem load_step (buf : List Byte) : ∀ k, ∀ i,
    (List.range (4 * k)).foldl (fun (g : Nat → W) j => fun i => if i = j / 4
      then g i ||| ((buf.getD j 0).setWidth 32 <<< (8 * (3 - j % 4))) else g i) (fun _ => 0) i =
      if i < k then fipsWord buf i else 0 := by
  intro k
  induction k with
  | zero => intro i; simp
  | succ k ih =>
    intro i
    rw [show 4 * (k + 1) = 4 * k + 1 + 1 + 1 + 1 by omega]
    simp only [List.range_succ, List.foldl_append, List.foldl_cons, List.foldl_nil]
    simp only [ih, show (4 * k + 1 + 1 + 1) / 4 = k by omega, show (4 * k + 1 + 1) / 4 = k by omega,
      show (4 * k + 1) / 4 = k by omega, show 4 * k / 4 = k by omega, show (4 * k + 1 + 1 + 1) % 4 = 3 by omega,
      show (4 * k + 1 + 1) % 4 = 2 by omega, show (4 * k + 1) % 4 = 1 by omega, show 4 * k % 4 = 0 by omega]
    by_cases hi : i = k
    · subst hi
      have h : ∀ A B C D : W, 0 ||| A ||| B ||| C ||| D = D ||| C ||| B ||| A := by
        intro A B C D
        rw [show (0 : W) ||| A = A from BitVec.zero_or]
        ac_rfl
      simp only [if_true, Nat.lt_irrefl, if_false, show i < i + 1 by omega]
      have := cat4 (buf.getD (4 * i) 0) (buf.getD (4 * i + 1) 0) (buf.getD (4 * i + 2) 0) (buf.getD (4 * i + 3) 0)
      rw [h]
      simp only [Nat.reduceSub, Nat.reduceMul, BitVec.shiftLeft_zero]
      exact this
    · by_cases h2 : i < k
      · simp [hi, h2, show i < k + 1 by omega]
      · simp [hi, h2, show ¬ i < k + 1 by omega]

theorem load_eq (buf : List Byte) (i : Nat) (h : i < 16) : load buf i = fipsWord buf i := by
  unfold load
  rw [show (64 : Nat) = 4 * 16 from rfl, load_step buf 16 i, if_pos h]

/-- Before iteration `i` the words below max i 16 are the schedule. -/
def Sched (M g : Nat → W) (i : Nat) : Prop := ∀ t, t < max i 16 → g t = fipsW M t

theorem rc_eq : rc = fipsK := by decide +kernel

theorem step_ok (M : Nat → W) (g : Nat → W) (s : St) (i : Nat) (h : Sched M g i) :
    Sched M (step (g, s) i).1 (i + 1) ∧ (step (g, s) i).2 = fipsStep M s i := by
  have hw : (if i ≥ 16 then (fun k => if k = i then safeAdd (safeAdd (safeAdd (Gamma1 (g (i - 2))) (g (i - 7))) (Gamma0 (g (i - 15)))) (g (i - 16))
      else g k) else g) i = fipsW M i := by
    by_cases hi : i ≥ 16
    · rw [if_pos hi]
      simp only [if_true]
      rw [fipsW, if_neg (by omega), h (i - 2) (by omega), h (i - 7) (by omega), h (i - 15) (by omega), h (i - 16) (by omega)]
      simp only [safeAdd_eq, (sigma_eq _).2.2.1, (sigma_eq _).2.2.2]
    · rw [if_neg hi]; exact h i (by omega)
  constructor
  · intro t ht
    by_cases hti : t = i
    · subst hti; exact hw
    · have : (step (g, s) i).1 t = g t := by
        unfold step
        simp only
        split
        · simp [hti]
        · rfl
      rw [this]; exact h t (by omega)
  · unfold step fipsStep
    simp only [hw]
    simp only [rc_eq, safeAdd_eq, (sigma_eq _).1, (sigma_eq _).2.1, Ch, Maj]

theorem run_ok (M : Nat → W) (g : Nat → W) (s : St) (hg : ∀ t, t < 16 → g t = M t) : ∀ n,
    Sched M ((List.range n).foldl step (g, s)).1 n ∧ ((List.range n).foldl step (g, s)).2 = (List.range n).foldl (fipsStep M) s := by
  intro n
  induction n with
  | zero =>
    refine ⟨?_, rfl⟩
    intro t ht
    have : t < 16 := by omega
    show g t = _
    rw [fipsW, if_pos this, hg t this]
  | succ n ih =>
    obtain ⟨h1, h2⟩ := ih
    simp only [List.range_succ, List.foldl_append, List.foldl_cons, List.foldl_nil]
    obtain ⟨k1, k2⟩ := step_ok M _ ((List.range n).foldl step (g, s)).2 n h1
    exact ⟨k1, by rw [← h2]; exact k2⟩

theorem block_eq (s : St) (buf : List Byte) : block s buf = fipsBlock s buf := by
  unfold block fipsBlock
  rw [(run_ok (fipsWord buf) (load buf) s (load_eq buf) 64).2]
  simp only [safeAdd_eq]

theorem lenBytes_eq (x : BitVec 64) : lenBytes x = fipsLen x := by
  simp [lenBytes, fipsLen, List.range, List.range.loop, ← BitVec.toNat_inj, Nat.shiftRight_eq_div_pow]

/-- **C11.**  As `md5_split`, for SHA-256 and FIPS 180-4. -/
theorem sha256_split (buf : List Byte) (hb : buf.length = 64) (ps : List (List Byte)) (last : List Byte) :
    ∃ m', feed alg (start alg buf) ps last = some m' ∧ m'.st = fipsSha256 (ps.flatten ++ last) := by
  obtain ⟨m', h1, h2⟩ := feed_ok alg (fun x => rfl) ps (start alg buf) [] last (inv_start alg buf hb)
  refine ⟨m', h1, ?_⟩
  rw [h2]
  have e1 : alg.block = fipsBlock := funext fun m => funext fun b => block_eq m b
  have e2 : alg.lenBytes = fipsLen := funext lenBytes_eq
  rw [e1, e2]
  rfl

/-- A case meeting the hypotheses: 120 bytes in pieces of 56, 0, 63 and 1. -/
example : ∃ m', feed alg (start alg (List.replicate 64 0)) [List.replicate 56 1, [], List.replicate 63 97] [98] = some m' ∧
    m'.st = fipsSha256 (List.replicate 56 1 ++ (List.replicate 63 97 ++ [98])) := by
  have := sha256_split (List.replicate 64 0) rfl [List.replicate 56 1, [], List.replicate 63 97] [98]
  simpa using this

/-- **C12** (SHA-256), full statement refuted: for every digest state, exporting into a
20-byte buffer writes past its end (likewise 24 and 28). -/
theorem sha256_tobytes_overrun (m : St) (buf : List Byte) (h : buf.length = 20 ∨ buf.length = 24 ∨ buf.length = 28) :
    tobytes m buf buf.length = none := by
  unfold tobytes
  rw [if_neg (by omega)]
  rcases h with h | h | h
  · exact exportBytes_overrun _ _ 0 19 _ _ rfl (by omega) rfl (by simp [stores])
  · exact exportBytes_overrun _ _ 0 23 _ _ rfl (by omega) rfl (by simp [stores])
  · exact exportBytes_overrun _ _ 0 27 _ _ rfl (by omega) rfl (by simp [stores])

theorem stores_map (m : St) : (stores m).map (·.1) = fipsBytes m := by
  simp [stores, fipsBytes, List.range, List.range.loop, ← BitVec.toNat_inj, Nat.shiftRight_eq_div_pow]

/-- **C12** (SHA-256), what holds: every length other than 20, 24, 28.  Missing: those
three lengths, where the code overruns the buffer (`sha256_tobytes_overrun`). -/
theorem sha256_tobytes_partial (m : St) (buf : List Byte) (len : Nat) (hl : buf.length = len)
    (hne : len ≠ 20 ∧ len ≠ 24 ∧ len ≠ 28) :
    tobytes m buf len = some ((fipsBytes m).take len ++ buf.drop 32) := by
  unfold tobytes
  by_cases h0 : len = 0
  · rw [if_pos h0]; subst h0; simp at hl; subst hl; simp
  · rw [if_neg h0, exportBytes_ok _ _ _ _ hl (by omega)]
    · rw [stores_map]; simp [stores]
    · intro k b hk
      match k with
      | 31 => left; rfl
      | 19 => right; omega
      | 23 => right; omega
      | 27 => right; omega
      | 0 | 1 | 2 | 3 | 4 | 5 | 6 | 7 | 8 | 9 | 10 | 11 | 12 | 13 | 14 | 15 | 16 | 17 | 18 => simp [stores] at hk
      | 20 | 21 | 22 | 24 | 25 | 26 | 28 | 29 | 30 => simp [stores] at hk
      | k + 32 => simp [stores] at hk

/-- **C12** (SHA-256), string form: always inside the buffer. -/
theorem sha256_tostring (m : St) (buf : List Byte) (len : Nat) (hl : buf.length = len) (h0 : 0 < len) :
    tostring m buf len =
      some (hexSpec ((fipsBytes m).take ((len - 1) / 2)) ++ 0 :: buf.drop (2 * min 32 ((len - 1) / 2) + 1)) := by
  unfold tostring
  rw [sha256_tobytes_partial m _ 32 (by simp) (by decide)]
  have : (fipsBytes m).take 32 ++ (List.replicate 32 (0 : Byte)).drop 32 = fipsBytes m := by
    rw [List.take_of_length_le (by simp [fipsBytes])]; simp
  rw [this]
  exact exportHex_ok _ 32 (by simp [fipsBytes]) buf len hl h0

end Verif.Sha256
