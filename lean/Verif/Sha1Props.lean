import Verif.Sha1
/-
C10 (SHA-1 splitting and conformance to FIPS 180-4) and the SHA-1 part of C12.
-/
namespace Verif.Sha1
open Verif.Md

/-! ### Specification: FIPS 180-4 sections 4.1.1, 4.2.1, 6.1 -/

def fipsCh (x y z : W) : W := (x &&& y) ^^^ (~~~x &&& z)
def fipsParity (x y z : W) : W := x ^^^ y ^^^ z
def fipsMaj (x y z : W) : W := (x &&& y) ^^^ (x &&& z) ^^^ (y &&& z)

/-- f_t. -/
def fipsF (t : Nat) : W → W → W → W :=
  if t < 20 then fipsCh else if t < 40 then fipsParity else if t < 60 then fipsMaj else fipsParity

/-- K_t. -/
def fipsK (t : Nat) : W :=
  if t < 20 then 0x5a827999 else if t < 40 then 0x6ed9eba1 else if t < 60 then 0x8f1bbcdc else 0xca62c1d6

/-- The message schedule W_t. -/
def fipsW (M : Nat → W) (t : Nat) : W :=
  if t < 16 then M t
  else (fipsW M (t - 3) ^^^ fipsW M (t - 8) ^^^ fipsW M (t - 14) ^^^ fipsW M (t - 16)).rotateLeft 1

/-- Step t on (a, b, c, d, e). -/
def fipsStep (M : Nat → W) (q : W × W × W × W × W) (t : Nat) : W × W × W × W × W :=
  let (a, b, c, d, e) := q
  (a.rotateLeft 5 + fipsF t b c d + e + fipsK t + fipsW M t, a, b.rotateLeft 30, c, d)

/-- Message word `j`: four bytes, high order first. -/
def fipsWord (buf : List Byte) (j : Nat) : W :=
  (buf.getD (4 * j) 0 ++ (buf.getD (4 * j + 1) 0 ++ (buf.getD (4 * j + 2) 0 ++ buf.getD (4 * j + 3) 0)))

def fipsBlock (s : St) (buf : List Byte) : St :=
  let (a, b, c, d, e) := (List.range 80).foldl (fipsStep (fipsWord buf)) (s.H0, s.H1, s.H2, s.H3, s.H4)
  { H0 := a + s.H0, H1 := b + s.H1, H2 := c + s.H2, H3 := d + s.H3, H4 := e + s.H4 }

/-- The eight length bytes, high order first. -/
def fipsLen (x : BitVec 64) : List Byte := ((List.range 8).map fun i => BitVec.ofNat 8 (x.toNat / 256 ^ i)).reverse

/-- SHA-1 of a message. -/
def fipsSha1 (msg : List Byte) : St :=
  foldBlocks fipsBlock { H0 := 0x67452301, H1 := 0xefcdab89, H2 := 0x98badcfe, H3 := 0x10325476, H4 := 0xc3d2e1f0 } (pad fipsLen msg)

/-- The 20 digest bytes. -/
def fipsBytes (m : St) : List Byte :=
  [m.H0, m.H1, m.H2, m.H3, m.H4].flatMap fun w => ((List.range 4).map fun i => BitVec.ofNat 8 (w.toNat / 256 ^ i)).reverse

/-! ### The unrolled code is the FIPS loop -/

theorem rotl_eq (x : W) (n : Nat) (h : n < 32) : rotl x n = x.rotateLeft n := by
  unfold rotl BitVec.rotateLeft BitVec.rotateLeftAux
  rw [Nat.mod_eq_of_lt h]

theorem word_eq (buf : List Byte) (j : Nat) : word buf j = fipsWord buf j := by
  unfold word fipsWord
  have h : ∀ A B C D : W, A ||| B ||| C ||| D = D ||| C ||| B ||| A := by intros; ac_rfl
  exact (h _ _ _ _).trans (cat4 _ _ _ _)

theorem ch_eq (x y z : W) : F1 x y z = fipsCh x y z := by
  unfold F1 fipsCh
  ext i hi
  simp
  cases x[i] <;> cases y[i] <;> cases z[i] <;> rfl

theorem maj_eq (x y z : W) : F3 x y z = fipsMaj x y z := by
  unfold F3 fipsMaj
  ext i hi
  simp
  cases x[i] <;> cases y[i] <;> cases z[i] <;> rfl

def instrOf (i : Nat) : Instr :=
  { m := if i < 20 then .FF1 else if i < 40 then .FF2 else if i < 60 then .FF3 else .FF4
    ra := (5 - i % 5) % 5, rb := (6 - i % 5) % 5, rc := (7 - i % 5) % 5, rd := (8 - i % 5) % 5, re := (9 - i % 5) % 5
    wt := if i < 16 then .grp i else .w i
    k := i / 20 }

theorem prog_eq : prog = (List.range 80).map instrOf := by decide +kernel

theorem k_eq : ∀ i, i < 80 → kTab.getD (i / 20) 0 = fipsK i := by decide +kernel

theorem fn_eq (i : Nat) : (instrOf i).m.fn = fipsF i := by
  unfold instrOf fipsF
  simp only
  split
  · exact funext fun x => funext fun y => funext fun z => ch_eq x y z
  · split
    · rfl
    · split
      · exact funext fun x => funext fun y => funext fun z => maj_eq x y z
      · rfl

/-- The five registers as seen at step `i`. -/
def view (r : List W) (i : Nat) : W × W × W × W × W :=
  (r.getD ((5 - i % 5) % 5) 0, r.getD ((6 - i % 5) % 5) 0, r.getD ((7 - i % 5) % 5) 0,
   r.getD ((8 - i % 5) % 5) 0, r.getD ((9 - i % 5) % 5) 0)


/-- Slots hold the 16 most recent schedule words. -/
def Sched (M g : Nat → W) (i : Nat) : Prop :=
  ∀ t, t < max i 16 → i ≤ t + 16 → g (t % 16) = fipsW M t

theorem evalWt_ok (M g : Nat → W) (i : Nat) (h : Sched M g i) :
    (evalWt g (instrOf i).wt).1 = fipsW M i ∧ Sched M (evalWt g (instrOf i).wt).2 (i + 1) := by
  unfold instrOf
  simp only
  by_cases hi : i < 16
  · simp only [if_pos hi, evalWt]
    constructor
    · have := h i (by omega) (by omega)
      rwa [Nat.mod_eq_of_lt hi] at this
    · intro t h1 h2
      exact h t (by omega) (by omega)
  · simp only [if_neg hi, evalWt]
    have e : rotl (g ((i - 3) % 16) ^^^ g ((i - 8) % 16) ^^^ g ((i - 14) % 16) ^^^ g (i % 16)) 1 = fipsW M i := by
      rw [fipsW, if_neg hi, rotl_eq _ _ (by omega), h (i - 3) (by omega) (by omega), h (i - 8) (by omega) (by omega),
        h (i - 14) (by omega) (by omega), show i % 16 = (i - 16) % 16 by omega, h (i - 16) (by omega) (by omega)]
    refine ⟨e, ?_⟩
    intro t h1 h2
    by_cases ht : t = i
    · subst ht; simp [e]
    · have hne : t % 16 ≠ i % 16 := by omega
      simp only [if_neg hne]
      exact h t (by omega) (by omega)

theorem exec_step (M : Nat → W) (s : Run) (hr : s.r.length = 5) (i : Nat) (hi : i < 80) (h : Sched M s.group i) :
    (exec s (instrOf i)).r.length = 5 ∧ Sched M (exec s (instrOf i)).group (i + 1) ∧
    view (exec s (instrOf i)).r (i + 1) = fipsStep M (view s.r i) i := by
  obtain ⟨e1, e2⟩ := evalWt_ok M s.group i h
  refine ⟨by simp [exec, hr], e2, ?_⟩
  obtain ⟨r, g⟩ := s
  simp only at e1 e2 hr
  unfold exec
  rw [fn_eq]
  simp only [e1]
  have hk := k_eq i hi
  unfold fipsStep view
  generalize fipsF i = f
  simp only [rotl_eq _ 5 (by omega), rotl_eq _ 30 (by omega)]
  generalize fipsW M i = w
  simp only [instrOf]
  rw [hk]
  generalize fipsK i = k
  obtain ⟨a, b, c, d, e, rfl⟩ : ∃ a b c d e, r = [a, b, c, d, e] := by
    match r, hr with
    | [a, b, c, d, e], _ => exact ⟨a, b, c, d, e, rfl⟩
  have h5 : i % 5 = 0 ∨ i % 5 = 1 ∨ i % 5 = 2 ∨ i % 5 = 3 ∨ i % 5 = 4 := by omega
  have ac : ∀ p q r s t : W, t + (p + q + r + s) = p + q + t + r + s := by intros; ac_rfl
  rcases h5 with h | h | h | h | h
  · simp [h, show (i + 1) % 5 = 1 by omega, ac]
  · simp [h, show (i + 1) % 5 = 2 by omega, ac]
  · simp [h, show (i + 1) % 5 = 3 by omega, ac]
  · simp [h, show (i + 1) % 5 = 4 by omega, ac]
  · simp [h, show (i + 1) % 5 = 0 by omega, ac]

theorem run_eq (M : Nat → W) (s0 : Run) (hr : s0.r.length = 5) (hg : s0.group = M) : ∀ n, n ≤ 80 →
    (((List.range n).map instrOf).foldl exec s0).r.length = 5 ∧
    Sched M (((List.range n).map instrOf).foldl exec s0).group n ∧
    view (((List.range n).map instrOf).foldl exec s0).r n = (List.range n).foldl (fipsStep M) (view s0.r 0) := by
  intro n
  induction n with
  | zero =>
    intro _
    refine ⟨hr, ?_, rfl⟩
    intro t h1 _
    have : t < 16 := by omega
    show s0.group _ = _
    rw [hg, fipsW, if_pos this, Nat.mod_eq_of_lt this]
  | succ n ih =>
    intro hn
    obtain ⟨h1, h2, h3⟩ := ih (by omega)
    simp only [List.range_succ, List.map_append, List.map_cons, List.map_nil, List.foldl_append, List.foldl_cons, List.foldl_nil] at h1 h2 h3 ⊢
    rw [← h3]
    exact exec_step M _ h1 n (by omega) h2

theorem block_eq (s : St) (buf : List Byte) : block s buf = fipsBlock s buf := by
  unfold block fipsBlock
  have hw : word buf = fipsWord buf := funext (word_eq buf)
  obtain ⟨h1, h2, h3⟩ := run_eq (fipsWord buf) { r := [s.H0, s.H1, s.H2, s.H3, s.H4], group := fipsWord buf } rfl rfl 80 (Nat.le_refl _)
  rw [← prog_eq] at h1 h2 h3
  simp only [hw]
  have hv : view [s.H0, s.H1, s.H2, s.H3, s.H4] 0 = (s.H0, s.H1, s.H2, s.H3, s.H4) := rfl
  rw [hv] at h3
  generalize List.foldl _ _ prog = r at h3
  rw [← h3]
  simp [view, BitVec.add_comm]

theorem lenBytes_eq (x : BitVec 64) : lenBytes x = fipsLen x := by
  simp [lenBytes, fipsLen, List.range, List.range.loop, ← BitVec.toNat_inj, Nat.shiftRight_eq_div_pow]

/-- **C10.**  As `md5_split`, for SHA-1 and FIPS 180-4. -/
theorem sha1_split (buf : List Byte) (hb : buf.length = 64) (ps : List (List Byte)) (last : List Byte) :
    ∃ m', feed alg (start alg buf) ps last = some m' ∧ m'.st = fipsSha1 (ps.flatten ++ last) := by
  obtain ⟨m', h1, h2⟩ := feed_ok alg (fun x => rfl) ps (start alg buf) [] last (inv_start alg buf hb)
  refine ⟨m', h1, ?_⟩
  rw [h2]
  have e1 : alg.block = fipsBlock := funext fun m => funext fun b => block_eq m b
  have e2 : alg.lenBytes = fipsLen := funext lenBytes_eq
  rw [e1, e2]
  rfl

/-- **C12** (SHA-1). -/
theorem sha1_tobytes (m : St) (buf : List Byte) (len : Nat) (hl : buf.length = len) :
    tobytes m buf len = some ((fipsBytes m).take len ++ buf.drop 20) := by
  unfold tobytes
  have hb : (stores m).map (·.1) = fipsBytes m := by
    simp [stores, fipsBytes, List.range, List.range.loop, ← BitVec.toNat_inj, Nat.shiftRight_eq_div_pow]
  by_cases h0 : len = 0
  · rw [if_pos h0]; subst h0; simp at hl; subst hl; simp
  · rw [if_neg h0, exportBytes_ok _ _ _ _ hl (by omega)]
    · rw [hb]; simp [stores]
    · intro k b hk
      left
      match k with
      | 19 => rfl
      | 0 | 1 | 2 | 3 | 4 | 5 | 6 | 7 | 8 | 9 | 10 | 11 | 12 | 13 | 14 | 15 | 16 | 17 | 18 => simp [stores] at hk
      | k + 20 => simp [stores] at hk

/-- **C12** (SHA-1). -/
theorem sha1_tostring (m : St) (buf : List Byte) (len : Nat) (hl : buf.length = len) (h0 : 0 < len) :
    tostring m buf len =
      some (hexSpec ((fipsBytes m).take ((len - 1) / 2)) ++ 0 :: buf.drop (2 * min 20 ((len - 1) / 2) + 1)) := by
  unfold tostring
  rw [sha1_tobytes m _ 20 (by simp)]
  have : (fipsBytes m).take 20 ++ (List.replicate 20 (0 : Byte)).drop 20 = fipsBytes m := by
    rw [List.take_of_length_le (by simp [fipsBytes])]; simp
  rw [this]
  exact exportHex_ok _ 20 (by simp [fipsBytes]) buf len hl h0

/-- A case meeting the hypotheses: a 65-byte message in pieces of 0, 64 and 1 bytes. -/
example : ∃ m', feed alg (start alg (List.replicate 64 0)) [[], List.replicate 64 97] [98] = some m' ∧
    m'.st = fipsSha1 (List.replicate 64 97 ++ [98]) :=
  sha1_split (List.replicate 64 0) rfl [[], List.replicate 64 97] [98]

end Verif.Sha1
