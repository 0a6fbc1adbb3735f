import Verif.Shm
import Mathlib.Tactic.Common

/-
C61: the shared-memory bitmap allocator.
-/
namespace Verif.Shm

/-! ## Specification -/

/-- Bit `k` of the bitmap: unit `k` of the block is taken. -/
def bit (bm : List (BitVec 8)) (k : Nat) : Bool := (bm.getD (k / 8) 0).getLsbD (7 - k % 8)

/-- Units `k .. k + n - 1` are free. -/
def FreeRun (bm : List (BitVec 8)) (k n : Nat) : Prop := k + n ≤ 8 * bm.length ∧ ∀ x, k ≤ x → x < k + n → bit bm x = false

/-- The number of an offset pair. -/
def unit (B b : Nat) : Nat := B * 8 + (7 - b)

/-! ## Setting and clearing runs -/

theorem setBit_get (v : Bool) (i j : Nat) (b : BitVec 8) (hi : i < 8) : (setBit v i b).getLsbD j = if j = i then v else b.getLsbD j := by
  by_cases hj : j < 8
  · have h1 : ∀ i : Fin 8, ∀ j : Fin 8, (1#8 <<< i.val).getLsbD j.val = decide (j = i) := by decide +kernel
    have h := h1 ⟨i, hi⟩ ⟨j, hj⟩
    simp only at h
    unfold setBit
    cases v <;> simp only [Bool.false_eq_true, if_false, if_true, BitVec.getLsbD_or, BitVec.getLsbD_and, BitVec.getLsbD_not, h, Fin.mk.injEq]
    · by_cases e : j = i
      · simp [e]
      · simp [e, hj]
    · by_cases e : j = i
      · simp [e]
      · simp [e]
  · rw [if_neg (by omega), BitVec.getLsbD_of_ge _ _ (by omega), BitVec.getLsbD_of_ge _ _ (by omega)]

theorem bit_modify (v : Bool) (bm : List (BitVec 8)) (p i k : Nat) (hp : p < bm.length) (hi : i < 8) :
    bit (bm.modify p (setBit v i)) k = if k = unit p i then v else bit bm k := by
  unfold bit unit
  rw [List.getD_eq_getElem?_getD, List.getElem?_modify, List.getD_eq_getElem?_getD]
  by_cases e : p = k / 8
  · subst e
    rw [List.getElem?_eq_getElem hp]
    simp only [if_true, Option.map_eq_map, Option.map_some, Option.getD_some]
    rw [setBit_get _ _ _ _ hi]
    by_cases e2 : k = k / 8 * 8 + (7 - i)
    · rw [if_pos e2, if_pos (by omega)]
    · rw [if_neg e2, if_neg (by omega)]
  · rw [if_neg (c := k = p * 8 + (7 - i)) (by omega)]
    simp only [if_neg e]
    simp

/-- The loops set or clear exactly the run. -/
theorem runLoop_spec (v : Bool) : ∀ n bm p i, i < 8 → unit p i + n ≤ 8 * bm.length →
    ∃ bm', runLoop v n bm p i = some bm' ∧ bm'.length = bm.length ∧
      ∀ k, bit bm' k = if unit p i ≤ k ∧ k < unit p i + n then v else bit bm k := by
  intro n
  induction n with
  | zero =>
    intro bm p i hi h
    exact ⟨bm, rfl, rfl, fun k => by rw [if_neg (by omega)]⟩
  | succ n ih =>
    intro bm p i hi h
    have hp : p < bm.length := by unfold unit at h; omega
    unfold runLoop
    rw [if_pos hp]
    simp only
    by_cases hn : n = 0
    · subst hn
      rw [if_pos rfl]
      refine ⟨_, rfl, by simp, fun k => ?_⟩
      rw [bit_modify v bm p i k hp hi]
      by_cases e : k = unit p i
      · rw [if_pos e, if_pos (by omega)]
      · rw [if_neg e, if_neg (by omega)]
    · rw [if_neg hn]
      have key : ∀ p' i', i' < 8 → unit p' i' = unit p i + 1 → ∃ bm', runLoop v n (bm.modify p (setBit v i)) p' i' = some bm' ∧ bm'.length = bm.length ∧
          ∀ k, bit bm' k = if unit p i ≤ k ∧ k < unit p i + (n + 1) then v else bit bm k := by
        intro p' i' hi' hu
        obtain ⟨bm', e, hl, hb⟩ := ih (bm.modify p (setBit v i)) p' i' hi' (by rw [List.length_modify]; omega)
        refine ⟨bm', e, by rw [hl, List.length_modify], fun k => ?_⟩
        rw [hb, bit_modify v bm p i k hp hi, hu]
        by_cases e1 : unit p i + 1 ≤ k ∧ k < unit p i + 1 + n
        · rw [if_pos e1, if_pos (by omega)]
        · rw [if_neg e1]
          by_cases e : k = unit p i
          · rw [if_pos e, if_pos (by omega)]
          · rw [if_neg e, if_neg (by omega)]
      by_cases h0 : i = 0
      · rw [if_pos h0]
        exact key (p + 1) 7 (by omega) (by unfold unit; omega)
      · rw [if_neg h0]
        exact key p (i - 1) (by omega) (by unfold unit; omega)

/-! ## The search -/

/-- The state of the search before unit `k`: no run of `n` ends before `k`, and the state is the run
that is being followed. -/
def Scan (f : Nat → Bool) (n k : Nat) : Option (Nat × Nat × Nat) → Prop
  | none => (∀ u, u + n ≤ k → ∃ x, u ≤ x ∧ x < u + n ∧ f x = true) ∧ (k = 0 ∨ f (k - 1) = true)
  | some (sv, s, j) => s < 8 ∧ unit sv s ≤ k ∧ unit sv s + n = k + j ∧ (∀ x, unit sv s ≤ x → x < k → f x = false) ∧
      (∀ u, u < unit sv s → ∃ x, u ≤ x ∧ x < u + n ∧ f x = true) ∧ 0 < j

/-- The search is over: the first run of `n` starts at the pair. -/
def Found (f : Nat → Bool) (n k sv s : Nat) : Prop :=
  s < 8 ∧ unit sv s + n ≤ k ∧ (∀ x, unit sv s ≤ x → x < unit sv s + n → f x = false) ∧ (∀ u, u < unit sv s → ∃ x, u ≤ x ∧ x < u + n ∧ f x = true)

theorem scan_used {f n k st} (hn : 0 < n) (h : Scan f n k st) (hk : f k = true) : Scan f n (k + 1) none := by
  refine ⟨fun u hu => ?_, Or.inr hk⟩
  by_cases e : u + n = k + 1
  · exact ⟨k, by omega, by omega, hk⟩
  · cases st with
    | none => exact h.1 u (by omega)
    | some t =>
      obtain ⟨sv, s, j⟩ := t
      obtain ⟨_, h2, h3, _, h5, h6⟩ := h
      exact h5 u (by omega)

theorem bitLoop_spec (f : Nat → Bool) (b : BitVec 8) (pos n : Nat) (hn : 0 < n) (hf : ∀ i, i < 8 → f (unit pos i) = b.getLsbD i) :
    ∀ i st, i ≤ 8 → Scan f n (pos * 8 + (8 - i)) st →
      (∃ sv s, bitLoop b pos n i st = some (sv, s, 0) ∧ Found f n (pos * 8 + 8) sv s) ∨
      (Scan f n (pos * 8 + 8) (bitLoop b pos n i st)) := by
  intro i
  induction i with
  | zero => intro st _ h; exact Or.inr h
  | succ i ih =>
    intro st hi h
    have hu : unit pos i = pos * 8 + (8 - (i + 1)) := by unfold unit; omega
    have hfi := hf i (by omega)
    unfold bitLoop
    by_cases hb : b.getLsbD i = false
    · rw [if_pos hb]
      rw [hb] at hfi
      -- the state before the decrement
      have hst : ∃ sv s j, st.getD (pos, i, n) = (sv, s, j) ∧ Scan f n (pos * 8 + (8 - (i + 1))) (some (sv, s, j)) := by
        cases st with
        | some t => exact ⟨t.1, t.2.1, t.2.2, rfl, h⟩
        | none =>
          refine ⟨pos, i, n, rfl, by omega, by omega, by omega, fun x h1 h2 => by omega, ?_, hn⟩
          intro u hu'
          by_cases e : u + n ≤ pos * 8 + (8 - (i + 1))
          · exact h.1 u e
          · rcases h.2 with g | g
            · omega
            · exact ⟨pos * 8 + (8 - (i + 1)) - 1, by omega, by omega, g⟩
      obtain ⟨sv, s, j, e, h1, h2, h3, h4, h5, h6⟩ := hst
      simp only [e]
      have hx : ∀ x, unit sv s ≤ x → x < pos * 8 + (8 - (i + 1)) + 1 → f x = false := by
        intro x hx1 hx2
        by_cases ex : x = pos * 8 + (8 - (i + 1))
        · rw [ex, ← hu]; exact hfi
        · exact h4 x hx1 (by omega)
      by_cases hj : j - 1 = 0
      · rw [if_pos hj]
        exact Or.inl ⟨sv, s, rfl, h1, by omega, fun x a c => hx x a (by omega), h5⟩
      · rw [if_neg hj]
        apply ih _ (by omega)
        refine ⟨h1, by omega, by omega, fun x a c => hx x a (by omega), h5, by omega⟩
    · rw [if_neg hb]
      apply ih _ (by omega)
      have : pos * 8 + (8 - i) = pos * 8 + (8 - (i + 1)) + 1 := by omega
      rw [this]
      apply scan_used hn h
      rw [← hu, hfi]
      simpa using hb

theorem byteLoop_spec (f : Nat → Bool) (n : Nat) (hn : 0 < n) : ∀ bm pos st,
    (∀ p, p < bm.length → ∀ i, i < 8 → f (unit (pos + p) i) = (bm.getD p 0).getLsbD i) → Scan f n (pos * 8) st →
    match byteLoop n bm pos st with
    | some (sv, s) => Found f n ((pos + bm.length) * 8) sv s
    | none => ∃ st', Scan f n ((pos + bm.length) * 8) st' := by
  intro bm
  induction bm with
  | nil => intro pos st _ h; exact ⟨st, h⟩
  | cons b bm ih =>
    intro pos st hf h
    have hf0 : ∀ i, i < 8 → f (unit pos i) = b.getLsbD i := fun i hi => hf 0 (by simp) i hi
    have hf1 : ∀ p, p < bm.length → ∀ i, i < 8 → f (unit (pos + 1 + p) i) = (bm.getD p 0).getLsbD i := by
      intro p hp i hi
      have := hf (p + 1) (by simpa using hp) i hi
      rw [show pos + 1 + p = pos + (p + 1) by omega, this]
      rfl
    have hl : pos + (b :: bm).length = pos + 1 + bm.length := by simp; omega
    rw [hl]
    unfold byteLoop
    by_cases hb : b = 0xff
    · rw [if_pos hb]
      apply ih (pos + 1) none hf1
      have all : ∀ i, i < 8 → f (unit pos i) = true := by
        intro i hi
        rw [hf0 i hi, hb]
        have : ∀ i : Fin 8, (0xff : BitVec 8).getLsbD i.val = true := by decide
        exact this ⟨i, hi⟩
      have := all
      have step : ∀ k, k < 8 → ∀ st, Scan f n (pos * 8 + k) st → Scan f n (pos * 8 + k + 1) none := by
        intro k hk st hs
        apply scan_used hn hs
        have := all (7 - k) (by omega)
        unfold unit at this
        rw [show pos * 8 + (7 - (7 - k)) = pos * 8 + k by omega] at this
        exact this
      have h1 := step 0 (by omega) st h
      have h2 := step 1 (by omega) _ h1
      have h3 := step 2 (by omega) _ h2
      have h4 := step 3 (by omega) _ h3
      have h5 := step 4 (by omega) _ h4
      have h6 := step 5 (by omega) _ h5
      have h7 := step 6 (by omega) _ h6
      have h8 := step 7 (by omega) _ h7
      rw [show (pos + 1) * 8 = pos * 8 + 7 + 1 by omega]
      exact h8
    · rw [if_neg hb]
      rcases bitLoop_spec f b pos n hn hf0 8 st (by omega) h with ⟨sv, s, e, hF⟩ | hS
      · rw [e]
        simp only
        obtain ⟨g1, g2, g3, g4⟩ := hF
        exact ⟨g1, by omega, g3, g4⟩
      · have := ih (pos + 1) (bitLoop b pos n 8 st) hf1 (by rw [show (pos + 1) * 8 = pos * 8 + 8 by omega]; exact hS)
        cases e : bitLoop b pos n 8 st with
        | none => rw [e] at this; exact this
        | some t =>
          obtain ⟨sv, s, j⟩ := t
          rw [e] at this hS
          have hj : 0 < j := hS.2.2.2.2.2
          obtain ⟨j, rfl⟩ : ∃ k, j = k + 1 := ⟨j - 1, by omega⟩
          exact this

theorem bit_unit (bm : List (BitVec 8)) (p i : Nat) (hi : i < 8) : bit bm (unit p i) = (bm.getD p 0).getLsbD i := by
  unfold bit unit
  rw [show (p * 8 + (7 - i)) / 8 = p by omega, show 7 - (p * 8 + (7 - i)) % 8 = i by omega]

/-- The byte loop finds the first run of `n` free units, if there is one. -/
theorem search_spec (n : Nat) (hn : 0 < n) (bm : List (BitVec 8)) :
    (∀ B b, byteLoop n bm 0 none = some (B, b) → b < 8 ∧ FreeRun bm (unit B b) n ∧ ∀ u, u < unit B b → ¬ FreeRun bm u n) ∧
    (byteLoop n bm 0 none = none → ∀ u, ¬ FreeRun bm u n) := by
  have h := byteLoop_spec (bit bm) n hn bm 0 none (fun p _ i hi => by rw [Nat.zero_add]; exact bit_unit bm p i hi) ⟨fun u hu => by omega, Or.inl rfl⟩
  constructor
  · intro B b e
    rw [e] at h
    simp only at h
    obtain ⟨h1, h2, h3, h4⟩ := h
    refine ⟨h1, ⟨by omega, h3⟩, fun u hu hr => ?_⟩
    obtain ⟨x, a, c, d⟩ := h4 u hu
    rw [hr.2 x a c] at d
    cases d
  · intro e u hr
    rw [e] at h
    simp only at h
    obtain ⟨st, h⟩ := h
    obtain ⟨hr1, hr2⟩ := hr
    have : ∃ x, u ≤ x ∧ x < u + n ∧ bit bm x = true := by
      cases st with
      | none => exact h.1 u (by omega)
      | some t =>
        obtain ⟨sv, s, j⟩ := t
        obtain ⟨_, h2, h3, _, h5, h6⟩ := h
        exact h5 u (by omega)
    obtain ⟨x, a, c, d⟩ := this
    rw [hr2 x a c] at d
    cases d

/-! ## Counting -/

/-- How many of the first `N` units satisfy `f`. -/
def cnt (f : Nat → Bool) (N : Nat) : Nat := (List.range N).countP f

theorem cnt_succ (f : Nat → Bool) (N : Nat) : cnt f (N + 1) = cnt f N + if f N = true then 1 else 0 := by
  unfold cnt
  rw [List.range_succ, List.countP_append, List.countP_singleton]

theorem cnt_congr (f g : Nat → Bool) (N : Nat) (h : ∀ x, x < N → f x = g x) : cnt f N = cnt g N := by
  unfold cnt
  apply List.countP_congr
  intro x hx
  rw [h x (by simpa using hx)]

theorem cnt_interval (f g : Nat → Bool) (a : Nat) : ∀ N n, (∀ x, a ≤ x → x < a + n → f x = true) → a + n ≤ N →
    (∀ x, x < N → g x = (f x && !(decide (a ≤ x) && decide (x < a + n)))) → cnt g N + n = cnt f N := by
  intro N
  induction N with
  | zero => intro n _ h _; obtain rfl : n = 0 := by omega
            rfl
  | succ N ih =>
    intro n h1 h2 h3
    rw [cnt_succ, cnt_succ]
    have hN := h3 N (by omega)
    by_cases e : a + n = N + 1
    · cases n with
      | zero =>
        have hgf : ∀ x, x < N + 1 → g x = f x := by
          intro x hx
          rw [h3 x hx]
          have : (decide (a ≤ x) && decide (x < a + 0)) = false := by simp
          rw [this]
          simp
        rw [cnt_congr g f N (fun x hx => hgf x (by omega)), hgf N (by omega)]
        rfl
      | succ n =>
        have := ih n (fun x hx hx' => h1 x hx (by omega)) (by omega) (fun x hx => by
          rw [h3 x (by omega)]
          have : decide (x < a + (n + 1)) = decide (x < a + n) ∨ x = a + n := by
            by_cases e : x = a + n
            · exact Or.inr e
            · left; simp; omega
          rcases this with t | t
          · rw [t]
          · omega)
        have hf : f N = true := h1 N (by omega) (by omega)
        have hg : g N = false := by rw [hN, hf]; simp; omega
        rw [hf, hg]
        simp
        omega
    · have := ih n h1 (by omega) (fun x hx => h3 x (by omega))
      have hg : g N = f N := by rw [hN]; simp; omega
      rw [hg]
      omega

theorem cnt_ge (f : Nat → Bool) (a n N : Nat) (h : ∀ x, a ≤ x → x < a + n → f x = true) (hN : a + n ≤ N) : n ≤ cnt f N := by
  have := cnt_interval f (fun x => f x && !(decide (a ≤ x) && decide (x < a + n))) a N n h hN (fun x _ => rfl)
  omega

/-! ## The invariant -/

/-- The first unit of a block. -/
def first (b : Blk) : Nat := unit (b.pad / 256 % 65536) (b.pad % 256)

/-- The units of a block. -/
def Run (b : Blk) (k : Nat) : Prop := first b ≤ k ∧ k < first b + need b.size

structure Small (a : As) : Prop where
  large : a.large = false
  size : a.size = 2097152
  len : a.bitmap.length = 4096
  base : a.base = 32703
  nfree : a.nfree = cnt (fun k => !bit a.bitmap k) 32768
  blk : ∀ b ∈ a.blks, b.pad % 256 < 8 ∧ b.addr = a.addr + first b * 64 ∧ 65 ≤ first b ∧ first b + need b.size ≤ 32768
  sep : a.blks.Pairwise (fun b c => first b + need b.size ≤ first c ∨ first c + need c.size ≤ first b)
  bits : ∀ k, k < 32768 → (bit a.bitmap k = true ↔ k < 65 ∨ ∃ b ∈ a.blks, Run b k)

structure Large (a : As) : Prop where
  large : a.large = true
  nfree : a.nfree = 0
  blks : ∃ b, a.blks = [b] ∧ b.addr = a.addr + 4144 ∧ a.size = 4200 + b.size

/-- Blocks in the order of their addresses between `lo` and `hi`. -/
def Ch (hi : Nat) : Nat → List As → Prop
  | lo, [] => lo ≤ hi
  | lo, a :: as => lo ≤ a.addr ∧ Ch hi (a.addr + a.size) as

structure Inv (s : Pool) : Prop where
  lim : s.mem + s.cap < W
  chain : Ch (s.mem + s.cap) (s.mem + 2048) s.as
  ok : ∀ a ∈ s.as, Small a ∨ Large a

/-- The live blocks of the pool: pointer and size. -/
def live (s : Pool) : List (Nat × Nat) := s.as.flatMap (fun a => a.blks.map (fun b => (b.addr + 56, b.size)))

/-- All the memory in use: the mln_alloc_shm_t with their bitmaps, and the blocks with their
headers. -/
def feet (s : Pool) : List (Nat × Nat) := s.as.flatMap (fun a => (a.addr, 4144) :: a.blks.map (fun b => (b.addr, 56 + b.size)))

/-- Two regions have no byte in common. -/
def Sep (x y : Nat × Nat) : Prop := x.1 + x.2 ≤ y.1 ∨ y.1 + y.2 ≤ x.1

theorem need_pos (n : Nat) : 0 < need n := by unfold need; omega

theorem need_size (n : Nat) : n + 56 ≤ need n * 64 := by unfold need; omega

theorem ch_append {hi : Nat} : ∀ {l r : List As} {lo mid : Nat}, Ch mid lo l → Ch hi mid r → Ch hi lo (l ++ r) := by
  intro l
  induction l with
  | nil =>
    intro r lo mid h1 h2
    cases r with
    | nil => exact Nat.le_trans h1 h2
    | cons a r => exact ⟨Nat.le_trans h1 h2.1, h2.2⟩
  | cons a l ih => intro r lo mid h1 h2; exact ⟨h1.1, ih h1.2 h2⟩

theorem ch_le {hi : Nat} : ∀ {l : List As} {lo : Nat}, Ch hi lo l → lo ≤ hi := by
  intro l
  induction l with
  | nil => intro lo h; exact h
  | cons a l ih => intro lo h; have := ih h.2; have := h.1; omega

/-- What the search for a gap finds. -/
theorem place_some {size hi : Nat} (hh : hi < W) (hz : size < W) : ∀ {as : List As} {lo : Nat} {l p r}, Ch hi lo as → place size hi lo as = some (l, p, r) →
    as = l ++ r ∧ Ch p lo l ∧ Ch hi (p + size) r := by
  intro as
  induction as with
  | nil =>
    intro lo l p r h e
    have := ch_le h
    simp only [place] at e
    split at e
    · cases e
    · rename_i hn
      cases e
      have : (hi + W - lo) % W = hi - lo := by rw [show hi + W - lo = hi - lo + W by omega, Nat.add_mod_right, Nat.mod_eq_of_lt (by omega)]
      exact ⟨rfl, Nat.le_refl _, by show lo + size ≤ hi; omega⟩
  | cons t ts ih =>
    intro lo l p r h e
    have h1 := h.1
    have h2 := ch_le h.2
    simp only [place] at e
    have hm : (t.addr + W - lo) % W = t.addr - lo := by rw [show t.addr + W - lo = t.addr - lo + W by omega, Nat.add_mod_right, Nat.mod_eq_of_lt (by omega)]
    rw [hm] at e
    split at e
    · cases e
      exact ⟨rfl, Nat.le_refl _, by omega, h.2⟩
    · cases hp : place size hi (t.addr + t.size) ts with
      | none => rw [hp] at e; cases e
      | some x =>
        obtain ⟨l', p', r'⟩ := x
        rw [hp] at e
        cases e
        obtain ⟨g1, g2, g3⟩ := ih h.2 hp
        exact ⟨by rw [g1]; rfl, ⟨h1, g2⟩, g3⟩

/-- If none is found there is no gap. -/
theorem place_none {size hi : Nat} (hh : hi < W) : ∀ {as : List As} {lo : Nat}, Ch hi lo as → place size hi lo as = none →
    ∀ q, lo ≤ q → q + size ≤ hi → ∃ a ∈ as, ¬ Sep (a.addr, a.size) (q, size) := by
  intro as
  induction as with
  | nil =>
    intro lo h e q h1 h2
    have := ch_le h
    simp only [place] at e
    have : (hi + W - lo) % W = hi - lo := by rw [show hi + W - lo = hi - lo + W by omega, Nat.add_mod_right, Nat.mod_eq_of_lt (by omega)]
    rw [this] at e
    split at e
    · omega
    · cases e
  | cons t ts ih =>
    intro lo h e q h1 h2
    have h3 := h.1
    have h4 := ch_le h.2
    simp only [place] at e
    have hm : (t.addr + W - lo) % W = t.addr - lo := by rw [show t.addr + W - lo = t.addr - lo + W by omega, Nat.add_mod_right, Nat.mod_eq_of_lt (by omega)]
    rw [hm] at e
    split at e
    · cases e
    · cases hp : place size hi (t.addr + t.size) ts with
      | some x => rw [hp] at e; cases e
      | none =>
        by_cases hq : t.addr + t.size ≤ q
        · obtain ⟨a, ha, hs⟩ := ih h.2 hp q hq h2
          exact ⟨a, by simp [ha], hs⟩
        · refine ⟨t, by simp, ?_⟩
          simp only [Sep, not_or]
          omega

/-! ## Nothing overlaps -/

theorem ch_mem {hi : Nat} : ∀ {as : List As} {lo : Nat}, Ch hi lo as → ∀ a ∈ as, lo ≤ a.addr ∧ a.addr + a.size ≤ hi := by
  intro as
  induction as with
  | nil => intro lo _ a ha; cases ha
  | cons t ts ih =>
    intro lo h a ha
    rcases List.mem_cons.1 ha with rfl | ha
    · exact ⟨h.1, ch_le h.2⟩
    · have := ih h.2 a ha
      have := h.1
      omega

/-- The memory in use of one shared-memory block. -/
def feetOf (a : As) : List (Nat × Nat) := (a.addr, 4144) :: a.blks.map (fun b => (b.addr, 56 + b.size))

theorem feetOf_in {a : As} (h : Small a ∨ Large a) : ∀ x ∈ feetOf a, a.addr ≤ x.1 ∧ x.1 + x.2 ≤ a.addr + a.size := by
  intro x hx
  rcases List.mem_cons.1 hx with rfl | hx
  · rcases h with h | h
    · rw [h.size]; simp
    · obtain ⟨b, _, _, e⟩ := h.blks
      rw [e]; simp; omega
  · obtain ⟨b, hb, rfl⟩ := List.mem_map.1 hx
    simp only
    rcases h with h | h
    · obtain ⟨_, h2, h3, h4⟩ := h.blk b hb
      have := need_size b.size
      have := h.size
      omega
    · obtain ⟨c, e1, e2, e3⟩ := h.blks
      rw [e1] at hb
      simp at hb
      subst hb
      omega

theorem feetOf_sep {a : As} (h : Small a ∨ Large a) : (feetOf a).Pairwise Sep := by
  unfold feetOf
  rw [List.pairwise_cons, List.pairwise_map]
  rcases h with h | h
  · refine ⟨?_, ?_⟩
    · intro x hx
      obtain ⟨b, hb, rfl⟩ := List.mem_map.1 hx
      obtain ⟨_, h2, h3, _⟩ := h.blk b hb
      left
      simp only
      omega
    · apply h.sep.imp_of_mem
      intro b c hb hc hbc
      have := (h.blk b hb).2.1
      have := (h.blk c hc).2.1
      have := need_size b.size
      have := need_size c.size
      unfold Sep
      simp only
      omega
  · obtain ⟨b, e1, e2, e3⟩ := h.blks
    rw [e1]
    refine ⟨?_, by simp⟩
    intro x hx
    simp at hx
    subst hx
    left
    simp only
    omega

/-- C61 (first part): the bitmaps, the headers and the bytes of all live blocks lie inside the
shared memory behind the mln_alloc_t, and no two of them overlap. -/
theorem shm_disjoint {s : Pool} (h : Inv s) : (feet s).Pairwise Sep ∧ ∀ x ∈ feet s, s.mem + 2048 ≤ x.1 ∧ x.1 + x.2 ≤ s.mem + s.cap := by
  have key : ∀ as lo, Ch (s.mem + s.cap) lo as → (∀ a ∈ as, Small a ∨ Large a) → (as.flatMap feetOf).Pairwise Sep ∧ ∀ x ∈ as.flatMap feetOf, lo ≤ x.1 ∧ x.1 + x.2 ≤ s.mem + s.cap := by
    intro as
    induction as with
    | nil => intro lo _ _; simp
    | cons a as ih =>
      intro lo hc ho
      obtain ⟨i1, i2⟩ := ih _ hc.2 (fun x hx => ho x (by simp [hx]))
      have ha := ho a (by simp)
      have hle := ch_le hc.2
      have h1 := hc.1
      rw [List.flatMap_cons]
      refine ⟨List.pairwise_append.2 ⟨feetOf_sep ha, i1, ?_⟩, ?_⟩
      · intro x hx y hy
        have := feetOf_in ha x hx
        have := i2 y hy
        left
        omega
      · intro x hx
        rcases List.mem_append.1 hx with g | g
        · have := feetOf_in ha x g
          omega
        · have := i2 x g
          omega
  exact key s.as _ h.chain h.ok

/-! ## Allocation -/

theorem allowed_spec {a : As} (h : Small a) (size : Nat) :
    (∀ B b, allowed a size = some (B, b) → b < 8 ∧ FreeRun a.bitmap (unit B b) (need size) ∧ ∀ u, u < unit B b → ¬ FreeRun a.bitmap u (need size)) ∧
    (allowed a size = none → ∀ u, ¬ FreeRun a.bitmap u (need size)) := by
  have hs := search_spec (need size) (need_pos size) a.bitmap
  unfold allowed
  by_cases hn : need size > a.nfree
  · rw [if_pos hn]
    refine ⟨(fun B b e => by cases e), fun _ u hr => ?_⟩
    have := cnt_ge (fun k => !bit a.bitmap k) u (need size) 32768 (fun x h1 h2 => by rw [hr.2 x h1 h2]; rfl) (by have := hr.1; have := h.len; omega)
    have := h.nfree
    omega
  · rw [if_neg hn]
    exact hs

theorem setBitmap_spec {a : As} (h : Small a) (B b size : Nat) (hb : b < 8) (hr : FreeRun a.bitmap (unit B b) (need size)) :
    ∃ q a' x, setBitmap a B b size = some (q, a') ∧ Small a' ∧ a'.addr = a.addr ∧ a'.size = a.size ∧ a'.blks = x :: a.blks ∧ q = x.addr + 56 ∧ x.size = size := by
  obtain ⟨hr1, hr2⟩ := hr
  have hlen := h.len
  have hn := need_pos size
  have hB : B < 4096 := by unfold unit at hr1; omega
  obtain ⟨bm, e, hl, hbit⟩ := runLoop_spec true (need size) a.bitmap B b hb (by omega)
  have h65 : 65 ≤ unit B b := by
    apply Nat.le_of_not_lt
    intro hlt
    have h1 := hr2 (unit B b) (Nat.le_refl _) (by omega)
    have h2 := (h.bits (unit B b) (by omega)).2 (Or.inl hlt)
    rw [h1] at h2
    cases h2
  let x : Blk := ⟨a.addr + unit B b * 64, size, B % 65536 * 256 + b % 256⟩
  have hx : first x = unit B b := by
    show unit ((B % 65536 * 256 + b % 256) / 256 % 65536) ((B % 65536 * 256 + b % 256) % 256) = unit B b
    rw [show (B % 65536 * 256 + b % 256) / 256 % 65536 = B by omega, show (B % 65536 * 256 + b % 256) % 256 = b by omega]
  refine ⟨x.addr + 56, { a with bitmap := bm, nfree := a.nfree - need size, blks := x :: a.blks }, x, by unfold setBitmap; rw [e]; rfl, ?_, rfl, rfl, rfl, rfl, rfl⟩
  refine { large := h.large, size := h.size, len := by rw [← hlen]; exact hl, base := h.base, nfree := ?_, blk := ?_, sep := ?_, bits := ?_ }
  · have := cnt_interval (fun k => !bit a.bitmap k) (fun k => !bit bm k) (unit B b) 32768 (need size) (fun y h1 h2 => by rw [hr2 y h1 h2]; rfl) (by omega) (fun y hy => by
      rw [hbit y]
      by_cases hc : unit B b ≤ y ∧ y < unit B b + need size
      · rw [if_pos hc]; simp [hc.1, hc.2]
      · rw [if_neg hc]
        have : (decide (unit B b ≤ y) && decide (y < unit B b + need size)) = false := by
          rw [← Bool.decide_and, decide_eq_false_iff_not]; exact hc
        rw [this]; simp)
    have := h.nfree
    show a.nfree - need size = cnt (fun k => !bit bm k) 32768
    omega
  · intro y hy
    rcases List.mem_cons.1 hy with rfl | hy
    · rw [hx]
      refine ⟨?_, rfl, h65, by show unit B b + need size ≤ 32768; omega⟩
      show (B % 65536 * 256 + b % 256) % 256 < 8
      omega
    · exact h.blk y hy
  · rw [List.pairwise_cons]
    refine ⟨fun c hc => ?_, h.sep⟩
    rw [hx]
    show unit B b + need size ≤ first c ∨ first c + need c.size ≤ unit B b
    have hcb := h.blk c hc
    have hnc := need_pos c.size
    by_contra hcon
    rw [not_or] at hcon
    -- a common unit
    let y := max (unit B b) (first c)
    have hy1 : unit B b ≤ y := Nat.le_max_left _ _
    have hy2 : first c ≤ y := Nat.le_max_right _ _
    have hy3 : y < unit B b + need size := by show max _ _ < _; omega
    have hy4 : y < first c + need c.size := by show max _ _ < _; omega
    have h1 := hr2 y hy1 hy3
    have h2 := (h.bits y (by omega)).2 (Or.inr ⟨c, hc, hy2, hy4⟩)
    rw [h1] at h2
    cases h2
  · intro k hk
    simp only
    rw [hbit k]
    by_cases hc : unit B b ≤ k ∧ k < unit B b + need size
    · rw [if_pos hc]
      simp only [true_iff]
      exact Or.inr ⟨x, by simp, by rw [hx]; exact hc.1, by rw [hx]; exact hc.2⟩
    · rw [if_neg hc, h.bits k hk]
      constructor
      · rintro (g | ⟨c, hc1, hc2⟩)
        · exact Or.inl g
        · exact Or.inr ⟨c, by simp [hc1], hc2⟩
      · rintro (g | ⟨c, hc1, hc2⟩)
        · exact Or.inl g
        · rcases List.mem_cons.1 hc1 with rfl | hc1
          · exfalso
            apply hc
            have := hc2
            unfold Run at this
            rw [hx] at this
            exact this
          · exact Or.inr ⟨c, hc1, hc2⟩

theorem bit_fresh (k : Nat) (hk : k < 32768) : bit freshMap k = true ↔ k < 65 := by
  unfold bit freshMap
  rw [List.getD_eq_getElem?_getD]
  by_cases h1 : k / 8 < 8
  · rw [List.getElem?_append_left (by simpa using h1), List.getElem?_replicate, if_pos h1]
    have : ∀ i : Fin 8, ((0xff : BitVec 8)).getLsbD i.val = true := by decide
    have := this ⟨7 - k % 8, by omega⟩
    simp only [Option.getD_some]
    simp only at this
    rw [this]
    simp
    omega
  · rw [List.getElem?_append_right (by simpa using h1)]
    simp only [List.length_replicate]
    by_cases h2 : k / 8 = 8
    · rw [h2]
      simp only [Nat.sub_self, List.getElem?_cons_zero, Option.getD_some]
      have : ∀ i : Fin 8, ((0x80 : BitVec 8)).getLsbD i.val = decide (i.val = 7) := by decide
      have := this ⟨7 - k % 8, by omega⟩
      simp only at this
      rw [this]
      simp
      omega
    · obtain ⟨m, hm⟩ : ∃ m, k / 8 - 8 = m + 1 := ⟨k / 8 - 9, by omega⟩
      rw [hm, List.getElem?_cons_succ, List.getElem?_replicate, if_pos (by omega)]
      simp
      omega

theorem cnt_true (N : Nat) : cnt (fun _ => true) N = N := by
  unfold cnt
  simp

theorem cnt_65 : cnt (fun k => decide (65 ≤ k)) 32768 = 32703 := by
  have := cnt_interval (fun _ => true) (fun k => decide (65 ≤ k)) 0 32768 65 (fun _ _ _ => rfl) (by omega) (fun x _ => by by_cases h : x < 65 <;> simp [h]; omega)
  rw [cnt_true] at this
  omega

theorem small_fresh (p : Nat) : Small (fresh 2097152 false p) := by
  refine { large := rfl, size := rfl, len := ?_, base := rfl, nfree := ?_, blk := ?_, sep := ?_, bits := ?_ }
  · show freshMap.length = 4096
    unfold freshMap
    rw [List.length_append, List.length_cons, List.length_replicate, List.length_replicate]
  · show 2097152 / 64 - 65 = cnt (fun k => !bit freshMap k) 32768
    rw [cnt_congr _ (fun k => decide (65 ≤ k)) 32768 (fun k hk => by
      have := bit_fresh k hk
      cases hb : bit freshMap k with
      | true => rw [hb] at this; simp at this; simp [this]
      | false => rw [hb] at this; simp at this; simp [this]), cnt_65]
  · intro b hb; cases hb
  · exact List.Pairwise.nil
  · intro k hk
    show bit freshMap k = true ↔ k < 65 ∨ ∃ b ∈ ([] : List Blk), Run b k
    rw [bit_fresh k hk]
    simp

theorem allowed_fresh (p size : Nat) (h : size ≤ 1572864) : ∃ B b, allowed (fresh 2097152 false p) size = some (B, b) := by
  cases e : allowed (fresh 2097152 false p) size with
  | some o => exact ⟨o.1, o.2, rfl⟩
  | none =>
    exfalso
    have hf := small_fresh p
    apply (allowed_spec hf size).2 e 65
    have hl := hf.len
    have hn : need size ≤ 24577 := by unfold need; omega
    refine ⟨by omega, fun x h1 h2 => ?_⟩
    have hb := (hf.bits x (by omega))
    cases hc : bit (fresh 2097152 false p).bitmap x with
    | false => rfl
    | true =>
      rcases hb.1 hc with g | ⟨b, hb, _⟩
      · omega
      · cases hb

theorem pick_some {size : Nat} : ∀ {as l a o r}, pick size as = some (l, a, o, r) → as = l ++ a :: r ∧ allowed a size = some o := by
  intro as
  induction as with
  | nil => intro l a o r e; cases e
  | cons t ts ih =>
    intro l a o r e
    simp only [pick] at e
    cases ht : allowed t size with
    | some x => rw [ht] at e; cases e; exact ⟨rfl, ht⟩
    | none =>
      rw [ht] at e
      cases hp : pick size ts with
      | none => rw [hp] at e; cases e
      | some y =>
        obtain ⟨l', a', o', r'⟩ := y
        rw [hp] at e
        cases e
        obtain ⟨g1, g2⟩ := ih hp
        exact ⟨by rw [g1]; rfl, g2⟩

theorem pick_none {size : Nat} : ∀ {as}, pick size as = none → ∀ a ∈ as, allowed a size = none := by
  intro as
  induction as with
  | nil => intro _ a ha; cases ha
  | cons t ts ih =>
    intro e a ha
    simp only [pick] at e
    cases ht : allowed t size with
    | some x => rw [ht] at e; cases e
    | none =>
      rw [ht] at e
      cases hp : pick size ts with
      | some y => rw [hp] at e; cases e
      | none =>
        rcases List.mem_cons.1 ha with rfl | ha
        · exact ht
        · exact ih hp a ha

theorem allowed_large {a : As} (h : Large a) (size : Nat) : allowed a size = none := by
  unfold allowed
  rw [if_pos (by rw [h.nfree]; exact need_pos size)]

/-- A chain stays one if a block is replaced by one of the same place. -/
theorem ch_replace {hi : Nat} {a a' : As} (h1 : a'.addr = a.addr) (h2 : a'.size = a.size) {r : List As} : ∀ {l : List As} {lo : Nat},
    Ch hi lo (l ++ a :: r) → Ch hi lo (l ++ a' :: r) := by
  intro l
  induction l with
  | nil => intro lo h; exact ⟨by rw [h1]; exact h.1, by rw [h1, h2]; exact h.2⟩
  | cons t l ih => intro lo h; exact ⟨h.1, ih h.2⟩

/-- There is no room for `size` contiguous bytes. -/
def NoGap (s : Pool) (size : Nat) : Prop :=
  ∀ q, s.mem + 2048 ≤ q → q + size ≤ s.mem + s.cap → ∃ a ∈ s.as, ¬ Sep (a.addr, a.size) (q, size)

/-- No run of free units and no room for a new block. -/
def Full (s : Pool) (size : Nat) : Prop :=
  if size ≤ 1572864 then (∀ a ∈ s.as, a.large = false → ∀ u, ¬ FreeRun a.bitmap u (need size)) ∧ NoGap s 2097152
  else NoGap s (size + 4200)

/-- The pairs of one list of blocks. -/
def liveL (as : List As) : List (Nat × Nat) := as.flatMap (fun a => a.blks.map (fun b => (b.addr + 56, b.size)))

theorem liveL_insert (l r : List As) (a a' : As) (x : Blk) (h : a'.blks = x :: a.blks) :
    (liveL (l ++ a' :: r)).Perm ((x.addr + 56, x.size) :: liveL (l ++ a :: r)) := by
  unfold liveL
  rw [List.flatMap_append, List.flatMap_append, List.flatMap_cons, List.flatMap_cons, h, List.map_cons, List.cons_append]
  exact List.perm_middle

theorem liveL_new (l r : List As) (a' : As) (x : Blk) (h : a'.blks = [x]) :
    (liveL (l ++ a' :: r)).Perm ((x.addr + 56, x.size) :: liveL (l ++ r)) := by
  unfold liveL
  rw [List.flatMap_append, List.flatMap_append, List.flatMap_cons, h, List.map_cons, List.map_nil, List.cons_append, List.nil_append]
  exact List.perm_middle

/-- C61 (allocation): mln_alloc_m on a shared-memory pool either returns a new block of the size asked
for, all other blocks staying as they are, or returns NULL without a change, and the latter only if
no block has a free run long enough and there is no room for a new block. -/
theorem shm_alloc {s : Pool} (h : Inv s) (size : Nat) (hz : size + 4200 < W) :
    ∃ r s', alloc s size = some (r, s') ∧ Inv s' ∧ s'.mem = s.mem ∧ s'.cap = s.cap ∧ (r = none → s' = s ∧ Full s size) ∧
      ∀ p, r = some p → (live s').Perm ((p, size) :: live s) := by
  unfold alloc
  by_cases hl : size > 1572864
  · rw [if_pos hl, Nat.mod_eq_of_lt hz]
    cases hp : place (size + 4200) (s.mem + s.cap) (s.mem + 2048) s.as with
    | none =>
      refine ⟨none, s, rfl, h, rfl, rfl, fun _ => ⟨rfl, ?_⟩, fun p e => by cases e⟩
      unfold Full
      rw [if_neg (by omega)]
      intro q h1 h2
      exact place_none h.lim h.chain hp q h1 h2
    | some t =>
      obtain ⟨l, p, r⟩ := t
      obtain ⟨g1, g2, g3⟩ := place_some h.lim hz h.chain hp
      refine ⟨_, _, rfl, ⟨h.lim, ?_, ?_⟩, rfl, rfl, (fun e => by cases e), ?_⟩
      · exact ch_append g2 ⟨Nat.le_refl _, g3⟩
      · intro a ha
        rcases List.mem_append.1 ha with ha | ha
        · exact h.ok a (by rw [g1]; simp [ha])
        · rcases List.mem_cons.1 ha with rfl | ha
          · exact Or.inr ⟨rfl, rfl, _, rfl, rfl, by show size + 4200 = 4200 + size; omega⟩
          · exact h.ok a (by rw [g1]; simp [ha])
      · intro q e
        cases e
        show (liveL _).Perm ((p + 4200, size) :: liveL s.as)
        rw [g1]
        exact liveL_new l r _ ⟨p + 4144, size, 0⟩ rfl
  · rw [if_neg hl]
    cases hp : pick size s.as with
    | some t =>
      obtain ⟨l, a, ⟨B, b⟩, r⟩ := t
      obtain ⟨g1, g2⟩ := pick_some hp
      have hsm : Small a := by
        rcases h.ok a (by rw [g1]; simp) with g | g
        · exact g
        · rw [allowed_large g] at g2; cases g2
      obtain ⟨hb, hr, _⟩ := (allowed_spec hsm size).1 B b g2
      obtain ⟨q, a', x, e, k1, k2, k3, k4, k5, k6⟩ := setBitmap_spec hsm B b size hb hr
      simp only [e, Option.bind_eq_bind, Option.bind_some]
      refine ⟨_, _, rfl, ⟨h.lim, ?_, ?_⟩, rfl, rfl, (fun e => by cases e), ?_⟩
      · have := h.chain
        rw [g1] at this
        exact ch_replace k2 k3 this
      · intro y hy
        rcases List.mem_append.1 hy with hy | hy
        · exact h.ok y (by rw [g1]; simp [hy])
        · rcases List.mem_cons.1 hy with rfl | hy
          · exact Or.inl k1
          · exact h.ok y (by rw [g1]; simp [hy])
      · intro p e
        cases e
        show (liveL _).Perm ((q, size) :: liveL s.as)
        rw [g1, k5, ← k6]
        exact liveL_insert l r a a' x k4
    | none =>
      simp only
      cases hq : place 2097152 (s.mem + s.cap) (s.mem + 2048) s.as with
      | none =>
        refine ⟨none, s, rfl, h, rfl, rfl, fun _ => ⟨rfl, ?_⟩, fun p e => by cases e⟩
        unfold Full
        rw [if_pos (by omega)]
        refine ⟨fun a ha hlg u => ?_, fun q h1 h2 => place_none h.lim h.chain hq q h1 h2⟩
        rcases h.ok a ha with g | g
        · exact (allowed_spec g size).2 (pick_none hp a ha) u
        · rw [g.large] at hlg; cases hlg
      | some t =>
        obtain ⟨l, p, r⟩ := t
        obtain ⟨g1, g2, g3⟩ := place_some h.lim (by decide) h.chain hq
        obtain ⟨B, b, e1⟩ := allowed_fresh p size (by omega)
        obtain ⟨hb, hr, _⟩ := (allowed_spec (small_fresh p) size).1 B b e1
        obtain ⟨q, a', x, e, k1, k2, k3, k4, k5, k6⟩ := setBitmap_spec (small_fresh p) B b size hb hr
        simp only [e1, e, Option.bind_eq_bind, Option.bind_some]
        refine ⟨_, _, rfl, ⟨h.lim, ?_, ?_⟩, rfl, rfl, (fun e => by cases e), ?_⟩
        · exact ch_append g2 ⟨by rw [k2]; exact Nat.le_refl _, by rw [k2, k3]; exact g3⟩
        · intro y hy
          rcases List.mem_append.1 hy with hy | hy
          · exact h.ok y (by rw [g1]; simp [hy])
          · rcases List.mem_cons.1 hy with rfl | hy
            · exact Or.inl k1
            · exact h.ok y (by rw [g1]; simp [hy])
        · intro p' e
          cases e
          show (liveL _).Perm ((q, size) :: liveL s.as)
          rw [g1, k5, ← k6]
          exact liveL_new l r a' x k4

/-! ## Release -/

theorem cnt_mono (f g : Nat → Bool) (N : Nat) (h : ∀ x, x < N → f x = true → g x = true) : cnt f N ≤ cnt g N := by
  unfold cnt
  apply List.countP_mono_left
  intro x hx
  exact h x (by simpa using hx)

theorem freeIn_spec {a : As} (h : Small a ∨ Large a) (b : Blk) (hb : b ∈ a.blks) :
    ∃ o, freeIn a b = some o ∧ (∀ a', o = some a' → Small a' ∧ a'.addr = a.addr ∧ a'.size = a.size ∧ a'.blks = a.blks.erase b) ∧ (o = none → a.blks = [b]) := by
  rcases h with h | h
  · obtain ⟨hb1, hb2, hb3, hb4⟩ := h.blk b hb
    have hlen := h.len
    have hn := need_pos b.size
    obtain ⟨bm, e, hl, hbit⟩ := runLoop_spec false (need b.size) a.bitmap (b.pad / 256 % 65536) (b.pad % 256) hb1 (by show first b + _ ≤ _; omega)
    have hsym : ∀ {x y : Blk}, (first x + need x.size ≤ first y ∨ first y + need y.size ≤ first x) → (first y + need y.size ≤ first x ∨ first x + need x.size ≤ first y) :=
      fun g => g.symm
    have hperm := List.perm_cons_erase hb
    have hpw := (hperm.pairwise_iff hsym).1 h.sep
    rw [List.pairwise_cons] at hpw
    have hset : ∀ x, first b ≤ x → x < first b + need b.size → bit a.bitmap x = true := fun x h1 h2 => (h.bits x (by omega)).2 (Or.inr ⟨b, hb, h1, h2⟩)
    have hcnt : cnt (fun k => !bit a.bitmap k) 32768 + need b.size = cnt (fun k => !bit bm k) 32768 := by
      apply cnt_interval (fun k => !bit bm k) (fun k => !bit a.bitmap k) (first b) 32768 (need b.size)
      · intro x h1 h2
        rw [hbit x]
        show (!(if first b ≤ x ∧ x < first b + need b.size then false else bit a.bitmap x)) = true
        rw [if_pos ⟨h1, h2⟩]
        rfl
      · omega
      · intro x hx
        rw [hbit x]
        show (!bit a.bitmap x) = (!(if first b ≤ x ∧ x < first b + need b.size then false else bit a.bitmap x) && _)
        by_cases hc : first b ≤ x ∧ x < first b + need b.size
        · rw [if_pos hc, hset x hc.1 hc.2]
          simp [hc.1, hc.2]
        · rw [if_neg hc]
          have : (decide (first b ≤ x) && decide (x < first b + need b.size)) = false := by
            rw [← Bool.decide_and, decide_eq_false_iff_not]; exact hc
          rw [this]
          simp
    have hs : Small { a with bitmap := bm, nfree := a.nfree + need b.size, blks := a.blks.erase b } := by
      refine { large := h.large, size := h.size, len := by rw [← hlen]; exact hl, base := h.base, nfree := ?_, blk := ?_, sep := hpw.2, bits := ?_ }
      · have := h.nfree
        simp only
        omega
      · intro c hc
        exact h.blk c (List.mem_of_mem_erase hc)
      · intro k hk
        simp only
        rw [hbit k]
        show (if first b ≤ k ∧ k < first b + need b.size then false else bit a.bitmap k) = true ↔ _
        constructor
        · intro g
          split at g
          · cases g
          · rename_i hnb
            rcases (h.bits k hk).1 g with g | ⟨c, hc, hr⟩
            · exact Or.inl g
            · refine Or.inr ⟨c, (List.mem_erase_of_ne ?_).2 hc, hr⟩
              rintro rfl
              exact hnb hr
        · intro g
          have hnb : ¬ (first b ≤ k ∧ k < first b + need b.size) := by
            rcases g with g | ⟨c, hc, hr⟩
            · omega
            · have := hpw.1 c hc
              unfold Run at hr
              omega
          rw [if_neg hnb, h.bits k hk]
          rcases g with g | ⟨c, hc, hr⟩
          · exact Or.inl g
          · exact Or.inr ⟨c, List.mem_of_mem_erase hc, hr⟩
    unfold freeIn
    rw [if_neg (by rw [h.large]; simp)]
    simp only [e, Option.bind_eq_bind, Option.bind_some]
    by_cases hbase : a.nfree + need b.size = a.base
    · rw [if_pos hbase]
      refine ⟨none, rfl, (fun a' e => by cases e), fun _ => ?_⟩
      have hnil : a.blks.erase b = [] := by
        cases hE : a.blks.erase b with
        | nil => rfl
        | cons c l =>
          exfalso
          have hc : c ∈ a.blks.erase b := by rw [hE]; simp
          obtain ⟨_, _, c3, c4⟩ := hs.blk c hc
          have hnc := need_pos c.size
          have h1 := cnt_interval (fun k => decide (65 ≤ k)) (fun k => decide (65 ≤ k) && !(decide (first c ≤ k) && decide (k < first c + need c.size))) (first c) 32768 (need c.size)
            (fun x g1 g2 => by simp; omega) c4 (fun x _ => rfl)
          rw [cnt_65] at h1
          have h2 := cnt_mono (fun k => !bit bm k) (fun k => decide (65 ≤ k) && !(decide (first c ≤ k) && decide (k < first c + need c.size))) 32768 (by
            intro x hx g
            have hb0 := hs.bits x hx
            simp only at hb0
            simp only [Bool.not_eq_true'] at g
            rw [g] at hb0
            simp only [Bool.false_eq_true, false_iff, not_or, not_exists, not_and] at hb0
            have hr := hb0.2 c hc
            unfold Run at hr
            have : (decide (first c ≤ x) && decide (x < first c + need c.size)) = false := by
              rw [← Bool.decide_and, decide_eq_false_iff_not]; exact hr
            rw [this]
            simp
            omega)
          have h3 := hs.nfree
          simp only at h3
          have h4 := h.base
          omega
      rw [hnil] at hperm
      exact List.perm_singleton.1 hperm
    · rw [if_neg hbase]
      exact ⟨_, rfl, fun a' e => by cases e; exact ⟨hs, rfl, rfl, rfl⟩, fun e => by cases e⟩
  · unfold freeIn
    rw [h.large, if_pos rfl]
    obtain ⟨c, e1, _, _⟩ := h.blks
    rw [e1] at hb
    simp at hb
    subst hb
    exact ⟨none, rfl, (fun a' e => by cases e), fun _ => e1⟩

theorem ch_weaken {hi : Nat} : ∀ {as : List As} {lo lo' : Nat}, lo' ≤ lo → Ch hi lo as → Ch hi lo' as := by
  intro as
  cases as with
  | nil => intro lo lo' h1 h2; exact Nat.le_trans h1 h2
  | cons a as => intro lo lo' h1 h2; exact ⟨Nat.le_trans h1 h2.1, h2.2⟩

theorem freeAs_spec {hi ptr : Nat} : ∀ {as : List As} {lo : Nat}, Ch hi lo as → (∀ a ∈ as, Small a ∨ Large a) → (∃ n, (ptr, n) ∈ liveL as) →
    ∃ as' n, freeAs ptr as = some as' ∧ Ch hi lo as' ∧ (∀ a ∈ as', Small a ∨ Large a) ∧ (liveL as).Perm ((ptr, n) :: liveL as') := by
  intro as
  induction as with
  | nil => intro lo _ _ h; obtain ⟨n, h⟩ := h; cases h
  | cons a as ih =>
    intro lo hc ho hm
    simp only [freeAs]
    cases hf : a.blks.find? (fun b => b.addr + 56 == ptr) with
    | some b =>
      have hb := List.mem_of_find?_eq_some hf
      have hp := List.find?_some hf
      simp only [beq_iff_eq] at hp
      obtain ⟨o, e, h1, h2⟩ := freeIn_spec (ho a (by simp)) b hb
      simp only [e, Option.map_some]
      refine ⟨_, b.size, rfl, ?_⟩
      cases o with
      | none =>
        refine ⟨ch_weaken (by have := hc.1; omega) hc.2, fun x hx => ho x (by simp at hx; simp [hx]), ?_⟩
        unfold liveL
        rw [List.flatMap_cons, h2 rfl, List.map_cons, List.map_nil, hp]
        exact List.Perm.refl _
      | some a' =>
        obtain ⟨k1, k2, k3, k4⟩ := h1 a' rfl
        refine ⟨⟨by rw [k2]; exact hc.1, by rw [k2, k3]; exact hc.2⟩, ?_, ?_⟩
        · intro x hx
          simp at hx
          rcases hx with rfl | hx
          · exact Or.inl k1
          · exact ho x (by simp [hx])
        · unfold liveL
          simp only [Option.toList_some, List.singleton_append, List.flatMap_cons, k4]
          rw [← List.cons_append]
          apply List.Perm.append_right
          have := (List.perm_cons_erase hb).map (fun b => (b.addr + 56, b.size))
          rw [List.map_cons, hp] at this
          exact this
    | none =>
      obtain ⟨n, hm⟩ := hm
      have : (ptr, n) ∈ liveL as := by
        unfold liveL at hm
        rw [List.flatMap_cons] at hm
        rcases List.mem_append.1 hm with g | g
        · obtain ⟨b, hb, e⟩ := List.mem_map.1 g
          rw [List.find?_eq_none] at hf
          have := hf b hb
          simp at this
          cases e
          exact absurd rfl this
        · exact g
      obtain ⟨as', k, e, g1, g2, g3⟩ := ih hc.2 (fun x hx => ho x (by simp [hx])) ⟨n, this⟩
      simp only [e, Option.map_some]
      refine ⟨_, k, rfl, ⟨hc.1, g1⟩, ?_, ?_⟩
      · intro x hx
        rcases List.mem_cons.1 hx with rfl | hx
        · exact ho x (by simp)
        · exact g2 x hx
      · unfold liveL
        rw [List.flatMap_cons, List.flatMap_cons]
        exact (List.Perm.append_left _ g3).trans List.perm_middle

/-- C61 (release): freeing a live block takes exactly that block away. -/
theorem shm_free {s : Pool} (h : Inv s) (ptr : Nat) (hm : ∃ n, (ptr, n) ∈ live s) :
    ∃ s' n, free s ptr = some s' ∧ Inv s' ∧ s'.mem = s.mem ∧ s'.cap = s.cap ∧ (live s).Perm ((ptr, n) :: live s') := by
  obtain ⟨as', n, e, g1, g2, g3⟩ := freeAs_spec h.chain h.ok hm
  unfold free
  rw [e]
  exact ⟨_, n, rfl, ⟨h.lim, g1, g2⟩, rfl, rfl, g3⟩

/-! ## Histories -/

/-- Footprints of live blocks (header and bytes) do not overlap, and lie inside the pool. -/
theorem live_sep {s : Pool} (h : Inv s) : (live s).Pairwise (fun x y => Sep (x.1 - 56, x.2 + 56) (y.1 - 56, y.2 + 56)) ∧
    ∀ x ∈ live s, s.mem + 2104 ≤ x.1 ∧ x.1 + x.2 ≤ s.mem + s.cap := by
  obtain ⟨h1, h2⟩ := shm_disjoint h
  have hsub : ∀ as : List As, (as.flatMap (fun a => a.blks.map (fun b => (b.addr, 56 + b.size)))).Sublist (as.flatMap feetOf) := by
    intro as
    induction as with
    | nil => exact List.Sublist.refl _
    | cons a as ih =>
      rw [List.flatMap_cons, List.flatMap_cons]
      exact List.Sublist.append (List.sublist_cons_self _ _) ih
  have hmap : ∀ as : List As, liveL as = (as.flatMap (fun a => a.blks.map (fun b => (b.addr, 56 + b.size)))).map (fun x => (x.1 + 56, x.2 - 56)) := by
    intro as
    induction as with
    | nil => rfl
    | cons a as ih =>
      unfold liveL at *
      rw [List.flatMap_cons, List.flatMap_cons, List.map_append, ih, List.map_map]
      congr 1
      apply List.map_congr_left
      intro b _
      simp
  have hpos : ∀ x ∈ s.as.flatMap (fun a => a.blks.map (fun b => (b.addr, 56 + b.size))), 56 ≤ x.2 := by
    intro x hx
    obtain ⟨a, _, hx⟩ := List.mem_flatMap.1 hx
    obtain ⟨b, _, rfl⟩ := List.mem_map.1 hx
    simp
  show (liveL s.as).Pairwise _ ∧ ∀ x ∈ liveL s.as, _
  rw [hmap]
  constructor
  · rw [List.pairwise_map]
    apply (h1.sublist (hsub s.as)).imp_of_mem
    intro x y hx hy hs
    have := hpos x hx
    have := hpos y hy
    unfold Sep at *
    simp only
    omega
  · intro x hx
    obtain ⟨y, hy, rfl⟩ := List.mem_map.1 hx
    have := hpos y hy
    have := h2 y ((hsub s.as).subset hy)
    simp only
    omega

/-- A call of the allocator. -/
inductive Op where
  | alloc (size : Nat)
  | free (ptr : Nat)

/-- A history, with the blocks the caller holds (pointer and size asked for); the caller frees only
what it holds. -/
def history : Pool → List (Nat × Nat) → List Op → Option (Pool × List (Nat × Nat))
  | s, L, [] => some (s, L)
  | s, L, .alloc n :: ops =>
    match alloc s n with
    | none => none
    | some (none, s) => history s L ops
    | some (some p, s) => history s ((p, n) :: L) ops
  | s, L, .free p :: ops =>
    if p ∈ L.map (·.1) then
      match free s p with
      | none => none
      | some s => history s (L.filter (fun x => x.1 != p)) ops
    else history s L ops

theorem live_filter {s' : Pool} {L : List (Nat × Nat)} {p n : Nat} (hp : L.Perm ((p, n) :: live s')) (hL : L.Pairwise (fun x y => Sep (x.1 - 56, x.2 + 56) (y.1 - 56, y.2 + 56))) :
    (L.filter (fun x => x.1 != p)).Perm (live s') := by
  have h1 := hp.filter (fun x => x.1 != p)
  rw [List.filter_cons_of_neg (by simp)] at h1
  have h2 := (hp.pairwise_iff (fun {x y} g => Or.symm g)).1 hL
  rw [List.pairwise_cons] at h2
  have h3 : (live s').filter (fun x => x.1 != p) = live s' := by
    rw [List.filter_eq_self]
    intro x hx
    have := h2.1 x hx
    unfold Sep at this
    simp only at this
    simp
    omega
  rw [h3] at h1
  exact h1

/-- C61: whatever the history, no undefined behaviour; the blocks the caller holds, each with its 56-byte
header, do not overlap one another, lie inside the shared memory, and every block has at least the
size asked for (the pool's record of it is exact). -/
theorem shm_history {mem cap : Nat} {s : Pool} (hi : init mem cap = some s) (hm : mem + cap < W) (ops : List Op) (hops : ∀ n, Op.alloc n ∈ ops → n + 4200 < W) :
    ∃ s' L, history s [] ops = some (s', L) ∧ L.Perm (live s') ∧ L.Pairwise (fun x y => Sep (x.1 - 56, x.2 + 56) (y.1 - 56, y.2 + 56)) ∧
      ∀ x ∈ L, mem + 2104 ≤ x.1 ∧ x.1 + x.2 ≤ mem + cap := by
  have main : ∀ ops s L, Inv s → s.mem = mem → s.cap = cap → L.Perm (live s) → (∀ n, Op.alloc n ∈ ops → n + 4200 < W) →
      ∃ s' L', history s L ops = some (s', L') ∧ Inv s' ∧ s'.mem = mem ∧ s'.cap = cap ∧ L'.Perm (live s') := by
    intro ops
    induction ops with
    | nil => intro s L h h1 h2 h3 _; exact ⟨s, L, rfl, h, h1, h2, h3⟩
    | cons o ops ih =>
      intro s L h h1 h2 h3 h4
      have h4' : ∀ n, Op.alloc n ∈ ops → n + 4200 < W := fun n hn => h4 n (by simp [hn])
      cases o with
      | alloc n =>
        obtain ⟨r, s', e, g1, g2, g3, g4, g5⟩ := shm_alloc h n (h4 n (by simp))
        cases r with
        | none =>
          simp only [history, e]
          rw [(g4 rfl).1]
          exact ih s L h h1 h2 h3 h4'
        | some p =>
          simp only [history, e]
          exact ih s' _ g1 (by rw [g2, h1]) (by rw [g3, h2]) ((h3.cons _).trans (g5 p rfl).symm) h4'
      | free p =>
        simp only [history]
        split
        · rename_i hp
          obtain ⟨⟨p', n⟩, hx, e0⟩ := List.mem_map.1 hp
          simp only at e0
          subst e0
          obtain ⟨s', m, e, g1, g2, g3, g4⟩ := shm_free h p' ⟨n, h3.mem_iff.1 hx⟩
          simp only [e]
          refine ih s' _ g1 (by rw [g2, h1]) (by rw [g3, h2]) ?_ h4'
          exact live_filter (h3.trans g4) ((h3.pairwise_iff (fun {x y} g => Or.symm g)).2 (live_sep h).1)
        · exact ih s L h h1 h2 h3 h4'
  have hs : s = ⟨mem, cap, []⟩ ∧ 2097152 + 1024 ≤ cap := by
    unfold init at hi
    split at hi
    · cases hi
    · cases hi; exact ⟨rfl, by omega⟩
  obtain ⟨rfl, hcap⟩ := hs
  obtain ⟨s', L, e, g1, g2, g3, g4⟩ := main ops ⟨mem, cap, []⟩ [] ⟨hm, by show mem + 2048 ≤ mem + cap; omega, by intro a ha; cases ha⟩ rfl rfl (List.Perm.refl _) hops
  obtain ⟨k1, k2⟩ := live_sep g1
  refine ⟨s', L, e, g4, (g4.pairwise_iff (fun {x y} g => Or.symm g)).2 k1, fun x hx => ?_⟩
  have := k2 x (g4.mem_iff.1 hx)
  rw [g2, g3] at this
  exact this

/-! ## Refutations -/

theorem place_nil (size mem cap : Nat) (hm : mem + cap < W) (hc : 2048 ≤ cap) :
    place size (mem + cap) (mem + 2048) [] = if cap - 2048 < size then none else some ([], mem + 2048, []) := by
  have h : ∀ hi p, p ≤ hi → hi < W → place size hi p [] = if hi - p < size then none else some ([], p, []) := by
    intro hi p h1 h2
    have : (hi + W - p) % W = hi - p := by
      rw [show hi + W - p = hi - p + W by omega, Nat.add_mod_right, Nat.mod_eq_of_lt (by omega)]
    rw [place, this]
  rw [h _ _ (by omega) hm, show mem + cap - (mem + 2048) = cap - 2048 by omega]

theorem alloc_none (s : Pool) (size : Nat) (hl : ¬ size > 1572864) (h1 : pick size s.as = none) (h2 : place 2097152 (s.mem + s.cap) (s.mem + 2048) s.as = none) :
    alloc s size = some (none, s) := by
  unfold alloc
  rw [if_neg hl, h1]
  simp only
  rw [h2]

theorem alloc_large (s : Pool) (size p : Nat) (l r : List As) (hl : size > 1572864) (h2 : place ((size + 4200) % W) (s.mem + s.cap) (s.mem + 2048) s.as = some (l, p, r)) :
    ∃ s', alloc s size = some (some (p + 4200), s') := by
  unfold alloc
  rw [if_pos hl, h2]
  exact ⟨_, rfl⟩

/-- A request so big that `size + 4200` wraps gets a block of a few bytes: the addition in
mln_alloc_shm_large_m is not checked. -/
theorem large_wraps (mem cap size : Nat) (hm : mem + cap < W) (hc : 2097152 + 1024 ≤ cap) (h1 : W ≤ size + 4200) (h2 : size < W) :
    ∃ s, alloc ⟨mem, cap, []⟩ size = some (some (mem + 2048 + 4200), s) ∧ mem + cap < mem + 2048 + 4200 + size := by
  have hw : 18446744073709551616 = W := rfl
  have e : (size + 4200) % W = size + 4200 - W := by
    have hw : 4200 < W := by decide
    generalize W = w at h1 h2 hw
    rw [show size + 4200 = size + 4200 - w + w by omega, Nat.add_mod_right, Nat.mod_eq_of_lt (by omega)]
    omega
  have hp := place_nil ((size + 4200) % W) mem cap hm (by omega)
  rw [if_neg (by rw [e]; omega)] at hp
  have hl : size > 1572864 := by omega
  obtain ⟨s, hs⟩ := alloc_large ⟨mem, cap, []⟩ size (mem + 2048) [] [] hl hp
  exact ⟨s, hs, by omega⟩

/-- A pool of fewer than 2097152 + 2048 bytes is accepted by mln_alloc_shm_init, which asks for
1024 bytes beside the block, and cannot serve any request up to 1.5 MB. -/
theorem small_pool_useless (mem cap size : Nat) (hm : mem + cap < W) (hc : 2097152 + 1024 ≤ cap) (hc' : cap < 2097152 + 2048) (hs : size ≤ 1572864) :
    init mem cap = some ⟨mem, cap, []⟩ ∧ alloc ⟨mem, cap, []⟩ size = some (none, ⟨mem, cap, []⟩) := by
  have hl : ¬ size > 1572864 := by omega
  have hp : ∀ x, x = 2097152 → place x (mem + cap) (mem + 2048) [] = none := by
    intro x hx
    rw [place_nil x mem cap hm (by omega), if_pos (by omega)]
  have hp : place 2097152 (mem + cap) (mem + 2048) [] = none := hp 2097152 (Eq.refl _)
  have hi : ¬ cap < 2097152 + 1024 := by omega
  refine ⟨by unfold init; rw [if_neg hi], alloc_none ⟨mem, cap, []⟩ size hl rfl hp⟩

/-- Sound from the next size on: the first request up to 1.5 MB is served. -/
theorem first_request (mem cap size : Nat) (hm : mem + cap < W) (hc : 2097152 + 2048 ≤ cap) (hs : size ≤ 1572864) :
    ∃ p s, alloc ⟨mem, cap, []⟩ size = some (some p, s) := by
  have hi : Inv ⟨mem, cap, []⟩ := ⟨hm, by show mem + 2048 ≤ mem + cap; omega, by intro a ha; cases ha⟩
  obtain ⟨r, s', e, _, _, _, g, _⟩ := shm_alloc hi size (by omega)
  cases r with
  | some p => exact ⟨p, s', e⟩
  | none =>
    have := (g rfl).2
    unfold Full at this
    rw [if_pos hs] at this
    obtain ⟨a, ha, _⟩ := this.2 (mem + 2048) (Nat.le_refl _) (by show mem + 2048 + 2097152 ≤ mem + cap; omega)
    cases ha

/-! ## The capacity reported -/

/-- The number of ones of a byte. -/
def ones (b : BitVec 8) : Nat := (List.range 8).countP (fun i => b.getLsbD i)

theorem countBits_spec : ∀ b : BitVec 8, (countBits b).toNat = ones b := by decide +kernel

/-- The capacity really available in free units of the bitmap blocks. -/
def freeUnits (s : Pool) : Nat := (s.as.map (fun a => if a.large then 0 else cnt (fun k => !bit a.bitmap k) 32768)).sum

theorem sum_ones (bm : List (BitVec 8)) : (bm.map (fun b => (countBits b).toNat)).sum + cnt (fun k => !bit bm k) (8 * bm.length) = 8 * bm.length := by
  have key : ∀ l : List (BitVec 8), ∀ f : Nat → Bool, ∀ off, (∀ p, p < l.length → ∀ j, j < 8 → f (off + p * 8 + j) = !(l.getD p 0).getLsbD (7 - j)) →
      (l.map (fun b => (countBits b).toNat)).sum + cnt f (off + 8 * l.length) = cnt f off + 8 * l.length := by
    intro l
    induction l with
    | nil => intro f off _; simp
    | cons b l ih =>
      intro f off hf
      have h1 := ih f (off + 8) (fun p hp j hj => by
        have := hf (p + 1) (by simpa using hp) j hj
        rw [show off + 8 + p * 8 + j = off + (p + 1) * 8 + j by omega, this]
        rfl)
      have h0 : ∀ j, j < 8 → f (off + j) = !b.getLsbD (7 - j) := fun j hj => by
        have := hf 0 (by simp) j hj
        simpa using this
      have hc : cnt f (off + 8) + ones b = cnt f off + 8 := by
        rw [cnt_succ, cnt_succ, cnt_succ, cnt_succ, cnt_succ, cnt_succ, cnt_succ]
        rw [show off + 1 = off + 0 + 1 by omega, cnt_succ]
        rw [h0 7 (by omega), h0 6 (by omega), h0 5 (by omega), h0 4 (by omega), h0 3 (by omega), h0 2 (by omega), h0 1 (by omega), show f off = !b.getLsbD (7 - 0) from h0 0 (by omega)]
        have : ∀ b : BitVec 8, ∀ c, c + (if (!b.getLsbD (7 - 0)) = true then 1 else 0) + (if (!b.getLsbD (7 - 1)) = true then 1 else 0) +
            (if (!b.getLsbD (7 - 2)) = true then 1 else 0) + (if (!b.getLsbD (7 - 3)) = true then 1 else 0) + (if (!b.getLsbD (7 - 4)) = true then 1 else 0) +
            (if (!b.getLsbD (7 - 5)) = true then 1 else 0) + (if (!b.getLsbD (7 - 6)) = true then 1 else 0) + (if (!b.getLsbD (7 - 7)) = true then 1 else 0) + ones b = c + 8 := by
          intro b c
          have : ∀ b : BitVec 8, (if (!b.getLsbD (7 - 0)) = true then 1 else 0) + (if (!b.getLsbD (7 - 1)) = true then 1 else 0) +
            (if (!b.getLsbD (7 - 2)) = true then 1 else 0) + (if (!b.getLsbD (7 - 3)) = true then 1 else 0) + (if (!b.getLsbD (7 - 4)) = true then 1 else 0) +
            (if (!b.getLsbD (7 - 5)) = true then 1 else 0) + (if (!b.getLsbD (7 - 6)) = true then 1 else 0) + (if (!b.getLsbD (7 - 7)) = true then 1 else 0) + ones b = 8 := by decide +kernel
          have := this b
          omega
        exact this b _
      rw [List.map_cons, List.sum_cons, countBits_spec, List.length_cons, show off + 8 * (l.length + 1) = off + 8 + 8 * l.length by omega]
      omega
  have := key bm (fun k => !bit bm k) 0 (fun p _ j hj => by
    simp only [bit]
    rw [show (0 + p * 8 + j) / 8 = p by omega, show (0 + p * 8 + j) % 8 = j by omega])
  simp only [Nat.zero_add] at this
  have h0 : cnt (fun k => !bit bm k) 0 = 0 := rfl
  omega

/-- C86, partial: with exactly one bitmap block, and no large one, the capacity reported is the number of free
units times 64. -/
theorem available_partial {s : Pool} (h : Inv s) {a : As} (ha : s.as = [a]) (hl : a.large = false) : available s = 64 * freeUnits s := by
  have hsm : Small a := by
    rcases h.ok a (by rw [ha]; simp) with g | g
    · exact g
    · rw [g.large] at hl; cases hl
  have := sum_ones a.bitmap
  rw [hsm.len, show 8 * 4096 = 32768 from rfl] at this
  unfold available freeUnits
  rw [ha]
  simp only [List.map_cons, List.map_nil, List.sum_cons, List.sum_nil, Nat.add_zero, hl, Bool.false_eq_true, if_false]
  rw [show W = 18446744073709551616 from rfl]
  omega

/-- Refutation of C86: a new pool of any size reports 2 MB. -/
theorem available_empty (mem cap : Nat) : available ⟨mem, cap, []⟩ = 2097152 := by
  simp [available]

/-- Refutation of C86: from two bitmap blocks on what is reported does not count the units of the
second: with `n` units used in all (`n` ≥ 32769) it is close to 2^64. -/
theorem available_two {s : Pool} (h : Inv s) {a b : As} (ha : s.as = [a, b]) (hla : a.large = false) (hlb : b.large = false) :
    available s = (64 * freeUnits s + (W - 2097152)) % W := by
  have hsa : Small a := by
    rcases h.ok a (by rw [ha]; simp) with g | g
    · exact g
    · rw [g.large] at hla; cases hla
  have hsb : Small b := by
    rcases h.ok b (by rw [ha]; simp) with g | g
    · exact g
    · rw [g.large] at hlb; cases hlb
  have h1 := sum_ones a.bitmap
  have h2 := sum_ones b.bitmap
  rw [hsa.len, show 8 * 4096 = 32768 from rfl] at h1
  rw [hsb.len, show 8 * 4096 = 32768 from rfl] at h2
  unfold available freeUnits
  rw [ha]
  simp only [List.map_cons, List.map_nil, List.sum_cons, List.sum_nil, Nat.add_zero, hla, hlb, Bool.false_eq_true, if_false]
  rw [show W = 18446744073709551616 from rfl]
  omega

/-! ## Examples -/

-- two blocks of a fresh pool: behind the 65 units of the mln_alloc_shm_t
example : (do
    let s ← init 4096 4194304
    let (p, s) ← alloc s 100
    let (q, _) ← alloc s 10
    some (p, q)) = some (some (4096 + 2048 + 65 * 64 + 56), some (4096 + 2048 + 68 * 64 + 56)) := by decide +kernel

-- a block that is freed is used again
example : (do
    let s ← init 4096 4194304
    let (p, s) ← alloc s 100
    let (_, s) ← alloc s 10
    let s ← p.bind (free s)
    let (r, _) ← alloc s 50
    some (p == r)) = some true := by decide +kernel

end Verif.Shm
