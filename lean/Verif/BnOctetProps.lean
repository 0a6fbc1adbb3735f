import Verif.BnAddProps

/-
Big numbers as octet strings (property C37).
-/
set_option maxRecDepth 8000

namespace Verif.Bn

/-- Spec: the number an octet string denotes, first octet most significant (RFC 8017, section 4). -/
def octets : List Nat → Nat := fun l => l.foldl (fun n b => n * 256 + b) 0

/-- The same number, from the least significant octet. -/
def le : List Nat → Nat
  | [] => 0
  | b :: bs => b + 256 * le bs

theorem le_append (l m : List Nat) : le (l ++ m) = le l + 256 ^ l.length * le m := by
  induction l with
  | nil => simp [le]
  | cons a l ih => simp only [List.cons_append, le, ih, List.length_cons, pow_succ]; ring

theorem octets_eq (l : List Nat) : octets l = le l.reverse := by
  have h : ∀ (l : List Nat) (n : Nat), l.foldl (fun n b => n * 256 + b) n = n * 256 ^ l.length + le l.reverse := by
    intro l
    induction l with
    | nil => intro n; simp [le]
    | cons a l ih =>
      intro n
      simp only [List.foldl_cons, ih, List.reverse_cons, le_append, List.length_cons, pow_succ, le, List.length_reverse]
      ring
  unfold octets
  rw [h]; omega

theorem le_replicate (n : Nat) : le (List.replicate n 0) = 0 := by
  induction n with
  | zero => rfl
  | succ n ih => simp [List.replicate_succ, le, ih]

theorem limb_bytes (p : Nat) (hp : p < B) :
    ((p >>> 24) &&& 0xff) < 256 ∧ ((p >>> 16) &&& 0xff) < 256 ∧ ((p >>> 8) &&& 0xff) < 256 ∧ (p &&& 0xff) < 256 ∧
    p = (p &&& 0xff) + 256 * (((p >>> 8) &&& 0xff) + 256 * (((p >>> 16) &&& 0xff) + 256 * ((p >>> 24) &&& 0xff))) := by
  have h : ∀ x : Nat, x &&& 0xff = x % 256 := fun x => by
    rw [show 0xff = 2 ^ 8 - 1 by norm_num, Nat.and_two_pow_sub_one_eq_mod]
  simp only [h, Nat.shiftRight_eq_div_pow]
  omega

theorem le_limbs (l : List Nat) (h : ∀ x ∈ l, x < B) :
    le ((l.reverse.flatMap (fun p => [(p >>> 24) &&& 0xff, (p >>> 16) &&& 0xff, (p >>> 8) &&& 0xff, p &&& 0xff])).reverse) = nat l ∧
    (∀ x ∈ l.reverse.flatMap (fun p => [(p >>> 24) &&& 0xff, (p >>> 16) &&& 0xff, (p >>> 8) &&& 0xff, p &&& 0xff]), x < 256) ∧
    (l.reverse.flatMap (fun p => [(p >>> 24) &&& 0xff, (p >>> 16) &&& 0xff, (p >>> 8) &&& 0xff, p &&& 0xff])).length = 4 * l.length := by
  induction l with
  | nil => exact ⟨rfl, by simp, rfl⟩
  | cons a l ih =>
    obtain ⟨i1, i2, i3⟩ := ih (fun x hx => h x (List.mem_cons_of_mem _ hx))
    obtain ⟨b1, b2, b3, b4, e⟩ := limb_bytes a (h a List.mem_cons_self)
    refine ⟨?_, ?_, ?_⟩
    · rw [List.reverse_cons, List.flatMap_append, List.reverse_append, le_append, i1, nat_cons]
      simp only [List.flatMap_cons, List.flatMap_nil, List.append_nil, List.reverse_cons, List.reverse_nil, List.nil_append, List.cons_append, le, List.length_cons, List.length_nil]
      generalize nat l = N
      omega
    · intro x hx
      rw [List.reverse_cons, List.flatMap_append, List.mem_append] at hx
      rcases hx with hx | hx
      · exact i2 x hx
      · simp at hx
        rcases hx with rfl | rfl | rfl | rfl <;> assumption
    · rw [List.reverse_cons, List.flatMap_append, List.length_append, i3]
      simp; omega

/-- **C37 (writing).** Every accepted call writes exactly `len` octets that denote the number. -/
theorem i2osp_spec {n : Bn} (hn : Wf n) (len : Nat) :
    (n.neg = false ∧ n.length * 4 ≤ len → ∃ bs, i2osp n len = some (some bs) ∧ bs.length = len ∧ (∀ x ∈ bs, x < 256) ∧ octets bs = mag n) ∧
    (¬ (n.neg = false ∧ n.length * 4 ≤ len) → i2osp n len = some none) := by
  have hl := wf_length_le hn
  constructor
  · rintro ⟨h1, h2⟩
    unfold i2osp
    rw [if_neg (by rw [h1]; simp; omega), if_neg (by rw [hn.size]; omega)]
    obtain ⟨i1, i2, i3⟩ := le_limbs (n.data.take n.length) (limbs_take hn.limbs)
    refine ⟨_, rfl, ?_, ?_, ?_⟩
    · rw [List.length_append, List.length_replicate, i3, List.length_take, hn.size]; omega
    · intro x hx
      rcases List.mem_append.1 hx with h | h
      · rw [(List.mem_replicate.1 h).2]; decide
      · exact i2 x h
    · rw [octets_eq, List.reverse_append, le_append, i1, List.reverse_replicate, le_replicate, Nat.mul_zero, Nat.add_zero]
      exact nat_take_of_lt _ _ hn.below
  · intro h
    unfold i2osp
    rw [if_pos]
    by_cases h1 : n.neg = false
    · right; by_contra h2; exact h ⟨h1, by omega⟩
    · left; simpa using h1

theorem byte_or (cur b i : Nat) (hb : b < 256) (hi : i ≤ 24) (hc : cur < 2 ^ i) :
    cur ||| w (b <<< i) = cur + b * 2 ^ i ∧ cur + b * 2 ^ i < 2 ^ (i + 8) := by
  have h1 : b * 2 ^ i < 2 ^ (i + 8) := by
    rw [pow_add, Nat.mul_comm]; exact Nat.mul_lt_mul_of_pos_left hb (Nat.two_pow_pos i)
  have h2 : (2 : Nat) ^ (i + 8) ≤ 2 ^ 32 := Nat.pow_le_pow_right (by decide) (by omega)
  refine ⟨?_, ?_⟩
  · rw [Nat.shiftLeft_eq, w_of_lt (by omega), Nat.or_comm, Nat.mul_comm, ← Nat.two_pow_add_eq_or_of_lt hc]; omega
  · have h3 : (b + 1) * 2 ^ i ≤ 256 * 2 ^ i := Nat.mul_le_mul_right _ hb
    rw [pow_add]
    have h4 : (b + 1) * 2 ^ i = b * 2 ^ i + 2 ^ i := by ring
    omega

theorem os2ipLoop_spec : ∀ (bs done : List Nat) (cur i : Nat), (∀ x ∈ bs, x < 256) → (∀ x ∈ done, x < B) → (i = 0 ∨ i = 8 ∨ i = 16 ∨ i = 24) → cur < 2 ^ i →
    ∃ d c j, os2ipLoop bs done cur i = (d, c, j) ∧ (∀ x ∈ d, x < B) ∧ (j = 0 ∨ j = 8 ∨ j = 16 ∨ j = 24) ∧ c < 2 ^ j ∧
      nat d.reverse + B ^ d.length * c = nat done.reverse + B ^ done.length * (cur + 2 ^ i * le bs) ∧
      32 * d.length + j = 32 * done.length + i + 8 * bs.length := by
  intro bs
  induction bs with
  | nil => intro done cur i _ hd hi hc; exact ⟨done, cur, i, rfl, hd, hi, hc, by simp [le], by simp⟩
  | cons b bs ih =>
    intro done cur i hb hd hi hc
    have hb0 := hb b List.mem_cons_self
    have hbs := fun x hx => hb x (List.mem_cons_of_mem _ hx)
    obtain ⟨o1, o2⟩ := byte_or cur b i hb0 (by omega) hc
    unfold os2ipLoop
    simp only
    rw [o1]
    by_cases h : i ≥ 24
    · rw [if_pos h]
      have hi24 : i = 24 := by omega
      subst hi24
      have hlt : cur + b * 2 ^ 24 < B := by simpa using o2
      have hand : (cur + b * 2 ^ 24) &&& 0xffffffff = cur + b * 2 ^ 24 := by
        rw [show 0xffffffff = 2 ^ 32 - 1 by norm_num, Nat.and_two_pow_sub_one_eq_mod]
        exact Nat.mod_eq_of_lt (by simpa using o2)
      rw [hand]
      obtain ⟨d, c, j, e, h1, h2, h3, h4, h5⟩ := ih ((cur + b * 2 ^ 24) :: done) 0 0 hbs (by
        intro x hx
        rcases List.mem_cons.1 hx with rfl | hx
        · exact hlt
        · exact hd x hx) (Or.inl rfl) (by decide)
      refine ⟨d, c, j, e, h1, h2, h3, ?_, by rw [h5]; simp; omega⟩
      rw [h4, List.reverse_cons, nat_append, List.length_reverse, List.length_cons, pow_succ]
      simp only [nat, le]
      norm_num
      ring
    · rw [if_neg h]
      obtain ⟨d, c, j, e, h1, h2, h3, h4, h5⟩ := ih done (cur + b * 2 ^ i) (i + 8) hbs hd (by omega) o2
      refine ⟨d, c, j, e, h1, h2, h3, ?_, by rw [h5]; simp; omega⟩
      rw [h4, pow_add, le]
      ring

/-- **C37 (reading).** Every octet string of at most 1028 octets is accepted, longer ones are
refused; the number read is the one the octets denote, with a quarter of the octets as limbs. -/
theorem os2ip_spec (bs : List Nat) (hb : ∀ x ∈ bs, x < 256) :
    (bs.length ≤ 1028 → ∃ n, os2ip bs = some n ∧ n.neg = false ∧ n.data.length = 257 ∧ (∀ x ∈ n.data, x < B) ∧ n.length = (bs.length + 3) / 4 ∧ mag n = octets bs ∧ mag n < B ^ n.length) ∧
    (1028 < bs.length → os2ip bs = none) := by
  have hsz : size = 257 := rfl
  constructor
  · intro hl
    unfold os2ip
    rw [if_neg (by omega)]
    obtain ⟨d, c, j, e, h1, h2, h3, h4, h5⟩ := os2ipLoop_spec bs.reverse [] 0 0 (fun x hx => hb x (List.mem_reverse.1 hx)) (by simp) (Or.inl rfl) (by decide)
    rw [e]
    simp only
    rw [List.length_reverse] at h5
    simp only [List.reverse_nil, nat, List.length_nil, pow_zero, Nat.one_mul, Nat.zero_add, Nat.mul_zero] at h4 h5
    rw [← octets_eq] at h4
    have hcB : c < B := lt_of_lt_of_le h3 (by
      have : (2 : Nat) ^ j ≤ 2 ^ 32 := Nat.pow_le_pow_right (by decide) (by omega)
      norm_num at this ⊢; exact this)
    obtain ⟨limbs, hlimbs⟩ : ∃ l, l = (if j ≠ 0 then d.reverse ++ [c] else d.reverse) := ⟨_, rfl⟩
    rw [← hlimbs]
    have hlen : limbs.length = (bs.length + 3) / 4 := by
      rw [hlimbs]; split
      · simp; omega
      · simp; omega
    have hB : ∀ x ∈ limbs, x < B := by
      rw [hlimbs]; intro x hx
      split at hx
      · rcases List.mem_append.1 hx with h | h
        · exact h1 x (List.mem_reverse.1 h)
        · rw [List.mem_singleton.1 h]; exact hcB
      · exact h1 x (List.mem_reverse.1 hx)
    have hnat : nat limbs = octets bs := by
      rw [hlimbs, ← h4]; split
      · rw [nat_append, List.length_reverse]; simp [nat]
      · next h =>
        have : j = 0 := by simpa using h
        rw [this] at h3
        have : c = 0 := by simpa using h3
        rw [this]; simp
    have hmag : nat (limbs ++ List.replicate (size - limbs.length) 0) = nat limbs := by
      rw [nat_append, nat_replicate]; omega
    refine ⟨_, rfl, rfl, ?_, limbs_append hB (limbs_replicate _), hlen, ?_, ?_⟩
    · show (limbs ++ List.replicate (size - limbs.length) 0).length = 257
      rw [List.length_append, List.length_replicate]; omega
    · show nat _ = _
      rw [hmag, hnat]
    · show nat (limbs ++ List.replicate (size - limbs.length) 0) < _
      rw [hmag]; exact nat_lt _ hB
  · intro hl
    unfold os2ip
    rw [if_pos (by omega)]

/-- **C37 (round trip).** Writing a number into any accepted number of octets up to the limit
and reading it back gives the same value. -/
theorem octet_roundtrip {n : Bn} (hn : Wf n) (hp : n.neg = false) (len : Nat) (h1 : n.length * 4 ≤ len) (h2 : len ≤ 1028) :
    ∃ bs m, i2osp n len = some (some bs) ∧ os2ip bs = some m ∧ value m = value n ∧ m.length = (len + 3) / 4 := by
  obtain ⟨bs, e1, l1, b1, v1⟩ := (i2osp_spec hn len).1 ⟨hp, h1⟩
  obtain ⟨m, e2, p2, _, _, l2, v2, _⟩ := (os2ip_spec bs b1).1 (by omega)
  exact ⟨bs, m, e1, e2, by rw [value_pos p2, value_pos hp, v2, v1], by rw [l2, l1]⟩

/-- **C37 (comparison).** The number read back is the identical big number exactly when the
length was minimal, `len = 4 * length`; the comparison function reports equality exactly then.
This is a code defect for every longer `len`. -/
theorem octet_roundtrip_compare {n : Bn} (hn : Wf n) (hp : n.neg = false) (len : Nat) (h1 : n.length * 4 ≤ len) (h2 : len ≤ 1028) :
    ∃ bs m, i2osp n len = some (some bs) ∧ os2ip bs = some m ∧ value m = value n ∧
      (m = n ↔ len = n.length * 4) ∧ (compare m n = some 0 ↔ len = n.length * 4) := by
  obtain ⟨bs, e1, l1, b1, v1⟩ := (i2osp_spec hn len).1 ⟨hp, h1⟩
  obtain ⟨m, e2, p2, s2, lb2, l2, v2, lt2⟩ := (os2ip_spec bs b1).1 (by omega)
  rw [l1] at l2
  have hnl := wf_length_le hn
  have heq : len = n.length * 4 → m = n := by
    intro h
    have hl : m.length = n.length := by omega
    have hd : m.data = n.data := nat_inj _ _ (by rw [s2, hn.size]) lb2 hn.limbs (by
      show mag m = mag n
      rw [v2, v1])
    cases m; cases n
    simp_all
  have hne : m.length = n.length → m ≠ n → False := by
    intro h h'
    apply h'
    apply heq
    by_contra hlen
    by_cases h0 : n.length = 0
    · omega
    · omega
  have hcmp0 : compare n n = some 0 := by
    have hl : compare n n = (if n.length = 0 then some 0 else cmpLoop n.data n.data n.length) := by
      unfold compare; simp
    rw [hl]
    split
    · rfl
    · obtain ⟨c, ec, hc, _⟩ := compare_spec_partial n n hn hn (fun h => by rw [hp] at h; exact absurd h.1 (by decide))
      rw [hc.2 rfl] at ec
      rw [hl] at ec
      simpa [*] using ec
  have hlen : m = n ↔ len = n.length * 4 := by
    refine ⟨?_, heq⟩
    intro h
    have : m.length = n.length := by rw [h]
    omega
  refine ⟨bs, m, e1, e2, by rw [value_pos p2, value_pos hp, v2, v1], hlen, ?_⟩
  refine ⟨?_, fun h => by rw [heq h]; exact hcmp0⟩
  intro h
  by_contra hl
  have hll : m.length ≠ n.length := by omega
  unfold compare at h
  rw [if_neg (by omega), if_neg (by rw [p2, hp]; simp), if_pos hll, if_pos p2] at h
  split at h <;> simp at h

/-! Instances. -/
example : i2osp (word 66051) 6 = some (some [0, 0, 0, 1, 2, 3]) := by decide +kernel
example : (os2ip [0, 0, 0, 1, 2, 3]).map (fun n => (value n, n.length)) = some (66051, 2) := by decide +kernel
example : (os2ip [0, 0, 0, 1, 2, 3]).bind (fun n => compare n (word 66051)) = some 1 := by decide +kernel

end Verif.Bn
