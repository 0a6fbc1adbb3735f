import Verif.BnPwrProps

/-
Shifts of big numbers (property C35).
-/
set_option maxRecDepth 8000

namespace Verif.Bn

theorem B_pow (n : Nat) : B ^ n = 2 ^ (32 * n) := by
  rw [show (4294967296 : Nat) = 2 ^ 32 by norm_num, ← pow_mul]

theorem pow_split (n : Nat) : 2 ^ n = B ^ (n / 32) * 2 ^ (n % 32) := by
  rw [B_pow, ← pow_add]; congr 1; omega

theorem B_split (off : Nat) (h : off ≤ 32) : B = 2 ^ off * 2 ^ (32 - off) := by
  rw [← pow_add, show off + (32 - off) = 32 by omega]; norm_num

theorem set_drop_self (l : List Nat) (i x : Nat) (h : i < l.length) : (l.set i x).drop i = x :: l.drop (i + 1) := by
  rw [List.drop_set, if_neg (by omega), Nat.sub_self, List.drop_eq_getElem_cons h]; rfl

theorem set_drop_above (l : List Nat) (i j x : Nat) (h : i < j) : (l.set i x).drop j = l.drop j := by
  rw [List.drop_set, if_pos h]

theorem set_take_below (l : List Nat) (i j x : Nat) (h : j ≤ i) : (l.set i x).take j = l.take j :=
  List.take_set_of_le h

theorem limbs_set {l : List Nat} (h : ∀ x ∈ l, x < B) (i x : Nat) (hx : x < B) : ∀ y ∈ l.set i x, y < B := by
  intro y hy
  rcases List.mem_or_eq_of_mem_set hy with h1 | h1
  · exact h y h1
  · rw [h1]; exact hx

/-! ## The arithmetic of one limb -/

theorem or_low (x c off : Nat) (hx : 2 ^ off ∣ x) (hc : c < 2 ^ off) : x ||| c = x + c := by
  obtain ⟨k, rfl⟩ := hx
  exact (Nat.two_pow_add_eq_or_of_lt hc k).symm

theorem lsh_limb (cur off : Nat) (hc : cur < B) (ho : off < 32) :
    w (cur <<< off) &&& 0xffffffff = cur * 2 ^ off % B ∧ (cur >>> (32 - off)) &&& 0xffffffff = cur * 2 ^ off / B ∧ cur * 2 ^ off / B < 2 ^ off ∧
      2 ^ off ∣ cur * 2 ^ off % B := by
  have hB := B_split off (by omega)
  have hp : 2 ^ off ≤ 2 ^ 31 := Nat.pow_le_pow_right (by decide) (by omega)
  have hlt : cur * 2 ^ off < 18446744073709551616 := by
    have : cur * 2 ^ off ≤ 4294967295 * 2147483648 := Nat.mul_le_mul (by omega) (by simpa using hp)
    omega
  have hdiv : cur * 2 ^ off / B = cur / 2 ^ (32 - off) := by
    rw [hB, Nat.mul_comm cur, Nat.mul_div_mul_left _ _ (Nat.two_pow_pos off)]
  refine ⟨?_, ?_, ?_, ?_⟩
  · rw [Nat.shiftLeft_eq, w_of_lt hlt, show 0xffffffff = 2 ^ 32 - 1 by norm_num, Nat.and_two_pow_sub_one_eq_mod]
  · rw [Nat.shiftRight_eq_div_pow, hdiv, show 0xffffffff = 2 ^ 32 - 1 by norm_num, Nat.and_two_pow_sub_one_eq_mod]
    apply Nat.mod_eq_of_lt
    exact lt_of_le_of_lt (Nat.div_le_self _ _) (by norm_num; exact hc)
  · rw [Nat.div_lt_iff_lt_mul (by decide), Nat.mul_comm]
    exact Nat.mul_lt_mul_of_pos_left hc (Nat.two_pow_pos off)
  · rw [Nat.dvd_mod_iff ⟨_, hB⟩]
    exact ⟨cur, by ring⟩

theorem add_fits (x c off : Nat) (ho : off < 32) (hx : x < B) (hd : 2 ^ off ∣ x) (hc : c < 2 ^ off) : x + c < B := by
  have hB := B_split off (by omega)
  obtain ⟨k, rfl⟩ := hd
  have hk : k < 2 ^ (32 - off) := by
    rw [hB] at hx
    exact Nat.lt_of_mul_lt_mul_left hx
  have : 2 ^ off * (k + 1) ≤ 2 ^ off * 2 ^ (32 - off) := Nat.mul_le_mul_left _ hk
  rw [← hB, Nat.mul_add, Nat.mul_one] at this
  omega

/-! ## Left shift -/

theorem lshLoop_spec (off step : Nat) (ho : off < 32) : ∀ (m : Nat) (data : List Nat) (last : Option Nat), data.length = 257 → (∀ x ∈ data, x < B) →
    m + step ≤ 257 → last = (if m + step < 257 then some (m + step) else none) →
    (∀ x, data[m + step]? = some x → 2 ^ off ∣ x) →
    ∃ data' k, lshLoop off step m data last = some data' ∧ data'.length = 257 ∧ (∀ x ∈ data', x < B) ∧ (m + step < 257 → k = 0) ∧
      nat (data'.drop step) + k * B ^ (257 - step) = 2 ^ off * nat (data.take m) + B ^ m * nat (data.drop (m + step)) := by
  intro m
  induction m with
  | zero =>
    intro data last hl hb _ _ _
    exact ⟨data, 0, rfl, hl, hb, fun _ => rfl, by simp [nat]⟩
  | succ m ih =>
    intro data last hl hb hms hlast hdvd
    have hm : m < data.length := by omega
    have hcur : data[m]? = some data[m] := List.getElem?_eq_getElem hm
    have hcB : data[m] < B := hb _ (List.getElem_mem _)
    have htop := nat_take_succ_top data m _ hcur
    obtain ⟨c, hc⟩ : ∃ c, c = data[m] := ⟨_, rfl⟩
    rw [← hc] at hcur hcB htop
    obtain ⟨l1, l2, l3, l4⟩ := lsh_limb c off hcB ho
    have hd1 : m + step < data.length := by omega
    have hmod : c * 2 ^ off % B < B := Nat.mod_lt _ (by decide)
    have hdm := Nat.div_add_mod (c * 2 ^ off) B
    unfold lshLoop
    rw [hcur, bsome, List.getElem?_eq_getElem hd1, bsome]
    simp only
    by_cases hlt : m + 1 + step < 257
    · rw [if_pos hlt] at hlast
      rw [hlast]
      simp only
      have hx : data[m + 1 + step]? = some data[m + 1 + step] := List.getElem?_eq_getElem (by omega)
      have hxB : data[m + 1 + step] < B := hb _ (List.getElem_mem _)
      have hxd := hdvd _ hx
      have hdrop : data.drop (m + 1 + step) = data[m + 1 + step] :: data.drop (m + 1 + step + 1) := List.drop_eq_getElem_cons (by omega)
      rw [List.getElem?_set_ne (by omega), hx, bsome, bsome, l1, l2, or_low _ _ off hxd l3]
      generalize data[m + 1 + step] = x at *
      have hxc := add_fits x _ off ho hxB hxd l3
      obtain ⟨data2, hd2⟩ : ∃ d, d = ((data.set (m + step) c).set (m + 1 + step) (x + c * 2 ^ off / B)).set (m + step) (c * 2 ^ off % B) := ⟨_, rfl⟩
      rw [← hd2]
      have h2l : data2.length = 257 := by rw [hd2]; simp [hl]
      have h2b : ∀ y ∈ data2, y < B := by
        rw [hd2]; exact limbs_set (limbs_set (limbs_set hb _ _ hcB) _ _ hxc) _ _ hmod
      have h2d : data2.drop (m + step) = (c * 2 ^ off % B) :: (x + c * 2 ^ off / B) :: data.drop (m + 1 + step + 1) := by
        rw [hd2, set_drop_self _ _ _ (by simp; omega), show m + step + 1 = m + 1 + step by omega, set_drop_self _ _ _ (by simp; omega), set_drop_above _ _ _ _ (by omega)]
      have h2t : data2.take m = data.take m := by
        rw [hd2, set_take_below _ _ _ _ (by omega), set_take_below _ _ _ _ (by omega), set_take_below _ _ _ _ (by omega)]
      have h2g : ∀ y, data2[m + step]? = some y → 2 ^ off ∣ y := by
        intro y hy
        rw [hd2, List.getElem?_set_self (by simp; omega)] at hy
        rw [← Option.some.inj hy]; exact l4
      obtain ⟨data', k, e, hl', hb', hk, hv⟩ := ih data2 (some (m + step)) h2l h2b (by omega) (by rw [if_pos (by omega)]) h2g
      have hk0 := hk (by omega)
      refine ⟨data', k, e, hl', hb', fun _ => hk0, ?_⟩
      rw [hv, h2t, h2d, htop, hdrop, nat_cons, nat_cons, nat_cons, pow_succ]
      generalize nat (data.drop (m + 1 + step + 1)) = D at *
      generalize nat (data.take m) = T at *
      have e1 : c * 2 ^ off % B + B * (x + c * 2 ^ off / B + B * D) = c * 2 ^ off + B * (x + B * D) := by
        generalize c * 2 ^ off / B = y at *
        generalize c * 2 ^ off % B = z at *
        generalize c * 2 ^ off = t at *
        omega
      rw [e1]; ring
    · have hlt' : m + 1 + step = 257 := by omega
      rw [if_neg hlt] at hlast
      rw [hlast]
      simp only
      rw [bsome, l1]
      obtain ⟨data2, hd2⟩ : ∃ d, d = (data.set (m + step) c).set (m + step) (c * 2 ^ off % B) := ⟨_, rfl⟩
      rw [← hd2]
      have h2l : data2.length = 257 := by rw [hd2]; simp [hl]
      have h2b : ∀ y ∈ data2, y < B := by
        rw [hd2]; exact limbs_set (limbs_set hb _ _ hcB) _ _ hmod
      have hnil : data.drop (m + 1 + step) = [] := List.drop_of_length_le (by omega)
      have h2d : data2.drop (m + step) = [c * 2 ^ off % B] := by
        rw [hd2, set_drop_self _ _ _ (by simp; omega), set_drop_above _ _ _ _ (by omega), show m + step + 1 = m + 1 + step by omega, hnil]
      have h2t : data2.take m = data.take m := by
        rw [hd2, set_take_below _ _ _ _ (by omega), set_take_below _ _ _ _ (by omega)]
      have h2g : ∀ y, data2[m + step]? = some y → 2 ^ off ∣ y := by
        intro y hy
        rw [hd2, List.getElem?_set_self (by simp; omega)] at hy
        rw [← Option.some.inj hy]; exact l4
      obtain ⟨data', k, e, hl', hb', hk, hv⟩ := ih data2 (some (m + step)) h2l h2b (by omega) (by rw [if_pos (by omega)]) h2g
      have hk0 := hk (by omega)
      rw [hk0, Nat.zero_mul, Nat.add_zero] at hv
      refine ⟨data', c * 2 ^ off / B, e, hl', hb', fun h => absurd h hlt, ?_⟩
      rw [hv, h2t, h2d, htop, hnil, show 257 - step = m + 1 by omega, pow_succ]
      show 2 ^ off * nat (data.take m) + B ^ m * (c * 2 ^ off % B + B * 0) + _ = _ + _ * 0
      generalize nat (data.take m) = T at *
      have e1 : B ^ m * (c * 2 ^ off) = B ^ m * (B * (c * 2 ^ off / B) + c * 2 ^ off % B) := by rw [hdm]
      have e2 : 2 ^ off * (T + B ^ m * c) = 2 ^ off * T + B ^ m * (c * 2 ^ off) := by ring
      rw [e2, e1]; ring

theorem copyDown_spec (step : Nat) : ∀ (m : Nat) (data : List Nat), data.length = 257 → (∀ x ∈ data, x < B) → m + step ≤ 257 →
    ∃ data', copyDown step m data = some data' ∧ data'.length = 257 ∧ (∀ x ∈ data', x < B) ∧
      nat (data'.drop step) = nat (data.take m) + B ^ m * nat (data.drop (m + step)) := by
  intro m
  induction m with
  | zero => intro data hl hb _; exact ⟨data, rfl, hl, hb, by simp [nat]⟩
  | succ m ih =>
    intro data hl hb hms
    have hm : m < data.length := by omega
    have hcur : data[m]? = some data[m] := List.getElem?_eq_getElem hm
    have hcB : data[m] < B := hb _ (List.getElem_mem _)
    have htop := nat_take_succ_top data m _ hcur
    have hd1 : m + step < data.length := by omega
    unfold copyDown
    rw [hcur, bsome, List.getElem?_eq_getElem hd1, bsome]
    generalize data[m] = c at *
    obtain ⟨data', e, h1, h2, h3⟩ := ih (data.set (m + step) c) (by simp [hl]) (limbs_set hb _ _ hcB) (by omega)
    refine ⟨data', e, h1, h2, ?_⟩
    rw [h3, set_take_below _ _ _ _ (by omega), set_drop_self _ _ _ hd1, htop, nat_cons, show m + step + 1 = m + 1 + step by omega, pow_succ]
    ring

/-- **C35 (left).** For every count below 8224 the magnitude is multiplied by `2^n` modulo
`2^8224`, and the sign is kept. -/
theorem leftShift_partial {b : Bn} (hb : Wf b) (n : Nat) (hn : n < 8224) :
    ∃ r, leftShift b n = some r ∧ Wf r ∧ r.neg = b.neg ∧ mag r = mag b * 2 ^ n % 2 ^ 8224 := by
  have hsz : size = 257 := rfl
  have hbl := wf_length_le hb
  have hB257 : (2 : Nat) ^ 8224 = B ^ 257 := by rw [B_pow]
  unfold leftShift
  by_cases h0 : n = 0
  · rw [if_pos h0]
    refine ⟨b, rfl, hb, rfl, ?_⟩
    rw [h0, pow_zero, Nat.mul_one, hB257, Nat.mod_eq_of_lt (wf_mag_lt hb)]
  rw [if_neg h0]
  simp only
  rw [if_neg (show ¬ n / 32 ≥ size by omega), hB257, pow_split n]
  clear hB257
  have hoff : n % 32 < 32 := Nat.mod_lt _ (by decide)
  have hstep : n / 32 < 257 := by omega
  generalize n / 32 = step at *
  generalize n % 32 = off at *
  obtain ⟨m, hm⟩ : ∃ m, m = if b.length + step > size then b.length - (b.length + step - size) else b.length := ⟨_, rfl⟩
  rw [← hm]
  have hms : m + step ≤ 257 := by rw [hm]; split <;> omega
  have hml : m ≤ b.length := by rw [hm]; split <;> omega
  have hfull : m = b.length ∨ m + step = 257 := by rw [hm]; split <;> omega
  have hhigh : nat (b.data.drop (m + step)) = 0 := by
    rcases hfull with h | h
    · apply nat_drop_zero
      exact lt_of_lt_of_le hb.below (Nat.pow_le_pow_right (by decide) (by omega))
    · rw [List.drop_of_length_le (by rw [hb.size]; omega)]; rfl
  have hzero : ∀ x, b.data[m + step]? = some x → x = 0 := by
    intro x hx
    have := (nat_zero_iff _).1 hhigh
    apply this
    obtain ⟨h1, h2⟩ := List.getElem?_eq_some_iff.1 hx
    rw [List.drop_eq_getElem_cons h1, h2]; simp
  -- the part of the number that stays
  obtain ⟨k0, hk0⟩ : ∃ k0, mag b = nat (b.data.take m) + k0 * B ^ (257 - step) := by
    rcases hfull with h | h
    · exact ⟨0, by rw [h, nat_take_of_lt b.data b.length hb.below]; show nat b.data = _; omega⟩
    · refine ⟨nat (b.data.drop m), ?_⟩
      rw [show 257 - step = m by omega, Nat.mul_comm]
      exact nat_take_drop b.data m (by rw [hb.size]; omega)
  have hpow : B ^ step * B ^ (257 - step) = B ^ 257 := by rw [← pow_add, show step + (257 - step) = 257 by omega]
  -- common end of both branches
  have fin : ∀ (data' : List Nat) (k len : Nat), data'.length = 257 → (∀ x ∈ data', x < B) →
      nat (data'.drop step) + k * B ^ (257 - step) = 2 ^ off * nat (b.data.take m) → len ≤ 257 → nat (data'.drop step) * B ^ step < B ^ len →
      ∃ r, (do
        let len ← scan (List.replicate step 0 ++ data'.drop step) len
        some { b with length := len, data := List.replicate step 0 ++ data'.drop step }) = some r ∧ Wf r ∧ r.neg = b.neg ∧
        mag r = mag b * (B ^ step * 2 ^ off) % B ^ 257 := by
    intro data' k len h1 h2 h3 h4 h5
    have hdl : (List.replicate step 0 ++ data'.drop step).length = 257 := by
      rw [List.length_append, List.length_replicate, List.length_drop]; omega
    have hdb : ∀ x ∈ List.replicate step 0 ++ data'.drop step, x < B := limbs_append (limbs_replicate _) (limbs_drop h2)
    have hdn : nat (List.replicate step 0 ++ data'.drop step) = nat (data'.drop step) * B ^ step := by
      rw [nat_append, nat_replicate, List.length_replicate, Nat.zero_add, Nat.mul_comm]
    obtain ⟨l, e, hl1, hl2, hl3⟩ := scan_canon _ len (by rw [hdl]; exact h4) hdb (by rw [hdn]; exact h5)
    rw [e, bsome]
    refine ⟨_, rfl, ⟨hdl, hdb, hl2, hl3⟩, rfl, ?_⟩
    show nat (List.replicate step 0 ++ data'.drop step) = _
    have hlt := nat_lt _ hdb
    rw [hdl] at hlt
    have htot : mag b * (B ^ step * 2 ^ off) = nat (List.replicate step 0 ++ data'.drop step) + B ^ 257 * (k + 2 ^ off * k0) := by
      rw [hdn, hk0, ← hpow]
      have e1 : (nat (b.data.take m) + k0 * B ^ (257 - step)) * (B ^ step * 2 ^ off)
          = B ^ step * (2 ^ off * nat (b.data.take m)) + B ^ step * B ^ (257 - step) * (2 ^ off * k0) := by ring
      rw [e1, ← h3]
      ring
    rw [htot, Nat.add_mul_mod_self_left, Nat.mod_eq_of_lt hlt]
  have hpos := Bpos step
  by_cases ho : off = 0
  · rw [if_neg (by simpa using ho)]
    obtain ⟨data', e, h1, h2, h3⟩ := copyDown_spec step m b.data hb.size hb.limbs hms
    rw [hhigh, Nat.mul_zero, Nat.add_zero] at h3
    rw [e, bsome]
    refine fin data' 0 (m + step) h1 h2 (by rw [h3, ho]; ring) hms ?_
    rw [h3, pow_add]
    apply Nat.mul_lt_mul_of_pos_right _ hpos
    have := nat_lt (b.data.take m) (limbs_take hb.limbs)
    rwa [List.length_take, Nat.min_eq_left (by rw [hb.size]; omega)] at this
  · rw [if_pos ho]
    obtain ⟨data', k, e, h1, h2, hk, h3⟩ := lshLoop_spec off step hoff m b.data (if m + step < size then some (m + step) else none) hb.size hb.limbs hms rfl
      (fun x hx => by rw [hzero x hx]; exact dvd_zero _)
    rw [hhigh, Nat.mul_zero, Nat.add_zero] at h3
    rw [e, bsome]
    refine fin data' k _ h1 h2 h3 (by split <;> omega) ?_
    by_cases htop : m + step < size
    · rw [if_pos htop]
      rw [hk htop, Nat.zero_mul, Nat.add_zero] at h3
      rw [h3]
      have h4 := nat_lt (b.data.take m) (limbs_take hb.limbs)
      rw [List.length_take, Nat.min_eq_left (by rw [hb.size]; omega)] at h4
      have h5 : 2 ^ off < B := by
        have : 2 ^ off < 2 ^ 32 := Nat.pow_lt_pow_right (by decide) hoff
        norm_num at this; exact this
      have h6 : 2 ^ off * nat (b.data.take m) < B * B ^ m := Nat.mul_lt_mul'' h5 h4
      have h7 : B ^ (m + step + 1) = B * B ^ m * B ^ step := by rw [pow_succ, pow_add]; ring
      rw [h7]
      exact Nat.mul_lt_mul_of_pos_right h6 hpos
    · rw [if_neg htop, show m + step = 257 by omega, ← hpow, Nat.mul_comm]
      apply Nat.mul_lt_mul_of_pos_left _ hpos
      have := nat_lt (data'.drop step) (limbs_drop h2)
      rwa [List.length_drop, h1] at this

/-- Code defect: shifts of 8224 and more leave the number unchanged (both directions). -/
theorem shift_large (b : Bn) (n : Nat) (hn : 8224 ≤ n) : leftShift b n = some b ∧ rightShift b n = some b := by
  have hsz : size = 257 := rfl
  have h0 : ¬ n = 0 := by omega
  have h1 : n / 32 ≥ size := by omega
  unfold leftShift rightShift
  rw [if_neg h0, if_neg h0]
  simp only
  rw [if_pos h1, if_pos h1]
  exact ⟨rfl, rfl⟩

/-! ## Right shift -/

theorem rsh_limb (cur off : Nat) (hc : cur < B) (h1 : 0 < off) (ho : off < 32) :
    w (cur <<< (32 - off)) &&& 0xffffffff = cur * 2 ^ (32 - off) % B ∧ (cur >>> off) &&& 0xffffffff = cur / 2 ^ off ∧
      cur / 2 ^ off = cur * 2 ^ (32 - off) / B ∧ cur / 2 ^ off < 2 ^ (32 - off) ∧ 2 ^ (32 - off) ∣ cur * 2 ^ (32 - off) % B := by
  obtain ⟨l1, l2, l3, l4⟩ := lsh_limb cur (32 - off) hc (by omega)
  rw [show 32 - (32 - off) = off by omega] at l2
  have hd : cur / 2 ^ off = cur * 2 ^ (32 - off) / B := by
    have hB := B_split (32 - off) (by omega)
    rw [show 32 - (32 - off) = off by omega] at hB
    rw [hB, Nat.mul_comm cur, Nat.mul_div_mul_left _ _ (Nat.two_pow_pos _)]
  exact ⟨l1, by rw [l2, hd], hd, by rw [hd]; exact l3, l4⟩

theorem take_succ_of_set (l : List Nat) (k x : Nat) (h : k < l.length) : (l.set k x).take (k + 1) = l.take k ++ [x] := by
  rw [List.take_succ_eq_append_getElem (by simpa using h), set_take_below _ _ _ _ (le_refl _)]
  simp

theorem rshLoop_spec (off step : Nat) (h1 : 0 < off) (ho : off < 32) : ∀ (n k : Nat) (data : List Nat), data.length = 257 → (∀ x ∈ data, x < B) →
    k + 1 + n + step ≤ 257 → (∀ x, data[k]? = some x → x < 2 ^ (32 - off)) →
    ∃ data', rshLoop off step n (k + 1) data = some data' ∧ data'.length = 257 ∧ (∀ x ∈ data', x < B) ∧ data'.drop (k + 1 + n) = data.drop (k + 1 + n) ∧
      nat (data'.take (k + 1 + n)) = nat (data.take (k + 1)) + B ^ k * (nat ((data.drop (k + 1 + step)).take n) * 2 ^ (32 - off)) := by
  intro n
  induction n with
  | zero => intro k data hl hb _ _; exact ⟨data, rfl, hl, hb, rfl, by simp [nat]⟩
  | succ n ih =>
    intro k data hl hb hk hsm
    have hi : k + 1 + step < data.length := by omega
    have hcur : data[k + 1 + step]? = some data[k + 1 + step] := List.getElem?_eq_getElem hi
    have hcB : data[k + 1 + step] < B := hb _ (List.getElem_mem _)
    have hdrop : data.drop (k + 1 + step) = data[k + 1 + step] :: data.drop (k + 1 + step + 1) := List.drop_eq_getElem_cons hi
    have hx : data[k]? = some data[k] := List.getElem?_eq_getElem (by omega)
    have hxs := hsm _ hx
    have hxB : data[k] < B := hb _ (List.getElem_mem _)
    have htk := nat_take_succ_top data k _ hx
    obtain ⟨c, hc⟩ : ∃ c, c = data[k + 1 + step] := ⟨_, rfl⟩
    rw [← hc] at hcur hcB hdrop
    obtain ⟨l1, l2, l3, l4, l5⟩ := rsh_limb c off hcB h1 ho
    unfold rshLoop
    rw [hcur, bsome]
    simp only
    rw [List.getElem?_set_ne (by omega), hx, bsome, bsome, l1, l2, Nat.or_comm, or_low _ _ _ l5 hxs]
    obtain ⟨x, hxd⟩ : ∃ x, x = data[k] := ⟨_, rfl⟩
    rw [← hxd] at hx hxs hxB htk ⊢
    have hmod : c * 2 ^ (32 - off) % B < B := Nat.mod_lt _ (by decide)
    have hyB : c * 2 ^ (32 - off) % B + x < B := add_fits _ _ (32 - off) (by omega) hmod l5 hxs
    have hzB : c / 2 ^ off < B := lt_of_le_of_lt (Nat.div_le_self _ _) hcB
    obtain ⟨data2, hd2⟩ : ∃ d, d = ((data.set (k + 1) c).set k (c * 2 ^ (32 - off) % B + x)).set (k + 1) (c / 2 ^ off) := ⟨_, rfl⟩
    rw [← hd2]
    have h2l : data2.length = 257 := by rw [hd2]; simp [hl]
    have h2b : ∀ y ∈ data2, y < B := by
      rw [hd2]; exact limbs_set (limbs_set (limbs_set hb _ _ hcB) _ _ hyB) _ _ hzB
    have h2g : ∀ y, data2[k + 1]? = some y → y < 2 ^ (32 - off) := by
      intro y hy
      rw [hd2, List.getElem?_set_self (by simp; omega)] at hy
      rw [← Option.some.inj hy]; exact l4
    have h2t : data2.take (k + 1 + 1) = data.take k ++ [c * 2 ^ (32 - off) % B + x] ++ [c / 2 ^ off] := by
      rw [hd2, take_succ_of_set _ _ _ (by simp; omega), take_succ_of_set _ _ _ (by simp; omega), set_take_below _ _ _ _ (by omega)]
    have h2d : ∀ j, k + 1 < j → data2.drop j = data.drop j := by
      intro j hj
      rw [hd2, set_drop_above _ _ _ _ hj, set_drop_above _ _ _ _ (by omega), set_drop_above _ _ _ _ hj]
    obtain ⟨data', e, hl', hb', hdr, hv⟩ := ih (k + 1) data2 h2l h2b (by omega) h2g
    rw [show k + 1 + 1 + n = k + 1 + (n + 1) by omega] at hdr hv
    refine ⟨data', e, hl', hb', ?_, ?_⟩
    · rw [hdr, h2d _ (by omega)]
    · rw [hv, h2t, h2d _ (by omega), htk, hdrop, List.take_succ_cons, nat_cons, nat_append, nat_append, show k + 1 + 1 + step = k + 1 + step + 1 by omega]
      have hkl : (data.take k).length = k := by rw [List.length_take]; omega
      rw [List.length_append, hkl]
      show nat (data.take k) + B ^ k * (c * 2 ^ (32 - off) % B + x + B * 0) + B ^ (k + 1) * (c / 2 ^ off + B * 0) + _ = _
      have hdm := Nat.div_add_mod (c * 2 ^ (32 - off)) B
      rw [← l3] at hdm
      have e1 : B ^ k * ((c + B * nat ((data.drop (k + 1 + step + 1)).take n)) * 2 ^ (32 - off))
          = B ^ k * (c * 2 ^ (32 - off)) + B ^ k * (B * nat ((data.drop (k + 1 + step + 1)).take n) * 2 ^ (32 - off)) := by ring
      have e2 : B ^ k * (c * 2 ^ (32 - off)) = B ^ k * (B * (c / 2 ^ off) + c * 2 ^ (32 - off) % B) := by rw [hdm]
      rw [e1, e2, pow_succ]
      ring

theorem rshLoop_start (off step n : Nat) (h1 : 0 < off) (ho : off < 32) (data : List Nat) (hl : data.length = 257) (hb : ∀ x ∈ data, x < B) (hn : n + step ≤ 257) (hn0 : n ≠ 0) :
    ∃ data', rshLoop off step n 0 data = some data' ∧ data'.length = 257 ∧ (∀ x ∈ data', x < B) ∧ data'.drop n = data.drop n ∧
      nat (data'.take n) = nat ((data.drop step).take n) / 2 ^ off := by
  obtain ⟨n, rfl⟩ : ∃ m, n = m + 1 := ⟨n - 1, by omega⟩
  have hi : step < data.length := by omega
  have hcur : data[0 + step]? = some data[step] := by rw [Nat.zero_add]; exact List.getElem?_eq_getElem hi
  have hcB : data[step] < B := hb _ (List.getElem_mem _)
  have hdrop : data.drop step = data[step] :: data.drop (step + 1) := List.drop_eq_getElem_cons hi
  obtain ⟨c, hc⟩ : ∃ c, c = data[step] := ⟨_, rfl⟩
  rw [← hc] at hcur hcB hdrop
  obtain ⟨l1, l2, l3, l4, l5⟩ := rsh_limb c off hcB h1 ho
  unfold rshLoop
  rw [hcur, bsome]
  simp only
  rw [bsome, l2]
  have hzB : c / 2 ^ off < B := lt_of_le_of_lt (Nat.div_le_self _ _) hcB
  obtain ⟨data2, hd2⟩ : ∃ d, d = (data.set 0 c).set 0 (c / 2 ^ off) := ⟨_, rfl⟩
  rw [← hd2]
  have h2l : data2.length = 257 := by rw [hd2]; simp [hl]
  have h2b : ∀ y ∈ data2, y < B := by rw [hd2]; exact limbs_set (limbs_set hb _ _ hcB) _ _ hzB
  have h2g : ∀ y, data2[0]? = some y → y < 2 ^ (32 - off) := by
    intro y hy
    rw [hd2, List.getElem?_set_self (by simp; omega)] at hy
    rw [← Option.some.inj hy]; exact l4
  have h2t : data2.take 1 = [c / 2 ^ off] := by
    rw [hd2, take_succ_of_set _ _ _ (by simp; omega)]; simp
  have h2d : ∀ j, 0 < j → data2.drop j = data.drop j := by
    intro j hj
    rw [hd2, set_drop_above _ _ _ _ hj, set_drop_above _ _ _ _ hj]
  obtain ⟨data', e, hl', hb', hdr, hv⟩ := rshLoop_spec off step h1 ho n 0 data2 h2l h2b (by omega) h2g
  rw [show 0 + 1 + n = n + 1 by omega] at hdr hv
  refine ⟨data', e, hl', hb', by rw [hdr, h2d _ (by omega)], ?_⟩
  rw [hv, h2t, h2d _ (by omega), hdrop, List.take_succ_cons, nat_cons, nat_cons, show 0 + 1 + step = step + 1 by omega]
  have hB := B_split off (by omega)
  generalize nat ((data.drop (step + 1)).take n) = R
  show c / 2 ^ off + B * 0 + B ^ 0 * _ = _
  have e1 : c + B * R = c + 2 ^ off * (2 ^ (32 - off) * R) := by rw [hB]; ring
  rw [e1, Nat.add_mul_div_left _ _ (Nat.two_pow_pos off)]
  ring

theorem copyUp_spec (step : Nat) : ∀ (n k : Nat) (data : List Nat), data.length = 257 → (∀ x ∈ data, x < B) → k + n + step ≤ 257 →
    ∃ data', copyUp step n k data = some data' ∧ data'.length = 257 ∧ (∀ x ∈ data', x < B) ∧ data'.drop (k + n) = data.drop (k + n) ∧
      data'.take (k + n) = data.take k ++ (data.drop (k + step)).take n := by
  intro n
  induction n with
  | zero => intro k data hl hb _; exact ⟨data, rfl, hl, hb, rfl, by simp⟩
  | succ n ih =>
    intro k data hl hb hk
    have hi : k + step < data.length := by omega
    have hcur : data[k + step]? = some data[k + step] := List.getElem?_eq_getElem hi
    have hcB : data[k + step] < B := hb _ (List.getElem_mem _)
    have hdrop : data.drop (k + step) = data[k + step] :: data.drop (k + step + 1) := List.drop_eq_getElem_cons hi
    unfold copyUp
    rw [hcur, bsome]
    generalize data[k + step] = c at *
    obtain ⟨data', e, h1, h2, h3, h4⟩ := ih (k + 1) (data.set k c) (by simp [hl]) (limbs_set hb _ _ hcB) (by omega)
    rw [show k + 1 + n = k + (n + 1) by omega] at h3 h4
    refine ⟨data', e, h1, h2, by rw [h3, set_drop_above _ _ _ _ (by omega)], ?_⟩
    rw [h4, take_succ_of_set _ _ _ (by omega), set_drop_above _ _ _ _ (by omega), hdrop, List.take_succ_cons, show k + 1 + step = k + step + 1 by omega]
    simp

/-- **C35 (right).** For counts below 8224 the magnitude is divided by `2^n`, rounding down;
the sign is kept unless the result is zero.  The exception is a number of full width with a
count between 1 and 31. -/
theorem rightShift_partial {b : Bn} (hb : Wf b) (n : Nat) (hn : n < 8224) (hx : ¬ (b.length = 257 ∧ 0 < n ∧ n < 32)) :
    ∃ r, rightShift b n = some r ∧ Wf r ∧ mag r = mag b / 2 ^ n ∧ (mag r ≠ 0 → r.neg = b.neg) := by
  have hsz : size = 257 := rfl
  have hbl := wf_length_le hb
  unfold rightShift
  by_cases h0 : n = 0
  · rw [if_pos h0]
    exact ⟨b, rfl, hb, by rw [h0, pow_zero, Nat.div_one], fun _ => rfl⟩
  rw [if_neg h0]
  simp only
  rw [if_neg (show ¬ n / 32 ≥ size by omega), pow_split n, ← Nat.div_div_eq_div_mul]
  have hoff : n % 32 < 32 := Nat.mod_lt _ (by decide)
  have hsl : n / 32 = 0 → b.length ≠ 257 := by
    intro h1 h2
    exact hx ⟨h2, by omega, by omega⟩
  generalize n / 32 = step at *
  generalize n % 32 = off at *
  have hdivB : mag b / B ^ step = nat (b.data.drop step) ∨ b.data.length < step := by
    by_cases h : step ≤ b.data.length
    · left
      have e := nat_take_drop b.data step h
      have hlt := nat_lt (b.data.take step) (limbs_take hb.limbs)
      rw [List.length_take, Nat.min_eq_left h] at hlt
      show nat b.data / _ = _
      rw [e, Nat.add_mul_div_left _ _ (Bpos step), Nat.div_eq_of_lt hlt, Nat.zero_add]
    · right; omega
  by_cases hs : step ≥ b.length
  · rw [if_pos hs]
    refine ⟨zero, rfl, wf_zero, ?_, fun h => absurd mag_zero h⟩
    have : mag b / B ^ step = 0 := Nat.div_eq_of_lt (lt_of_lt_of_le hb.below (Nat.pow_le_pow_right (by decide) hs))
    rw [this, mag_zero, Nat.zero_div]
  rw [if_neg hs]
  have hdivB : mag b / B ^ step = nat (b.data.drop step) := by
    rcases hdivB with h | h
    · exact h
    · rw [hb.size] at h; omega
  have hk1 : b.length - step ≤ 256 := by
    by_cases h : step = 0
    · have := hsl h; omega
    · omega
  have htake : nat ((b.data.drop step).take (b.length - step)) = nat (b.data.drop step) := by
    apply nat_take_of_lt
    rw [← hdivB, Nat.div_lt_iff_lt_mul (Bpos step), ← pow_add, show b.length - step + step = b.length by omega]
    exact hb.below
  have hzeros : b.data.drop b.length = List.replicate (257 - b.length) 0 := by
    rw [nat_drop_replicate b.data b.length hb.below, hb.size]
  have fin : ∀ data' : List Nat, data'.length = 257 → (∀ x ∈ data', x < B) → data'.drop (b.length - step) = b.data.drop (b.length - step) →
      nat (data'.take (b.length - step)) = nat (b.data.drop step) / 2 ^ off →
      ∃ r, (do
        let len ← scan (data'.take (b.length - step) ++ List.replicate step 0 ++ data'.drop b.length) (b.length - step + 1)
        some { b with length := len, data := data'.take (b.length - step) ++ List.replicate step 0 ++ data'.drop b.length }) = some r ∧
        Wf r ∧ mag r = mag b / B ^ step / 2 ^ off ∧ (mag r ≠ 0 → r.neg = b.neg) := by
    intro data' g1 g2 g3 g4
    have hdz : data'.drop b.length = List.replicate (257 - b.length) 0 := by
      have : data'.drop b.length = (data'.drop (b.length - step)).drop step := by
        rw [List.drop_drop]; congr 1; omega
      rw [this, g3, List.drop_drop, show b.length - step + step = b.length by omega, hzeros]
    rw [hdz]
    have hl : (data'.take (b.length - step) ++ List.replicate step 0 ++ List.replicate (257 - b.length) 0).length = 257 := by
      rw [List.length_append, List.length_append, List.length_take, List.length_replicate, List.length_replicate]; omega
    have hbd : ∀ x ∈ data'.take (b.length - step) ++ List.replicate step 0 ++ List.replicate (257 - b.length) 0, x < B :=
      limbs_append (limbs_append (limbs_take g2) (limbs_replicate _)) (limbs_replicate _)
    have hnn : nat (data'.take (b.length - step) ++ List.replicate step 0 ++ List.replicate (257 - b.length) 0) = nat (data'.take (b.length - step)) := by
      rw [nat_append, nat_append, nat_replicate, nat_replicate]; omega
    have hlt := nat_lt (data'.take (b.length - step)) (limbs_take g2)
    rw [List.length_take, Nat.min_eq_left (by omega)] at hlt
    obtain ⟨l, e, q1, q2, q3⟩ := scan_canon _ (b.length - step + 1) (by rw [hl]; omega) hbd (by
      rw [hnn]
      exact lt_of_lt_of_le hlt (Nat.pow_le_pow_right (by decide) (by omega)))
    rw [e, bsome]
    refine ⟨_, rfl, ⟨hl, hbd, q2, q3⟩, ?_, fun _ => rfl⟩
    show nat (data'.take (b.length - step) ++ List.replicate step 0 ++ List.replicate (257 - b.length) 0) = _
    rw [hnn, g4, hdivB]
  by_cases ho : off = 0
  · rw [if_neg (by simpa using ho)]
    obtain ⟨data', e, f1, f2, f3, f4⟩ := copyUp_spec step (b.length - step) 0 b.data hb.size hb.limbs (by omega)
    rw [Nat.zero_add] at f3 f4
    rw [e, bsome]
    refine fin data' f1 f2 f3 ?_
    rw [f4, List.take_zero, List.nil_append, Nat.zero_add, htake, ho, pow_zero, Nat.div_one]
  · rw [if_pos ho]
    obtain ⟨data', e, f1, f2, f3, f4⟩ := rshLoop_start off step (b.length - step) (by omega) hoff b.data hb.size hb.limbs (by omega) (by omega)
    rw [e, bsome]
    refine fin data' f1 f2 f3 ?_
    rw [f4, htake]

/-- Code defect: shifting a number of full width right by 1 to 31 bits reads past the array. -/
theorem rightShift_oob {b : Bn} (hb : Wf b) (hl : b.length = 257) (n : Nat) (h0 : 0 < n) (hn : n < 32) : rightShift b n = none := by
  have hsz : size = 257 := rfl
  unfold rightShift
  rw [if_neg (by omega)]
  simp only
  rw [if_neg (by omega), if_neg (by omega), if_pos (by omega), show n / 32 = 0 by omega, hl, show n % 32 = n by omega]
  obtain ⟨data', e, f1, f2, f3, f4⟩ := rshLoop_start n 0 257 h0 hn b.data hb.size hb.limbs (by omega) (by omega)
  rw [show 257 - 0 = 257 by rfl, e, bsome]
  have : scan (data'.take 257 ++ List.replicate 0 0 ++ data'.drop 257) (257 + 1) = none := by
    have hlen : (data'.take 257 ++ List.replicate 0 0 ++ data'.drop 257).length = 257 := by simp [f1]
    unfold scan
    rw [List.getElem?_eq_none (by rw [hlen])]
    rfl
  rw [this]
  rfl

/-! Instances: a carry into a new limb, a borrow from a higher limb, and the unchanged number. -/
example : (leftShift (small false 2147483649) 33).map (fun r => (r.length, r.data.take 4)) = some (3, [0, 2, 1, 0]) := by decide +kernel
example : (rightShift ⟨true, 2, [4, 3] ++ List.replicate 255 0⟩ 1).map (fun r => (r.neg, r.length, r.data.take 3)) = some (true, 2, [2147483650, 1, 0]) := by decide +kernel
example : (leftShift (small false 1) 8224).map value = some 1 := by decide +kernel

end Verif.Bn
