import Verif.BnMulProps

/-
Loops of the bignum division (Knuth's algorithm D).
-/
set_option maxRecDepth 8000

namespace Verif.Bn

/-! ## Multi-limb primitives -/

theorem fill_spec : ∀ (n c : Nat), (fill n c).length = n ∧ (∀ x ∈ fill n c, x < B) ∧ ∃ k, nat (fill n c) + k * B ^ n = c := by
  intro n
  induction n with
  | zero => intro c; exact ⟨rfl, by simp [fill], ⟨c, by simp [fill, nat]⟩⟩
  | succ n ih =>
    intro c
    obtain ⟨h1, h2, k, h3⟩ := ih (c / B)
    refine ⟨by simp [fill, h1], ?_, k, ?_⟩
    · intro x hx
      rcases List.mem_cons.1 hx with h | hx
      · rw [h]; exact Nat.mod_lt _ (by decide)
      · exact h2 x hx
    · simp only [fill, nat_cons, pow_succ]
      have e : k * (B ^ n * B) = B * (k * B ^ n) := by ring
      rw [e]
      have := Nat.div_add_mod c B
      generalize k * B ^ n = z at h3
      omega

theorem nmulLoop_spec (b : Nat) (hb : b < B) : ∀ (m : Nat) (as : List Nat) (c : Nat), m ≤ as.length → (∀ y ∈ as, y < B) → c < B →
    ∃ r c', nmulLoop b m as c = some (r, c') ∧ r.length = m ∧ (∀ y ∈ r, y < B) ∧ c' < B ∧
      nat r + B ^ m * c' = nat (as.take m) * b + c := by
  intro m
  induction m with
  | zero => intro as c _ _ hc; exact ⟨[], c, by cases as <;> rfl, rfl, by simp, hc, by simp [nat]⟩
  | succ m ih =>
    intro as c hm h hc
    cases as with
    | nil => simp at hm
    | cons d ds =>
      have hd := h d (by simp)
      have hle : d * b ≤ 4294967295 * 4294967295 := Nat.mul_le_mul (by omega) (by omega)
      simp only [nmulLoop]
      rw [w_of_lt (show d * b < 18446744073709551616 by omega), w_of_lt (show d * b + c < 18446744073709551616 by omega)]
      obtain ⟨r, c', e, hl, hr, hc', hv⟩ := ih ds ((d * b + c) / B) (by simpa using hm) (fun y hy => h y (by simp [hy])) (by omega)
      simp only [e, Option.bind_eq_bind, Option.bind_some]
      refine ⟨_, c', rfl, by simp [hl], ?_, hc', ?_⟩
      · intro y hy
        rcases List.mem_cons.1 hy with h | hy
        · rw [h]; exact Nat.mod_lt _ (by decide)
        · exact hr y hy
      · simp only [nat_cons, List.take_succ_cons, pow_succ]
        have e1 : B ^ m * B * c' = B * (B ^ m * c') := by ring
        have e2 : (d + B * nat (ds.take m)) * b = d * b + B * (nat (ds.take m) * b) := by ring
        rw [e1, e2]
        generalize B ^ m * c' = z at hv
        generalize nat (ds.take m) * b = y at hv
        have := Nat.div_add_mod (d * b + c) B
        generalize d * b = t at *
        omega

/-- Product of a limb list by a limb; `n` limbs are kept. -/
theorem nmul_spec (a : List Nat) (b n m : Nat) (hb : b < B) (ha : ∀ y ∈ a, y < B) (hm : m ≤ a.length) (hmn : m ≤ n)
    (h1 : b = 1 → n ≤ a.length ∧ nat (a.take n) = nat (a.take m)) :
    ∃ r, nmul a b n m = some r ∧ r.length = n ∧ (∀ y ∈ r, y < B) ∧ ∃ k, nat r + k * B ^ n = b * nat (a.take m) := by
  unfold nmul
  rw [Nat.mod_eq_of_lt hb]
  simp only
  by_cases hb0 : b = 0
  · rw [if_pos hb0]
    exact ⟨_, rfl, by simp, limbs_replicate n, 0, by rw [nat_replicate, hb0]; simp⟩
  · rw [if_neg hb0]
    by_cases hb1 : b = 1
    · obtain ⟨h2, h3⟩ := h1 hb1
      rw [if_pos hb1, if_pos h2]
      exact ⟨_, rfl, by rw [List.length_take]; omega, limbs_take ha, 0, by rw [h3, hb1]; simp⟩
    · rw [if_neg hb1]
      obtain ⟨r, c, e, hl, hr, hc, hv⟩ := nmulLoop_spec b hb m a 0 hm ha (by decide)
      obtain ⟨f1, f2, k, f3⟩ := fill_spec (n - m) c
      simp only [e, Option.bind_eq_bind, Option.bind_some]
      refine ⟨_, rfl, by rw [List.length_append, hl, f1]; omega, limbs_append hr f2, k, ?_⟩
      rw [nat_append, hl, Nat.mul_comm b]
      have e1 : B ^ n = B ^ m * B ^ (n - m) := by rw [← pow_add]; congr 1; omega
      have e2 : k * (B ^ m * B ^ (n - m)) = B ^ m * (k * B ^ (n - m)) := by ring
      rw [e1, e2]
      have : B ^ m * (nat (fill (n - m) c) + k * B ^ (n - m)) = B ^ m * c := by rw [f3]
      rw [Nat.mul_add] at this
      omega

theorem nsbb_spec : ∀ (n : Nat) (as bs : List Nat) (c : Nat), n ≤ as.length → n ≤ bs.length → (∀ x ∈ as, x < B) → (∀ x ∈ bs, x < B) → c ≤ 1 →
    ∃ r c', nsbb n as bs c = some (r, c') ∧ r.length = n ∧ (∀ x ∈ r, x < B) ∧ c' ≤ 1 ∧
      nat r + nat (bs.take n) + c = nat (as.take n) + B ^ n * c' := by
  intro n
  induction n with
  | zero => intro as bs c _ _ _ _ hc; exact ⟨[], c, rfl, rfl, by simp, hc, by simp [nat]⟩
  | succ n ih =>
    intro as bs c h1 h2 h3 h4 hc
    cases as with
    | nil => simp at h1
    | cons a as =>
      cases bs with
      | nil => simp at h2
      | cons b bs =>
        have ha := h3 a (by simp)
        have hb := h4 b (by simp)
        simp only [nsbb, List.take_succ_cons, nat_cons]
        rw [w_of_lt (show b + c < 18446744073709551616 by omega)]
        have key : ∃ t c1, (if a < b + c then (a + B - b - c, 1) else (a - b - c, 0)) = (t, c1) ∧ t < B ∧ c1 ≤ 1 ∧ t + b + c = a + B * c1 := by
          split
          · exact ⟨_, _, rfl, by omega, by omega, by omega⟩
          · exact ⟨_, _, rfl, by omega, by omega, by omega⟩
        obtain ⟨t, c1, et, ht, hc1, hv1⟩ := key
        rw [et]
        obtain ⟨r, c', e, hl, hr, hc', hv⟩ := ih as bs c1 (by simpa using h1) (by simpa using h2) (fun x hx => h3 x (by simp [hx])) (fun x hx => h4 x (by simp [hx])) hc1
        simp only [e, Option.bind_eq_bind, Option.bind_some]
        refine ⟨_, c', rfl, by simp [hl], ?_, hc', ?_⟩
        · intro x hx
          rcases List.mem_cons.1 hx with h | hx
          · rw [h]; exact ht
          · exact hr x hx
        · rw [nat_cons, pow_succ]
          have hh : B ^ n * B * c' = B * (B ^ n * c') := by ring
          rw [hh]
          generalize B ^ n * c' = z at hv
          omega

theorem nadc_eq : ∀ (n : Nat) (as bs : List Nat) (c : Nat), nadc n as bs c = addLoop n as bs c := by
  intro n
  induction n with
  | zero => intro as bs c; cases as <;> cases bs <;> rfl
  | succ n ih =>
    intro as bs c
    cases as with
    | nil => rfl
    | cons a as =>
      cases bs with
      | nil => rfl
      | cons b bs =>
        unfold nadc addLoop
        simp only [ih]

theorem mul_small {z b : Nat} (h : z < b) (hb : b < B) : z * B < 18446744073709551616 := by omega

theorem divDown_spec (a : List Nat) (b : Nat) (hb : b < B) (h0 : 0 < b) (ha : ∀ x ∈ a, x < B) : ∀ (n t : Nat), n ≤ a.length → t < b →
    ∃ r t', divDown a b n (t * B) = some (r, t' * B) ∧ t' < b ∧ r.length = n ∧ (∀ x ∈ r, x < B) ∧
      nat r * b + t' = nat (a.take n) + B ^ n * t := by
  intro n
  induction n with
  | zero => intro t _ ht; exact ⟨[], t, rfl, ht, rfl, by simp, by simp [nat]⟩
  | succ n ih =>
    intro t hn ht
    have hx : a[n]? = some a[n] := List.getElem?_eq_getElem (by omega)
    have hxB : a[n] < B := ha _ (List.getElem_mem _)
    have e1 := nat_take_succ_top a n _ hx
    simp only [divDown, hx, Option.bind_eq_bind, Option.bind_some]
    rw [e1]
    generalize a[n] = x at hxB
    have htB : t * B + x < b * B := by
      have : (t + 1) * B ≤ b * B := Nat.mul_le_mul_right _ ht
      omega
    rw [w_of_lt (show t * B + x < 18446744073709551616 by omega)]
    have hm : (t * B + x) % b < b := Nat.mod_lt _ h0
    rw [w_of_lt (mul_small hm hb)]
    obtain ⟨r, t', e, ht', hl, hr, hv⟩ := ih ((t * B + x) % b) (by omega) hm
    rw [e]
    refine ⟨_, t', rfl, ht', by simp [hl], ?_, ?_⟩
    · refine limbs_append hr ?_
      intro y hy
      rw [List.mem_singleton.1 hy, Nat.div_lt_iff_lt_mul h0]
      rw [Nat.mul_comm B b]; exact htB
    · rw [nat_append, hl]
      show (nat r + B ^ n * ((t * B + x) / b + B * 0)) * b + t' = _
      have hd := Nat.div_add_mod (t * B + x) b
      have e2 : (nat r + B ^ n * ((t * B + x) / b + B * 0)) * b + t' = (nat r * b + t') + B ^ n * (b * ((t * B + x) / b)) := by ring
      rw [e2, hv]
      have e3 : nat (a.take n) + B ^ n * ((t * B + x) % b) + B ^ n * (b * ((t * B + x) / b))
          = nat (a.take n) + B ^ n * (b * ((t * B + x) / b) + (t * B + x) % b) := by ring
      rw [e3, hd, pow_succ]
      ring

/-! ## The quotient digit -/

theorem qfix_spec (v1 v2 u2 t qt : Nat) (hv1 : 2147483648 ≤ v1) (hv1' : v1 < B) (hv2 : v2 < B) (hu2 : u2 < B)
    (hUV : t ≤ v1 * B + v2) (hqt : qt < B)
    (hgt : ∀ q, t * B + u2 < q * (v1 * B + v2) → qt < q) :
    ∀ fuel q r, q * v1 + r = t → qt ≤ q → q ≤ 4294967297 → r < B → (q = 4294967297 → r + v1 < B) → 8589934592 ≤ r + fuel * 2147483648 →
      ∃ q', qfix v1 v2 u2 fuel q r = some q' ∧ qt ≤ q' ∧ q' < B ∧ q' * (v1 * B + v2) ≤ t * B + u2 := by
  intro fuel
  induction fuel with
  | zero => intro q r _ _ _ hr _ hf; omega
  | succ n ih =>
    intro q r hqr hq hqB hr hbig hf
    have hle : q * v2 ≤ 4294967297 * 4294967295 := Nat.mul_le_mul hqB (by omega)
    simp only [qfix]
    rw [w_of_lt (show q * v2 < 18446744073709551616 by omega), w_of_lt (show r * B < 18446744073709551616 by omega),
      w_of_lt (show r * B + u2 < 18446744073709551616 by omega), w_of_lt (show r + v1 < 18446744073709551616 by omega)]
    have hexp : ∀ q r : Nat, q * v1 + r = t → q * (v1 * B + v2) + r * B = t * B + q * v2 := by
      intro q r h
      rw [← h]; ring
    by_cases hC : q = B ∨ q * v2 > r * B + u2
    · rw [if_pos hC]
      have hqlt : qt < q := by
        rcases hC with h | h
        · omega
        · apply hgt
          have := hexp q r hqr
          linarith
      have hstep : (q - 1) * v1 + (r + v1) = t := by
        obtain ⟨p, rfl⟩ : ∃ p, q = p + 1 := ⟨q - 1, by omega⟩
        rw [Nat.add_sub_cancel, ← hqr]; ring
      by_cases hrB : r + v1 ≥ B
      · rw [if_pos hrB]
        refine ⟨q - 1, rfl, by omega, ?_, ?_⟩
        · by_contra hc
          exact absurd (hbig (by omega)) (by omega)
        · have h1 := hexp (q - 1) (r + v1) hstep
          have hq1 : q - 1 ≤ 4294967295 := by
            by_contra hc
            exact absurd (hbig (by omega)) (by omega)
          have h2 : (q - 1) * v2 ≤ 4294967295 * 4294967295 := Nat.mul_le_mul hq1 (by omega)
          omega
      · rw [if_neg hrB]
        exact ih (q - 1) (r + v1) hstep (by omega) (by omega) (by omega) (by omega) (by omega)
    · rw [if_neg hC]
      have hC := not_or.1 hC
      refine ⟨q, rfl, hq, ?_, ?_⟩
      · by_contra hc
        have hq1 : q = 4294967297 := by have := hC.1; omega
        subst hq1
        have := hC.2
        omega
      · have h1 := hexp q r hqr
        have := hC.2
        omega

/-- The numeric heart of algorithm D: bounds for the trial digit. -/
theorem knuth_bounds (P u' u2 t v' V v1 v2 u v : Nat) (_hP : 0 < P) (hu' : u' < P) (hv' : v' < P) (hu2 : u2 < B)
    (hV : V = v1 * B + v2) (hv1 : 1 ≤ v1)
    (hu : u = u' + P * (t * B + u2)) (hv : v = v' + P * V) (huv : u < v * B) :
    t ≤ V ∧ u / v < B ∧ (u / v) * v1 ≤ t ∧ (∀ q, t * B + u2 < q * V → u / v < q) ∧
    (∀ q, q < B → q * V ≤ t * B + u2 → q ≤ u / v + 1) := by
  have hv2 : v < P * (V + 1) := by rw [hv, Nat.mul_add]; omega
  have hu3 : u < P * (t * B + u2 + 1) := by rw [hu, Nat.mul_add P _ 1]; omega
  have hVpos : B ≤ V := by
    rw [hV]
    have : 1 * B ≤ v1 * B := Nat.mul_le_mul_right _ hv1
    linarith
  have hPV : P * B ≤ P * V := Nat.mul_le_mul_left _ hVpos
  have hvpos : 0 < v := by omega
  refine ⟨?_, ?_, ?_, ?_, ?_⟩
  · by_contra hc
    have h1 : P * ((V + 1) * B) ≤ P * (t * B + u2) := by
      apply Nat.mul_le_mul_left
      have : (V + 1) * B ≤ t * B := Nat.mul_le_mul_right _ (by omega)
      linarith
    have h2 : v * B ≤ P * (V + 1) * B := Nat.mul_le_mul_right _ (by omega)
    rw [Nat.mul_assoc] at h2
    omega
  · rw [Nat.div_lt_iff_lt_mul hvpos, Nat.mul_comm]; exact huv
  · have hdiv : (u / v) * v ≤ u := Nat.div_mul_le_self u v
    generalize u / v = q at *
    by_contra hc
    have h1 : P * ((t + 1) * B) ≤ P * (q * v1 * B) := by
      apply Nat.mul_le_mul_left
      exact Nat.mul_le_mul_right _ (by omega)
    have h2 : P * (q * v1 * B) ≤ q * v := by
      rw [hv, hV]
      have : q * (v' + P * (v1 * B + v2)) = P * (q * v1 * B) + (q * v' + P * (q * v2)) := by ring
      rw [this]; exact Nat.le_add_right _ _
    have h3 : P * (t * B + u2 + 1) ≤ P * ((t + 1) * B) := Nat.mul_le_mul_left _ (by linarith)
    omega
  · intro q hq
    rw [Nat.div_lt_iff_lt_mul hvpos]
    have h1 : P * (t * B + u2 + 1) ≤ P * (q * V) := Nat.mul_le_mul_left _ hq
    have h2 : P * (q * V) ≤ q * v := by
      rw [hv]
      have : q * (v' + P * V) = P * (q * V) + q * v' := by ring
      omega
    omega
  · intro q hqB hq
    by_contra hc
    have h1 : u < (u / v + 1) * v := by
      have := Nat.lt_div_mul_add (a := u) hvpos
      rw [Nat.add_mul, Nat.one_mul]; omega
    have h2 : (u / v + 1) * v + v ≤ q * v := by
      have : (u / v + 2) * v ≤ q * v := Nat.mul_le_mul_right _ (by omega)
      have e : (u / v + 2) * v = (u / v + 1) * v + v := by ring
      omega
    have h3 : q * v = P * (q * V) + q * v' := by rw [hv]; ring
    have h4 : P * (q * V) ≤ P * (t * B + u2) := Nat.mul_le_mul_left _ hq
    have h5 : q * v' ≤ B * P := Nat.mul_le_mul (by omega) (by omega)
    rw [Nat.mul_comm B P] at h5
    omega

/-- Splitting off the top limbs. -/
theorem nat_take_two (l : List Nat) (k : Nat) (x y : Nat) (hx : l[k]? = some x) (hy : l[k + 1]? = some y) :
    nat (l.take (k + 2)) = nat (l.take k) + B ^ k * (y * B + x) := by
  rw [nat_take_succ_top l (k + 1) y hy, nat_take_succ_top l k x hx, pow_succ]; ring

theorem nat_take_three (l : List Nat) (k : Nat) (x y z : Nat) (hx : l[k]? = some x) (hy : l[k + 1]? = some y) (hz : l[k + 2]? = some z) :
    nat (l.take (k + 3)) = nat (l.take k) + B ^ k * ((z * B + y) * B + x) := by
  rw [nat_take_succ_top l (k + 2) z hz, nat_take_two l k x y hx hy, pow_succ, pow_succ]; ring

/-- The trial digit is right or one too large. -/
theorem trial (P u' u2 t v' v1 v2 u v : Nat) (hP : 0 < P) (hu' : u' < P) (hv' : v' < P) (hu2 : u2 < B)
    (hv1 : 2147483648 ≤ v1) (hv1B : v1 < B) (hv2B : v2 < B)
    (hu : u = u' + P * (t * B + u2)) (hv : v = v' + P * (v1 * B + v2)) (huv : u < v * B) :
    ∃ q, qfix v1 v2 u2 4 (t / v1) (t % v1) = some q ∧ u / v ≤ q ∧ q ≤ u / v + 1 ∧ q < B := by
  obtain ⟨b1, b2, b3, b4, b5⟩ := knuth_bounds P u' u2 t v' (v1 * B + v2) v1 v2 u v hP hu' hv' hu2 rfl (by omega) hu hv huv
  have htq : t / v1 * v1 + t % v1 = t := by rw [Nat.mul_comm]; exact Nat.div_add_mod t v1
  have hrm : t % v1 < v1 := Nat.mod_lt _ (by omega)
  have hqle : t / v1 ≤ 4294967297 := by
    by_contra hc
    have : 4294967298 * v1 ≤ t / v1 * v1 := Nat.mul_le_mul_right _ (by omega)
    omega
  have hbig : t / v1 = 4294967297 → t % v1 + v1 < B := by
    intro h
    rw [h] at htq
    omega
  have hqt0 : u / v ≤ t / v1 := by
    rw [Nat.le_div_iff_mul_le (by omega)]
    exact b3
  obtain ⟨q, eq, hq1, hq2, hq3⟩ := qfix_spec v1 v2 u2 t (u / v) hv1 hv1B hv2B hu2 b1 b2 b4 4 (t / v1) (t % v1) htq hqt0 hqle (by omega) hbig (by omega)
  exact ⟨q, eq, hq1, b5 q hq2 hq3, hq2⟩

theorem right_digit (u v q r : Nat) (hv : 0 < v) (h : r + q * v = u) (hq : u / v ≤ q) : q = u / v ∧ r = u % v := by
  have h1 : q = u / v := by
    have : q ≤ u / v := by
      rw [Nat.le_div_iff_mul_le hv]; omega
    omega
  refine ⟨h1, ?_⟩
  have hdm := Nat.div_add_mod u v
  rw [h1, Nat.mul_comm] at h
  omega

theorem add_back (X u v q r r2 c2 : Nat) (hv : 0 < v) (h : r + q * v = u + X) (hr : r < X) (_hvX : v < X) (hq : q ≤ u / v + 1)
    (h2 : r2 + X * c2 = r + v) (hc : c2 ≤ 1) (hr2 : r2 < X) : q = u / v + 1 ∧ r2 = u % v := by
  have h1 : q = u / v + 1 := by
    have : u / v < q := by
      rw [Nat.div_lt_iff_lt_mul hv]; omega
    omega
  refine ⟨h1, ?_⟩
  have hdm := Nat.div_add_mod u v
  have hml : u % v < v := Nat.mod_lt _ hv
  rw [h1] at h
  have e3 : (u / v + 1) * v = v * (u / v) + v := by ring
  rw [e3] at h
  generalize v * (u / v) = y at hdm h
  generalize u % v = z at *
  have hc2 : c2 = 0 ∨ c2 = 1 := by omega
  rcases hc2 with e | e
  · rw [e] at h2; omega
  · rw [e] at h2; omega

theorem two_limb {u0 u1 : Nat} (h0 : u0 < B) (h1 : u1 < B) : w (w (u0 * B) + u1) = u0 * B + u1 := by
  rw [w_of_lt (x := u0 * B) (by omega), w_of_lt (by omega)]

theorem bsome {α β : Type} (x : α) (f : α → Option β) : (some x >>= f) = f x := Option.bind_some x f

theorem divStep_eq (ps : List Nat) (slen : Nat) (pd : List Nat) (j vn v2 u0 u1 u2 t q : Nat) (tmp r : List Nat) (c : Nat) (r2 : List Nat) (c2 : Nat)
    (h1 : ps[slen - 1]? = some vn) (h2 : ps[slen - 2]? = some v2) (h3 : pd[j + slen]? = some u0) (h4 : pd[j + slen - 1]? = some u1)
    (h5 : pd[j + slen - 2]? = some u2) (h6 : w (w (u0 * B) + u1) = t) (h7 : qfix vn v2 u2 4 (t / vn) (t % vn) = some q)
    (h8 : nmul ps q (slen + 1) (slen + 1) = some tmp) (h9 : nsbb (slen + 1) (pd.drop j) tmp 0 = some (r, c))
    (h10 : nadc (slen + 1) r ps 0 = some (r2, c2)) :
    divStep ps slen pd j = if c = 0 then some (pd.take j ++ r ++ pd.drop (j + slen + 1), q) else some (pd.take j ++ r2 ++ pd.drop (j + slen + 1), q - 1) := by
  unfold divStep
  rw [h1, bsome, h2, bsome, h3, bsome, h4, bsome, h5, bsome]
  rw [h6]
  simp only
  rw [h7, bsome, h8, bsome, h9, bsome]
  simp only
  rw [h10, bsome]
  by_cases hc : c = 0
  · rw [if_pos hc, if_neg (by simpa using hc)]
  · rw [if_neg hc, if_pos (by simpa using hc)]

/-- One round: the window is divided by the normalised divisor. -/
theorem divStep_spec (vs : List Nat) (k : Nat) (hvl : vs.length = k + 2) (hvb : ∀ x ∈ vs, x < B) (v1 : Nat) (ht : vs[k + 1]? = some v1)
    (hv1 : 2147483648 ≤ v1) (pd : List Nat) (hpb : ∀ x ∈ pd, x < B) (j : Nat) (hj : j + (k + 2) + 1 ≤ pd.length)
    (hu : nat ((pd.drop j).take (k + 3)) < nat vs * B) :
    ∃ r, divStep (vs ++ [0]) (k + 2) pd j = some (pd.take j ++ r ++ pd.drop (j + (k + 2) + 1), nat ((pd.drop j).take (k + 3)) / nat vs) ∧
      r.length = k + 3 ∧ (∀ x ∈ r, x < B) ∧ nat r = nat ((pd.drop j).take (k + 3)) % nat vs := by
  obtain ⟨hk1, e1⟩ := List.getElem?_eq_some_iff.1 ht
  have hv1B : v1 < B := by rw [← e1]; exact hvb _ (List.getElem_mem _)
  have hk : k < vs.length := by omega
  obtain ⟨v2, ev2⟩ : ∃ x, vs[k]? = some x := ⟨_, List.getElem?_eq_getElem hk⟩
  have hv2B : v2 < B := by
    obtain ⟨_, e⟩ := List.getElem?_eq_some_iff.1 ev2
    rw [← e]; exact hvb _ (List.getElem_mem _)
  have hv := nat_take_two vs k v2 v1 ev2 ht
  rw [List.take_of_length_le (show vs.length ≤ k + 2 by omega)] at hv
  obtain ⟨W, hW⟩ : ∃ W, W = pd.drop j := ⟨_, rfl⟩
  rw [← hW] at hu ⊢
  have hWl : k + 3 ≤ W.length := by rw [hW, List.length_drop]; omega
  have hWb : ∀ x ∈ W, x < B := by rw [hW]; exact limbs_drop hpb
  obtain ⟨u2, eu2⟩ : ∃ x, W[k]? = some x := ⟨_, List.getElem?_eq_getElem (by omega)⟩
  obtain ⟨u1, eu1⟩ : ∃ x, W[k + 1]? = some x := ⟨_, List.getElem?_eq_getElem (by omega)⟩
  obtain ⟨u0, eu0⟩ : ∃ x, W[k + 2]? = some x := ⟨_, List.getElem?_eq_getElem (by omega)⟩
  have hmem : ∀ (i x : Nat), W[i]? = some x → x < B := by
    intro i x h
    obtain ⟨_, e⟩ := List.getElem?_eq_some_iff.1 h
    rw [← e]; exact hWb _ (List.getElem_mem _)
  have hu2B := hmem _ _ eu2
  have hu1B := hmem _ _ eu1
  have hu0B := hmem _ _ eu0
  have hunat := nat_take_three W k u2 u1 u0 eu2 eu1 eu0
  have hulow := nat_lt (W.take k) (limbs_take hWb)
  have hvlow := nat_lt (vs.take k) (limbs_take hvb)
  rw [List.length_take, Nat.min_eq_left (by omega)] at hulow hvlow
  obtain ⟨q, eq, hq1, hq4, hq2⟩ := trial (B ^ k) (nat (W.take k)) u2 (u0 * B + u1) (nat (vs.take k)) v1 v2
    (nat (W.take (k + 3))) (nat vs) (Bpos k) hulow hvlow hu2B hv1 hv1B hv2B hunat hv hu
  have hvpos : 0 < nat vs := by
    by_contra hc
    have h0 : nat vs = 0 := by omega
    rw [h0, Nat.zero_mul] at hu
    omega
  have hvlt : nat vs < B ^ (k + 2) := by have := nat_lt vs hvb; rwa [hvl] at this
  generalize hudef : nat (W.take (k + 3)) = u at *
  generalize hvdef : nat vs = v at *
  -- the product
  have hpsl : (vs ++ [0]).length = k + 3 := by rw [List.length_append, hvl]; rfl
  have hpsb : ∀ x ∈ vs ++ [0], x < B := limbs_append hvb (by intro x hx; rw [List.mem_singleton.1 hx]; decide)
  have hpsn : nat (vs ++ [0]) = v := by rw [nat_append, hvdef]; simp [nat]
  obtain ⟨tmp, etmp, hml, hmb, km, hm⟩ := nmul_spec (vs ++ [0]) q (k + 3) (k + 3) hq2 hpsb (by rw [hpsl]) (le_refl _)
    (fun _ => ⟨by rw [hpsl], rfl⟩)
  rw [List.take_of_length_le (show (vs ++ [0]).length ≤ k + 3 by rw [hpsl]), hpsn] at hm
  have hqv : q * v < B ^ (k + 3) := by
    rw [pow_succ, Nat.mul_comm (B ^ (k + 2))]
    exact Nat.mul_lt_mul'' hq2 hvlt
  have hvlt' : v < B ^ (k + 3) := lt_of_lt_of_le hvlt (Nat.pow_le_pow_right (by decide) (by omega))
  obtain ⟨r, c, er, hrl, hrb, hc, hr⟩ := nsbb_spec (k + 3) W tmp 0 hWl (by rw [hml]) hWb hmb (by omega)
  have hrlt := nat_lt r hrb
  rw [hrl] at hrlt
  rw [List.take_of_length_le (show tmp.length ≤ k + 3 by rw [hml]), hudef] at hr
  obtain ⟨r2, c2, er2, hr2l, hr2b, hc2, hr2⟩ := addLoop_spec (k + 3) r (vs ++ [0]) 0 (by rw [hrl]) (by rw [hpsl]) hrb hpsb (by omega)
  rw [List.take_of_length_le (show r.length ≤ k + 3 by rw [hrl]), List.take_of_length_le (show (vs ++ [0]).length ≤ k + 3 by rw [hpsl]), hpsn] at hr2
  have hr2lt := nat_lt r2 hr2b
  rw [hr2l] at hr2lt
  have hget : ∀ (i x : Nat), W[i]? = some x → pd[j + i]? = some x := by
    intro i x h
    rw [hW, List.getElem?_drop] at h
    exact h
  have key : divStep (vs ++ [0]) (k + 2) pd j =
      if c = 0 then some (pd.take j ++ r ++ pd.drop (j + (k + 2) + 1), q) else some (pd.take j ++ r2 ++ pd.drop (j + (k + 2) + 1), q - 1) := by
    have hget' : ∀ (i x m : Nat), W[i]? = some x → m = j + i → pd[m]? = some x := by
      intro i x m h e
      rw [e]; exact hget i x h
    refine divStep_eq _ _ _ _ v1 v2 u0 u1 u2 (u0 * B + u1) q tmp r c r2 c2 ?_ ?_ (hget _ _ eu0) (hget' _ _ _ eu1 (by omega)) (hget' _ _ _ eu2 (by omega))
      (two_limb hu0B hu1B) eq etmp ?_ ?_
    · rw [show k + 2 - 1 = k + 1 by omega, List.getElem?_append_left hk1, ht]
    · rw [show k + 2 - 2 = k by omega, List.getElem?_append_left hk, ev2]
    · rw [← hW]; exact er
    · rw [nadc_eq]; exact er2
  rw [key]
  by_cases hc0 : c = 0
  · rw [if_pos hc0]
    have hkm : km = 0 := by
      by_contra hne
      have : 1 * B ^ (k + 3) ≤ km * B ^ (k + 3) := Nat.mul_le_mul_right _ (by omega)
      omega
    obtain ⟨f1, f2⟩ := right_digit u v q (nat r) hvpos (by rw [hkm, Nat.zero_mul] at hm; rw [hc0, Nat.mul_zero] at hr; omega) hq1
    exact ⟨r, by rw [f1], hrl, hrb, f2⟩
  · rw [if_neg hc0]
    have hc1 : c = 1 := by omega
    have hkm : km = 0 := by
      by_contra hne
      have : 1 * B ^ (k + 3) ≤ km * B ^ (k + 3) := Nat.mul_le_mul_right _ (by omega)
      omega
    obtain ⟨f1, f2⟩ := add_back (B ^ (k + 3)) u v q (nat r) (nat r2) c2 hvpos
      (by rw [hkm, Nat.zero_mul] at hm; rw [hc1, Nat.mul_one] at hr; omega) hrlt hvlt' hq4 (by rw [hr2]; rfl) hc2 hr2lt
    exact ⟨r2, by rw [f1, Nat.add_sub_cancel], hr2l, hr2b, f2⟩

/-- The whole loop divides. -/
theorem divLoop_spec (vs : List Nat) (k : Nat) (hvl : vs.length = k + 2) (hvb : ∀ x ∈ vs, x < B) (v1 : Nat) (ht : vs[k + 1]? = some v1)
    (hv1 : 2147483648 ≤ v1) : ∀ (n : Nat) (pd : List Nat), (∀ x ∈ pd, x < B) → n + (k + 2) ≤ pd.length → nat (pd.drop n) < nat vs →
    ∃ pd' qs, divLoop (vs ++ [0]) (k + 2) n pd = some (pd', qs) ∧ pd'.length = pd.length ∧ (∀ x ∈ pd', x < B) ∧ qs.length = n ∧
      (∀ x ∈ qs, x < B) ∧ nat pd = nat qs * nat vs + nat pd' ∧ nat pd' < nat vs := by
  intro n
  induction n with
  | zero =>
    intro pd hpb _ hlt
    exact ⟨pd, [], rfl, rfl, hpb, rfl, by simp, by simp [nat], by simpa using hlt⟩
  | succ n ih =>
    intro pd hpb hl hlt
    have hvlt : nat vs < B ^ (k + 2) := by have := nat_lt vs hvb; rwa [hvl] at this
    have hn : n < pd.length := by omega
    have hdrop : pd.drop n = pd[n] :: pd.drop (n + 1) := List.drop_eq_getElem_cons hn
    have hx : pd[n] < B := hpb _ (List.getElem_mem _)
    have hul : nat (pd.drop n) < nat vs * B := by
      rw [hdrop, nat_cons]; omega
    have hsmall : nat (pd.drop n) < B ^ (k + 3) := by
      rw [pow_succ]
      have : nat vs * B < B ^ (k + 2) * B := Nat.mul_lt_mul_of_pos_right hvlt (by decide)
      linarith
    have hu : nat ((pd.drop n).take (k + 3)) = nat (pd.drop n) := nat_take_of_lt _ _ hsmall
    obtain ⟨r, e, hrl, hrb, hr⟩ := divStep_spec vs k hvl hvb v1 ht hv1 pd hpb n (by omega) (by rw [hu]; exact hul)
    rw [hu] at e hr
    have hvpos : 0 < nat vs := by omega
    have hhigh : nat (pd.drop (n + (k + 2) + 1)) = 0 := by
      rw [show n + (k + 2) + 1 = n + (k + 3) by omega, ← List.drop_drop]
      exact nat_drop_zero _ _ hsmall
    have hnl : (pd.take n).length = n := by rw [List.length_take]; omega
    set pd1 := pd.take n ++ r ++ pd.drop (n + (k + 2) + 1) with hpd1
    have hd1 : nat (pd1.drop n) = nat (pd.drop n) % nat vs := by
      rw [hpd1, List.append_assoc, List.drop_append_of_le_length (by rw [hnl]), List.drop_of_length_le (by rw [hnl]), List.nil_append, nat_append, hhigh, hr]
      simp
    have hl1 : pd1.length = pd.length := by
      rw [hpd1, List.length_append, List.length_append, hnl, hrl, List.length_drop]; omega
    obtain ⟨pd', qs, e2, h1, h2, h3, h4, h5, h6⟩ := ih pd1 (limbs_append (limbs_append (limbs_take hpb) hrb) (limbs_drop hpb)) (by rw [hl1]; omega)
      (by rw [hd1]; exact Nat.mod_lt _ hvpos)
    unfold divLoop
    simp only [e, Option.bind_eq_bind, Option.bind_some]
    rw [e2]
    simp only [Option.bind_some]
    refine ⟨pd', _, rfl, by rw [h1, hl1], h2, by simp [h3], ?_, ?_, h6⟩
    · refine limbs_append h4 ?_
      intro x hx'
      rw [List.mem_singleton.1 hx', Nat.div_lt_iff_lt_mul hvpos, Nat.mul_comm]
      exact hul
    · have a1 := nat_take_drop pd n (by omega)
      have a2 := nat_take_drop pd1 n (by rw [hl1]; omega)
      have a3 : pd1.take n = pd.take n := by
        rw [hpd1, List.append_assoc, List.take_append_of_le_length (by rw [hnl]), List.take_of_length_le (by rw [hnl])]
      rw [a3, hd1] at a2
      rw [nat_append, h3]
      have hdm := Nat.div_add_mod (nat (pd.drop n)) (nat vs)
      show nat pd = (nat qs + B ^ n * (nat (pd.drop n) / nat vs + B * 0)) * nat vs + nat pd'
      have e3 : (nat qs + B ^ n * (nat (pd.drop n) / nat vs + B * 0)) * nat vs + nat pd'
          = (nat qs * nat vs + nat pd') + B ^ n * (nat vs * (nat (pd.drop n) / nat vs)) := by ring
      rw [e3, ← h5, a2, a1]
      have e4 : nat (pd.take n) + B ^ n * (nat (pd.drop n) % nat vs) + B ^ n * (nat vs * (nat (pd.drop n) / nat vs))
          = nat (pd.take n) + B ^ n * (nat vs * (nat (pd.drop n) / nat vs) + nat (pd.drop n) % nat vs) := by ring
      rw [e4, hdm]

/-- Normalisation: the scaled top limb is at least half the base. -/
theorem normalise (t : Nat) (h1 : 1 ≤ t) (h2 : t < B) : 1 ≤ B / (t + 1) ∧ B / (t + 1) < B ∧ 2147483648 ≤ B / (t + 1) * t ∧ B / (t + 1) * (t + 1) ≤ B := by
  have hle : B / (t + 1) * (t + 1) ≤ B := Nat.div_mul_le_self _ _
  have hlt := Nat.lt_div_mul_add (a := B) (b := t + 1) (by omega)
  have hge1 : 1 ≤ B / (t + 1) := by
    rw [Nat.le_div_iff_mul_le (by omega)]; omega
  refine ⟨hge1, ?_, ?_, hle⟩
  · rw [Nat.div_lt_iff_lt_mul (by omega)]; omega
  · by_cases hbig : 2147483648 ≤ t
    · have : 1 * t ≤ B / (t + 1) * t := Nat.mul_le_mul_right _ hge1
      omega
    · by_cases hmid : 1073741824 ≤ t
      · have h2d : 2 ≤ B / (t + 1) := by
          rw [Nat.le_div_iff_mul_le (by omega)]; omega
        have : 2 * t ≤ B / (t + 1) * t := Nat.mul_le_mul_right _ h2d
        omega
      · by_cases hone : t = 1
        · subst hone; decide
        · generalize B / (t + 1) = d at *
          by_contra hc
          have e1 : d * (t + 1) = d * t + d := by ring
          rw [e1] at hlt
          -- d > B - t - 1 - d*t > B/2 - t - 1, so d*t is too large
          have hd : 1073741824 ≤ d := by omega
          have : 1073741824 * t ≤ d * t := Nat.mul_le_mul_right _ hd
          have h3 : d * 2 ≤ d * t := Nat.mul_le_mul_left _ (by omega)
          omega

end Verif.Bn
