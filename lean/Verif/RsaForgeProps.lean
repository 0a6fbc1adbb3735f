import Verif.RsaSignProps
import Verif.RsaKeyProps

/-
C165-C170, continued: forged signatures, memory, generated keys.
-/
namespace Verif.Rsa
open Verif.Bn Verif.Asn1

/-! ## Numbers as octets -/

/-- The last `n` octets of a number. -/
def be : Nat → Nat → List Nat
  | 0, _ => []
  | n + 1, v => v / 256 ^ n % 256 :: be n v

theorem be_length : ∀ n v, (be n v).length = n := by
  intro n v
  induction n with
  | zero => rfl
  | succ n ih => simp [be, ih]

theorem be_byte : ∀ n v, ∀ x ∈ be n v, x < 256 := by
  intro n v
  induction n with
  | zero => simp [be]
  | succ n ih =>
    intro x hx
    simp only [be, List.mem_cons] at hx
    rcases hx with rfl | hx
    · exact Nat.mod_lt _ (by decide)
    · exact ih x hx

theorem be_octets : ∀ n v, octets (be n v) = v % 256 ^ n := by
  intro n v
  induction n with
  | zero => rw [be, octets_nil, pow_zero, Nat.mod_one]
  | succ n ih =>
    rw [be, octets_cons, be_length, ih, pow_succ, Nat.mod_mul, Nat.mul_comm, Nat.add_comm]

theorem octets_append : ∀ l l' : List Nat, octets (l ++ l') = octets l * 256 ^ l'.length + octets l' := by
  intro l l'
  induction l with
  | nil => simp [octets_nil]
  | cons a l ih =>
    rw [List.cons_append, octets_cons, octets_cons, ih, List.length_append, pow_add]
    ring

theorem octets_zeros : ∀ n, octets (List.replicate n 0) = 0 := by
  intro n
  induction n with
  | zero => rfl
  | succ n ih => rw [List.replicate_succ, octets_cons, ih]; simp

/-! ## Roots -/

theorem succ_pow_le (x : Nat) (hx : 1 ≤ x) : ∀ e, (x + 1) ^ (e + 1) + x ^ e ≤ x ^ (e + 1) + 2 ^ (e + 1) * x ^ e := by
  intro e
  induction e with
  | zero => simp
  | succ e ih =>
    have hp : x ^ e ≤ x ^ (e + 1) := Nat.pow_le_pow_right hx (by omega)
    have hk : 1 ≤ 2 ^ (e + 1) := Nat.one_le_two_pow
    obtain ⟨K, hK⟩ : ∃ K, 2 ^ (e + 1) = K + 1 := ⟨2 ^ (e + 1) - 1, by omega⟩
    have h1 : (x + 1) ^ (e + 1) ≤ x ^ (e + 1) + K * x ^ e := by
      rw [hK, Nat.add_mul] at ih
      omega
    have h2 : K * x ^ e ≤ K * x ^ (e + 1) := Nat.mul_le_mul_left _ hp
    have h3 : (x + 1) ^ (e + 1 + 1) ≤ (x ^ (e + 1) + K * x ^ e) * (x + 1) := by
      rw [pow_succ]
      exact Nat.mul_le_mul_right _ h1
    have h4 : (x ^ (e + 1) + K * x ^ e) * (x + 1) = x ^ (e + 1 + 1) + x ^ (e + 1) + K * x ^ (e + 1) + K * x ^ e := by ring
    have h5 : 2 ^ (e + 1 + 1) * x ^ (e + 1) = K * x ^ (e + 1) + K * x ^ (e + 1) + x ^ (e + 1) + x ^ (e + 1) := by
      rw [pow_succ, hK]
      ring
    omega

/-- There is a perfect power among the numbers that begin with given digits, if enough digits are
left open. -/
theorem power_between (E a l T : Nat) (hE : 1 ≤ E) (hT : T < 256 ^ l) (ha : E ≤ 8 * (a - l)) (hla : l ≤ a) :
    ∃ c, T * 256 ^ (E * a - l) ≤ c ^ E ∧ c ^ E < (T + 1) * 256 ^ (E * a - l) ∧ c ≤ 256 ^ a := by
  have hal : a ≤ E * a := Nat.le_mul_of_pos_left _ (by omega)
  have hex : T * 256 ^ (E * a - l) ≤ (256 ^ a) ^ E := by
    rw [← pow_mul, Nat.mul_comm a E]
    calc T * 256 ^ (E * a - l) ≤ 256 ^ l * 256 ^ (E * a - l) := Nat.mul_le_mul_right _ (by omega)
      _ = 256 ^ (E * a) := by rw [← pow_add]; congr 1; omega
  have hexc : ∃ c, T * 256 ^ (E * a - l) ≤ c ^ E := ⟨_, hex⟩
  have hg : 0 < 256 ^ (E * a - l) := Nat.pow_pos (by decide)
  refine ⟨Nat.find hexc, Nat.find_spec hexc, ?_, Nat.find_min' hexc hex⟩
  have hle := Nat.find_min' hexc hex
  have hmin : ∀ x, x < Nat.find hexc → x ^ E < T * 256 ^ (E * a - l) := fun x hx => by
    have := Nat.find_min hexc hx
    omega
  generalize Nat.find hexc = c at hle hmin
  rw [Nat.add_mul, Nat.one_mul]
  match c with
  | 0 =>
    rw [Nat.zero_pow (by omega)]
    omega
  | 1 =>
    have := hmin 0 (by omega)
    rw [Nat.zero_pow (by omega)] at this
    rw [Nat.one_pow]
    omega
  | x + 2 =>
    have h1 := hmin (x + 1) (by omega)
    obtain ⟨e, rfl⟩ : ∃ e, E = e + 1 := ⟨E - 1, by omega⟩
    have h2 := succ_pow_le (x + 1) (by omega) e
    have h3 : (x + 1) ^ e ≤ (256 ^ a) ^ e := Nat.pow_le_pow_left (by omega) _
    have h4 : 2 ^ (e + 1) * (x + 1) ^ e ≤ 256 ^ ((e + 1) * a - l) := by
      calc 2 ^ (e + 1) * (x + 1) ^ e ≤ 2 ^ (8 * (a - l)) * (256 ^ a) ^ e := Nat.mul_le_mul (Nat.pow_le_pow_right (by decide) ha) h3
        _ = 256 ^ (a - l) * 256 ^ (a * e) := by rw [pow_mul, pow_mul, show (2 : Nat) ^ 8 = 256 by norm_num]
        _ = 256 ^ ((e + 1) * a - l) := by
          rw [← pow_add]
          congr 1
          rw [Nat.add_mul, Nat.one_mul, Nat.mul_comm e a]
          omega
    have h5 : 0 < (x + 1) ^ e := Nat.pow_pos (by omega)
    rw [show x + 2 = x + 1 + 1 by omega]
    omega

/-! ## Forged signatures -/

/-- Padding of type 0: any number of zeros, then the text. -/
theorem antiPrivate_zeros (z : Nat) (h2 : 2 ≤ z) (x : Nat) (hx : x ≠ 0) (l tail : List Nat) :
    antiPrivate (List.replicate z 0 ++ x :: l ++ tail) (z + (l.length + 1)) = some (some z) := by
  obtain ⟨z, rfl⟩ : ∃ y, z = y + 2 := ⟨z - 2, by omega⟩
  unfold antiPrivate
  simp only [List.replicate_succ, List.append_assoc, List.cons_append, List.getElem?_cons_zero, Option.bind_eq_bind, Option.bind_some, ne_eq, not_true_eq_false, if_false,
    List.getElem?_cons_succ, List.drop_succ_cons, List.drop_zero, if_true]
  rw [skip_spec _ x (by simpa using hx) (l ++ tail) (List.replicate z 0) _ 2 (by intro y hy; rw [(List.mem_replicate.1 hy).2]; decide) (by rw [List.length_replicate]; omega)]
  simp only [Option.bind_some, List.length_replicate]
  rw [if_neg (by omega)]
  simp
  omega

theorem Num.lower {b : Bn} {v : Nat} (h : Num b v) (hv : v ≠ 0) : 256 ^ ((b.length - 1) * 4) ≤ v := by
  have h1 := h.wf.top
  have h2 := h.wf.below
  rw [h.val] at h1 h2
  rcases h1 with h1 | h1
  · rw [h1] at h2
    simp at h2
    omega
  · rwa [Nat.mul_comm, pow_mul]

/-- **C169 and C171 refuted.**  For a small exponent there is, for every message, a signature that every key
with this exponent and this length of the modulus accepts: no private key is needed to make it. -/
theorem forged (E L : Nat) (hE : 2 ≤ E) (hL : E * (34 + (E + 7) / 8) ≤ 4 * (L - 1)) (m : List Byte) :
    ∃ s : List Nat, ∀ (pub : Key) (P Q : Nat), Primes P Q → PubKey pub P Q E → pub.n.length = L →
      ∀ (sh : Nat → Nat → Nat) (dirt : List Byte), dirt.length = 64 → ∃ b, b ≠ s ∧ ∀ after, verify sh dirt pub m s after = some (true, b) := by
  have hh : (hashOf 0 m).length = 16 := by rw [hash_length]; rfl
  have hb := info_bytes 0 (by omega) (hashOf 0 m) (by omega)
  have ho : (oid (algorithm 0)).length = 8 := by rw [← oids_get 0 (by omega)]; rfl
  have hlen : (der (info 0 (hashOf 0 m))).length = 34 := by rw [hb]; simp; omega
  have hbyte := info_byte 0 (by omega) (hashOf 0 m) (by omega) (hash_byte 0 m)
  obtain ⟨ds, hds⟩ : ∃ ds, der (info 0 (hashOf 0 m)) = 48 :: ds := ⟨_, by rw [hb]; rfl⟩
  have hT := octets_lt _ hbyte
  rw [hlen] at hT
  generalize ha : 34 + (E + 7) / 8 = a at hL
  obtain ⟨c, c1, c2, c3⟩ := power_between E a 34 _ (by omega) hT (by omega) (by omega)
  have hal : a ≤ E * a := Nat.le_mul_of_pos_left _ (by omega)
  generalize hg : E * a - 34 = g at c1 c2
  obtain ⟨r, hr⟩ : ∃ r, c ^ E = octets (der (info 0 (hashOf 0 m))) * 256 ^ g + r := ⟨_, (Nat.add_sub_cancel' c1).symm⟩
  have hrg : r < 256 ^ g := by
    rw [Nat.add_mul, Nat.one_mul] at c2
    omega
  have hcE : c ^ E < 256 ^ (E * a) := by
    calc c ^ E < (octets (der (info 0 (hashOf 0 m))) + 1) * 256 ^ g := c2
      _ ≤ 256 ^ 34 * 256 ^ g := Nat.mul_le_mul_right _ (by omega)
      _ = 256 ^ (E * a) := by rw [← pow_add]; congr 1; omega
  refine ⟨be (L * 4) c, fun pub P Q pr hpub hpl sh dirt hd => ?_⟩
  have h128 := hpub.size
  have hN := hpub.n.lower (Nat.mul_pos pr.pp.pos pr.qq.pos).ne'
  rw [hpl] at hN
  have hcN : c ^ E < P * Q := lt_of_lt_of_le hcE (le_trans (Nat.pow_le_pow_right (by decide) (by omega)) hN)
  have hcn : c < 256 ^ (L * 4) := by
    have : (256 : Nat) ^ a < 256 ^ (L * 4) := Nat.pow_lt_pow_right (by decide) (by omega)
    omega
  let b := List.replicate (L * 4 - E * a) 0 ++ (der (info 0 (hashOf 0 m)) ++ be g r)
  have hbl : b.length = pub.n.length * 4 := by
    simp only [b, List.length_append, List.length_replicate, hlen, be_length]
    omega
  have hbo : octets b = c ^ E := by
    simp only [b]
    rw [octets_append, octets_zeros, octets_append, be_length, be_octets, Nat.mod_eq_of_lt hrg, hr]
    omega
  have hanti : ∀ after, antiPrivate (b ++ after) (pub.n.length * 4) = some (some (L * 4 - E * a)) := by
    intro after
    have := antiPrivate_zeros (L * 4 - E * a) (by omega) 48 (by decide) (ds ++ be g r) after
    have hdl : (ds ++ be g r).length + 1 = E * a := by
      rw [List.length_append, be_length]
      have := congrArg List.length hds
      rw [hlen, List.length_cons] at this
      omega
    rw [hdl, show L * 4 - E * a + E * a = pub.n.length * 4 by omega] at this
    simpa only [b, hds, List.cons_append] using this
  have hdec : ∀ after, publicDecrypt pub (be (L * 4) c) after = some (some (der (info 0 (hashOf 0 m)) ++ be g r), b) := by
    intro after
    have := decLoop_one (f := fun x => x ^ E % (P * Q)) (fun x a b c => rsaep_pub pr hpub a b c) h128 antiPrivate (be (L * 4) c) b after
      (by rw [be_length, hpl]) (be_byte _ _) (by omega) hbl (by
        intro x hx
        simp only [b, List.mem_append] at hx
        rcases hx with hx | hx | hx
        · rw [(List.mem_replicate.1 hx).2]; decide
        · exact hbyte x hx
        · exact be_byte _ _ x hx)
      (by rw [be_octets, Nat.mod_eq_of_lt hcn, Nat.mod_eq_of_lt hcN, hbo]) _ (hanti after)
    rw [show b.drop (L * 4 - E * a) = der (info 0 (hashOf 0 m)) ++ be g r by simp [b]] at this
    exact this
  have hB := Blocks.cons (pub := pub) (by rw [be_length, hpl]) hdec (by rw [List.length_append, hlen, be_length]; omega) .nil
  rw [List.append_nil, List.append_nil, List.append_nil] at hB
  refine ⟨_, ?_, verify_blocks (by omega) hB (by omega) sh dirt hd⟩
  intro hbs
  have h5 := congrArg octets hbs
  rw [hbo, be_octets, Nat.mod_eq_of_lt hcn] at h5
  have h6 : 48 * 256 ^ 33 ≤ octets (der (info 0 (hashOf 0 m))) := by
    rw [hds, octets_cons]
    have := congrArg List.length hds
    rw [hlen, List.length_cons] at this
    rw [show ds.length = 33 by omega]
    omega
  have h7 : 1 ≤ 256 ^ g := Nat.one_le_pow _ _ (by decide)
  have h8 : 2 ≤ c ^ E := by
    refine le_trans ?_ c1
    refine le_trans ?_ (Nat.mul_le_mul_left _ h7)
    refine le_trans ?_ (Nat.mul_le_mul_right _ h6)
    norm_num
  have h9 : c < c ^ E := by
    have : c ^ 1 < c ^ E := Nat.pow_lt_pow_right (by omega) (by omega)
    rwa [pow_one] at this
  omega

/-! ## Memory -/

theorem skip_some (go : Nat → Bool) : ∀ (mem : List Nat) (rest pos : Nat), rest < mem.length → ∃ p, skip go mem rest pos = some p ∧ pos ≤ p := by
  intro mem
  induction mem with
  | nil => intro rest pos h; simp at h
  | cons x mem ih =>
    intro rest pos h
    rw [skip.eq_def]
    simp only
    split
    · cases rest with
      | zero => exact ⟨_, rfl, Nat.le_refl _⟩
      | succ rest =>
        obtain ⟨p, e, hp⟩ := ih rest (pos + 1) (by simpa using h)
        exact ⟨p, e, by omega⟩
    · exact ⟨_, rfl, Nat.le_refl _⟩

theorem antiPrivate_some (mem : List Nat) (len : Nat) (h2 : 2 ≤ len) (h : len < mem.length) : ∃ r, antiPrivate mem len = some r := by
  obtain ⟨p, ep, -⟩ := skip_some (· = 0) (mem.drop 2) (len - 2) 2 (by rw [List.length_drop]; omega)
  obtain ⟨q, eq, -⟩ := skip_some (· = 0xff) (mem.drop 2) (len - 2) 2 (by rw [List.length_drop]; omega)
  unfold antiPrivate
  rw [List.getElem?_eq_getElem (show 0 < mem.length by omega), List.getElem?_eq_getElem (show 1 < mem.length by omega)]
  simp only [Option.bind_eq_bind, Option.bind_some, ep, eq]
  by_cases c1 : mem[0] ≠ 0
  · exact ⟨_, if_pos c1⟩
  rw [if_neg c1]
  split
  · split <;> exact ⟨_, rfl⟩
  split
  · by_cases c2 : q ≥ len ∨ q + 1 ≥ len
    · exact ⟨_, if_pos c2⟩
    rw [if_neg c2, List.getElem?_eq_getElem (show q < mem.length by omega)]
    simp only [Option.bind_some]
    split <;> exact ⟨_, rfl⟩
  · exact ⟨_, rfl⟩

theorem publicDecrypt_some {pub : Key} {P Q E : Nat} (pr : Primes P Q) (hpub : PubKey pub P Q E) (c after : List Nat) (hc : c.length = pub.n.length * 4) (hb : ∀ x ∈ c, x < 256)
    (ha : after ≠ []) : ∃ r b, publicDecrypt pub c after = some (r, b) ∧ (∀ t, r = some t → t.length ≤ 512) := by
  have h128 := hpub.size
  have ha' := List.length_pos_iff.2 ha
  obtain ⟨x, r, out, e1, e2, e3, e4, e5, e6⟩ := block_op (f := fun x => x ^ E % (P * Q)) (fun x a b c => rsaep_pub pr hpub a b c) h128 c hc hb
  show ∃ r b, decrypt pub antiPrivate c after = some (r, b) ∧ _
  unfold decrypt
  simp only
  by_cases h11 : c.length < 11
  · rw [if_pos h11]
    exact ⟨_, _, rfl, by simp⟩
  rw [if_neg h11, if_neg (by omega), if_neg (by rw [hc, Nat.mod_self]; simp), decLoop, if_neg (by omega)]
  rw [List.take_of_length_le (by omega), List.drop_of_length_le (by omega), e1]
  simp only [e2, bsome, e3, List.append_nil]
  have hend : decLoop pub antiPrivate (pub.n.length * 4) after c.length [] = some (some [], []) := by
    obtain ⟨m, hm⟩ : ∃ m, c.length = m + 1 := ⟨c.length - 1, by omega⟩
    rw [hm]; rfl
  obtain ⟨a, hA⟩ := antiPrivate_some (out ++ after) (pub.n.length * 4) (by omega) (by rw [List.length_append]; omega)
  rw [hA]
  cases a with
  | none => exact ⟨_, _, rfl, by simp⟩
  | some pos =>
    simp only [bsome, hend]
    refine ⟨_, _, rfl, ?_⟩
    intro t ht
    simp only [Option.map_some, List.append_nil, Option.some.injEq] at ht
    rw [← ht, List.length_drop]
    omega

theorem verifyLoop_some {pub : Key} {P Q E : Nat} (pr : Primes P Q) (hpub : PubKey pub P Q E) (after : List Nat) (ha : after ≠ []) : ∀ (fuel len used : Nat) (s : List Nat),
    s.length < fuel → s.length % (pub.n.length * 4) = 0 → (∀ x ∈ s, x < 256) → 4096 ≤ len → used ≤ len → 0 < pub.n.length →
    ∃ r b, verifyLoop pub (pub.n.length * 4) after fuel len used s = some (r, b) := by
  intro fuel
  induction fuel with
  | zero => intro len used s h; omega
  | succ fuel ih =>
    intro len used s h1 h2 h3 h4 h5 h6
    by_cases h0 : s.length = 0
    · rw [verifyLoop, if_pos h0]
      exact ⟨_, _, rfl⟩
    have hge : pub.n.length * 4 ≤ s.length := by
      by_contra hc
      rw [Nat.mod_eq_of_lt (by omega)] at h2
      omega
    obtain ⟨r, b, e, hr⟩ := publicDecrypt_some pr hpub (s.take (pub.n.length * 4)) (s.drop (pub.n.length * 4) ++ after) (by rw [List.length_take]; omega)
      (fun x hx => h3 x (List.mem_of_mem_take hx)) (by simp [ha])
    rw [verifyLoop, if_neg h0, e]
    cases r with
    | none => exact ⟨_, _, rfl⟩
    | some t =>
      obtain ⟨len', g, g1, g2⟩ := grow_ok len used t.length h4 h5 (by have := hr t rfl; omega)
      obtain ⟨r', b', e'⟩ := ih len' (used + t.length) (s.drop (pub.n.length * 4)) (by rw [List.length_drop]; omega)
        (by rw [List.length_drop, ← Nat.mod_eq_sub_mod hge]; exact h2) (fun x hx => h3 x (List.mem_of_mem_drop hx)) g1 g2 h6
      simp only [bsome, g, e']
      exact ⟨_, _, rfl⟩

theorem kid_inside {lo hi : Nat} {n : Node} (h : Inside lo hi n) (i : Nat) (hi' : i < (kids n).length) : ∃ k lo', (kids n)[i]? = some k ∧ Inside lo' hi k := by
  cases h with
  | mk _ _ off len cls struc id ks h1 h2 h3 =>
    exact ⟨_, off, List.getElem?_eq_getElem hi', (h3 _ (List.getElem_mem hi')).mono (Nat.le_refl _) h2⟩

theorem code_inside {lo hi : Nat} {n : Node} (mem : List Nat) (h : Inside lo hi n) (hm : hi ≤ mem.length) : ∃ l, code mem n = some l := by
  cases h with
  | mk _ _ off len cls struc id ks h1 h2 h3 =>
    refine ⟨(mem.drop off).take len, ?_⟩
    show slice _ _ _ = _
    unfold slice
    rw [if_pos (by omega)]

theorem emsaDecode_some (sh : Nat → Nat → Nat) (e : List Nat) : ∃ r, emsaDecode sh e = some r := by
  obtain ⟨out, e0, h0⟩ := decode_safe sh e
  unfold emsaDecode
  rw [e0, bsome]
  match out with
  | .error _ => exact ⟨_, rfl⟩
  | .ok (res, p', len') =>
    obtain ⟨-, hle, hin⟩ := h0 _ _ _ rfl
    have hpe : p' ≤ e.length := by omega
    simp only
    by_cases c1 : ident res ≠ 16 ∨ (kids res).length ≠ 2
    · exact ⟨_, if_pos c1⟩
    rw [if_neg c1]
    obtain ⟨k1, l1, f1, i1⟩ := kid_inside hin 0 (by omega)
    obtain ⟨k2, l2, f2, i2⟩ := kid_inside hin 1 (by omega)
    rw [f1, f2, bsome]
    by_cases c2 : ident k1 ≠ 16 ∨ (kids k1).length ≠ 2
    · exact ⟨_, if_pos c2⟩
    rw [if_neg c2]
    obtain ⟨k3, l3, f3, i3⟩ := kid_inside i1 0 (by omega)
    obtain ⟨k4, l4, f4, i4⟩ := kid_inside i1 1 (by omega)
    rw [f3, f4, bsome]
    by_cases c3 : ident k3 ≠ 6
    · exact ⟨_, if_pos c3⟩
    rw [if_neg c3]
    by_cases c4 : 0 < (kids k3).length
    rotate_left
    · rw [List.getElem?_eq_none (by omega)]
      exact ⟨_, rfl⟩
    obtain ⟨k5, l5, f5, i5⟩ := kid_inside i3 0 c4
    obtain ⟨o, ho⟩ := code_inside e i5 hpe
    rw [f5]
    simp only [ho, bsome]
    by_cases c5 : oids.idxOf o ≥ oids.length
    · exact ⟨_, if_pos c5⟩
    rw [if_neg c5]
    by_cases c6 : ident k4 ≠ 5 ∨ (kids k4).length ≠ 1
    · exact ⟨_, if_pos c6⟩
    rw [if_neg c6]
    obtain ⟨k6, l6, f6, i6⟩ := kid_inside i4 0 (by omega)
    obtain ⟨nul, hnul⟩ := code_inside e i6 hpe
    simp only [f6, hnul, bsome]
    by_cases c7 : nul.length ≠ 0
    · exact ⟨_, if_pos c7⟩
    rw [if_neg c7]
    by_cases c8 : ident k2 ≠ 4 ∨ (kids k2).length ≠ 1
    · exact ⟨_, if_pos c8⟩
    rw [if_neg c8]
    obtain ⟨k7, l7, f7, i7⟩ := kid_inside i2 0 (by omega)
    obtain ⟨h, hh⟩ := code_inside e i7 hpe
    simp only [f7, hh, bsome]
    exact ⟨_, rfl⟩

/-- **C170.**  Verification is defined for every public key, message and string of octets, if there
is one octet of memory behind it. -/
theorem verify_defined_partial {pub : Key} {P Q E : Nat} (pr : Primes P Q) (hpub : PubKey pub P Q E) (sh : Nat → Nat → Nat) (dirt : List Byte) (hd : dirt.length = 64)
    (m : List Byte) (s : List Nat) (hs : ∀ x ∈ s, x < 256) (after : List Nat) (ha : after ≠ []) : ∃ r, verify sh dirt pub m s after = some r := by
  have hp := num_two hpub.n (le_trans pr.pbig (Nat.le_mul_of_pos_right _ pr.qq.pos))
  unfold verify
  simp only
  rw [if_neg (by omega)]
  by_cases h0 : s.length % (pub.n.length * 4) ≠ 0
  · exact ⟨_, if_pos h0⟩
  rw [if_neg h0]
  obtain ⟨r, b, e⟩ := verifyLoop_some pr hpub after ha (s.length + 1) 4096 0 s (by omega) (by omega) hs (by omega) (by omega) (by omega)
  rw [e]
  cases r with
  | none => exact ⟨_, rfl⟩
  | some text =>
    obtain ⟨r, e'⟩ := emsaDecode_some sh text
    simp only [bsome, e']
    cases r with
    | none => exact ⟨_, rfl⟩
    | some x =>
      obtain ⟨t, h⟩ := x
      simp only
      rw [digest_spec dirt hd]
      split <;> exact ⟨_, rfl⟩

theorem skip_all (go : Nat → Bool) : ∀ (mem : List Nat) (pos : Nat), (∀ x ∈ mem, go x = true) → skip go mem mem.length pos = none := by
  intro mem
  induction mem with
  | nil => intro pos h; rfl
  | cons x mem ih =>
    intro pos h
    rw [skip.eq_def]
    simp only [h x (by simp), if_true, List.length_cons]
    exact ih _ (fun y hy => h y (List.mem_cons_of_mem _ hy))

/-- **C170 refuted.**  The signature of zeros: whatever the key and the message, verification reads
the octet behind it. -/
theorem reads_past {pub : Key} {P Q E : Nat} (pr : Primes P Q) (hpub : PubKey pub P Q E) (h3 : 3 ≤ pub.n.length) (sh : Nat → Nat → Nat) (dirt : List Byte) (m : List Byte) :
    verify sh dirt pub m (List.replicate (pub.n.length * 4) 0) [] = none := by
  have h128 := hpub.size
  have hzb : ∀ x ∈ List.replicate (pub.n.length * 4) 0, x < 256 := by
    intro x hx
    rw [(List.mem_replicate.1 hx).2]
    decide
  obtain ⟨x, r, out, e1, e2, e3, e4, e5, e6⟩ := block_op (f := fun x => x ^ E % (P * Q)) (fun x a b c => rsaep_pub pr hpub a b c) h128
    (List.replicate (pub.n.length * 4) 0) List.length_replicate hzb
  have hout : out = List.replicate (pub.n.length * 4) 0 := by
    refine octets_inj _ _ (by rw [e4, List.length_replicate]) e5 hzb ?_
    rw [e6, octets_zeros, Nat.zero_pow (by have := hpub.two; omega), Nat.zero_mod]
  have hanti : antiPrivate out (pub.n.length * 4) = none := by
    unfold antiPrivate
    rw [hout, List.getElem?_replicate_of_lt (by omega), List.getElem?_replicate_of_lt (by omega)]
    have := skip_all (· = 0) (List.replicate (pub.n.length * 4 - 2) 0) 2 (by simp)
    rw [List.length_replicate] at this
    simp only [bsome, List.drop_replicate, this]
    rfl
  have hdec : publicDecrypt pub (List.replicate (pub.n.length * 4) 0) [] = none := by
    show decrypt _ _ _ _ = _
    unfold decrypt
    simp only
    rw [if_neg (by rw [List.length_replicate]; omega), if_neg (by omega), if_neg (by rw [List.length_replicate, Nat.mod_self]; simp), decLoop,
      if_neg (by rw [List.length_replicate]; omega)]
    rw [List.take_of_length_le (by rw [List.length_replicate]), List.drop_of_length_le (by rw [List.length_replicate]), e1]
    simp only [e2, bsome, e3, List.append_nil, hanti]
    rfl
  unfold verify
  simp only
  rw [if_neg (by omega), if_neg (by rw [List.length_replicate, Nat.mod_self]; simp), verifyLoop, if_neg (by rw [List.length_replicate]; omega)]
  rw [List.take_of_length_le (by rw [List.length_replicate]), List.drop_of_length_le (by rw [List.length_replicate]), List.append_nil, hdec]
  rfl

/-! ## Generated keys -/

/-- **C165.**  Keys generated for `bits` of 18 to 31 modulo 32, or with a modulus of exactly
`bits` bits for multiples of 32, verify what they sign. -/
theorem generated_sign_verify_partial (rand : Nat → Nat) (hr : ∀ s, rand s < 2147483648) (euclid bits : Nat) (h2 : bits ≤ 4096) (hf : 2 ^ 4098 ≤ euclid) (clock : List Nat) (pub pri : Key)
    (h : keyGenerate rand euclid bits clock = some (some (pub, pri))) (hp : (mag pub.p).Prime) (hq : (mag pub.q).Prime)
    (hbits : 18 ≤ bits % 32 ∨ bits % 64 = 0 ∨ (bits % 32 = 0 ∧ mag pub.p * mag pub.q < 2 ^ bits))
    (sh : Nat → Nat → Nat) (dirt dirt' : List Byte) (hd : dirt.length = 64) (hd' : dirt'.length = 64) (m : List Byte) (t : Nat) (ht : t ≤ 2) (after : List Nat) :
    ∃ s b, sign dirt pri m t = some (some s) ∧ verify sh dirt' pub m s after = some (true, b) := by
  obtain ⟨h1, P, Q, D, rfl, rfl, pr, k1, k2, k3, lo, hi, h64⟩ := keyGenerate_spec rand hr euclid bits h2 hf clock pub pri h hp hq
  have hl1 : 3 ≤ pub.n.length := by
    by_contra hc
    have := k1.n.wf.below
    rw [k1.n.val, pow_B] at this
    have h5 : 2 ^ (32 * pub.n.length) ≤ 2 ^ (bits - 1) := Nat.pow_le_pow_right (by decide) (by omega)
    omega
  refine sign_verify_partial ⟨⟨_, _, _, _, pr, k1, k2, k3, ?_⟩, hl1⟩ sh dirt dirt' hd hd' m t ht after
  rw [pow256 _ (by omega), ← pow_succ']
  refine le_trans (Nat.pow_le_pow_right (by decide) ?_) lo
  by_cases hr0 : 18 ≤ bits % 32
  · have : pub.n.length ≤ bits / 32 + 1 := by
      apply len_le_of_pow k1.n.wf
      rw [k1.n.val, pow_B]
      exact lt_of_lt_of_le hi (Nat.pow_le_pow_right (by decide) (by omega))
    omega
  · have hlt : mag pub.p * mag pub.q < 2 ^ bits := by
      rcases hbits with hb | hb | hb
      · exact absurd hb hr0
      · exact h64 hb
      · exact hb.2
    have h32 : bits % 32 = 0 := by omega
    have : pub.n.length ≤ bits / 32 := by
      apply len_le_of_pow k1.n.wf
      rw [k1.n.val, pow_B]
      exact lt_of_lt_of_le hlt (Nat.pow_le_pow_right (by decide) (by omega))
    omega

/-! ## Cases -/

theorem ex_pair : Pair exPub exPri := ⟨⟨_, _, _, _, ex_primes, ex_pub, ex_pri, ex_match, by decide +kernel⟩, by decide⟩

/-- C165: the key of 95 bits; 34, 35 and 51 blocks. -/
example (t : Nat) (ht : t ≤ 2) : ∃ s b, sign (List.replicate 64 7) exPri [104, 105] t = some (some s) ∧ verify (fun _ _ => 0) (List.replicate 64 9) exPub [104, 105] s [] = some (true, b) :=
  sign_verify_partial ex_pair _ _ _ List.length_replicate List.length_replicate _ t ht _

/-- C166. -/
example : sign (List.replicate 64 7) exPri [104, 105] 3 = some none := sign_type _ List.length_replicate _ _ _ (by decide)

/-- C167: the keys' signatures of one message are not accepted for another with other hashes. -/
example (m m' : List Byte) (hne : ∀ t ≤ 2, ∀ t' ≤ 2, hashOf t m ≠ hashOf t' m') (s b b' : List Nat) (h : verify (fun _ _ => 0) (List.replicate 64 0) exPub m s [] = some (true, b)) :
    verify (fun _ _ => 0) (List.replicate 64 0) exPub m' s [] ≠ some (true, b') := by
  intro h'
  obtain ⟨t, ht, e⟩ := binds List.length_replicate List.length_replicate h h'
  exact hne t ht t ht e

/-- A key of 881 bits with the exponent 3. -/
def threeP : Nat := 2 ^ 313 * 5 ^ 55 + 1
def threeQ : Nat := 2 ^ 334 * 5 ^ 46 + 1

theorem threeP_prime : threeP.Prime := by
  refine prime_of_pow _ 3 (by rw [← mpow_eq _ 450 _ _ (by decide +kernel)]; decide +kernel) ?_
  intro q hq hd
  rcases smooth_primes 313 0 55 q hq (by rw [show 2 ^ 313 * 3 ^ 0 * 5 ^ 55 = threeP - 1 by decide +kernel]; exact hd) with rfl | rfl | rfl
  · rw [← mpow_eq _ 450 _ _ (by decide +kernel)]; decide +kernel
  · exact absurd hd (by decide +kernel)
  · rw [← mpow_eq _ 450 _ _ (by decide +kernel)]; decide +kernel

theorem threeQ_prime : threeQ.Prime := by
  refine prime_of_pow _ 3 (by rw [← mpow_eq _ 450 _ _ (by decide +kernel)]; decide +kernel) ?_
  intro q hq hd
  rcases smooth_primes 334 0 46 q hq (by rw [show 2 ^ 334 * 3 ^ 0 * 5 ^ 46 = threeQ - 1 by decide +kernel]; exact hd) with rfl | rfl | rfl
  · rw [← mpow_eq _ 450 _ _ (by decide +kernel)]; decide +kernel
  · exact absurd hd (by decide +kernel)
  · rw [← mpow_eq _ 450 _ _ (by decide +kernel)]; decide +kernel

theorem three_primes : Primes threeP threeQ := ⟨threeP_prime, threeQ_prime, by decide +kernel, by decide +kernel, by decide +kernel⟩

def threePub : Key := ⟨lit [1, 0, 0, 0, 0, 0, 0, 0, 0, 3657433088, 927515550, 2846490538, 1726152815, 56756469, 0, 0, 0, 0, 0, 0, 1195793024, 2883221850, 892085114, 229653014, 3200266718, 2226765356, 232734347, 187267], lit [3], lit [1, 0, 0, 0, 0, 0, 0, 0, 0, 3657433088, 3354297246, 3422546281, 2711602190, 27369110], zero, zero, zero, zero, false⟩

theorem three_pub : PubKey threePub threeP threeQ 3 :=
  ⟨lit_num _ _ (by decide) (by decide) (by decide +kernel) (by decide +kernel), lit_num _ _ (by decide) (by decide) (by decide +kernel) (by decide +kernel),
    lit_num _ _ (by decide) (by decide) (by decide +kernel) (by decide +kernel), by decide +kernel, by decide, by decide⟩

/-- C169 and C171: the exponent 3 and a modulus of 28 limbs; the same signature deceives every
such key. -/
example (m : List Byte) : ∃ s b, b ≠ s ∧ verify (fun _ _ => 0) (List.replicate 64 0) threePub m s [] = some (true, b) := by
  obtain ⟨s, hs⟩ := forged 3 28 (by decide) (by decide) m
  obtain ⟨b, h1, h2⟩ := hs threePub _ _ three_primes three_pub (by decide) (fun _ _ => 0) (List.replicate 64 0) List.length_replicate
  exact ⟨s, b, h1, h2 []⟩

/-- C170. -/
example : verify (fun _ _ => 0) (List.replicate 64 0) exPub [] (List.replicate 12 0) [] = none := reads_past ex_primes ex_pub (by decide) _ _ _
example : ∃ r, verify (fun _ _ => 0) (List.replicate 64 0) exPub [] (List.replicate 12 0) [5] = some r :=
  verify_defined_partial ex_primes ex_pub _ _ List.length_replicate _ _ (by simp) _ (by simp)

end Verif.Rsa
