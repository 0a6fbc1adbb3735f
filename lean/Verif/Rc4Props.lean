import Verif.Rc4
import Mathlib.Data.List.Perm.Subperm
import Mathlib.Data.List.Nodup
/-
C15: RC4.
-/
namespace Verif.Rc4

/-! ### Specification: the textbook cipher on a state of type `Byte → Byte` -/

def upd (S : Byte → Byte) (i : Byte) (v : Byte) : Byte → Byte := fun k => if k = i then v else S k

/-- Exchange two entries. -/
def exch (S : Byte → Byte) (i j : Byte) : Byte → Byte := fun k => if k = j then S i else if k = i then S j else S k

/-- Key schedule: n rounds. -/
def ksa (key : List Byte) : Nat → (Byte → Byte) × Byte
  | 0 => (id, 0)
  | n + 1 =>
    let (S, j) := ksa key n
    let i : Byte := BitVec.ofNat 8 n
    let j := j + S i + key.getD (n % key.length) 0
    (exch S i j, j)

/-- Key stream of n bytes. -/
def stream : Nat → (Byte → Byte) → Byte → Byte → List Byte
  | 0, _, _, _ => []
  | n + 1, S, i, j =>
    let i := i + 1
    let j := j + S i
    let S := exch S i j
    S (S i + S j) :: stream n S i j

/-! ### Proofs -/

/-- `s` holds the state `S` in its first 256 bytes. -/
def Holds (s : List Byte) (S : Byte → Byte) : Prop := ∀ b : Byte, s[b.toNat]? = some (S b)

theorem Holds.length {s : List Byte} {S : Byte → Byte} (h : Holds s S) : 256 ≤ s.length := by
  have := h 255
  obtain ⟨h1, _⟩ := List.getElem?_eq_some_iff.mp this
  have : (255 : Byte).toNat = 255 := rfl
  omega

theorem Holds.get {s : List Byte} {S : Byte → Byte} (h : Holds s S) (i : Nat) (hi : i < 256) :
    s[i]? = some (S (BitVec.ofNat 8 i)) := by
  have := h (BitVec.ofNat 8 i)
  rwa [BitVec.toNat_ofNat, Nat.mod_eq_of_lt (by omega)] at this

theorem swap_ok {s : List Byte} {S : Byte → Byte} (h : Holds s S) (i j : Nat) (hi : i < 256) (hj : j < 256) :
    ∃ s', swap s i j = some s' ∧ Holds s' (exch S (BitVec.ofNat 8 i) (BitVec.ofNat 8 j)) ∧ s'.length = s.length ∧
      s'.drop 256 = s.drop 256 := by
  have hl := h.length
  refine ⟨(s.set i (S (BitVec.ofNat 8 j))).set j (S (BitVec.ofNat 8 i)), ?_, ?_, by simp, ?_⟩
  · unfold swap wr
    rw [h.get i hi, h.get j hj]
    simp only [Option.bind_eq_bind, Option.bind_some]
    rw [if_pos (by omega)]
    simp only [Option.bind_some, List.length_set]
    rw [if_pos (by omega)]
  · intro b
    have hb := b.isLt
    have e : ∀ n, n < 256 → (b = BitVec.ofNat 8 n ↔ n = b.toNat) := by
      intro n hn
      constructor
      · intro e; rw [e, BitVec.toNat_ofNat]; omega
      · intro e; rw [e, BitVec.ofNat_toNat]; simp
    simp only [List.getElem?_set, List.length_set, exch, e j hj, e i hi]
    by_cases h1 : j = b.toNat
    · simp only [h1, if_true]; rw [if_pos (by omega)]
    · by_cases h2 : i = b.toNat
      · simp only [h1, h2, if_true, if_false]; rw [if_pos (by omega)]
      · simp only [h1, h2, if_false]; exact h b
  · rw [List.drop_set_of_lt (by omega), List.drop_set_of_lt (by omega)]

theorem fill_ok (key : List Byte) (hk : 0 < key.length) (s : List Byte) (hs : 256 ≤ s.length) : ∀ n, n ≤ 256 →
    ∃ s' k, fill key key.length n s = some (s', k) ∧ s'.length = s.length ∧
      (∀ i < n, s'[i]? = some (BitVec.ofNat 8 i)) ∧ s'.drop 256 = s.drop 256 ∧
      k.length = n ∧ ∀ i < n, k[i]? = some (key.getD (i % key.length) 0)
  | 0, _ => ⟨s, [], rfl, rfl, by omega, rfl, rfl, by omega⟩
  | n + 1, hn => by
    obtain ⟨s', k, e, h1, h2, h3, h4, h5⟩ := fill_ok key hk s hs n (by omega)
    have hm : n % key.length < key.length := Nat.mod_lt _ hk
    refine ⟨s'.set n (BitVec.ofNat 8 n), k ++ [key.getD (n % key.length) 0], ?_, by simpa using h1, ?_, ?_, by simp [h4], ?_⟩
    · rw [fill, e]
      simp only [Option.bind_eq_bind, Option.bind_some]
      unfold wr
      rw [if_pos (by omega)]
      simp only [Option.bind_some]
      rw [if_neg (by omega), List.getElem?_eq_getElem hm]
      simp [List.getD_eq_getElem?_getD, hm]
    · intro i hi
      by_cases hin : i = n
      · subst hin
        rw [List.getElem?_set]; simp; omega
      · rw [List.getElem?_set_ne (by omega)]; exact h2 i (by omega)
    · rw [List.drop_set_of_lt (by omega)]; exact h3
    · intro i hi
      by_cases hin : i = n
      · subst hin; rw [← h4]; simp
      · rw [List.getElem?_append_left (by omega)]; exact h5 i (by omega)

theorem mix_ok (key k : List Byte) (s : List Byte) (hs : Holds s id)
    (hk : ∀ i < 256, k[i]? = some (key.getD (i % key.length) 0)) : ∀ n, n ≤ 256 →
    ∃ s' j, mix k n s = some (s', j) ∧ Holds s' (ksa key n).1 ∧ j < 256 ∧ BitVec.ofNat 8 j = (ksa key n).2 ∧
      s'.length = s.length ∧ s'.drop 256 = s.drop 256
  | 0, _ => ⟨s, 0, rfl, hs, by omega, rfl, rfl, rfl⟩
  | n + 1, hn => by
    obtain ⟨s', j, e, h1, h2, h3, h4, h5⟩ := mix_ok key k s hs hk n (by omega)
    rw [mix, e]
    simp only [Option.bind_eq_bind, Option.bind_some]
    rw [h1.get n (by omega), hk n (by omega)]
    simp only [Option.bind_some]
    generalize hj : (j + ((ksa key n).1 (BitVec.ofNat 8 n)).toNat + (key.getD (n % key.length) 0).toNat) % 256 = j'
    have hj' : BitVec.ofNat 8 j' = (ksa key (n + 1)).2 := by
      have : (ksa key (n + 1)).2 = (ksa key n).2 + (ksa key n).1 (BitVec.ofNat 8 n) + key.getD (n % key.length) 0 := rfl
      rw [this, ← h3]
      apply BitVec.eq_of_toNat_eq
      simp only [BitVec.toNat_ofNat, BitVec.toNat_add]
      omega
    obtain ⟨s'', e2, g1, g2, g3⟩ := swap_ok h1 n j' (by omega) (by omega)
    rw [e2]
    refine ⟨s'', j', rfl, ?_, by omega, hj', by omega, by rw [g3, h5]⟩
    rw [hj'] at g1
    exact g1

/-- `mln_rc4_init` on any 256-byte buffer and nonempty key leaves the textbook key schedule
in the buffer and touches nothing behind its 256 bytes. -/
theorem init_ok (s key : List Byte) (hs : 256 ≤ s.length) (hk : 0 < key.length) :
    ∃ s', init s key key.length = some s' ∧ Holds s' (ksa key 256).1 ∧ s'.length = s.length ∧
      s'.drop 256 = s.drop 256 := by
  obtain ⟨s1, k, e1, h1, h2, h3, h4, h5⟩ := fill_ok key hk s hs 256 (Nat.le_refl _)
  have hh : Holds s1 id := by
    intro b
    rw [h2 b.toNat b.isLt]; simp
  obtain ⟨s2, j, e2, g1, _, _, g2, g3⟩ := mix_ok key k s1 hh h5 256 (Nat.le_refl _)
  refine ⟨s2, ?_, g1, by omega, by rw [g3, h3]⟩
  unfold init
  simp only [e1, e2, Option.bind_eq_bind, Option.bind_some]

/-- Exchanging two entries keeps a state one-to-one. -/
theorem exch_inj {S : Byte → Byte} (h : ∀ a b, S a = S b → a = b) (i j : Byte) :
    ∀ a b, exch S i j a = exch S i j b → a = b := by
  intro a b e
  have hr : ∀ k, exch S i j (if k = j then i else if k = i then j else k) = S k := by
    intro k; unfold exch
    by_cases h1 : k = j
    · by_cases h2 : i = j <;> simp_all
    · by_cases h2 : k = i <;> simp_all
  have hc : ∀ k, (if (if k = j then i else if k = i then j else k) = j then i
      else if (if k = j then i else if k = i then j else k) = i then j else (if k = j then i else if k = i then j else k)) = k := by
    intro k
    by_cases h1 : k = j
    · by_cases h2 : i = j <;> simp_all
    · by_cases h2 : k = i <;> simp_all
  have ha := hr (if a = j then i else if a = i then j else a)
  have hb := hr (if b = j then i else if b = i then j else b)
  rw [hc] at ha hb
  have := h _ _ (ha.symm.trans (e.trans hb))
  rw [← hc a, ← hc b, this]

theorem ksa_inj (key : List Byte) : ∀ n a b, (ksa key n).1 a = (ksa key n).1 b → a = b
  | 0, _, _, h => h
  | n + 1, a, b, h => exch_inj (ksa_inj key n) _ _ a b h

theorem nodup_of_holds {s : List Byte} {S : Byte → Byte} (h : Holds s S) (hi : ∀ a b, S a = S b → a = b) :
    (s.take 256).Nodup := by
  have hl := h.length
  rw [List.Nodup, List.pairwise_iff_getElem]
  intro i j h1 h2 hij e
  rw [List.length_take] at h1 h2
  have e1 : (s.take 256)[i]? = some (S (BitVec.ofNat 8 i)) := by
    rw [List.getElem?_take_of_lt (by omega), h.get i (by omega)]
  have e2 : (s.take 256)[j]? = some (S (BitVec.ofNat 8 j)) := by
    rw [List.getElem?_take_of_lt (by omega), h.get j (by omega)]
  obtain ⟨_, e1⟩ := List.getElem?_eq_some_iff.mp e1
  obtain ⟨_, e2⟩ := List.getElem?_eq_some_iff.mp e2
  have := congrArg BitVec.toNat (hi _ _ (e1.symm.trans (e.trans e2)))
  simp only [BitVec.toNat_ofNat] at this
  omega

/-- The state after `mln_rc4_init` is a permutation of 0..255: 256 pairwise different
bytes, containing every byte. -/
theorem init_perm (s key : List Byte) (hs : 256 ≤ s.length) (hk : 0 < key.length) :
    ∃ s', init s key key.length = some s' ∧ (s'.take 256).Nodup ∧ (s'.take 256).length = 256 ∧
      ∀ b : Byte, b ∈ s'.take 256 := by
  obtain ⟨s', e, h, hl, _⟩ := init_ok s key hs hk
  have hn := nodup_of_holds h (ksa_inj key 256)
  have hlen : (s'.take 256).length = 256 := by rw [List.length_take]; omega
  refine ⟨s', e, hn, hlen, ?_⟩
  intro b
  have hsub : s'.take 256 ⊆ (List.range 256).map (BitVec.ofNat 8) := by
    intro x _
    exact List.mem_map.mpr ⟨x.toNat, List.mem_range.mpr x.isLt, by simp⟩
  have hp : (s'.take 256).Perm ((List.range 256).map (BitVec.ofNat 8)) :=
    (List.subperm_of_subset hn hsub).perm_of_length_le (by rw [hlen]; simp)
  exact hp.mem_iff.mpr (List.mem_map.mpr ⟨b.toNat, List.mem_range.mpr b.isLt, by simp⟩)

/-- An empty key divides by zero. -/
theorem init_empty (s key : List Byte) : init s key 0 = none := by
  have : ∀ n, fill key 0 (n + 1) s = none := by
    intro n
    rw [fill]
    cases fill key 0 n s with
    | none => rfl
    | some p =>
      cases h : wr p.1 n (BitVec.ofNat 8 n) with
      | none => simp
      | some q => simp
  unfold init
  rw [this 255]; rfl

theorem calcLoop_ok : ∀ (n k i j : Nat) (st : List Byte) (S : Byte → Byte) (data : List Byte),
    Holds st S → j < 256 → k + n ≤ data.length →
    calcLoop n k i j st data = some (data.take k ++
      List.zipWith (· ^^^ ·) ((data.drop k).take n) (stream n S (BitVec.ofNat 8 i) (BitVec.ofNat 8 j)) ++ data.drop (k + n))
  | 0, k, i, j, st, S, data, _, _, _ => by simp [calcLoop]
  | n + 1, k, i, j, st, S, data, h, hj, hl => by
    have hi : (i + 1) % 256 < 256 := Nat.mod_lt _ (by omega)
    rw [calcLoop]
    simp only [Option.bind_eq_bind]
    rw [h.get _ hi]
    simp only [Option.bind_some]
    have ei : BitVec.ofNat 8 ((i + 1) % 256) = BitVec.ofNat 8 i + 1 := by
      apply BitVec.eq_of_toNat_eq; simp [BitVec.toNat_ofNat, BitVec.toNat_add]
    generalize hi' : (i + 1) % 256 = i' at *
    generalize hj' : (j + (S (BitVec.ofNat 8 i')).toNat) % 256 = j' at *
    have hj2 : j' < 256 := by omega
    have ej : BitVec.ofNat 8 j' = BitVec.ofNat 8 j + S (BitVec.ofNat 8 i') := by
      apply BitVec.eq_of_toNat_eq; simp only [BitVec.toNat_ofNat, BitVec.toNat_add]; omega
    obtain ⟨st', e1, g1, g2, _⟩ := swap_ok h i' j' hi hj2
    rw [e1]
    simp only [Option.bind_some]
    rw [g1.get i' hi, g1.get j' hj2]
    simp only [Option.bind_some]
    generalize hS : exch S (BitVec.ofNat 8 i') (BitVec.ofNat 8 j') = S' at *
    rw [g1.get _ (Nat.mod_lt _ (by omega)), List.getElem?_eq_getElem (by omega : k < data.length)]
    simp only [Option.bind_some, wr]
    rw [if_pos (by omega)]
    simp only [Option.bind_some]
    have et : BitVec.ofNat 8 (((S' (BitVec.ofNat 8 i')).toNat + (S' (BitVec.ofNat 8 j')).toNat) % 256) =
        S' (BitVec.ofNat 8 i') + S' (BitVec.ofNat 8 j') := by
      apply BitVec.eq_of_toNat_eq; simp only [BitVec.toNat_ofNat, BitVec.toNat_add]; omega
    rw [calcLoop_ok n (k + 1) i' j' st' S' _ g1 hj2 (by rw [List.length_set]; omega), et]
    have hd : data.drop k = data[k] :: data.drop (k + 1) := List.drop_eq_getElem_cons (by omega)
    rw [hd]
    simp only [stream, List.take_succ_cons, List.zipWith_cons_cons]
    rw [← ei, ← ej, hS, List.drop_set_of_lt (by omega), List.drop_set_of_lt (by omega)]
    have h1 : (data.set k (data[k] ^^^ S' (S' (BitVec.ofNat 8 i') + S' (BitVec.ofNat 8 j')))).take (k + 1) =
        data.take k ++ [data[k] ^^^ S' (S' (BitVec.ofNat 8 i') + S' (BitVec.ofNat 8 j'))] := by
      rw [List.take_add_one, List.take_set_of_le (Nat.le_refl _)]
      simp [show k < data.length by omega]
    rw [h1]
    simp [Nat.add_comm, Nat.add_left_comm]

/-! ### C15 -/

/-- `mln_rc4_calc` with any 256-byte state XORs the first `len` data bytes with the
textbook key stream of that state and leaves the rest of the data alone. -/
theorem calc_stream (s data : List Byte) (len : Nat) (hs : 256 ≤ s.length) (hl : len ≤ data.length) :
    calc_ s data len = some (List.zipWith (· ^^^ ·) (data.take len)
      (stream len (fun b => s.getD b.toNat 0) 0 0) ++ data.drop len) := by
  unfold calc_
  rw [if_neg (by omega), calcLoop_ok len 0 0 0 (s.take 256) (fun b => s.getD b.toNat 0) data ?_ (by omega) (by omega)]
  · simp
  · intro b
    have := b.isLt
    rw [List.getElem?_take_of_lt (by omega), List.getElem?_eq_getElem (by omega)]
    simp [List.getD_eq_getElem?_getD, show b.toNat < s.length by omega]

theorem stream_length : ∀ n S i j, (stream n S i j).length = n
  | 0, _, _, _ => rfl
  | n + 1, S, i, j => by simp [stream, stream_length]

theorem zip_zip : ∀ (a k : List Byte), a.length = k.length →
    List.zipWith (· ^^^ ·) (List.zipWith (· ^^^ ·) a k) k = a
  | [], [], _ => rfl
  | x :: a, y :: k, h => by
    simp only [List.zipWith_cons_cons, zip_zip a k (by simpa using h), BitVec.xor_assoc, BitVec.xor_self, BitVec.xor_zero]

/-- Applying `mln_rc4_calc` twice with the same state restores the data. -/
theorem calc_calc (s data : List Byte) (len : Nat) (hs : 256 ≤ s.length) (hl : len ≤ data.length) :
    ∃ c, calc_ s data len = some c ∧ c.length = data.length ∧ calc_ s c len = some data := by
  have hk := stream_length len (fun b => s.getD b.toNat 0) 0 0
  have hz : (List.zipWith (· ^^^ ·) (data.take len) (stream len (fun b => s.getD b.toNat 0) 0 0)).length = len := by
    rw [List.length_zipWith, hk, List.length_take]; omega
  refine ⟨_, calc_stream s data len hs hl, by rw [List.length_append, hz, List.length_drop]; omega, ?_⟩
  rw [calc_stream s _ len hs (by rw [List.length_append, hz]; omega), List.take_append_of_le_length (by omega), List.take_of_length_le (by omega),
    List.drop_append_of_le_length (by omega), List.drop_of_length_le (by omega), zip_zip _ _ (by rw [hk, List.length_take]; omega)]
  simp

/-- The whole cipher from a key: what is encrypted with one initialisation is decrypted
with another one, whatever the state buffers contained before. -/
theorem rc4_roundtrip (s1 s2 key data : List Byte) (h1 : s1.length = 256) (h2 : s2.length = 256) (hk : 0 < key.length) :
    ∃ t1 t2 c, init s1 key key.length = some t1 ∧ init s2 key key.length = some t2 ∧ t1 = t2 ∧
      calc_ t1 data data.length = some c ∧
      c = List.zipWith (· ^^^ ·) data (stream data.length (ksa key 256).1 0 0) ∧
      calc_ t2 c c.length = some data := by
  obtain ⟨t1, e1, g1, l1, _⟩ := init_ok s1 key (by omega) hk
  obtain ⟨t2, e2, g2, l2, _⟩ := init_ok s2 key (by omega) hk
  have ht : t1 = t2 := by
    apply List.ext_getElem?
    intro i
    by_cases hi : i < 256
    · rw [g1.get i hi, g2.get i hi]
    · rw [List.getElem?_eq_none (by omega), List.getElem?_eq_none (by omega)]
  subst ht
  have hf : (fun b : Byte => t1.getD b.toNat 0) = (ksa key 256).1 := by
    funext b; rw [List.getD_eq_getElem?_getD, g1 b]; rfl
  obtain ⟨c, h3, h4, h5⟩ := calc_calc t1 data data.length (by omega) (Nat.le_refl _)
  refine ⟨t1, t1, c, e1, e2, rfl, h3, ?_, by rw [h4]; exact h5⟩
  have := calc_stream t1 data data.length (by omega) (Nat.le_refl _)
  rw [h3, hf] at this
  simpa using this

/-- The published test vector: key "Key", text "Plaintext". -/
example : ((init (List.replicate 256 0) [0x4b, 0x65, 0x79] 3).bind fun s =>
    calc_ s [0x50, 0x6c, 0x61, 0x69, 0x6e, 0x74, 0x65, 0x78, 0x74] 9) =
    some [0xbb, 0xf3, 0x16, 0xe8, 0xd9, 0x40, 0xaf, 0x0a, 0xd3] := by decide +kernel

end Verif.Rc4
