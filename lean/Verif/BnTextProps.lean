import Verif.BnText
import Verif.BnOctetProps
import Verif.BnDivProps
import Mathlib.Data.Nat.Digits.Lemmas

/-
Text input and output of big numbers (property C36), and duplication (property C69).
-/
set_option maxRecDepth 8000

namespace Verif.Bn

/-! ## Spec -/

/-- The number a digit string denotes, first digit most significant. -/
def number (base : Nat) (ds : List Nat) : Nat := ds.foldl (fun n d => n * base + d) 0

/-- Hexadecimal digit characters, by position in the digit alphabets. -/
def hexSpec (c : Nat) : Option Nat :=
  match ("0123456789abcdef".toList.map Char.toNat).idxOf? c with
  | some d => some d
  | none => ("0123456789ABCDEF".toList.map Char.toNat).idxOf? c

/-- The usual decimal text of a natural number. -/
def decimal (n : Nat) : List Nat := if n = 0 then [48] else (Nat.digits 10 n).reverse.map (48 + ·)

theorem hexDigit_spec : ∀ c < 256, hexDigit c = hexSpec c := by decide +kernel

theorem number_eq (base : Nat) (ds : List Nat) : number base ds = Nat.ofDigits base ds.reverse := by
  have h : ∀ (l : List Nat) (n : Nat), l.foldl (fun n d => n * base + d) n = n * base ^ l.length + Nat.ofDigits base l.reverse := by
    intro l
    induction l with
    | nil => intro n; simp
    | cons a l ih =>
      intro n
      simp only [List.foldl_cons, ih, List.reverse_cons, Nat.ofDigits_append, List.length_cons, pow_succ, List.length_reverse, Nat.ofDigits_singleton]
      ring
  unfold number
  rw [h]; omega

/-! ## Placing bytes -/

/-- The bytes of a number placed one after the other into the limbs. -/
def place : List Nat → Nat → Nat → List Nat → Option (List Nat)
  | [], _, _, data => some data
  | b :: bs, j, l, data => do
    let data ← orByte data l j b
    if j % 4 = 3 then place bs 0 (l + 1) data else place bs (j + 1) l data

theorem pow256 (l j : Nat) : 256 ^ (4 * l + j) = B ^ l * 256 ^ j := by
  rw [pow_add, pow_mul]; norm_num

theorem orByte_spec (data : List Nat) (l j b : Nat) (hd : data.length = 257) (hB : ∀ x ∈ data, x < B) (hl : l < 257) (hj : j < 4) (hb : b < 256)
    (hlt : nat data < 256 ^ (4 * l + j)) :
    ∃ data', orByte data l j b = some data' ∧ data'.length = 257 ∧ (∀ x ∈ data', x < B) ∧ nat data' = nat data + 256 ^ (4 * l + j) * b ∧ nat data' < 256 ^ (4 * l + (j + 1)) := by
  have hx : data[l]? = some data[l] := List.getElem?_eq_getElem (by omega)
  have htd := nat_take_drop data l (by omega)
  have hdrop : data.drop l = data[l] :: data.drop (l + 1) := List.drop_eq_getElem_cons (by omega)
  obtain ⟨x, hxe⟩ : ∃ x, x = data[l] := ⟨_, rfl⟩
  rw [← hxe] at hx hdrop
  have hBl : 256 ^ (4 * l + j) ≤ B ^ (l + 1) := by
    rw [pow256, pow_succ]
    apply Nat.mul_le_mul_left
    calc 256 ^ j ≤ 256 ^ 4 := Nat.pow_le_pow_right (by decide) (by omega)
      _ = B := by norm_num
  have hz : nat (data.drop (l + 1)) = 0 := nat_drop_zero _ _ (lt_of_lt_of_le hlt hBl)
  rw [hdrop, nat_cons, hz, Nat.mul_zero, Nat.add_zero] at htd
  have hxlt : x < 2 ^ (8 * j) := by
    rw [htd, pow256] at hlt
    have h1 : B ^ l * x < B ^ l * 256 ^ j := lt_of_le_of_lt (Nat.le_add_left _ _) hlt
    have := Nat.lt_of_mul_lt_mul_left h1
    rwa [show (256 : Nat) = 2 ^ 8 by norm_num, ← pow_mul] at this
  have hsh : j <<< 3 = 8 * j := by rw [Nat.shiftLeft_eq]; omega
  obtain ⟨o1, o2⟩ := byte_or x b (8 * j) hb (by omega) hxlt
  have hnB : x + b * 2 ^ (8 * j) < B := lt_of_lt_of_le o2 (by
    have : (2 : Nat) ^ (8 * j + 8) ≤ 2 ^ 32 := Nat.pow_le_pow_right (by decide) (by omega)
    norm_num at this ⊢; exact this)
  unfold orByte
  rw [hx, Nat.mod_eq_of_lt hb, hsh]
  show ∃ data', some (data.set l (x ||| w (b <<< (8 * j)))) = some data' ∧ _
  rw [o1]
  refine ⟨_, rfl, by simp [hd], ?_, ?_, ?_⟩
  · intro y hy
    rcases List.mem_or_eq_of_mem_set hy with h | h
    · exact hB y h
    · rw [h]; exact hnB
  · have := nat_take_drop (data.set l (x + b * 2 ^ (8 * j))) l (by simp; omega)
    rw [this, List.take_set_of_le (le_refl l), List.drop_set, if_neg (lt_irrefl l), Nat.sub_self, hdrop, List.set_cons_zero, nat_cons, hz, Nat.mul_zero, Nat.add_zero, htd, pow256,
      show (256 : Nat) = 2 ^ 8 by norm_num, ← pow_mul]
    ring
  · have h := nat_take_drop (data.set l (x + b * 2 ^ (8 * j))) l (by simp; omega)
    rw [List.take_set_of_le (le_refl l), List.drop_set, if_neg (lt_irrefl l), Nat.sub_self, hdrop, List.set_cons_zero, nat_cons, hz, Nat.mul_zero, Nat.add_zero] at h
    have ht := nat_lt (data.take l) (limbs_take hB)
    rw [List.length_take, Nat.min_eq_left (by omega)] at ht
    have h2 : (256 : Nat) ^ (j + 1) = 2 ^ (8 * j + 8) := by
      rw [show (256 : Nat) = 2 ^ 8 by norm_num, ← pow_mul]; congr 1
    rw [h, pow256, h2]
    have h3 : B ^ l * (x + b * 2 ^ (8 * j) + 1) ≤ B ^ l * 2 ^ (8 * j + 8) := Nat.mul_le_mul_left _ o2
    rw [Nat.mul_add, Nat.mul_one] at h3
    exact lt_of_lt_of_le (by linarith) h3

theorem place_spec : ∀ (bs : List Nat) (j l : Nat) (data : List Nat), data.length = 257 → (∀ x ∈ data, x < B) → j < 4 → (∀ b ∈ bs, b < 256) →
    4 * l + j + bs.length ≤ 1028 → nat data < 256 ^ (4 * l + j) →
    ∃ data', place bs j l data = some data' ∧ data'.length = 257 ∧ (∀ x ∈ data', x < B) ∧ nat data' = nat data + 256 ^ (4 * l + j) * le bs := by
  intro bs
  induction bs with
  | nil => intro j l data hd hB _ _ _ _; exact ⟨data, rfl, hd, hB, by simp [le]⟩
  | cons b bs ih =>
    intro j l data hd hB hj hb hlen hlt
    simp only [List.length_cons] at hlen
    obtain ⟨d1, e1, h1, h2, h3, h4⟩ := orByte_spec data l j b hd hB (by omega) hj (hb b List.mem_cons_self) hlt
    have hbs := fun x hx => hb x (List.mem_cons_of_mem _ hx)
    unfold place
    rw [e1, bsome]
    by_cases hj3 : j % 4 = 3
    · rw [if_pos hj3]
      have hj' : j = 3 := by omega
      obtain ⟨d2, e2, g1, g2, g3⟩ := ih 0 (l + 1) d1 h1 h2 (by decide) hbs (by omega) (by rw [show 4 * (l + 1) + 0 = 4 * l + (j + 1) by omega]; exact h4)
      refine ⟨d2, e2, g1, g2, ?_⟩
      rw [g3, h3, le, show 4 * (l + 1) + 0 = 4 * l + j + 1 by omega, pow_succ]; ring
    · rw [if_neg hj3]
      obtain ⟨d2, e2, g1, g2, g3⟩ := ih (j + 1) l d1 h1 h2 (by omega) hbs (by omega) h4
      refine ⟨d2, e2, g1, g2, ?_⟩
      rw [g3, h3, le, show 4 * l + (j + 1) = 4 * l + j + 1 by omega, pow_succ]; ring

theorem place_zero (bs : List Nat) (hb : ∀ b ∈ bs, b < 256) (hl : bs.length ≤ 1028) (neg : Bool) :
    ∃ data n, place bs 0 0 (List.replicate size 0) = some data ∧ scan data size = some n ∧ Wf ⟨neg, n, data⟩ ∧ mag ⟨neg, n, data⟩ = le bs := by
  obtain ⟨d, e, h1, h2, h3⟩ := place_spec bs 0 0 (List.replicate size 0) (by simp) (limbs_replicate _) (by decide) hb (by omega) (by rw [nat_replicate]; decide)
  have hlt := nat_lt d h2
  rw [h1] at hlt
  obtain ⟨n, en, a1, a2, a3⟩ := scan_canon d 257 (by rw [h1]) h2 hlt
  refine ⟨d, n, e, en, ⟨h1, h2, a2, a3⟩, ?_⟩
  show nat d = _
  rw [h3, nat_replicate]
  simp

/-! ## Hexadecimal -/

def pairs : List Nat → List Nat
  | [] => []
  | [d] => [d]
  | d :: e :: t => (d + 16 * e) :: pairs t

theorem hexDigit_lt {c d : Nat} (h : hexDigit c = some d) : d < 16 := by
  unfold hexDigit at h
  split at h
  · cases h; omega
  · split at h
    · cases h; omega
    · split at h
      · cases h; omega
      · cases h

theorem nibble_or : ∀ d < 16, ∀ e < 16, (d &&& 0xf) = d ∧ (d &&& 0xf) ||| ((e <<< 4) &&& 0xf0) = d + 16 * e := by decide +kernel

theorem mapM_cons_some {f : Nat → Option Nat} {c : Nat} {cs ds : List Nat} (h : (c :: cs).mapM f = some ds) : ∃ d ds', f c = some d ∧ cs.mapM f = some ds' ∧ ds = d :: ds' := by
  rw [List.mapM_cons] at h
  cases hc : f c with
  | none => rw [hc] at h; cases h
  | some d =>
    cases hcs : cs.mapM f with
    | none => rw [hc, hcs] at h; cases h
    | some ds' => rw [hc, hcs] at h; cases h; exact ⟨d, ds', rfl, rfl, rfl⟩

theorem bind_some_map {α : Type} (o : Option (List Nat)) (f g : List Nat → Option α) (h : ∀ x, f x = g x) : (o >>= f) = (o >>= g) := by
  cases o
  · rfl
  · exact h _

theorem hexLoop_pairs : ∀ (cs ds : List Nat) (i j l b : Nat) (data : List Nat), i % 2 = 0 → cs.mapM hexDigit = some ds →
    hexLoop cs i j l b data = (place (pairs ds) j l data).map some
  | [], ds, i, j, l, b, data, hi, h => by
    rw [List.mapM_nil] at h; cases h; rfl
  | [c], ds, i, j, l, b, data, hi, h => by
    obtain ⟨d, ds', h1, h2, rfl⟩ := mapM_cons_some h
    rw [List.mapM_nil] at h2; cases h2
    have hd := hexDigit_lt h1
    unfold hexLoop pairs place
    rw [h1]
    simp only
    rw [if_neg (show ¬ (i % 2 ≠ 0) by omega), if_pos (Or.inr trivial), (nibble_or d hd d hd).1]
    cases orByte data l j d with
    | none => rfl
    | some x => unfold hexLoop place; simp
  | c :: c' :: cs, ds, i, j, l, b, data, hi, h => by
    obtain ⟨d, ds1, h1, h2, rfl⟩ := mapM_cons_some h
    obtain ⟨e, ds2, h3, h4, rfl⟩ := mapM_cons_some h2
    have hd := hexDigit_lt h1
    have he := hexDigit_lt h3
    unfold hexLoop pairs place
    rw [h1]
    simp only
    rw [if_neg (show ¬ (i % 2 ≠ 0) by omega), if_neg (show ¬ (i % 2 ≠ 0 ∨ c' :: cs = []) by simp [hi])]
    unfold hexLoop
    rw [h3]
    simp only
    rw [if_pos (show (i + 1) % 2 ≠ 0 by omega), if_pos (Or.inl (show (i + 1) % 2 ≠ 0 by omega)), (nibble_or d hd e he).2]
    cases orByte data l j (d + 16 * e) with
    | none => rfl
    | some x =>
      show (if j % 4 = 3 then _ else _) = Option.map some (if j % 4 = 3 then _ else _)
      by_cases hj : j % 4 = 3
      · rw [if_pos hj, if_pos hj]
        exact hexLoop_pairs cs ds2 (i + 1 + 1) 0 (l + 1) _ x (by omega) h4
      · rw [if_neg hj, if_neg hj]
        exact hexLoop_pairs cs ds2 (i + 1 + 1) (j + 1) l _ x (by omega) h4

theorem pairs_spec : ∀ ds : List Nat, (∀ d ∈ ds, d < 16) → le (pairs ds) = Nat.ofDigits 16 ds ∧ (∀ b ∈ pairs ds, b < 256) ∧ (pairs ds).length = (ds.length + 1) / 2
  | [], _ => ⟨rfl, by simp [pairs], rfl⟩
  | [d], h => by
    have := h d (by simp)
    refine ⟨by simp [pairs, le], ?_, by simp [pairs]⟩
    intro b hb
    have : b = d := by simpa [pairs] using hb
    omega
  | d :: e :: t, h => by
    obtain ⟨i1, i2, i3⟩ := pairs_spec t (fun x hx => h x (by simp [hx]))
    have h1 := h d (by simp)
    have h2 := h e (by simp)
    refine ⟨?_, ?_, ?_⟩
    · simp only [pairs, le, i1, Nat.ofDigits_cons]; ring
    · intro b hb
      simp only [pairs, List.mem_cons] at hb
      rcases hb with rfl | hb
      · omega
      · exact i2 b hb
    · simp only [pairs, List.length_cons, i3]; omega

theorem mapM_some_map {f : Nat → Option Nat} : ∀ {cs ds : List Nat}, cs.mapM f = some ds → cs.map f = ds.map some := by
  intro cs
  induction cs with
  | nil => intro ds h; rw [List.mapM_nil] at h; cases h; rfl
  | cons c cs ih =>
    intro ds h
    obtain ⟨d, ds', h1, h2, rfl⟩ := mapM_cons_some h
    simp [h1, ih h2]

theorem mapM_of_map {f : Nat → Option Nat} : ∀ {cs ds : List Nat}, cs.map f = ds.map some → cs.mapM f = some ds := by
  intro cs
  induction cs with
  | nil => intro ds h; cases ds with
    | nil => rfl
    | cons d ds => cases h
  | cons c cs ih =>
    intro ds h
    cases ds with
    | nil => cases h
    | cons d ds =>
      simp only [List.map_cons, List.cons.injEq] at h
      rw [List.mapM_cons, h.1, ih h.2]; rfl

theorem hex_digits_lt {cs ds : List Nat} (h : cs.map hexDigit = ds.map some) : ∀ d ∈ ds, d < 16 := by
  intro d hd
  have : some d ∈ cs.map hexDigit := by rw [h]; exact List.mem_map_of_mem hd
  obtain ⟨c, _, hc⟩ := List.mem_map.1 this
  exact hexDigit_lt hc

theorem chars_mid (a t r : List Nat) : chars (a ++ t ++ r) a.length t.length = some t := by
  unfold chars
  rw [if_pos (by simp), List.append_assoc, List.drop_left, List.take_left]

theorem hexSpec_eq {t : List Nat} (hb : ∀ c ∈ t, c < 256) : t.map hexSpec = t.map hexDigit := by
  apply List.map_congr_left
  intro c hc
  exact (hexDigit_spec c (hb c hc)).symm

theorem assign_pos (s : List Nat) (len c : Nat) (h : s[0]? = some c) (hc : c ≠ 45) : assign s len =
    if c = 48 then (s[1]? >>= fun c => if c = 120 then assignHex s 2 false ((len + 4294967294) % B) else assignOct s 1 false ((len + 4294967295) % B))
    else assignDec s 0 false len := by
  unfold assign
  rw [h, bsome, if_neg hc]
  simp only
  rw [h, bsome]

theorem assign_neg (s : List Nat) (len c : Nat) (h : s[0]? = some 45) (hc : s[1]? = some c) : assign s len =
    if c = 48 then (s[2]? >>= fun c => if c = 120 then assignHex s 3 true (((len + 4294967295) % B + 4294967294) % B) else assignOct s 2 true (((len + 4294967295) % B + 4294967295) % B))
    else assignDec s 1 true ((len + 4294967295) % B) := by
  unfold assign
  rw [h, bsome, if_pos rfl]
  simp only
  rw [hc, bsome]

/-- Reading the digits behind any prefix. -/
theorem assignHex_spec (a t r ds : List Nat) (neg : Bool) (hb : ∀ c ∈ t, c < 256) (ht : t.map hexSpec = ds.map some) (hl : t.length ≤ 2056) :
    ∃ n, assignHex (a ++ t ++ r) a.length neg t.length = some (some n) ∧ Wf n ∧ n.neg = neg ∧ mag n = number 16 ds := by
  rw [hexSpec_eq hb] at ht
  have hlen : t.length = ds.length := by simpa using congrArg List.length ht
  unfold assignHex
  rw [if_neg (by omega), chars_mid]
  have hm : t.reverse.mapM hexDigit = some ds.reverse := mapM_of_map (by rw [List.map_reverse, ht, List.map_reverse])
  obtain ⟨p1, p2, p3⟩ := pairs_spec ds.reverse (fun d hd => hex_digits_lt ht d (List.mem_reverse.1 hd))
  obtain ⟨data, n, e, en, hw, hmag⟩ := place_zero (pairs ds.reverse) p2 (by rw [p3, List.length_reverse]; omega) neg
  show ∃ n, (hexLoop t.reverse 0 0 0 0 (List.replicate size 0) >>= _) = some (some n) ∧ _
  rw [hexLoop_pairs t.reverse ds.reverse 0 0 0 0 _ rfl hm, e]
  show ∃ m, (scan data size >>= _) = some (some m) ∧ _
  rw [en]
  exact ⟨_, rfl, hw, rfl, by rw [hmag, p1, number_eq]⟩

/-- **C36 (hexadecimal).** A literal `0x…` (with an optional minus sign) of up to 2056 digits
denotes its hexadecimal value; `rest` is whatever follows in the buffer. -/
theorem assign_hex (t ds rest : List Nat) (hb : ∀ c ∈ t, c < 256) (ht : t.map hexSpec = ds.map some) (hl : t.length ≤ 2056) :
    (∃ n, assign ([48, 120] ++ t ++ rest) (t.length + 2) = some (some n) ∧ Wf n ∧ n.neg = false ∧ mag n = number 16 ds) ∧
    (∃ n, assign ([45, 48, 120] ++ t ++ rest) (t.length + 3) = some (some n) ∧ Wf n ∧ n.neg = true ∧ mag n = number 16 ds) := by
  constructor
  · have h := assignHex_spec [48, 120] t rest ds false hb ht hl
    have e : assign ([48, 120] ++ t ++ rest) (t.length + 2) = assignHex ([48, 120] ++ t ++ rest) 2 false ((t.length + 2 + 4294967294) % B) := by
      rw [assign_pos _ _ 48 rfl (by decide), if_pos rfl, show ([48, 120] ++ t ++ rest)[1]? = some 120 from rfl, bsome, if_pos rfl]
    rw [e, show (t.length + 2 + 4294967294) % B = t.length by omega]
    exact h
  · have h := assignHex_spec [45, 48, 120] t rest ds true hb ht hl
    have e : assign ([45, 48, 120] ++ t ++ rest) (t.length + 3) = assignHex ([45, 48, 120] ++ t ++ rest) 3 true (((t.length + 3 + 4294967295) % B + 4294967294) % B) := by
      rw [assign_neg _ _ 48 rfl rfl, if_pos rfl, show ([45, 48, 120] ++ t ++ rest)[2]? = some 120 from rfl, bsome, if_pos rfl]
    rw [e, show ((t.length + 3 + 4294967295) % B + 4294967294) % B = t.length by omega]
    exact h

theorem orByte_length (data : List Nat) (l j b : Nat) (h : l < data.length) : ∃ d, orByte data l j b = some d ∧ d.length = data.length := by
  unfold orByte
  rw [List.getElem?_eq_getElem h]
  exact ⟨_, rfl, by simp⟩

theorem hexLoop_bad : ∀ (cs : List Nat) (i j l b : Nat) (data : List Nat), data.length = 257 → j < 4 → 8 * l + 2 * j + i % 2 + cs.length ≤ 2056 → (∃ c ∈ cs, hexDigit c = none) →
    hexLoop cs i j l b data = some none := by
  intro cs
  induction cs with
  | nil => intro i j l b data _ _ _ h; obtain ⟨c, hc, _⟩ := h; cases hc
  | cons c cs ih =>
    intro i j l b data hd hj hl h
    simp only [List.length_cons] at hl
    unfold hexLoop
    cases hc : hexDigit c with
    | none => rfl
    | some d =>
      simp only
      have hex : ∃ c ∈ cs, hexDigit c = none := by
        obtain ⟨c', hc', hn⟩ := h
        rcases List.mem_cons.1 hc' with rfl | h'
        · rw [hc] at hn; cases hn
        · exact ⟨c', h', hn⟩
      have hne : cs ≠ [] := by rintro rfl; obtain ⟨c, hc, _⟩ := hex; cases hc
      by_cases hi : i % 2 ≠ 0
      · rw [if_pos (Or.inl hi)]
        generalize (if i % 2 ≠ 0 then b ||| ((d <<< 4) &&& 0xf0) else d &&& 0xf) = b'
        obtain ⟨d1, e1, l1⟩ := orByte_length data l j b' (by omega)
        rw [e1]
        show (if j % 4 = 3 then _ else _) = _
        by_cases hj3 : j % 4 = 3
        · rw [if_pos hj3]
          exact ih _ _ _ _ _ (by omega) (by omega) (by omega) hex
        · rw [if_neg hj3]
          exact ih _ _ _ _ _ (by omega) (by omega) (by omega) hex
      · rw [if_neg (show ¬ (i % 2 ≠ 0 ∨ cs = []) by simp [hne]; omega)]
        exact ih _ _ _ _ _ hd hj (by omega) hex

/-- **C36 (hexadecimal, refusal).** A `0x` literal with a character that is not a digit, or with
more than 2056 digits, is refused. -/
theorem assign_hex_refuse (t rest : List Nat) (hb : ∀ c ∈ t, c < 256) (hl : t.length < 4294967294) (h : 2056 < t.length ∨ ∃ c ∈ t, hexSpec c = none) :
    assign ([48, 120] ++ t ++ rest) (t.length + 2) = some none := by
  have e : assign ([48, 120] ++ t ++ rest) (t.length + 2) = assignHex ([48, 120] ++ t ++ rest) 2 false ((t.length + 2 + 4294967294) % B) := by
      rw [assign_pos _ _ 48 rfl (by decide), if_pos rfl, show ([48, 120] ++ t ++ rest)[1]? = some 120 from rfl, bsome, if_pos rfl]
  rw [e, show (t.length + 2 + 4294967294) % B = t.length by omega]
  unfold assignHex
  by_cases hlen : t.length > 8224 / 4
  · rw [if_pos hlen]
  · rw [if_neg hlen]
    have := chars_mid [48, 120] t rest
    rw [show [48, 120].length = 2 from rfl] at this
    rw [this]
    obtain ⟨c, hc, hn⟩ : ∃ c ∈ t, hexSpec c = none := by
      rcases h with h | h
      · omega
      · exact h
    have hbad := hexLoop_bad t.reverse 0 0 0 0 (List.replicate size 0) (by simp) (by decide) (by simp; omega) ⟨c, List.mem_reverse.2 hc, by rw [hexDigit_spec c (hb c hc)]; exact hn⟩
    show (hexLoop t.reverse 0 0 0 0 (List.replicate size 0) >>= _) = _
    rw [hbad]
    rfl

/-! ## Octal -/

def triples : List Nat → List Nat
  | [] => []
  | [a] => [a]
  | [a, b] => [a + 8 * b]
  | a :: b :: c :: t => (a + 8 * b + 64 * c) :: triples t

/-- What the code accepts, from the last digit: octal digits, every third one at most 3. -/
def OctOk : List Nat → Prop
  | [] => True
  | [a] => a < 8
  | [a, b] => a < 8 ∧ b < 8
  | a :: b :: c :: t => a < 8 ∧ b < 8 ∧ c < 4 ∧ OctOk t

theorem oct_or : ∀ a < 8, ∀ b < 8, ∀ c < 4, (a &&& 7) = a ∧ (a &&& 7) ||| ((b <<< 3) &&& 0x38) = a + 8 * b ∧ ((a &&& 7) ||| ((b <<< 3) &&& 0x38)) ||| ((c <<< 6) &&& 0xc0) = a + 8 * b + 64 * c := by
  decide +kernel

theorem octLoop_triples : ∀ (ds : List Nat) (i j l b : Nat) (data : List Nat), i % 3 = 0 → OctOk ds →
    octLoop (ds.map (48 + ·)) i j l b data = (place (triples ds) j l data).map some
  | [], i, j, l, b, data, hi, h => rfl
  | [a], i, j, l, b, data, hi, h => by
    have ha : a < 8 := h
    unfold triples place
    simp only [List.map_cons, List.map_nil]
    unfold octLoop
    simp only
    rw [if_neg (show ¬ (i % 3 = 2) by omega), if_neg (by omega), if_pos hi, if_pos (Or.inr trivial), Nat.add_sub_cancel_left, (oct_or a ha 0 (by decide) 0 (by decide)).1]
    cases orByte data l j a with
    | none => rfl
    | some x => unfold octLoop place; simp
  | [a, b'], i, j, l, b, data, hi, h => by
    obtain ⟨ha, hb⟩ : a < 8 ∧ b' < 8 := h
    unfold triples place
    simp only [List.map_cons, List.map_nil]
    unfold octLoop
    simp only
    rw [if_neg (show ¬ (i % 3 = 2) by omega), if_neg (by omega), if_pos hi, if_neg (show ¬ (i % 3 = 2 ∨ [48 + b'] = []) by simp; omega), Nat.add_sub_cancel_left]
    unfold octLoop
    simp only
    rw [if_neg (show ¬ ((i + 1) % 3 = 2) by omega), if_neg (by omega), if_neg (show ¬ (i + 1) % 3 = 0 by omega), if_pos (show (i + 1) % 3 = 1 by omega), if_pos (Or.inr trivial), Nat.add_sub_cancel_left, (oct_or a ha b' hb 0 (by decide)).2.1]
    cases orByte data l j (a + 8 * b') with
    | none => rfl
    | some x => unfold octLoop place; simp
  | a :: b' :: c :: t, i, j, l, b, data, hi, h => by
    obtain ⟨ha, hb, hc, ht⟩ : a < 8 ∧ b' < 8 ∧ c < 4 ∧ OctOk t := h
    unfold triples place
    simp only [List.map_cons]
    unfold octLoop
    simp only
    rw [if_neg (show ¬ (i % 3 = 2) by omega), if_neg (by omega), if_pos hi, if_neg (show ¬ (i % 3 = 2 ∨ (48 + b') :: (48 + c) :: t.map (48 + ·) = []) by simp; omega), Nat.add_sub_cancel_left]
    unfold octLoop
    simp only
    rw [if_neg (show ¬ ((i + 1) % 3 = 2) by omega), if_neg (by omega), if_neg (show ¬ (i + 1) % 3 = 0 by omega), if_pos (show (i + 1) % 3 = 1 by omega),
      if_neg (show ¬ ((i + 1) % 3 = 2 ∨ (48 + c) :: t.map (48 + ·) = []) by simp; omega), Nat.add_sub_cancel_left]
    unfold octLoop
    simp only
    rw [if_pos (show (i + 1 + 1) % 3 = 2 by omega), if_neg (by omega), if_neg (show ¬ (i + 1 + 1) % 3 = 0 by omega), if_neg (show ¬ (i + 1 + 1) % 3 = 1 by omega),
      if_pos (Or.inl (show (i + 1 + 1) % 3 = 2 by omega)), Nat.add_sub_cancel_left, (oct_or a ha b' hb c hc).2.2]
    cases orByte data l j (a + 8 * b' + 64 * c) with
    | none => rfl
    | some x =>
      show (if j % 4 = 3 then _ else _) = Option.map some (if j % 4 = 3 then _ else _)
      by_cases hj : j % 4 = 3
      · rw [if_pos hj, if_pos hj]
        exact octLoop_triples t (i + 1 + 1 + 1) 0 (l + 1) _ x (by omega) ht
      · rw [if_neg hj, if_neg hj]
        exact octLoop_triples t (i + 1 + 1 + 1) (j + 1) l _ x (by omega) ht

theorem triples_spec : ∀ ds : List Nat, OctOk ds → (∀ b ∈ triples ds, b < 256) ∧ (triples ds).length = (ds.length + 2) / 3 ∧ (∀ d ∈ ds, d < 8) ∧
    le (triples ds) ≤ Nat.ofDigits 8 ds ∧ (le (triples ds) = Nat.ofDigits 8 ds ↔ Nat.ofDigits 8 (ds.drop 3) = 0)
  | [], _ => ⟨by simp [triples], rfl, by simp, by simp [triples, le], by simp [triples, le]⟩
  | [a], h => by
    have ha : a < 8 := h
    refine ⟨?_, by simp [triples], by simpa using ha, by simp [triples, le], by simp [triples, le]⟩
    intro b hb
    have : b = a := by simpa [triples] using hb
    omega
  | [a, b], h => by
    obtain ⟨ha, hb⟩ : a < 8 ∧ b < 8 := h
    refine ⟨?_, by simp [triples], by simp [ha, hb], by simp [triples, le, Nat.ofDigits_cons], by simp [triples, le, Nat.ofDigits_cons]⟩
    intro x hx
    have : x = a + 8 * b := by simpa [triples] using hx
    omega
  | a :: b :: c :: t, h => by
    obtain ⟨ha, hb, hc, ht⟩ : a < 8 ∧ b < 8 ∧ c < 4 ∧ OctOk t := h
    obtain ⟨i1, i2, i3, i4, i5⟩ := triples_spec t ht
    refine ⟨?_, ?_, ?_, ?_, ?_⟩
    · intro x hx
      simp only [triples, List.mem_cons] at hx
      rcases hx with rfl | hx
      · omega
      · exact i1 x hx
    · simp only [triples, List.length_cons, i2]; omega
    · intro d hd
      simp only [List.mem_cons] at hd
      rcases hd with rfl | rfl | rfl | hd
      · exact ha
      · exact hb
      · omega
      · exact i3 d hd
    · simp only [triples, le, Nat.ofDigits_cons]
      norm_num
      omega
    · simp only [triples, le, Nat.ofDigits_cons, List.drop_succ_cons, List.drop_zero]
      norm_num
      generalize Nat.ofDigits 8 t = T at *
      omega

theorem number_drop (ds : List Nat) : number 8 (ds.take (ds.length - 3)) = Nat.ofDigits 8 (ds.reverse.drop 3) := by
  rw [number_eq, List.drop_reverse]

/-- **C36 (octal).** A literal `0…` that the code accepts (read from the last digit, each third
digit is at most 3) gets the octal value exactly when the digits before the last three are all
zero; otherwise the number is too small.  So the property fails for every longer literal: this
is a code defect. -/
theorem assign_oct_partial (ds rest : List Nat) (hok : OctOk ds.reverse) (hl : ds.length ≤ 2741) (hx : (ds.map (48 + ·) ++ rest)[0]? ≠ some 120) (hne : ds ++ rest ≠ []) :
    ∃ n, assign ([48] ++ ds.map (48 + ·) ++ rest) (ds.length + 1) = some (some n) ∧ Wf n ∧ n.neg = false ∧ mag n ≤ number 8 ds ∧
      (mag n = number 8 ds ↔ number 8 (ds.take (ds.length - 3)) = 0) := by
  obtain ⟨c, hc⟩ : ∃ c, (ds.map (48 + ·) ++ rest)[0]? = some c := by
    cases hds : ds.map (48 + ·) ++ rest with
    | nil => simp at hds; exact absurd (by simp [hds]) hne
    | cons c t => exact ⟨c, rfl⟩
  have e : assign ([48] ++ ds.map (48 + ·) ++ rest) (ds.length + 1) = assignOct ([48] ++ ds.map (48 + ·) ++ rest) 1 false ((ds.length + 1 + 4294967295) % B) := by
    have h1 : ([48] ++ ds.map (48 + ·) ++ rest)[0 + 1]? = some c := by
      rw [List.append_assoc]; exact hc
    rw [assign_pos _ _ 48 rfl (by decide), if_pos rfl, h1, bsome, if_neg (fun h => hx (by rw [hc, h]))]
  rw [e, show (ds.length + 1 + 4294967295) % B = ds.length by omega]
  unfold assignOct
  rw [if_neg (by omega)]
  have hch := chars_mid [48] (ds.map (48 + ·)) rest
  rw [List.length_map, show [48].length = 1 from rfl] at hch
  rw [hch]
  obtain ⟨t1, t2, t3, t4, t5⟩ := triples_spec ds.reverse hok
  rw [List.length_reverse] at t2
  obtain ⟨data, n, e1, en, hw, hmag⟩ := place_zero (triples ds.reverse) t1 (by omega) false
  show ∃ n, (octLoop (ds.map (48 + ·)).reverse 0 0 0 0 (List.replicate size 0) >>= _) = some (some n) ∧ _
  rw [← List.map_reverse, octLoop_triples ds.reverse 0 0 0 0 _ rfl hok, e1]
  show ∃ m, (scan data size >>= _) = some (some m) ∧ _
  rw [en]
  exact ⟨_, rfl, hw, rfl, by rw [hmag, number_eq]; exact t4, by rw [hmag, number_eq, number_drop]; exact t5⟩

/-! ## Decimal -/

theorem ten_lt : 10 ^ 2056 < B ^ 257 := by
  have h : (4294967296 : Nat) ^ 257 = 16 ^ 2056 := by
    rw [show (4294967296 : Nat) = 16 ^ 8 by norm_num, ← pow_mul]
  rw [h]
  exact Nat.pow_lt_pow_left (by decide) (by decide)

theorem addTimes_spec : ∀ (n : Nat) (t x : Bn) (T X : Nat), Wf t → Wf x → value t = T → value x = X → T + n * X < B ^ 257 →
    ∃ r, addTimes n t x = some r ∧ Wf r ∧ value r = ((T + n * X : Nat) : Int) := by
  intro n
  induction n with
  | zero => intro t x T X ht _ hT _ _; exact ⟨t, rfl, ht, by rw [hT]; simp⟩
  | succ n ih =>
    intro t x T X ht hx hT hX hfit
    have hs : T + X + n * X = T + (n + 1) * X := by ring
    obtain ⟨r, e, hr, hv⟩ := add_spec t x ht hx (by
      rw [hT, hX]
      have : T + X ≤ T + (n + 1) * X := by rw [← hs]; exact Nat.le_add_right _ _
      exact lt_of_le_of_lt (by omega) hfit)
    unfold addTimes
    rw [e]
    obtain ⟨r', e', h1, h2⟩ := ih r x (T + X) X hr hx (by rw [hv, hT, hX]; push_cast; ring) hX (by rw [hs]; exact hfit)
    exact ⟨r', e', h1, by rw [h2, hs]⟩

theorem decRec_spec : ∀ (k n : Nat), k ≤ 2055 → n ≤ 10 → ∃ r, decRec k n = some r ∧ Wf r ∧ value r = ((n * 10 ^ k : Nat) : Int) := by
  intro k
  induction k with
  | zero =>
    intro n _ hn
    obtain ⟨w1, m1⟩ := wf_word 1 (by decide) (by decide)
    obtain ⟨r, e, h1, h2⟩ := addTimes_spec n zero (word 1) 0 1 wf_zero w1 value_zero (by rw [value_pos rfl, m1]) (by
      have : 0 + n * 1 < 4294967296 ^ 1 := by omega
      exact lt_of_lt_of_le this (Nat.pow_le_pow_right (by decide) (by decide)))
    exact ⟨r, e, h1, by rw [h2]; simp⟩
  | succ k ih =>
    intro n hk hn
    obtain ⟨v, e, h1, h2⟩ := ih 10 (by omega) (by omega)
    have hp : 10 * 10 ^ k = 10 ^ (k + 1) := by rw [pow_succ]; ring
    rw [hp] at h2
    have hb : n * 10 ^ (k + 1) ≤ 10 ^ 2056 := by
      calc n * 10 ^ (k + 1) ≤ 10 * 10 ^ (k + 1) := Nat.mul_le_mul_right _ hn
        _ = 10 ^ (k + 2) := by rw [pow_succ]; ring
        _ ≤ 10 ^ 2056 := Nat.pow_le_pow_right (by decide) (by omega)
    obtain ⟨r, e', h3, h4⟩ := addTimes_spec n zero v 0 (10 ^ (k + 1)) wf_zero h1 value_zero h2 (by rw [Nat.zero_add]; exact lt_of_le_of_lt hb ten_lt)
    unfold decRec
    rw [e]
    exact ⟨r, e', h3, by rw [h4, Nat.zero_add]⟩

theorem decLoop_spec : ∀ (ds : List Nat) (cnt : Nat) (bn : Bn) (V : Nat), (∀ d ∈ ds, d < 10) → Wf bn → value bn = V → V < 10 ^ cnt → cnt + ds.length ≤ 2056 →
    ∃ r, decLoop (ds.map (48 + ·)) cnt bn = some (some r) ∧ Wf r ∧ value r = ((V + 10 ^ cnt * Nat.ofDigits 10 ds : Nat) : Int) := by
  intro ds
  induction ds with
  | nil => intro cnt bn V _ hb hV _ _; exact ⟨bn, rfl, hb, by rw [hV]; simp⟩
  | cons d ds ih =>
    intro cnt bn V hd hb hV hlt hl
    have hd0 := hd d List.mem_cons_self
    simp only [List.length_cons] at hl
    obtain ⟨t, e, ht, hv⟩ := decRec_spec cnt d (by omega) (by omega)
    have hb2 : V + d * 10 ^ cnt < 10 ^ (cnt + 1) := by
      have h1 : (d + 1) * 10 ^ cnt ≤ 10 * 10 ^ cnt := Nat.mul_le_mul_right _ hd0
      rw [Nat.add_mul, Nat.one_mul] at h1
      rw [pow_succ]
      generalize d * 10 ^ cnt = y at *
      omega
    have hb3 : (10 : Nat) ^ (cnt + 1) ≤ 10 ^ 2056 := Nat.pow_le_pow_right (by decide) (by omega)
    obtain ⟨r, e2, hr, hv2⟩ := add_spec bn t hb ht (by
      rw [hV, hv]
      have h3 := lt_of_lt_of_le hb2 hb3
      have h4 := lt_trans h3 ten_lt
      have h5 : ((V : Int) + ((d * 10 ^ cnt : Nat) : Int)).natAbs = V + d * 10 ^ cnt := by rw [← Int.natCast_add, Int.natAbs_natCast]
      rw [h5]; exact h4)
    rw [List.map_cons]
    unfold decLoop
    rw [if_pos (by omega), Nat.add_sub_cancel_left, e]
    show ∃ r, (add bn t >>= _) = some (some r) ∧ _
    rw [e2]
    obtain ⟨r', e3, h6, h7⟩ := ih (cnt + 1) r (V + d * 10 ^ cnt) (fun x hx => hd x (List.mem_cons_of_mem _ hx)) hr (by rw [hv2, hV, hv]; push_cast; ring) hb2 (by omega)
    exact ⟨r', e3, h6, by rw [h7, Nat.ofDigits_cons, pow_succ]; push_cast; ring⟩

theorem assignDec_spec (a ds r : List Nat) (neg : Bool) (hd : ∀ d ∈ ds, d < 10) (hl : ds.length ≤ 2056) :
    ∃ n, assignDec (a ++ ds.map (48 + ·) ++ r) a.length neg ds.length = some (some n) ∧ Wf n ∧ n.neg = neg ∧ mag n = number 10 ds := by
  unfold assignDec
  have hch := chars_mid a (ds.map (48 + ·)) r
  rw [List.length_map] at hch
  rw [if_neg (by omega), hch]
  obtain ⟨m, e, h1, h2⟩ := decLoop_spec ds.reverse 0 zero 0 (fun d hh => hd d (List.mem_reverse.1 hh)) wf_zero value_zero (by decide) (by simp; omega)
  show ∃ n, (decLoop (ds.map (48 + ·)).reverse 0 zero >>= _) = some (some n) ∧ _
  rw [← List.map_reverse, e]
  refine ⟨_, rfl, wf_neg h1 neg, rfl, ?_⟩
  show mag m = _
  have h3 : (value m).natAbs = mag m := by unfold value; cases m.neg <;> simp
  rw [← h3, h2, Int.natAbs_natCast, number_eq]
  simp

/-- **C36 (decimal).** A literal of up to 2056 decimal digits that does not begin with 0 (with an
optional minus sign) denotes its decimal value. -/
theorem assign_dec (ds rest : List Nat) (hd : ∀ d ∈ ds, d < 10) (h0 : ds.head? ≠ some 0) (hne : ds ≠ []) (hl : ds.length ≤ 2056) :
    (∃ n, assign (ds.map (48 + ·) ++ rest) ds.length = some (some n) ∧ Wf n ∧ n.neg = false ∧ mag n = number 10 ds) ∧
    (∃ n, assign ([45] ++ ds.map (48 + ·) ++ rest) (ds.length + 1) = some (some n) ∧ Wf n ∧ n.neg = true ∧ mag n = number 10 ds) := by
  obtain ⟨d, t, rfl⟩ : ∃ d t, ds = d :: t := List.exists_cons_of_ne_nil hne
  have hd0 : d ≠ 0 := by simpa using h0
  have hd9 := hd d List.mem_cons_self
  constructor
  · have h := assignDec_spec [] (d :: t) rest false hd hl
    have e : assign ((d :: t).map (48 + ·) ++ rest) (d :: t).length = assignDec ((d :: t).map (48 + ·) ++ rest) 0 false (d :: t).length := by
      rw [assign_pos _ _ (48 + d) rfl (by omega), if_neg (by omega)]
    rw [e]; exact h
  · have h := assignDec_spec [45] (d :: t) rest true hd hl
    have e : assign ([45] ++ (d :: t).map (48 + ·) ++ rest) ((d :: t).length + 1) = assignDec ([45] ++ (d :: t).map (48 + ·) ++ rest) 1 true (((d :: t).length + 1 + 4294967295) % B) := by
      rw [assign_neg _ _ (48 + d) rfl rfl, if_neg (by omega)]
    rw [e, show ((d :: t).length + 1 + 4294967295) % B = (d :: t).length by omega]
    exact h

/-- Literals of more than 2056 decimal digits are refused. -/
theorem assign_dec_long (ds rest : List Nat) (hd : ∀ d ∈ ds, d < 10) (h0 : ds.head? ≠ some 0) (hl : 2056 < ds.length) :
    assign (ds.map (48 + ·) ++ rest) ds.length = some none := by
  obtain ⟨d, t, rfl⟩ : ∃ d t, ds = d :: t := List.exists_cons_of_ne_nil (by rintro rfl; simp at hl)
  have hd0 : d ≠ 0 := by simpa using h0
  have hd9 := hd d List.mem_cons_self
  rw [assign_pos _ _ (48 + d) rfl (by omega), if_neg (by omega)]
  unfold assignDec
  rw [if_pos (by omega)]

/-! ## Output -/

theorem first_limb {d : Bn} (hd : Wf d) (h : mag d < B) : d.data[0]? = some (mag d) := by
  have hl : 0 < d.data.length := by rw [hd.size]; decide
  have h1 := nat_take_drop d.data 0 (by omega)
  have hz : nat (d.data.drop 1) = 0 := nat_drop_zero _ 1 (by rw [pow_one]; exact h)
  rw [List.getElem?_eq_getElem hl]
  rw [List.drop_eq_getElem_cons hl, nat_cons, Nat.zero_add, hz] at h1
  have : mag d = nat d.data := rfl
  rw [this, h1]
  simp [nat]

theorem toStringLoop_spec : ∀ (fuel : Nat) (n : Bn), Wf n → mag n < fuel → toStringLoop fuel n = some (some ((Nat.digits 10 (mag n)).map (48 + ·))) := by
  intro fuel
  induction fuel with
  | zero => intro n _ h; omega
  | succ fuel ih =>
    intro n hn hf
    unfold toStringLoop
    obtain ⟨c, ec, c1, _, _⟩ := compare_spec_partial n zero hn wf_zero (fun h => by cases h.2.1)
    rw [ec]
    have hva : (value n).natAbs = mag n := by unfold value; cases n.neg <;> simp
    by_cases hz : mag n = 0
    · have hc : c = 0 := c1.2 (by rw [value_zero]; omega)
      rw [hz, hc]; rfl
    · have hc : c ≠ 0 := fun h => hz (by have := c1.1 h; rw [value_zero] at this; omega)
      obtain ⟨d, q, e, wd, wq, h1, h2, _, _⟩ := divWord_spec hn 10 (by decide) (by decide)
      have hq : mag q = mag n / 10 := by omega
      have hdm : mag d = mag n % 10 := by omega
      show (if c ≠ 0 then _ else _) = _
      rw [if_pos hc, e]
      show (d.data[0]? >>= _) = _
      rw [first_limb wd (by omega)]
      show (toStringLoop fuel q >>= _) = _
      have hpos : 0 < mag n := Nat.pos_of_ne_zero hz
      have hb : (mag d % 256 + 48) % 256 = 48 + mag n % 10 := by omega
      rw [ih q wq (by omega), Nat.digits_def' (by decide) hpos, List.map_cons, ← hb, hq]
      rfl

theorem digits_room {n : Bn} (hn : Wf n) : (Nat.digits 10 (mag n)).length ≤ 10 * n.length := by
  rw [Nat.digits_length_le_iff (by decide)]
  calc mag n < B ^ n.length := hn.below
    _ ≤ (10 ^ 10) ^ n.length := Nat.pow_le_pow_left (by decide) _
    _ = 10 ^ (10 * n.length) := by rw [← pow_mul]

/-- **C36 (output).** The text of every number is the usual decimal text, with a minus sign for a
negative number, and fits the buffer; the exception is negative zero, printed as a lone sign. -/
theorem toText_spec {n : Bn} (hn : Wf n) (fuel : Nat) (hf : mag n < fuel) :
    toText fuel n = some (some (if n.neg then (if mag n = 0 then [45] else 45 :: decimal (mag n)) else decimal (mag n))) := by
  unfold toText
  rw [toStringLoop_spec fuel n hn hf]
  have hroom := digits_room hn
  have hlz := wf_zero_iff hn
  have hsh : n.length <<< 6 = 64 * n.length := by rw [Nat.shiftLeft_eq]; omega
  have hdz : mag n ≠ 0 → Nat.digits 10 (mag n) ≠ [] := fun h => by simpa [Nat.digits_eq_nil_iff_eq_zero] using h
  unfold textBuffer decimal
  rw [hsh]
  show (if _ then _ else _) = _
  have hl0 : mag n = 0 → n.length = 0 := hlz.2
  have hl1 : mag n ≠ 0 → n.length ≠ 0 := fun h h' => h (hlz.1 h')
  cases hneg : n.neg
  · by_cases hz : mag n = 0
    · rw [hz, hl0 hz]; simp
    · have hne := hdz hz
      have := hl1 hz
      simp [hz, hne, this]
      omega
  · by_cases hz : mag n = 0
    · rw [hz, hl0 hz]; simp
    · have hne := hdz hz
      have := hl1 hz
      simp [hz, hne, this]
      omega

/-- **C36 (round trip).** Reading the text of a number (terminated by a zero byte) gives back the
identical number, for all numbers of up to 2056 decimal digits. -/
theorem text_roundtrip_partial {n : Bn} (hn : Wf n) (fuel : Nat) (hf : mag n < fuel) (hl : mag n < 10 ^ 2056) :
    ∃ t, toText fuel n = some (some t) ∧ assign (t ++ [0]) t.length = some (some n) := by
  refine ⟨_, toText_spec hn fuel hf, ?_⟩
  by_cases hz : mag n = 0
  · have hw : ∀ neg, Wf { zero with neg := neg } := fun neg => wf_neg wf_zero neg
    have hn' : n = { zero with neg := n.neg } := wf_ext hn (hw n.neg) rfl (by rw [hz]; exact mag_zero.symm)
    rw [hn']
    cases n.neg
    · show assign ([48] ++ [0]) 1 = _
      decide +kernel
    · show assign ([45] ++ [0]) 1 = _
      decide +kernel
  · have hdl : (Nat.digits 10 (mag n)).reverse.length ≤ 2056 := by
      rw [List.length_reverse, Nat.digits_length_le_iff (by decide)]; exact hl
    have hdd : ∀ d ∈ (Nat.digits 10 (mag n)).reverse, d < 10 := fun d hd => Nat.digits_lt_base (by decide) (List.mem_reverse.1 hd)
    have hdne : (Nat.digits 10 (mag n)) ≠ [] := by simpa [Nat.digits_eq_nil_iff_eq_zero] using hz
    have hdh : (Nat.digits 10 (mag n)).reverse.head? ≠ some 0 := by
      rw [List.head?_reverse, List.getLast?_eq_some_getLast hdne]
      intro h
      exact Nat.getLast_digit_ne_zero 10 hz (Option.some.inj h)
    have hnum : number 10 (Nat.digits 10 (mag n)).reverse = mag n := by
      rw [number_eq, List.reverse_reverse, Nat.ofDigits_digits]
    obtain ⟨⟨p, ep, wp, np, mp⟩, ⟨q, eq, wq, nq, mq⟩⟩ := assign_dec (Nat.digits 10 (mag n)).reverse [0] hdd hdh (by simpa using hdne) hdl
    unfold decimal
    rw [if_neg hz, if_neg hz]
    cases hneg : n.neg
    · simp only [Bool.false_eq_true, if_false, List.length_map]
      rw [ep, wf_ext wp hn (by rw [np, hneg]) (by rw [mp, hnum])]
    · simp only [if_true, List.length_cons, List.length_map]
      have : (45 :: (Nat.digits 10 (mag n)).reverse.map (48 + ·)) ++ [0] = [45] ++ (Nat.digits 10 (mag n)).reverse.map (48 + ·) ++ [0] := rfl
      rw [this, eq, wf_ext wq hn (by rw [nq, hneg]) (by rw [mq, hnum])]

/-- Code defect: the text of every larger number is refused on input. -/
theorem text_roundtrip_large {n : Bn} (hn : Wf n) (hp : n.neg = false) (fuel : Nat) (hf : mag n < fuel) (hl : 10 ^ 2056 ≤ mag n) :
    ∃ t, toText fuel n = some (some t) ∧ assign (t ++ [0]) t.length = some none := by
  have hz : mag n ≠ 0 := by
    intro h; rw [h] at hl
    exact absurd hl (Nat.not_le.2 (Nat.pow_pos (by decide)))
  refine ⟨_, toText_spec hn fuel hf, ?_⟩
  have hdd : ∀ d ∈ (Nat.digits 10 (mag n)).reverse, d < 10 := fun d hd => Nat.digits_lt_base (by decide) (List.mem_reverse.1 hd)
  have hdne : (Nat.digits 10 (mag n)) ≠ [] := by simpa [Nat.digits_eq_nil_iff_eq_zero] using hz
  have hdh : (Nat.digits 10 (mag n)).reverse.head? ≠ some 0 := by
    rw [List.head?_reverse, List.getLast?_eq_some_getLast hdne]
    intro h
    exact Nat.getLast_digit_ne_zero 10 hz (Option.some.inj h)
  have hlong : 2056 < (Nat.digits 10 (mag n)).reverse.length := by
    rw [List.length_reverse]
    by_contra h
    exact absurd ((Nat.digits_length_le_iff (by decide) _).1 (Nat.not_lt.1 h)) (Nat.not_lt.2 hl)
  have := assign_dec_long (Nat.digits 10 (mag n)).reverse [0] hdd hdh hlong
  unfold decimal
  rw [hp, if_neg hz]
  simpa [hz] using this

/-! Instances, among them the octal defect: `01000` is read as 256 instead of 512. -/
example : (assign ("-0xDeadBeef00".toList.map Char.toNat) 13).map (Option.map value) = some (some (-956397711104)) := by decide +kernel
example : (assign ("01000".toList.map Char.toNat) 5).map (Option.map value) = some (some 256) := by decide +kernel
example : (assign ("0777".toList.map Char.toNat) 4).map (Option.map value) = some none := by decide +kernel
example : (assign ("12345678901".toList.map Char.toNat) 11).map (Option.map value) = some (some 12345678901) := by decide +kernel
example : toText 20 { word 10 with neg := true } = some (some ("-10".toList.map Char.toNat)) := by decide +kernel
example : toText 20 { zero with neg := true } = some (some ("-".toList.map Char.toNat)) := by decide +kernel

/-! ## Duplicates (C69) -/

/-- **C69.** A duplicate has the sign, the length and the limbs in use of the original, and the
comparison function finds them equal in both orders, whatever the new memory held. -/
theorem dup_partial {n : Bn} (hn : Wf n) (fresh : List Nat) (hf : fresh.length = 257) :
    (dup fresh n).neg = n.neg ∧ (dup fresh n).length = n.length ∧ (dup fresh n).data.length = 257 ∧ nat ((dup fresh n).data.take n.length) = mag n ∧
      compare (dup fresh n) n = some 0 ∧ compare n (dup fresh n) = some 0 := by
  have hl := wf_length_le hn
  have htl : (n.data.take n.length).length = n.length := by rw [List.length_take, hn.size]; omega
  have htake : (dup fresh n).data.take n.length = n.data.take n.length := by
    show (n.data.take n.length ++ fresh.drop n.length).take n.length = _
    rw [List.take_append_of_le_length (by omega), List.take_take, Nat.min_self]
  have hget : ∀ i < n.length, (dup fresh n).data[i]? = n.data[i]? := by
    intro i hi
    have h1 : ((dup fresh n).data.take n.length)[i]? = (n.data.take n.length)[i]? := by rw [htake]
    rwa [List.getElem?_take_of_lt hi, List.getElem?_take_of_lt hi] at h1
  have hcmp : ∀ k ≤ n.length, cmpLoop (dup fresh n).data n.data k = some 0 ∧ cmpLoop n.data (dup fresh n).data k = some 0 := by
    intro k
    induction k with
    | zero => intro _; exact ⟨rfl, rfl⟩
    | succ k ih =>
      intro hk
      obtain ⟨i1, i2⟩ := ih (by omega)
      have hkl : k < n.data.length := by rw [hn.size]; omega
      have hk' : n.data[k]? = some n.data[k] := List.getElem?_eq_getElem hkl
      unfold cmpLoop
      rw [hget k (by omega), hk']
      simp [i1, i2]
  have hc := hcmp n.length (le_refl _)
  refine ⟨rfl, rfl, ?_, ?_, ?_, ?_⟩
  · show (n.data.take n.length ++ fresh.drop n.length).length = 257
    rw [List.length_append, htl, List.length_drop, hf]; omega
  · rw [htake]; exact nat_take_of_lt _ _ hn.below
  · unfold compare
    rw [show (dup fresh n).length = n.length from rfl, show (dup fresh n).neg = n.neg from rfl, hc.1]
    simp
  · unfold compare
    rw [show (dup fresh n).length = n.length from rfl, show (dup fresh n).neg = n.neg from rfl, hc.2]
    simp

/-- When the new memory is zero above the length, the duplicate is the identical number. -/
theorem dup_zeroed {n : Bn} (hn : Wf n) : dup (List.replicate 257 0) n = n := by
  have h := nat_drop_replicate n.data n.length hn.below
  unfold dup
  rw [List.drop_replicate, ← hn.size, ← h, List.take_append_drop]

/-- Code defect: the addition reads the limbs above the length, which the duplicate leaves
uninitialised.  Here 2^32 plus the duplicate of 1 comes out as 2^32 * 6 + 1. -/
theorem dup_add_wrong : (add ⟨false, 2, [0, 1] ++ List.replicate 255 0⟩ (dup (List.replicate 257 5) (word 1))).map (fun r => nat (r.1.data.take r.1.length)) = some (B * 6 + 1) := by
  decide +kernel

example : compare (dup (List.replicate 257 5) (word 1)) (word 1) = some 0 := by decide +kernel

end Verif.Bn
