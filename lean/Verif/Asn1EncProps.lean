import Verif.Asn1Props
import Mathlib.Data.List.Sort

/-
DER encoding: the bytes built by the mln_asn1_encode_* functions (C46), canonical SET OF order
(C70), bit strings (C71), and what a failed allocation leaves behind.
-/

namespace Verif.Asn1

/-- The state the encoders keep: the size field is the total length, the slots in use fit. -/
def Good (r : En) : Prop := r.size = r.contents.flatten.length ∧ r.contents.length ≤ r.max ∧ r.max = r.cap ∧ 32 ≤ r.max

theorem init_good : Good En.init := ⟨rfl, by simp [En.init], rfl, by simp [En.init]⟩

/-- Adding a string writes inside the slots. -/
theorem addContent_spec (r : En) (b : List Nat) (h1 : r.contents.length ≤ r.max) (h2 : r.max = r.cap) (h3 : 32 ≤ r.max) :
    ∃ r', addContent true r b = some (true, r') ∧ r'.contents = r.contents ++ [b] ∧ r'.size = r.size ∧ r'.cls = r.cls ∧ r'.isStruct = r.isStruct ∧ r'.ident = r.ident ∧
      r'.contents.length ≤ r'.max ∧ r'.max = r'.cap ∧ 32 ≤ r'.max := by
  unfold addContent
  by_cases h : r.contents.length = r.max
  · rw [if_pos h]
    simp only [if_true]
    rw [if_pos (by omega)]
    exact ⟨_, rfl, rfl, rfl, rfl, rfl, rfl, by simp; omega, rfl, by simp; omega⟩
  · rw [if_neg h, if_pos (by omega)]
    exact ⟨_, rfl, rfl, rfl, rfl, rfl, rfl, by simp; omega, h2, h3⟩

theorem tag_spec (r : En) (s : Bool) (d : Nat) (hc : r.cls < 4) (hi : r.ident < 32) : tag r s d = 64 * r.cls + (if s then 32 else 0) + r.ident := by
  have key : ∀ c < 4, ∀ i < 32, ∀ s : Bool, ((c <<< 6) ||| (if s then 1 <<< 5 else 0) ||| (i &&& 0x1f)) % 256 = 64 * c + (if s then 32 else 0) + i := by decide +kernel
  unfold tag
  rw [if_pos (show r.ident ≠ idNone by show r.ident ≠ 0xfffffff; omega)]
  exact key r.cls hc r.ident hi s

/-- With no identifier set the encoder uses its own universal tag. -/
theorem tag_default (r : En) (s : Bool) (d : Nat) (hc : r.cls < 4) (hi : r.ident = idNone) (hd : d < 32) : tag r s d = 64 * r.cls + (if s then 32 else 0) + d := by
  have key : ∀ c < 4, ∀ i < 32, ∀ s : Bool, ((c <<< 6) ||| (if s then 1 <<< 5 else 0) ||| i) % 256 = 64 * c + (if s then 32 else 0) + i := by decide +kernel
  unfold tag
  rw [if_neg (show ¬ r.ident ≠ idNone by simp [hi])]
  exact key r.cls hc d hd s

/-- A primitive encoder appends tag, DER length octets and the content, and accounts for them. -/
theorem encodePrim_spec (r : En) (hg : Good r) (d : Nat) (content : List Nat) (hn : content.length < 18446744073709551616) :
    ∃ r', encodePrim true true d content r = some (true, r') ∧ r'.contents = r.contents ++ [tag r r.isStruct d :: (derLen content.length ++ content)] ∧
      Good r' ∧ r'.cls = r.cls ∧ r'.isStruct = r.isStruct ∧ r'.ident = r.ident := by
  obtain ⟨g1, g2, g3, g4⟩ := hg
  obtain ⟨l1, l2⟩ := lengthFill_spec content.length hn
  rw [l1] at l2
  unfold encodePrim
  simp only [Bool.not_true, Bool.false_eq_true, if_false, l1]
  rw [if_neg (by rw [l2]; simp; omega)]
  obtain ⟨r', e, h1, h2, h3, h4, h5, h6, h7, h8⟩ := addContent_spec r (tag r r.isStruct d :: (derLen content.length ++ content)) g2 g3 g4
  rw [e]
  simp only [Option.bind_eq_bind, Option.bind_some, if_true]
  refine ⟨_, rfl, h1, ⟨?_, h6, h7, h8⟩, h3, h4, h5⟩
  show r'.size + _ = r'.contents.flatten.length
  rw [h2, h1, List.flatten_append, List.length_append, g1, l2]
  simp
  omega

/-- A constructed encoder replaces the contents by one value holding them, in the given order. -/
theorem encodeCons_spec (order : List (List Nat) → List (List Nat)) (hord : ∀ l, (order l).Perm l) (r : En) (hg : Good r) (d : Nat) (hn : r.contents.flatten.length < 18446744073709551616) :
    ∃ r', encodeCons order true true d r = some (true, r') ∧ r'.contents = [tag r true d :: (derLen r.contents.flatten.length ++ (order r.contents).flatten)] ∧
      Good r' ∧ r'.cls = r.cls ∧ r'.isStruct = r.isStruct ∧ r'.ident = r.ident := by
  obtain ⟨g1, g2, g3, g4⟩ := hg
  obtain ⟨l1, l2⟩ := lengthFill_spec r.contents.flatten.length hn
  have hp : (order r.contents).flatten.length = r.contents.flatten.length := (List.Perm.flatten (hord r.contents)).length_eq
  rw [l1] at l2
  unfold encodeCons
  simp only [Bool.not_true, Bool.false_eq_true, if_false, g1, l1]
  rw [if_neg (by rw [l2]; simp only [ne_eq, not_not, List.length_cons, List.length_append, hp]; omega)]
  obtain ⟨r', e, h1, h2, h3, h4, h5, h6, h7, h8⟩ := addContent_spec { r with contents := [], size := r.contents.flatten.length } (tag r true d :: (derLen r.contents.flatten.length ++ (order r.contents).flatten)) (by simp) g3 g4
  rw [e]
  simp only [Option.bind_eq_bind, Option.bind_some, if_true]
  refine ⟨_, rfl, h1, ⟨?_, h6, h7, h8⟩, h3, h4, h5⟩
  show lengthCalc _ = r'.contents.flatten.length
  rw [h1, l2]
  simp only [List.nil_append, List.flatten_cons, List.flatten_nil, List.append_nil, List.length_cons, List.length_append, hp]
  omega

theorem merge_go_spec (src : En) : ∀ (ss : List (List Nat)) (dest : En), dest.contents.length ≤ dest.max → dest.max = dest.cap → 32 ≤ dest.max →
    ∃ r', merge.go src [] ss dest = some (true, r') ∧ r'.contents = dest.contents ++ ss ∧ r'.size = dest.size + src.size ∧ r'.cls = dest.cls ∧ r'.isStruct = dest.isStruct ∧ r'.ident = dest.ident ∧
      r'.contents.length ≤ r'.max ∧ r'.max = r'.cap ∧ 32 ≤ r'.max := by
  intro ss
  induction ss with
  | nil => intro dest h1 h2 h3; exact ⟨_, rfl, by simp, rfl, rfl, rfl, rfl, h1, h2, h3⟩
  | cons s ss ih =>
    intro dest h1 h2 h3
    unfold merge.go
    simp only [List.headD_nil, Bool.not_true, Bool.false_eq_true, if_false, List.tail_nil]
    obtain ⟨r1, e, c1, c2, c3, c4, c5, c6, c7, c8⟩ := addContent_spec dest s h1 h2 h3
    rw [e]
    simp only [Option.bind_eq_bind, Option.bind_some, if_true]
    obtain ⟨r', e, d1, d2, d3, d4, d5, d6, d7, d8⟩ := ih r1 c6 c7 c8
    exact ⟨r', e, by rw [d1, c1]; simp, by rw [d2, c2], by rw [d3, c3], by rw [d4, c4], by rw [d5, c5], d6, d7, d8⟩

/-- Merging appends the source's strings. -/
theorem merge_spec (dest src : En) (hd : Good dest) (hs : Good src) : ∃ r', merge [] dest src = some (true, r') ∧ r'.contents = dest.contents ++ src.contents ∧ Good r' ∧
    r'.cls = dest.cls ∧ r'.isStruct = dest.isStruct ∧ r'.ident = dest.ident := by
  obtain ⟨g1, g2, g3, g4⟩ := hd
  obtain ⟨r', e, d1, d2, d3, d4, d5, d6, d7, d8⟩ := merge_go_spec src src.contents dest g2 g3 g4
  exact ⟨r', e, d1, ⟨by rw [d2, d1, g1, hs.1]; simp, d6, d7, d8⟩, d3, d4, d5⟩

/-! ### Building a tree with the API -/

mutual
/-- The calls that build a tree: a new result per value; a primitive value sets class and
identifier and encodes its bytes; a constructed one merges its children, sets class and
identifier and encodes a sequence. -/
def build : Tree → Option En
  | .prim c i b => do
    let (ok, r) ← encodePrim true true 4 b { En.init with cls := c, ident := i }
    if ok then some r else none
  | .cons c i ks => do
    let r ← builds ks En.init
    let (ok, r) ← encodeCons id true true 16 { r with cls := c, ident := i }
    if ok then some r else none
def builds : List Tree → En → Option En
  | [], r => some r
  | t :: ts, r => do
    let s ← build t
    let (ok, r) ← merge [] r s
    if ok then builds ts r else none
end

theorem build_aux : ∀ k : Nat,
    (∀ t, sizeOf t < k → Wf t → (der t).length < 18446744073709551616 → ∃ r, build t = some r ∧ r.contents = [der t] ∧ Good r) ∧
    (∀ ts r0, sizeOf ts < k → Wfs ts → Good r0 → r0.isStruct = false → (ders ts).length < 18446744073709551616 →
      ∃ r, builds ts r0 = some r ∧ r.contents.flatten = r0.contents.flatten ++ ders ts ∧ Good r ∧ r.isStruct = false) := by
  intro k
  induction k with
  | zero => exact ⟨fun _ h => by omega, fun _ _ h => by omega⟩
  | succ k ih =>
    obtain ⟨iht, ihts⟩ := ih
    constructor
    · intro t hk hw hn
      cases t with
      | prim c i b =>
        obtain ⟨hc, hi⟩ := hw
        simp only [der, List.length_cons, List.length_append] at hn
        unfold build
        obtain ⟨r', e, h1, h2, _⟩ := encodePrim_spec { En.init with cls := c, ident := i } init_good 4 b (by omega)
        rw [e]
        refine ⟨r', rfl, ?_, h2⟩
        rw [h1, tag_spec _ _ _ (by exact hc) (by exact hi)]
        simp [En.init, der]
      | cons c i ks =>
        obtain ⟨hc, hi, hks⟩ := hw
        simp only [der, List.length_cons, List.length_append] at hn
        unfold build
        obtain ⟨r, e, h1, h2, h3⟩ := ihts ks En.init (by simp at hk; omega) hks init_good rfl (by omega)
        rw [e]
        simp only [Option.bind_eq_bind, Option.bind_some]
        have h1' : r.contents.flatten = ders ks := by rw [h1]; simp [En.init]
        obtain ⟨r', e', c1, c2, _⟩ := encodeCons_spec id (fun l => List.Perm.refl l) { r with cls := c, ident := i } h2 16 (by show r.contents.flatten.length < _; rw [h1']; omega)
        rw [e']
        refine ⟨r', rfl, ?_, c2⟩
        rw [c1, tag_spec _ _ _ (by exact hc) (by exact hi)]
        simp [der, h1']
    · intro ts r0 hk hw hg hs hn
      cases ts with
      | nil => exact ⟨r0, rfl, by simp [ders], hg, hs⟩
      | cons t ts =>
        obtain ⟨hw1, hw2⟩ := hw
        simp only [ders, List.length_append] at hn
        unfold builds
        obtain ⟨s, e, h1, h2⟩ := iht t (by simp at hk; omega) hw1 (by omega)
        rw [e]
        simp only [Option.bind_eq_bind, Option.bind_some]
        obtain ⟨r, e, c1, c2, c3, c4, c5⟩ := merge_spec r0 s hg h2
        rw [e]
        simp only [Option.bind_some, if_true]
        obtain ⟨r', e, d1, d2, d3⟩ := ihts ts r (by simp at hk; omega) hw2 c2 (by rw [c4]; exact hs) (by omega)
        refine ⟨r', e, ?_, d2, d3⟩
        rw [d1, c1, h1]
        simp [ders]

/-- **C46, encoding.** Building any tree with the API gives exactly its DER bytes. -/
theorem build_der (t : Tree) (hw : Wf t) (hn : (der t).length < 18446744073709551616) : ∃ r, build t = some r ∧ getContent r 0 = some (der t) := by
  obtain ⟨r, e, h, _⟩ := (build_aux (sizeOf t + 1)).1 t (by omega) hw hn
  exact ⟨r, e, by simp [getContent, h]⟩

/-- **C46.** Decoding what the API built for a tree gives the tree back. -/
theorem decode_build (sh : Nat → Nat → Nat) (t : Tree) (hw : Wf t) (hn : (der t).length < 2147483648) :
    ∃ r bytes n, build t = some r ∧ getContent r 0 = some bytes ∧ decodeBuf sh bytes = some (.ok (n, bytes.length, 0)) ∧ toTree bytes n = t := by
  obtain ⟨r, e, h⟩ := build_der t hw (by omega)
  obtain ⟨n, e', h1, _⟩ := decode_der sh t hw hn
  exact ⟨r, der t, n, e, h, e', h1⟩

/-! ### SET OF -/

theorem setofCmp_refl : ∀ a, setofCmp a a = 0 := by
  intro a
  induction a with
  | nil => rfl
  | cons x xs ih => simp [setofCmp, ih]

theorem setofCmp_antisymm : ∀ a b, setofCmp a b ≤ 0 → setofCmp b a ≤ 0 → a = b := by
  intro a
  induction a with
  | nil =>
    intro b h1 h2
    cases b with
    | nil => rfl
    | cons y ys => simp [setofCmp] at h2
  | cons x xs ih =>
    intro b h1 h2
    cases b with
    | nil => simp [setofCmp] at h1
    | cons y ys =>
      unfold setofCmp at h1 h2
      by_cases hxy : x < y
      · rw [if_neg (by omega), if_pos hxy] at h2; omega
      · by_cases hyx : y < x
        · rw [if_neg hxy, if_pos hyx] at h1; omega
        · rw [if_neg hxy, if_neg hyx] at h1
          rw [if_neg hyx, if_neg hxy] at h2
          rw [ih ys h1 h2, show x = y by omega]

theorem setofCmp_total : ∀ a b, setofCmp a b ≤ 0 ∨ setofCmp b a ≤ 0 := by
  intro a
  induction a with
  | nil => intro b; cases b <;> simp [setofCmp]
  | cons x xs ih =>
    intro b
    cases b with
    | nil => simp [setofCmp]
    | cons y ys =>
      unfold setofCmp
      by_cases hxy : x < y
      · rw [if_pos hxy]; left; omega
      · by_cases hyx : y < x
        · right; rw [if_pos hyx]; omega
        · rw [if_neg hxy, if_neg hyx, if_neg hyx, if_neg hxy]; exact ih ys

theorem setofCmp_trans : ∀ a b c, setofCmp a b ≤ 0 → setofCmp b c ≤ 0 → setofCmp a c ≤ 0 := by
  intro a
  induction a with
  | nil => intro b c _ _; cases c <;> simp [setofCmp]
  | cons x xs ih =>
    intro b c h1 h2
    cases b with
    | nil => simp [setofCmp] at h1
    | cons y ys =>
      cases c with
      | nil => simp [setofCmp] at h2
      | cons z zs =>
        unfold setofCmp at h1 h2 ⊢
        split at h1
        · split at h2
          · rw [if_pos (by omega)]; omega
          · split at h2
            · omega
            · rw [if_pos (by omega)]; omega
        · split at h1
          · omega
          · split at h2
            · rw [if_pos (by omega)]; omega
            · split at h2
              · omega
              · rw [if_neg (by omega), if_neg (by omega)]; exact ih ys zs h1 h2

/-- The comparison orders the values: sorting by it exists. -/
theorem setofCmp_sort (l : List (List Nat)) : ∃ s : List (List Nat), s.Perm l ∧ s.Pairwise fun a b => setofCmp a b ≤ 0 := by
  have : Std.Total (fun a b : List Nat => setofCmp a b ≤ 0) := ⟨setofCmp_total⟩
  have : IsTrans (List Nat) (fun a b : List Nat => setofCmp a b ≤ 0) := ⟨setofCmp_trans⟩
  exact ⟨l.insertionSort fun a b => setofCmp a b ≤ 0, List.perm_insertionSort _ _, List.pairwise_insertionSort _ _⟩

/-- **C70.** SET OF is canonical: whatever order the values were added in and however qsort
arranges equal ones, the bytes are the same. -/
theorem setof_canonical (sort sort' : List (List Nat) → List (List Nat)) (hp : ∀ l, (sort l).Perm l) (hp' : ∀ l, (sort' l).Perm l)
    (hs : ∀ l, (sort l).Pairwise fun a b => setofCmp a b ≤ 0) (hs' : ∀ l, (sort' l).Pairwise fun a b => setofCmp a b ≤ 0)
    (r r' : En) (hg : Good r) (hg' : Good r') (hperm : r.contents.Perm r'.contents) (hc : r.cls = r'.cls) (hi : r.ident = r'.ident) (hn : r.contents.flatten.length < 18446744073709551616) :
    ∃ q q', encodeCons sort true true 17 r = some (true, q) ∧ encodeCons sort' true true 17 r' = some (true, q') ∧ q.contents = q'.contents := by
  have hl : r.contents.flatten.length = r'.contents.flatten.length := (List.Perm.flatten hperm).length_eq
  obtain ⟨q, e, h1, _⟩ := encodeCons_spec sort hp r hg 17 hn
  obtain ⟨q', e', h1', _⟩ := encodeCons_spec sort' hp' r' hg' 17 (by rw [← hl]; exact hn)
  refine ⟨q, q', e, e', ?_⟩
  have ht : tag r true 17 = tag r' true 17 := by unfold tag; rw [hc, hi]
  have hso : sort r.contents = sort' r'.contents := by
    apply List.Perm.eq_of_pairwise (le := fun a b => setofCmp a b ≤ 0) (fun a b _ _ h1 h2 => setofCmp_antisymm a b h1 h2) (hs _) (hs' _)
    exact ((hp _).trans hperm).trans (hp' _).symm
  rw [h1, h1', ht, hl, hso]

/-! ### Bit strings -/

/-- Spec: bit `j` of a byte string, most significant bit of the first byte first. -/
def bitAt (l : List Nat) (j : Nat) : Bool := ((l[j / 8]?).getD 0).testBit (7 - j % 8)

theorem mask_bit : ∀ b < 256, ∀ u < 8, ∀ i < 8, ((((b >>> u) &&& 0xff) <<< u) % 256).testBit i = (decide (u ≤ i) && b.testBit i) := by decide +kernel

theorem last_split (l : List Nat) (h : l ≠ []) : l.getLast?.toList = [l.getLast h] := by
  rw [List.getLast?_eq_some_getLast h]; rfl

/-- **C71.** The content of a bit string is the number of unused bits (below 8) and the bits
given, the unused ones zero. -/
theorem bitContent_spec (bits : List Nat) (hb : ∀ x ∈ bits, x < 256) (nbits : Nat) (hn : nbits ≤ 8 * bits.length) :
    ∃ u data, bitContent bits nbits = some (u :: data) ∧ u < 8 ∧ 8 * data.length = nbits + u ∧ ∀ j < 8 * data.length, bitAt data j = (decide (j < nbits) && bitAt bits j) := by
  have hget : ∀ (l : List Nat) (m j : Nat), j < 8 * m → bitAt (l.take m) j = bitAt l j := by
    intro l m j hj
    unfold bitAt
    rw [List.getElem?_take, if_pos (by omega)]
  unfold bitContent
  simp only
  by_cases h8 : nbits % 8 = 0
  · simp only [h8, ne_eq, not_true_eq_false, if_false]
    rw [if_neg (by omega)]
    refine ⟨0, _, rfl, by omega, by rw [List.length_take]; omega, ?_⟩
    intro j hj
    rw [List.length_take] at hj
    rw [hget bits (1 + nbits / 8 - 1) j (by omega)]
    simp
    intro
    omega
  · simp only [ne_eq, h8, not_false_eq_true, if_true]
    rw [if_neg (by omega)]
    rw [show 1 + (nbits / 8 + 1) - 1 = nbits / 8 + 1 by omega]
    have hlen : (bits.take (nbits / 8 + 1)).length = nbits / 8 + 1 := by rw [List.length_take]; omega
    have hne : bits.take (nbits / 8 + 1) ≠ [] := by intro h; rw [h] at hlen; simp at hlen
    rw [last_split _ hne, List.map_singleton]
    have hlast : (bits.take (nbits / 8 + 1)).getLast hne = (bits[nbits / 8]?).getD 0 := by
      rw [List.getLast_eq_getElem]
      simp only [hlen, Nat.add_sub_cancel, List.getElem_take]
      rw [List.getElem?_eq_getElem (by omega)]
      rfl
    have hl256 : (bits[nbits / 8]?).getD 0 < 256 := by
      rw [List.getElem?_eq_getElem (by omega)]
      exact hb _ (List.getElem_mem _)
    rw [hlast]
    have hdl : (bits.take (nbits / 8 + 1)).dropLast = bits.take (nbits / 8) := by
      rw [List.dropLast_eq_take, hlen, List.take_take]
      congr 1
      omega
    rw [hdl]
    have hlen2 : (bits.take (nbits / 8)).length = nbits / 8 := by rw [List.length_take]; omega
    refine ⟨8 - nbits % 8, _, rfl, by omega, by simp only [List.length_append, hlen2, List.length_singleton]; omega, ?_⟩
    intro j hj
    simp only [List.length_append, hlen2, List.length_singleton] at hj
    by_cases hj2 : j < 8 * (nbits / 8)
    · have e : bitAt (bits.take (nbits / 8) ++ [((((bits[nbits / 8]?).getD 0) >>> (8 - nbits % 8) &&& 0xff) <<< (8 - nbits % 8)) % 256]) j = bitAt (bits.take (nbits / 8)) j := by
        unfold bitAt
        rw [List.getElem?_append_left (by omega)]
      rw [e, hget _ _ _ hj2]
      simp
      intro
      omega
    · have e : j / 8 = nbits / 8 := by omega
      unfold bitAt
      rw [List.getElem?_append_right (by omega), hlen2, e, Nat.sub_self]
      simp only [List.getElem?_cons_zero, Option.getD_some]
      rw [mask_bit _ hl256 _ (by omega) _ (by omega)]
      congr 1
      have : (8 - nbits % 8 ≤ 7 - j % 8) ↔ j < nbits := by omega
      simp [this]

/-! ### Failed allocations -/

/-- When growing the slots fails the field max has already been raised: the next string is
written past the slots. -/
theorem addContent_after_failure (r : En) (hg : Good r) (hfull : r.contents.length = r.max) (b b' : List Nat) :
    ∃ r', addContent false r b = some (false, r') ∧ ∀ re, addContent re r' b' = none := by
  obtain ⟨g1, g2, g3, g4⟩ := hg
  unfold addContent
  rw [if_pos hfull]
  refine ⟨_, rfl, fun re => ?_⟩
  rw [if_neg (by show ¬ r.contents.length = r.max + r.max / 2; omega), if_neg (by show ¬ r.contents.length < r.cap; omega)]

/-- A merge whose second allocation fails keeps the first string without counting it: encoding a
sequence afterwards overruns its buffer. -/
theorem merge_failure_overflow (dest src : En) (hg : Good dest) (s1 s2 : List Nat) (ss : List (List Nat)) (hsrc : src.contents = s1 :: s2 :: ss) (hne : s1 ≠ []) (hn : dest.size < 18446744073709551616) (d : Nat) :
    ∃ r', merge [(true, true), (false, true)] dest src = some (false, r') ∧ encodeCons id true true d r' = none := by
  obtain ⟨g1, g2, g3, g4⟩ := hg
  obtain ⟨r1, e, c1, c2, _⟩ := addContent_spec dest s1 g2 g3 g4
  unfold merge
  rw [hsrc]
  unfold merge.go
  simp only [List.headD_cons, Bool.not_true, Bool.false_eq_true, if_false, e, Option.bind_eq_bind, Option.bind_some, if_true, List.tail_cons]
  unfold merge.go
  simp only [List.headD_cons, Bool.not_false, if_true]
  refine ⟨r1, rfl, ?_⟩
  unfold encodeCons
  obtain ⟨l1, l2⟩ := lengthFill_spec dest.size hn
  simp only [Bool.not_true, Bool.false_eq_true, if_false, c2, c1, l2, id]
  rw [if_pos]
  have : 0 < s1.length := List.length_pos_of_ne_nil hne
  simp only [List.flatten_append, List.length_cons, List.length_append, ← g1]
  simp
  omega

/-! ### Instances -/

def sample : Tree := .cons 0 16 [.prim 0 2 [5], .cons 2 3 [.prim 0 4 (List.replicate 200 7)], .prim 0 5 []]
def noSh : Nat → Nat → Nat := fun _ _ => 0

example : Wf sample := by simp [sample, Wf, Wfs]
example : (der sample).take 12 = [48, 129, 211, 2, 1, 5, 163, 129, 203, 4, 129, 200] := by decide +kernel
example : ((build sample).bind fun r => getContent r 0) = some (der sample) := by decide +kernel
example : (match decodeBuf noSh (der sample) with | some (.ok (n, p, l)) => some (der (toTree (der sample) n), p, l) | _ => none) = some (der sample, 214, 0) := by decide +kernel
example : bitContent [0xff, 0xff] 11 = some [5, 0xff, 0xe0] := by decide +kernel
example : (encodeCons (List.insertionSort fun a b => setofCmp a b ≤ 0) true true 17 { En.init with contents := [[4, 1, 9], [4, 1, 8]], size := 6 }).map (·.2.contents) = some [[49, 6, 4, 1, 8, 4, 1, 9]] := by decide +kernel

end Verif.Asn1
