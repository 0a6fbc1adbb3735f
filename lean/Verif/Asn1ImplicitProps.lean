import Verif.Asn1EncProps
/-
Implicit tags: what mln_asn1_encode_implicit does to the values collected in a result (C235).
-/
namespace Verif.Asn1

/-- Spec: the value with an implicit context-specific tag: the same contents and form under
another class and number. -/
def retag (i : Nat) : Tree → Tree
  | .prim _ _ b => .prim 2 i b
  | .cons _ _ ks => .cons 2 i ks

theorem retag_byte : ∀ c < 4, ∀ k < 32, ∀ i < 32,
    (((64 * c + k) &&& 0x20) ||| ((2 <<< 6) ||| i)) % 256 = 64 * 2 + i ∧
    (((64 * c + 32 + k) &&& 0x20) ||| ((2 <<< 6) ||| i)) % 256 = 64 * 2 + 32 + i := by decide +kernel

/-- **C235.** On a result that holds the encodings of the values `ts`, mln_asn1_encode_implicit with
a tag number below 32 gives the value at the index the implicit tag: same form, contents and length,
class context-specific, the given number.  All other values stay what they are. -/
theorem implicit_retags (r : En) (hg : Good r) (ts : List Tree) (hw : ∀ t ∈ ts, Wf t) (hc : r.contents = ts.map der) (i index : Nat) (hi : i < 32)
    (t : Tree) (ht : ts[index]? = some t) :
    ∃ r', encodeImplicit i index r = some (true, r') ∧ r'.contents = (ts.set index (retag i t)).map der ∧ Good r' ∧ r'.size = r.size ∧
      (∀ s ∈ ts.set index (retag i t), Wf s) := by
  have hlt : index < ts.length := (List.getElem?_eq_some_iff.mp ht).1
  have hwt : Wf t := hw t (List.mem_of_getElem? ht)
  have hlen : r.contents.length = ts.length := by rw [hc]; simp
  have hat : r.contents[index]? = some (der t) := by rw [hc]; simp [ht]
  have key : ∃ b bs, der t = b :: bs ∧ der (retag i t) = (((b &&& 0x20) ||| ((2 <<< 6) ||| i)) % 256) :: bs := by
    cases t with
    | prim c k b =>
      simp only [Wf] at hwt
      exact ⟨_, _, rfl, by rw [(retag_byte c hwt.1 k hwt.2 i hi).1]; simp [retag, der]⟩
    | cons c k ks =>
      simp only [Wf] at hwt
      exact ⟨_, _, rfl, by rw [(retag_byte c hwt.1 k hwt.2.1 i hi).2]; simp [retag, der]⟩
  obtain ⟨b, bs, e1, e2⟩ := key
  refine ⟨{ r with contents := r.contents.set index ((((b &&& 0x20) ||| ((2 <<< 6) ||| i)) % 256) :: bs) }, ?_, ?_, ?_, rfl, ?_⟩
  · unfold encodeImplicit
    rw [if_neg (by omega), hat, e1]
  · simp only
    rw [hc, ← e2, List.map_set]
  · obtain ⟨g1, g2, g3, g4⟩ := hg
    refine ⟨?_, by simpa using g2, g3, g4⟩
    simp only
    rw [g1]
    have hsplit : r.contents = r.contents.take index ++ (b :: bs) :: r.contents.drop (index + 1) := by
      have h1 : index < r.contents.length := by omega
      have h2 : r.contents[index] = b :: bs := by
        have := List.getElem?_eq_getElem h1
        rw [hat] at this
        rw [← Option.some.inj this, e1]
      rw [← h2]
      simp
    rw [List.set_eq_take_append_cons_drop, if_pos (by omega)]
    conv_lhs => rw [hsplit]
    simp
  · intro s hs
    rcases List.mem_or_eq_of_mem_set hs with h | h
    · exact hw s h
    · subst h
      cases t with
      | prim c k b => simp only [Wf] at hwt; exact ⟨by omega, hi⟩
      | cons c k ks => simp only [Wf] at hwt; exact ⟨by omega, hi, hwt.2.2⟩

/-- **C235.** An index that no value has is refused and nothing changes. -/
theorem implicit_range (r : En) (i index : Nat) (h : r.contents.length ≤ index) : encodeImplicit i index r = some (false, r) := by
  unfold encodeImplicit
  rw [if_pos (by omega)]

/-- **C235**, together with the decoder: a receiver reads the value back under the implicit tag. -/
theorem implicit_decodes (sh : Nat → Nat → Nat) (t : Tree) (hw : Wf t) (hn : (der t).length < 2147483648) (i : Nat) (hi : i < 32) :
    ∃ r r' bytes n, build t = some r ∧ encodeImplicit i 0 r = some (true, r') ∧ getContent r' 0 = some bytes ∧
      decodeBuf sh bytes = some (.ok (n, bytes.length, 0)) ∧ toTree bytes n = retag i t := by
  obtain ⟨r, e, h, hg⟩ := (build_aux (sizeOf t + 1)).1 t (by omega) hw (by omega)
  obtain ⟨r', e1, e2, -, -, hw'⟩ := implicit_retags r hg [t] (by simpa using hw) (by simpa using h) i 0 hi t rfl
  have hw2 : Wf (retag i t) := hw' _ (by simp)
  have hl : (der (retag i t)).length = (der t).length := by cases t <;> simp [retag, der]
  obtain ⟨n, e3, h1, _⟩ := decode_der sh (retag i t) hw2 (by omega)
  exact ⟨r, r', der (retag i t), n, e, e1, by simp [getContent, e2], e3, h1⟩

/-- **C236**, refuted: the number is put into the byte without a test.  With a number from 32 to 63
every primitive value comes out with the header of a constructed one with the number less 32. -/
theorem implicit_wide_number (r : En) (c k : Nat) (b : List Nat) (hc : c < 4) (hk : k < 32) (index i : Nat) (hi : i < 32) (hat : r.contents[index]? = some (der (.prim c k b))) :
    ∃ r', encodeImplicit (32 + i) index r = some (true, r') ∧ r'.contents[index]? = some ((64 * 2 + 32 + i) :: (derLen b.length ++ b)) := by
  have hlt : index < r.contents.length := (List.getElem?_eq_some_iff.mp hat).1
  have hb : ∀ c < 4, ∀ k < 32, ∀ i < 32, (((64 * c + k) &&& 0x20) ||| ((2 <<< 6) ||| (32 + i))) % 256 = 64 * 2 + 32 + i := by decide +kernel
  refine ⟨{ r with contents := r.contents.set index ((64 * 2 + 32 + i) :: (derLen b.length ++ b)) }, ?_, by simp [hlt]⟩
  unfold encodeImplicit
  rw [if_neg (by omega), hat]
  simp only [der, hb c hc k hk i hi]

example : (encodeImplicit 3 1 { En.init with contents := [[2, 1, 5], [48, 3, 2, 1, 7]], size := 8 }).map (fun p => (p.1, p.2.contents))
    = some (true, [[2, 1, 5], [0xa3, 3, 2, 1, 7]]) := by decide +kernel
example : (encodeImplicit 3 0 { En.init with contents := [[2, 1, 5]], size := 3 }).map (fun p => (p.1, p.2.contents)) = some (true, [[0x83, 1, 5]]) := by decide +kernel

end Verif.Asn1
