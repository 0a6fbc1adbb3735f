import Verif.FecProps

/-
Sizes and refusals of the forward error correction (src/mln_fec.c): a FEC packet and a restored packet
fit into one datagram payload of 1472 bytes, and what the two entry functions refuse.
-/
namespace Verif.Fec

/-- The FEC packet with its padding has at most 1472 bytes. -/
theorem generate_fits (pt sq : Nat) (ps : List Packet) (f : Packet) (h : generate pt sq ps = some f) : f.length ≤ 1472 := by
  unfold generate at h
  split at h
  · cases h
  · rename_i b hb
    simp only at h
    split at h
    · cases h
    · rename_i hn
      cases h
      have l8 : (((ps.getLastD []).drop 4).take 8).length ≤ 8 := by simp
      simp only [List.length_append, BigEndian.be_length, List.length_cons, List.length_nil] at *
      split
      · simp only [List.length_nil]; omega
      · simp only [List.length_append, List.length_replicate, List.length_cons, List.length_nil]; omega

theorem groups_fit (pt g : Nat) : ∀ (fuel sq : Nat) (ps fs : List Packet) (sq' : Nat), groups pt g fuel sq ps = some (fs, sq') →
    ∀ f ∈ fs, f.length ≤ 1472 := by
  intro fuel
  induction fuel with
  | zero =>
    intro sq ps fs sq' h
    cases ps with
    | nil => simp [groups] at h; rw [h.1]; simp
    | cons p ps => simp [groups] at h
  | succ fuel ih =>
    intro sq ps fs sq' h
    cases ps with
    | nil => simp [groups] at h; rw [h.1]; simp
    | cons p ps =>
      simp only [groups] at h
      split at h
      · cases h
      · split at h
        · cases h
        · rename_i f hf
          split at h
          · cases h
          · rename_i fs' sq'' hg
            cases h
            intro x hx
            rcases List.mem_cons.1 hx with rfl | hx
            · exact generate_fits _ _ _ _ hf
            · exact ih _ _ _ _ hg x hx

/-- Every packet mln_fec_encode returns has at most 1472 bytes. -/
theorem encode_fits (pt sq g : Nat) (ps fs : List Packet) (sq' : Nat) (h : encode pt sq ps g = some (some (fs, sq'))) :
    ∀ f ∈ fs, f.length ≤ 1472 := by
  unfold encode at h
  split at h
  · cases h
  · split at h
    · cases h
    · cases hg : groups pt g ps.length sq ps with
      | none => rw [hg] at h; cases h
      | some r =>
        rw [hg] at h
        cases h
        exact groups_fit _ _ _ _ _ _ _ hg

/-- A group size of 0 or beyond 48, no packets, or a packet below 12 or beyond 1442 bytes: EINVAL. -/
theorem encode_refuses (pt sq g : Nat) (ps : List Packet)
    (h : ps = [] ∨ g = 0 ∨ 48 < g ∨ ∃ p ∈ ps, p.length < 12 ∨ 1442 < p.length) : encode pt sq ps g = some none := by
  unfold encode
  split
  · rfl
  · rename_i hn
    rw [if_pos]
    rcases h with h | h | h | ⟨p, hp, h⟩
    · exact absurd (Or.inl h) hn
    · exact absurd (Or.inr (Or.inr h)) hn
    · exact absurd (Or.inr (Or.inl h)) hn
    · exact List.any_eq_true.2 ⟨p, hp, by simpa using h⟩

/-- Two or more FEC packets among the received ones: an error, never a packet or an empty result. -/
theorem decode_two_fec (pt : Nat) (R : List Packet) (h : 2 ≤ (R.filter (isFec pt)).length) : decode pt R = some .fail := by
  unfold decode
  split
  · rfl
  · split
    · rfl
    · cases hf : R.filter (isFec pt) with
      | nil => rw [hf] at h; simp at h
      | cons f t =>
        cases t with
        | nil => rw [hf] at h; simp at h
        | cons a t => rfl

/-- No FEC packet, packets of good lengths: an empty result. -/
theorem decode_no_fec (pt : Nat) (R : List Packet) (hne : R ≠ []) (hl : ∀ p ∈ R, 12 ≤ p.length ∧ p.length ≤ 1472)
    (h : ∀ p ∈ R, isFec pt p = false) : decode pt R = some .nothing := by
  unfold decode
  rw [if_neg hne, if_neg (by
    rw [List.any_eq_true]
    rintro ⟨p, hp, e⟩
    have := hl p hp
    rw [h p hp] at e
    simp at e
    omega), List.filter_eq_nil_iff.2 (fun p hp => by rw [h p hp]; simp)]

/-- An empty input or a packet of a bad length: an error. -/
theorem decode_refuses (pt : Nat) (R : List Packet) (h : R = [] ∨ ∃ p ∈ R, p.length < 12 ∨ 1472 < p.length) : decode pt R = some .fail := by
  unfold decode
  split
  · rfl
  · rename_i hne
    rw [if_pos]
    rcases h with h | ⟨p, hp, h⟩
    · exact absurd h hne
    · exact List.any_eq_true.2 ⟨p, hp, by simp only [decide_eq_true_eq]; omega⟩

/-- The restored packet fits into the buffer of 1472 bytes. -/
theorem decode_fits (pt : Nat) (R : List Packet) (p : Packet) (h : decode pt R = some (.packet p)) : p.length ≤ 1472 := by
  unfold decode at h
  split at h
  · cases h
  · split at h
    · cases h
    · split at h
      · cases h
      · rename_i f _
        cases hh : decHeader pt f R with
        | none => rw [hh] at h; cases h
        | some d =>
          rw [hh] at h
          cases d with
          | fail => cases h
          | nothing => cases h
          | ok hd n =>
            have l12 : hd.length ≤ 12 := by
              unfold decHeader at hh
              generalize isLong f = g at hh
              simp only at hh
              cases hl : loop pt (num f 14 2) g (fun t p => fxor t (bits p)) R (maskIn f) (List.replicate 10 0) with
              | none => rw [hl] at hh; cases hh
              | some rm =>
                rw [hl] at hh
                simp only at hh
                by_cases h0 : rm.2 = 0
                · rw [if_pos h0] at hh; cases hh
                · rw [if_neg h0] at hh
                  by_cases h1 : (lowest 64 0 rm.2).2 = 0
                  swap
                  · rw [if_pos h1] at hh; cases hh
                  · rw [if_neg (by simpa using h1)] at hh
                    cases hh
                    simp only [List.length_append, BigEndian.be_length, List.length_cons, List.length_nil, List.length_take]
                    omega
            cases hb : decBody pt f R n with
            | none => simp [hb] at h
            | some b =>
              simp only [hb, Option.map_some, Option.some.injEq, Res.packet.injEq] at h
              subst h
              unfold decBody at hb
              generalize isLong f = g at hb
              simp only at hb
              by_cases hz : num f 22 2 > 1472 ∨ (if g = true then 30 else 26) < f.length ∧ (num f 22 2 < 12 ∨ f.length < (if g = true then 30 else 26) + (num f 22 2 - 12))
              · rw [if_pos hz] at hb; cases hb
              · rw [if_neg hz] at hb
                generalize loop pt _ _ _ _ _ _ = lp at hb
                cases lp with
                | none => cases hb
                | some rm =>
                  simp only at hb
                  by_cases hn : rm.1.length < 12 + n ∨ 1472 < 12 + n
                  · rw [if_pos hn] at hb; cases hb
                  · rw [if_neg hn] at hb
                    cases hb
                    simp only [List.length_append, List.length_take]
                    omega
      · cases h

example : encode 127 0 [List.replicate 1443 0x80] 1 = some none := encode_refuses _ _ _ _ (Or.inr (Or.inr (Or.inr ⟨_, List.mem_singleton.2 rfl, Or.inr (by rw [List.length_replicate]; decide)⟩)))
example : decode 96 [List.replicate 26 96, List.replicate 26 96] = some .fail := by decide +kernel
set_option maxRecDepth 4000 in
example : (generate 127 5 [List.replicate 40 0x80]).map List.length = some 56 := by decide +kernel

end Verif.Fec
