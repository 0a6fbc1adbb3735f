import Verif.Conn
/-
Properties of src/mln_connection.c: what is sent is a prefix of what was queued; what is lost, and
when M_C_FINISH is wrong; receiving.
-/
namespace Verif.Conn

/-! ## Specification -/

/-- The bytes of a queue. -/
def bytes (l : List Node) : List Byte :=
  l.flatMap fun
    | some b => b.left
    | none => []

/-- A queue of buffers in memory none of which is empty and marked as the last of its chain. -/
def Good (l : List Node) : Prop :=
  ∀ b, some b ∈ l → b.inMem = true ∧ b.inFile = false ∧ (b.last = true → b.left ≠ [])

/-- No buffer is both in memory and in a file. -/
def Flags (l : List Node) : Prop := ∀ b, some b ∈ l → ¬ (b.inMem = true ∧ b.inFile = true)

/-- The message at the head of a queue: up to the first buffer marked as last; and the rest. -/
def cut : List Node → List Node × List Node
  | [] => ([], [])
  | none :: c => (none :: (cut c).1, (cut c).2)
  | some b :: c => if b.last then ([some b], c) else (some b :: (cut c).1, (cut c).2)

/-! ## Bytes -/

theorem bytes_none (c) : bytes (none :: c) = bytes c := rfl
theorem bytes_some (b c) : bytes (some b :: c) = b.left ++ bytes c := rfl
theorem bytes_append (a b) : bytes (a ++ b) = bytes a ++ bytes b := by simp [bytes]

theorem gather_prefix : ∀ l k, (gather k l).flatten <+: bytes l := by
  intro l
  induction l with
  | nil => intro k; cases k <;> exact List.nil_prefix
  | cons a l ih =>
    intro k
    cases k with
    | zero => exact List.nil_prefix
    | succ k =>
      cases a with
      | none => rw [gather, bytes_none]; exact ih _
      | some b =>
        rw [gather, bytes_some]
        split
        · exact List.nil_prefix
        · split
          · rename_i h
            rw [h, List.nil_append]
            split
            · exact List.nil_prefix
            · exact ih _
          · rw [List.flatten_cons]
            apply (List.prefix_append_right_inj _).2
            split
            · exact List.nil_prefix
            · exact ih _

theorem advance_bytes : ∀ l k n, 0 < n → n ≤ (gather k l).flatten.length →
    bytes (advance n l).1 = (bytes l).drop n := by
  intro l
  induction l with
  | nil => intro k n _ _; cases k <;> simp [advance, bytes]
  | cons a l ih =>
    intro k n h0 hn
    cases k with
    | zero => simp only [gather, List.flatten_nil, List.length_nil] at hn; omega
    | succ k =>
      cases a with
      | none => rw [gather] at hn; rw [bytes_none]; exact ih (k + 1) n h0 hn
      | some b =>
        rw [gather] at hn
        rw [advance]
        by_cases hm : (!b.inMem) = true
        · rw [if_pos hm] at hn
          simp only [List.flatten_nil, List.length_nil] at hn; omega
        · rw [if_neg hm] at hn
          rw [if_neg hm]
          by_cases hl : b.left = []
          · rw [if_pos hl] at hn
            by_cases hla : b.last = true
            · rw [if_pos hla] at hn
              simp only [List.flatten_nil, List.length_nil] at hn; omega
            · rw [if_neg hla] at hn
              rw [if_neg (by simp [hl]), if_neg (by simp [hl, hla]; omega)]
              have := ih (k + 1) n h0 hn
              rw [bytes_some, hl]
              simpa using this
          · rw [if_neg hl] at hn
            rw [List.flatten_cons, List.length_append] at hn
            by_cases hlt : n < b.left.length
            · rw [if_pos hlt, bytes_some, bytes_some, List.drop_append_of_le_length (by omega)]
            · rw [if_neg hlt, bytes_some]
              by_cases hst : b.last = true ∨ n - b.left.length = 0
              · rw [if_pos hst]
                have : n = b.left.length := by
                  rcases hst with h | h
                  · rw [if_pos h] at hn
                    simp only [List.flatten_nil, List.length_nil] at hn; omega
                  · omega
                subst this
                simp
              · rw [if_neg hst]
                have hla : ¬ b.last = true := fun h => hst (.inl h)
                rw [if_neg hla] at hn
                have := ih k (n - b.left.length) (by omega) (by omega)
                dsimp only
                rw [this, List.drop_append]
                rw [List.drop_eq_nil_of_le (as := b.left) (by omega), List.nil_append]

theorem clip_pos (n v) : 0 < clip n v := by unfold clip; omega
theorem clip_le {n v} (h : v ≠ []) : clip n v ≤ v.length := by
  have := List.length_pos_of_ne_nil h
  unfold clip
  omega

theorem gather_ne {k l} (h : gather k l ≠ []) : (gather k l).flatten ≠ [] := by
  have key : ∀ l k, ∀ x ∈ gather k l, x ≠ [] := by
    intro l
    induction l with
    | nil => intro k x hx; cases k <;> cases hx
    | cons a l ih =>
      intro k x hx
      cases k with
      | zero => cases hx
      | succ k =>
        cases a with
        | none => rw [gather] at hx; exact ih _ x hx
        | some b =>
          rw [gather] at hx
          split at hx
          · cases hx
          · split at hx
            · split at hx
              · cases hx
              · exact ih _ x hx
            · rename_i hl
              rcases List.mem_cons.1 hx with rfl | hx
              · exact hl
              · split at hx
                · cases hx
                · exact ih _ x hx
  cases hg : gather k l with
  | nil => exact absurd hg h
  | cons a g =>
    have := key l k a (by rw [hg]; simp)
    simp [this]

/-- What a write takes goes to the wire, and the rest stays. -/
theorem took_bytes {t k n} (h : gather k t.snd ≠ []) :
    (took t (gather k t.snd).flatten (clip n (gather k t.snd).flatten)).1.wire ++
      bytes (took t (gather k t.snd).flatten (clip n (gather k t.snd).flatten)).1.snd =
      t.wire ++ bytes t.snd := by
  have hc := clip_le (n := n) (gather_ne h)
  unfold took
  dsimp only
  rw [advance_bytes t.snd k _ (clip_pos _ _) hc]
  obtain ⟨r, hr⟩ := gather_prefix t.snd k
  rw [← hr, List.append_assoc]
  congr 1
  rw [List.drop_append_of_le_length hc, ← List.append_assoc, List.take_append_drop]

/-! ## All queues: nothing twice, nothing out of order -/

/-- Nothing is lost; or the queue is empty, and what was taken is a prefix of what was queued. -/
def Kept (t t' : Tcp) : Prop :=
  t'.wire ++ bytes t'.snd = t.wire ++ bytes t.snd ∨
    t'.snd = [] ∧ t'.wire <+: t.wire ++ bytes t.snd

theorem kept_refl (t) : Kept t t := .inl rfl

theorem kept_trans {t u v} (h : t.wire ++ bytes t.snd = u.wire ++ bytes u.snd) (h' : Kept u v) : Kept t v := by
  rcases h' with h' | ⟨h1, h2⟩
  · exact .inl (h'.trans h.symm)
  · exact .inr ⟨h1, by rw [h]; exact h2⟩

theorem kept_release (t : Tcp) : Kept t { t with snd := [] } := .inr ⟨rfl, List.prefix_append _ _⟩

theorem memNon_kept : ∀ evs t r t' evs', memNon evs t = some (r, t', evs') → Kept t t' := by
  intro evs
  induction evs with
  | nil =>
    intro t r t' evs' h
    rw [memNon.eq_def] at h
    dsimp only at h
    split at h
    · cases h; exact kept_release t
    · cases h
  | cons ev evs ih =>
    intro t r t' evs' h
    rw [memNon.eq_def] at h
    dsimp only at h
    split at h
    · cases h; exact kept_release t
    · rename_i hg
      cases ev with
      | eintr => exact ih _ _ _ _ h
      | eagain => cases h; exact kept_refl t
      | error => cases h; exact kept_refl t
      | took n =>
        dsimp only at h
        split at h
        · cases h
          exact .inl (took_bytes hg)
        · exact kept_trans (took_bytes hg).symm (ih _ _ _ _ h)

theorem memBlk_kept : ∀ evs t r t' evs', memBlk evs t = some (r, t', evs') →
    Kept t t' ∧ evs'.length ≤ evs.length ∧ (t'.snd ≠ [] → evs'.length < evs.length) := by
  intro evs
  induction evs with
  | nil =>
    intro t r t' evs' h
    rw [memBlk.eq_def] at h
    dsimp only at h
    split at h
    · cases h; exact ⟨kept_release t, Nat.le_refl _, fun h => absurd rfl h⟩
    · cases h
  | cons ev evs ih =>
    intro t r t' evs' h
    rw [memBlk.eq_def] at h
    dsimp only at h
    split at h
    · cases h; exact ⟨kept_release t, Nat.le_refl _, fun h => absurd rfl h⟩
    · rename_i hg
      cases ev with
      | eintr =>
        obtain ⟨h1, h2, h3⟩ := ih _ _ _ _ h
        exact ⟨h1, by simp only [List.length_cons]; omega, fun _ => by simp only [List.length_cons]; omega⟩
      | eagain => cases h; exact ⟨kept_refl t, by simp, fun _ => by simp⟩
      | error => cases h; exact ⟨kept_refl t, by simp, fun _ => by simp⟩
      | took n =>
        dsimp only at h
        cases h
        exact ⟨.inl (took_bytes hg), by simp, fun _ => by simp⟩

theorem skip_bytes : ∀ l, bytes (skip l).1 = bytes l ∧
    ((skip l).2.2 = false → (skip l).1.head? ≠ some none) := by
  intro l
  induction l with
  | nil => exact ⟨rfl, by simp [skip]⟩
  | cons a l ih =>
    cases a with
    | none => exact ih
    | some b =>
      rw [skip]
      split
      · exact ⟨rfl, by simp⟩
      · rename_i hl
        have hl : b.left = [] := by simpa using hl
        rw [bytes_some, hl, List.nil_append]
        split
        · exact ⟨rfl, by simp⟩
        · exact ih

theorem sendfile_bytes : ∀ evs t b c r t' evs', sendfile t b c evs = some (r, t', evs') → b.left ≠ [] →
    t'.wire ++ bytes t'.snd = t.wire ++ b.left ++ bytes c ∧ evs'.length < evs.length := by
  intro evs
  induction evs with
  | nil => intro t b c r t' evs' h; cases h
  | cons ev evs ih =>
    intro t b c r t' evs' h hb
    cases ev with
    | eintr =>
      obtain ⟨h1, h2⟩ := ih _ _ _ _ _ _ h hb
      exact ⟨h1, by simp only [List.length_cons]; omega⟩
    | eagain =>
      cases h
      exact ⟨by rw [bytes_some, List.append_assoc], by simp⟩
    | error =>
      cases h
      exact ⟨by rw [bytes_some, List.append_assoc], by simp⟩
    | took n =>
      rw [sendfile] at h
      dsimp only at h
      split at h
      · rename_i hne
        obtain ⟨h1, h2⟩ := ih _ _ _ _ _ _ h hne
        refine ⟨?_, by simp only [List.length_cons]; omega⟩
        rw [h1]
        dsimp only
        rw [List.append_assoc t.wire, List.take_append_drop]
      · rename_i hne
        simp only [ne_eq, not_not] at hne
        cases h
        refine ⟨?_, by simp⟩
        dsimp only
        have : b.left.take (clip n b.left) = b.left := by
          conv_rhs => rw [← List.take_append_drop (clip n b.left) b.left, hne, List.append_nil]
        rw [this]

theorem fileBlk_bytes {t evs r t' evs'} (h : fileBlk t evs = some (r, t', evs')) :
    t'.wire ++ bytes t'.snd = t.wire ++ bytes t.snd ∧ evs'.length ≤ evs.length := by
  obtain ⟨s1, s2⟩ := skip_bytes t.snd
  unfold fileBlk at h
  dsimp only at h
  split at h
  · cases h; exact ⟨by rw [s1], Nat.le_refl _⟩
  · rename_i he
    have s2 := s2 (by simpa using he)
    split at h
    · rename_i hs
      cases h
      rw [hs] at s1
      exact ⟨by dsimp only; rw [hs, ← s1], Nat.le_refl _⟩
    · cases h
    · rename_i b c hs
      split at h
      · cases h
        exact ⟨by dsimp only; rw [s1], Nat.le_refl _⟩
      · have hb : b.left ≠ [] := by
          have key : ∀ l b c, (skip l).2.2 = false → (skip l).1 = some b :: c → b.left ≠ [] := by
            intro l
            induction l with
            | nil => intro b c _ h; cases h
            | cons a l ih =>
              intro b c he hs
              cases a with
              | none => exact ih b c he hs
              | some x =>
                rw [skip] at he hs
                split at hs
                · cases hs; assumption
                · rename_i hx
                  rw [if_neg hx] at he
                  split at hs
                  · rename_i hl
                    rw [if_pos hl] at he
                    cases he
                  · rename_i hl
                    rw [if_neg hl] at he
                    exact ih b c he hs
          exact key t.snd b c (by simpa using he) hs
        obtain ⟨h1, h2⟩ := sendfile_bytes _ _ _ _ _ _ _ h hb
        refine ⟨?_, by omega⟩
        rw [h1]
        dsimp only
        rw [← s1, hs, bytes_some, List.append_assoc]

theorem sendBlk_kept : ∀ k t evs r t' evs', sendBlk k t evs = some (r, t', evs') → Kept t t' := by
  intro k
  induction k with
  | zero => intro _ _ _ _ _ h; cases h
  | succ k ih =>
    intro t evs r t' evs' h
    rw [sendBlk] at h
    obtain ⟨⟨n, t1, e1⟩, h1, h⟩ := Option.bind_eq_some_iff.1 h
    have k1 := (memBlk_kept _ _ _ _ _ h1).1
    dsimp only at h
    split at h
    · rename_i hf
      obtain ⟨⟨n2, t2, e2⟩, h2, h⟩ := Option.bind_eq_some_iff.1 h
      have k2 := (fileBlk_bytes h2).1
      have k1' : t1.wire ++ bytes t1.snd = t.wire ++ bytes t.snd := by
        rcases k1 with k1 | ⟨k1, _⟩
        · exact k1
        · exfalso
          have := hf.2
          unfold headFile at this
          rw [k1] at this
          cases this
      dsimp only at h
      split at h
      · exact kept_trans (k1'.symm.trans k2.symm) (ih _ _ _ _ _ h)
      · cases h
        exact .inl (k2.trans k1')
    · cases h
      exact k1

/-- For every queue and every socket: the bytes taken are those that were queued, in order and
none twice; and either the others are still queued, or the queue is empty. -/
theorem send_prefix {nb t evs r t' evs'} (h : send nb t evs = some (r, t', evs')) : Kept t t' := by
  unfold send at h
  split at h
  · cases h; exact kept_refl t
  · split at h
    · unfold sendNon at h
      obtain ⟨⟨n, t1, e1⟩, h1, h⟩ := Option.bind_eq_some_iff.1 h
      dsimp only at h
      split at h
      · cases h
      · cases h
        exact memNon_kept _ _ _ _ _ h1
    · exact sendBlk_kept _ _ _ _ _ _ h

/-! ## Good queues: nothing lost -/

theorem good_gather : ∀ l k, Good l → gather (k + 1) l = [] → bytes l = [] := by
  intro l
  induction l with
  | nil => intro _ _ _; rfl
  | cons a l ih =>
    intro k hg h
    have hg' : Good l := fun b hb => hg b (by simp [hb])
    cases a with
    | none => exact ih k hg' h
    | some b =>
      obtain ⟨g1, _, g2⟩ := hg b (by simp)
      rw [gather, if_neg (by simp [g1])] at h
      by_cases hl : b.left = []
      · rw [if_pos hl, if_neg (fun hc => g2 hc hl)] at h
        rw [bytes_some, hl, ih k hg' h]
        rfl
      · rw [if_neg hl] at h; cases h

theorem good_advance : ∀ l n, Good l → Good (advance n l).1 := by
  intro l
  induction l with
  | nil => intro _ h; exact h
  | cons a l ih =>
    intro n hg
    have hg' : Good l := fun b hb => hg b (by simp [hb])
    cases a with
    | none => exact ih n hg'
    | some b =>
      obtain ⟨g1, g2, g3⟩ := hg b (by simp)
      rw [advance]
      split
      · exact hg
      · split
        · rename_i hlt
          intro x hx
          rcases List.mem_cons.1 hx with hx | hx
          · cases hx
            refine ⟨g1, g2, fun _ hc => ?_⟩
            have := congrArg List.length hc
            simp only [List.length_drop, List.length_nil] at this
            omega
          · exact hg' x hx
        · split
          · exact hg'
          · exact ih _ hg'

theorem memNon_good : ∀ evs t r t' evs', memNon evs t = some (r, t', evs') → Good t.snd →
    t'.wire ++ bytes t'.snd = t.wire ++ bytes t.snd ∧ Good t'.snd := by
  intro evs
  induction evs with
  | nil =>
    intro t r t' evs' h hg
    rw [memNon.eq_def] at h
    dsimp only at h
    split at h
    · rename_i hn
      cases h
      exact ⟨by rw [good_gather _ _ hg hn]; rfl, by intro b hb; cases hb⟩
    · cases h
  | cons ev evs ih =>
    intro t r t' evs' h hg
    rw [memNon.eq_def] at h
    dsimp only at h
    split at h
    · rename_i hn
      cases h
      exact ⟨by rw [good_gather _ _ hg hn]; rfl, by intro b hb; cases hb⟩
    · rename_i hn
      cases ev with
      | eintr => exact ih _ _ _ _ h hg
      | eagain => cases h; exact ⟨rfl, hg⟩
      | error => cases h; exact ⟨rfl, hg⟩
      | took n =>
        dsimp only at h
        have hg' := good_advance t.snd (clip n (gather 256 t.snd).flatten) hg
        split at h
        · cases h
          exact ⟨took_bytes hn, hg'⟩
        · obtain ⟨h1, h2⟩ := ih _ _ _ _ h hg'
          exact ⟨h1.trans (took_bytes hn), h2⟩

theorem memBlk_good : ∀ evs t r t' evs', memBlk evs t = some (r, t', evs') → Good t.snd →
    t'.wire ++ bytes t'.snd = t.wire ++ bytes t.snd ∧ Good t'.snd := by
  intro evs
  induction evs with
  | nil =>
    intro t r t' evs' h hg
    rw [memBlk.eq_def] at h
    dsimp only at h
    split at h
    · rename_i hn
      cases h
      exact ⟨by rw [good_gather _ _ hg hn]; rfl, by intro b hb; cases hb⟩
    · cases h
  | cons ev evs ih =>
    intro t r t' evs' h hg
    rw [memBlk.eq_def] at h
    dsimp only at h
    split at h
    · rename_i hn
      cases h
      exact ⟨by rw [good_gather _ _ hg hn]; rfl, by intro b hb; cases hb⟩
    · rename_i hn
      cases ev with
      | eintr => exact ih _ _ _ _ h hg
      | eagain => cases h; exact ⟨rfl, hg⟩
      | error => cases h; exact ⟨rfl, hg⟩
      | took n =>
        dsimp only at h
        cases h
        exact ⟨took_bytes hn, good_advance t.snd _ hg⟩

theorem good_headFile {t} (hg : Good t.snd) : headFile t = false := by
  unfold headFile
  split
  · rename_i b c hs
    exact (hg b (by rw [hs]; simp)).2.1
  · rfl

/-- For queues of buffers in memory, none of them empty and marked last: nothing is lost, whatever
the socket does; also over several calls, since the queue left is of that kind again. -/
theorem send_good_partial {nb t evs r t' evs'} (h : send nb t evs = some (r, t', evs')) (hg : Good t.snd) :
    t'.wire ++ bytes t'.snd = t.wire ++ bytes t.snd ∧ Good t'.snd := by
  unfold send at h
  split at h
  · cases h; exact ⟨rfl, hg⟩
  · split at h
    · unfold sendNon at h
      obtain ⟨⟨n, t1, e1⟩, h1, h⟩ := Option.bind_eq_some_iff.1 h
      have k := memNon_good _ _ _ _ _ h1 hg
      dsimp only at h
      rw [if_neg (by simp [good_headFile k.2])] at h
      cases h
      exact k
    · rw [sendBlk] at h
      obtain ⟨⟨n, t1, e1⟩, h1, h⟩ := Option.bind_eq_some_iff.1 h
      have k := memBlk_good _ _ _ _ _ h1 hg
      dsimp only at h
      rw [if_neg (by simp [good_headFile k.2])] at h
      cases h
      exact k

/-! ## When nothing is offered, everything queued is dropped -/

/-- The label `fi` is never reached on sockets that do not block. -/
theorem send_nonblock {t evs n t' evs'} (h : memNon evs t = some (n, t', evs')) (hf : Flags t.snd)
    (hn : n = 0) : headFile t' = false := by
  have key : ∀ l k, Flags l → gather (k + 1) l ≠ [] → ∀ t : Tcp, t.snd = l → headFile t = false := by
    intro l k hf hg t ht
    unfold headFile
    rw [ht]
    cases l with
    | nil => rfl
    | cons a l =>
      cases a with
      | none => rfl
      | some b =>
        dsimp only
        rw [gather] at hg
        by_cases hm : b.inMem = true
        · have := hf b (by simp)
          simpa [hm] using this
        · simp [hm] at hg
  have fadv : ∀ l n, Flags l → Flags (advance n l).1 := by
    intro l
    induction l with
    | nil => intro _ h; exact h
    | cons a l ih =>
      intro n hf
      have hf' : Flags l := fun b hb => hf b (by simp [hb])
      cases a with
      | none => exact ih n hf'
      | some b =>
        rw [advance]
        split
        · exact hf
        · split
          · intro x hx
            rcases List.mem_cons.1 hx with hx | hx
            · cases hx; exact hf b (by simp)
            · exact hf' x hx
          · split
            · exact hf'
            · exact ih _ hf'
  induction evs generalizing t with
  | nil =>
    rw [memNon.eq_def] at h
    dsimp only at h
    split at h
    · cases h; rfl
    · cases h
  | cons ev evs ih =>
    rw [memNon.eq_def] at h
    dsimp only at h
    split at h
    · cases h; rfl
    · rename_i hg
      cases ev with
      | eintr => exact ih h hf
      | eagain => cases h; exact key _ _ hf hg _ rfl
      | error => cases h; exact absurd hn (by decide)
      | took m =>
        dsimp only at h
        split at h
        · cases h; exact absurd hn (by decide)
        · exact ih h (fadv _ _ hf)

theorem send_drops {nb t evs} (hn : t.snd ≠ []) (h : gather 256 t.snd = []) :
    send nb t evs = some (NOTYET, { t with snd := [] }, evs) := by
  unfold send
  rw [if_neg hn]
  have e1 : memNon evs t = some (0, { t with snd := [] }, evs) := by
    cases evs <;> (rw [memNon.eq_def]; dsimp only; rw [if_pos h])
  have e2 : memBlk evs t = some (0, { t with snd := [] }, evs) := by
    cases evs <;> (rw [memBlk.eq_def]; dsimp only; rw [if_pos h])
  cases nb with
  | true =>
    rw [if_pos rfl, sendNon, e1]
    simp [headFile, value]
  | false =>
    rw [if_neg (by simp), sendBlk, e2]
    simp [headFile, value]

/-- Files are not sent: when the first buffer queued is in a file, the whole queue is dropped, no
byte is sent and the call says "not yet". -/
theorem file_lost {nb t evs l b c} (h : t.snd = l ++ some b :: c) (hl : ∀ n ∈ l, n = none)
    (hb : b.inMem = false) : send nb t evs = some (NOTYET, { t with snd := [] }, evs) := by
  apply send_drops (by rw [h]; simp)
  rw [h]
  clear h
  induction l with
  | nil => rw [List.nil_append, gather, if_pos (by simp [hb])]
  | cons a l ih =>
    have := hl a (by simp)
    subst this
    rw [List.cons_append, gather]
    exact ih (fun n hn => hl n (by simp [hn]))

/-- An empty buffer marked last at the head: all that is queued behind it is dropped. -/
theorem empty_last_lost {nb t evs b c} (h : t.snd = some b :: c) (hb : b.left = []) (hl : b.last = true) :
    send nb t evs = some (NOTYET, { t with snd := [] }, evs) := by
  apply send_drops (by rw [h]; simp)
  rw [h, gather, if_pos hb, if_pos hl]
  simp

/-- A file behind a buffer in memory, on a socket that does not block: once the buffer is sent
the file is dropped with all behind it. -/
theorem file_behind_lost {t evs m f c n} (h : t.snd = some m :: some f :: c) (hm : m.inMem = true)
    (h0 : m.left ≠ []) (hl : m.last = false) (hf : f.inMem = false) (hn : m.left.length ≤ n) :
    send true t (.took n :: evs) = some (NOTYET, { t with
      snd := [], sent := t.sent ++ [some { m with left := [] }], wire := t.wire ++ m.left }, evs) := by
  have hg : gather 256 t.snd = [m.left] := by
    rw [h, gather, if_neg (by simp [hm]), if_neg h0, if_neg (by simp [hl]), gather, if_pos (by simp [hf])]
  have hlen := List.length_pos_of_ne_nil h0
  have hc : clip n m.left = m.left.length := by unfold clip; omega
  have ht : took t m.left m.left.length =
      ({ t with
        snd := some f :: c, sent := t.sent ++ [some { m with left := [] }], wire := t.wire ++ m.left },
        false) := by
    unfold took
    rw [h, advance, if_neg (by simp [hm]), if_neg (by simp), if_pos (by simp)]
    simp [hl]
  unfold send
  rw [if_neg (by rw [h]; simp), if_pos rfl, sendNon, memNon.eq_def]
  dsimp only
  rw [hg, if_neg (by simp)]
  simp only [List.flatten_cons, List.flatten_nil, List.append_nil]
  rw [hc, ht]
  simp only [Bool.false_eq_true, if_false]
  have hg2 : gather 256 (some f :: c) = [] := by rw [gather, if_pos (by simp [hf])]
  have e1 : memNon evs { t with
      snd := some f :: c, sent := t.sent ++ [some { m with left := [] }], wire := t.wire ++ m.left } = some (0, { t with
      snd := [], sent := t.sent ++ [some { m with left := [] }], wire := t.wire ++ m.left }, evs) := by
    cases evs <;> (rw [memNon.eq_def]; dsimp only; rw [if_pos hg2])
  rw [e1]
  simp [headFile, value]

/-! ## M_C_FINISH -/

/-- A buffer marked last of which the socket takes only a part: the call says that everything is
sent, and the rest is still queued. -/
theorem finish_wrong {nb t evs b c n} (h : t.snd = some b :: c) (hm : b.inMem = true) (hl : b.last = true)
    (h0 : 0 < n) (hn : n < b.left.length) :
    send nb t (.took n :: evs) = some (FINISH, { t with
      snd := some { b with left := b.left.drop n } :: c, wire := t.wire ++ b.left.take n }, evs) := by
  have hne : b.left ≠ [] := by intro hc; rw [hc] at hn; simp at hn
  have hg : gather 256 t.snd = [b.left] := by
    rw [h, gather, if_neg (by simp [hm]), if_neg hne, if_pos hl]
  have hc : clip n b.left = n := by unfold clip; omega
  have ht : took t b.left n =
      ({ t with snd := some { b with left := b.left.drop n } :: c, wire := t.wire ++ b.left.take n }, true) := by
    unfold took
    rw [h, advance, if_neg (by simp [hm]), if_pos hn]
    simp [hl]
  unfold send
  rw [if_neg (by rw [h]; simp)]
  cases nb with
  | true =>
    rw [if_pos rfl, sendNon, memNon.eq_def]
    dsimp only
    rw [hg, if_neg (by simp)]
    simp only [List.flatten_cons, List.flatten_nil, List.append_nil]
    rw [hc, ht]
    simp [value]
  | false =>
    rw [if_neg (by simp), sendBlk, memBlk.eq_def]
    dsimp only
    rw [hg, if_neg (by simp)]
    simp only [List.flatten_cons, List.flatten_nil, List.append_nil]
    rw [hc, ht]
    simp [value]

theorem cut_append (l) : (cut l).1 ++ (cut l).2 = l := by
  induction l with
  | nil => rfl
  | cons a l ih =>
    cases a with
    | none => rw [cut]; simp [ih]
    | some b => rw [cut]; split <;> simp [ih]

/-- After a write that took all that was offered: `is_done` is set exactly if the message at the
head went out, and otherwise it is a part of it. -/
theorem advance_all : ∀ l k, Good l → gather k l ≠ [] →
    ((advance (gather k l).flatten.length l).2.2 = true →
      (gather k l).flatten = bytes (cut l).1 ∧ (advance (gather k l).flatten.length l).1 = (cut l).2) ∧
    ((advance (gather k l).flatten.length l).2.2 = false →
      bytes (cut l).1 = (gather k l).flatten ++ bytes (cut (advance (gather k l).flatten.length l).1).1 ∧
      (cut (advance (gather k l).flatten.length l).1).2 = (cut l).2) := by
  intro l
  induction l with
  | nil => intro k _ h; cases k <;> exact absurd rfl h
  | cons a l ih =>
    intro k hg h
    have hg' : Good l := fun b hb => hg b (by simp [hb])
    cases k with
    | zero => exact absurd rfl h
    | succ k =>
      cases a with
      | none =>
        rw [gather] at h ⊢
        exact ih (k + 1) hg' h
      | some b =>
        obtain ⟨g1, _, g3⟩ := hg b (by simp)
        rw [gather, if_neg (by simp [g1])] at h ⊢
        by_cases hl : b.left = []
        · have hla : ¬ b.last = true := fun hc => g3 hc hl
          rw [if_pos hl, if_neg hla] at h ⊢
          have hp := List.length_pos_of_ne_nil (gather_ne h)
          rw [advance, if_neg (by simp [g1]), if_neg (by simp [hl]), if_neg, cut, if_neg hla]
          · have := ih (k + 1) hg' h
            simpa only [hl, bytes_some, List.length_nil, Nat.sub_zero, List.nil_append] using this
          · rintro (hc | hc)
            · exact hla hc
            · rw [hl, List.length_nil] at hc; omega
        · rw [if_neg hl] at h ⊢
          clear h
          rw [List.flatten_cons, List.length_append, advance, if_neg (by simp [g1]), if_neg (by omega), cut]
          by_cases hla : b.last = true
          · rw [if_pos hla, if_pos hla, if_pos (.inl hla)]
            refine ⟨fun _ => ?_, fun hc => ?_⟩
            · simp [bytes]
            · dsimp only at hc; rw [hla] at hc; cases hc
          · rw [if_neg hla, if_neg hla]
            have e : b.left.length + (gather k l).flatten.length - b.left.length = (gather k l).flatten.length := by
              omega
            rw [e]
            by_cases hr : gather k l = []
            · rw [hr, if_pos (.inr rfl)]
              refine ⟨fun hc => ?_, fun _ => ?_⟩
              · exact absurd hc hla
              · simp [bytes_some]
            · have hp := List.length_pos_of_ne_nil (gather_ne hr)
              rw [if_neg (by rintro (hc | hc); exact hla hc; omega)]
              obtain ⟨i1, i2⟩ := ih k hg' hr
              dsimp only
              refine ⟨fun hc => ?_, fun hc => ?_⟩
              · obtain ⟨j1, j2⟩ := i1 hc
                exact ⟨by rw [j1, bytes_some], j2⟩
              · obtain ⟨j1, j2⟩ := i2 hc
                exact ⟨by rw [bytes_some, j1, List.append_assoc], j2⟩

/-- With a socket that takes all that is offered, and does not fail, M_C_FINISH means that the
message at the head of the queue was sent, and that what follows it is queued. -/
theorem memNon_finish : ∀ evs t t' evs', memNon evs t = some (1, t', evs') → Good t.snd →
    (∀ n, .took n ∈ evs → (bytes t.snd).length ≤ n) →
    t'.wire = t.wire ++ bytes (cut t.snd).1 ∧ t'.snd = (cut t.snd).2 := by
  intro evs
  induction evs with
  | nil =>
    intro t t' evs' h
    rw [memNon.eq_def] at h
    dsimp only at h
    split at h <;> cases h
  | cons ev evs ih =>
    intro t t' evs' h hg hn
    rw [memNon.eq_def] at h
    dsimp only at h
    split at h
    · cases h
    · rename_i hne
      cases ev with
      | eintr => exact ih _ _ _ h hg (fun n hm => hn n (by simp [hm]))
      | eagain => cases h
      | error => cases h
      | took n =>
        have hle : (gather 256 t.snd).flatten.length ≤ (bytes t.snd).length :=
          (gather_prefix t.snd 256).length_le
        have hlen := hn n (by simp)
        have hpos := List.length_pos_of_ne_nil (gather_ne hne)
        have hc : clip n (gather 256 t.snd).flatten = (gather 256 t.snd).flatten.length := by
          unfold clip; omega
        dsimp only at h
        rw [hc] at h
        obtain ⟨a1, a2⟩ := advance_all t.snd 256 hg hne
        have tw : (took t (gather 256 t.snd).flatten (gather 256 t.snd).flatten.length).1.wire =
            t.wire ++ (gather 256 t.snd).flatten := by
          unfold took
          dsimp only
          rw [List.take_length]
        have ts : (took t (gather 256 t.snd).flatten (gather 256 t.snd).flatten.length).1.snd =
            (advance (gather 256 t.snd).flatten.length t.snd).1 := rfl
        have te : (took t (gather 256 t.snd).flatten (gather 256 t.snd).flatten.length).2 =
            (advance (gather 256 t.snd).flatten.length t.snd).2.2 := rfl
        split at h
        · rename_i he
          cases h
          obtain ⟨b1, b2⟩ := a1 (by rw [← te]; exact he)
          exact ⟨by rw [tw, b1], by rw [ts, b2]⟩
        · rename_i he
          obtain ⟨b1, b2⟩ := a2 (by rw [← te]; simpa using he)
          have hb := advance_bytes t.snd 256 _ hpos (Nat.le_refl _)
          obtain ⟨c1, c2⟩ := ih _ _ _ h (good_advance _ _ hg) (by
            intro m hm
            have := hn m (by simp [hm])
            rw [ts, hb, List.length_drop]
            omega)
          exact ⟨by rw [c1, tw, ts, b1, List.append_assoc], by rw [c2, ts, b2]⟩

/-- `finish_wrong` is what is missing: a socket that takes a part only. -/
theorem finish_partial {t evs t' evs'} (h : send true t evs = some (FINISH, t', evs')) (hg : Good t.snd)
    (hn : ∀ n, .took n ∈ evs → (bytes t.snd).length ≤ n) :
    t'.wire = t.wire ++ bytes (cut t.snd).1 ∧ t'.snd = (cut t.snd).2 := by
  unfold send at h
  split at h
  · exact absurd (congrArg (fun x => x.map (·.1)) h) (by simp [NOTYET, FINISH])
  · rw [if_pos rfl, sendNon] at h
    obtain ⟨⟨n, t1, e1⟩, h1, h⟩ := Option.bind_eq_some_iff.1 h
    dsimp only at h
    split at h
    · cases h
    · simp only [Option.some.injEq, Prod.mk.injEq] at h
      obtain ⟨hv, rfl, rfl⟩ := h
      have hn1 : n = 1 := by
        have key : ∀ evs t r t' evs', memNon evs t = some (r, t', evs') → r = 0 ∨ r = 1 ∨ r = -1 := by
          intro evs
          induction evs with
          | nil =>
            intro t r t' evs' h
            rw [memNon.eq_def] at h
            dsimp only at h
            split at h <;> cases h
            simp
          | cons ev evs ih =>
            intro t r t' evs' h
            rw [memNon.eq_def] at h
            dsimp only at h
            split at h
            · cases h; simp
            · cases ev with
              | eintr => exact ih _ _ _ _ h
              | eagain => cases h; simp
              | error => cases h; simp
              | took n =>
                dsimp only at h
                split at h
                · cases h; simp
                · exact ih _ _ _ _ h
        rcases key _ _ _ _ _ h1 with rfl | rfl | rfl
        · exact absurd hv (by decide)
        · rfl
        · exact absurd hv (by decide)
      subst hn1
      exact memNon_finish _ _ _ _ h1 hg hn

/-! ## A file behind memory on a socket that blocks -/

theorem sendfile_all : ∀ evs t b c r t' evs', sendfile t b c evs = some (r, t', evs') → 0 ≤ r →
    t'.wire = t.wire ++ b.left ∧ t'.snd = c ∧ (r = 1 ↔ b.last = true) := by
  intro evs
  induction evs with
  | nil => intro t b c r t' evs' h; cases h
  | cons ev evs ih =>
    intro t b c r t' evs' h hr
    cases ev with
    | eintr => exact ih _ _ _ _ _ _ h hr
    | eagain => cases h; exact absurd hr (by decide)
    | error => cases h; exact absurd hr (by decide)
    | took n =>
      rw [sendfile] at h
      dsimp only at h
      split at h
      · obtain ⟨h1, h2, h3⟩ := ih _ _ _ _ _ _ h hr
        refine ⟨?_, h2, h3⟩
        rw [h1]
        dsimp only
        rw [List.append_assoc, List.take_append_drop]
      · rename_i hne
        simp only [ne_eq, not_not] at hne
        cases h
        have : b.left.take (clip n b.left) = b.left := by
          conv_rhs => rw [← List.take_append_drop (clip n b.left) b.left, hne, List.append_nil]
        refine ⟨by dsimp only; rw [this], rfl, ?_⟩
        cases b.last <;> simp

/-- On a socket that blocks a file behind a buffer in memory is sent, however much the socket takes
of it at a time. -/
theorem file_behind_partial {t evs m f c n r t' evs'} (h : t.snd = some m :: some f :: c)
    (hm : m.inMem = true) (h0 : m.left ≠ []) (hl : m.last = false) (hf : f.inMem = false ∧ f.inFile = true)
    (hfl : f.left ≠ []) (hla : f.last = true) (hn : m.left.length ≤ n)
    (hs : send false t (.took n :: evs) = some (r, t', evs')) :
    r = ERROR ∨ (r = FINISH ∧ t'.wire = t.wire ++ m.left ++ f.left ∧ t'.snd = c) := by
  have hg : gather 256 t.snd = [m.left] := by
    rw [h, gather, if_neg (by simp [hm]), if_neg h0, if_neg (by simp [hl]), gather, if_pos (by simp [hf.1])]
  have hlen := List.length_pos_of_ne_nil h0
  have hc : clip n m.left = m.left.length := by unfold clip; omega
  have ht : took t m.left m.left.length =
      ({ t with
        snd := some f :: c, sent := t.sent ++ [some { m with left := [] }], wire := t.wire ++ m.left },
        false) := by
    unfold took
    rw [h, advance, if_neg (by simp [hm]), if_neg (by simp), if_pos (by simp)]
    simp [hl]
  unfold send at hs
  rw [if_neg (by rw [h]; simp), if_neg (by simp), sendBlk, memBlk.eq_def] at hs
  dsimp only at hs
  rw [hg, if_neg (by simp)] at hs
  simp only [List.flatten_cons, List.flatten_nil, List.append_nil] at hs
  rw [hc, ht] at hs
  simp only [Option.bind_eq_bind, Option.bind_some, headFile, hf.2, Bool.false_eq_true, if_false, and_self, if_true] at hs
  obtain ⟨⟨n2, t2, e2⟩, h2, hs⟩ := Option.bind_eq_some_iff.1 hs
  unfold fileBlk at h2
  have hsk : skip (some f :: c) = (some f :: c, [], false) := by rw [skip, if_pos hfl]
  rw [hsk] at h2
  simp only [Bool.false_eq_true, if_false, hf.2, Bool.not_true] at h2
  by_cases hr : 0 ≤ n2
  · obtain ⟨a1, a2, a3⟩ := sendfile_all _ _ _ _ _ _ _ h2 hr
    have hn2 := a3.2 hla
    subst hn2
    simp [value] at hs
    obtain ⟨rfl, rfl, _⟩ := hs
    exact .inr ⟨rfl, by rw [a1], a2⟩
  · dsimp only at hs
    rw [if_neg (by rintro ⟨hc, _⟩; omega)] at hs
    simp only [Option.some.injEq, Prod.mk.injEq] at hs
    left
    rw [← hs.1]
    unfold value
    rw [if_neg (by omega), if_neg (by omega)]

/-! ## Receiving -/

/-- The bytes of the outcomes that were received and kept. -/
def received : List (Bool × Rv) → List Byte
  | [] => []
  | (true, .data bs) :: r => bs.take 1024 ++ received r
  | _ :: r => received r

/-- Receiving appends the bytes received, in order, and changes nothing else. -/
theorem recv_spec (nb f) : ∀ rvs t r t' rvs', recv nb f t rvs = some (r, t', rvs') →
    ∃ used, rvs = used ++ rvs' ∧ bytes t'.rcv = bytes t.rcv ++ received used ∧
      (∃ new, t'.rcv = t.rcv ++ new) ∧ t'.snd = t.snd ∧ t'.sent = t.sent ∧ t'.wire = t.wire := by
  intro rvs
  induction rvs with
  | nil => intro t r t' rvs' h; cases h
  | cons x rvs ih =>
    intro t r t' rvs' h
    obtain ⟨m, v⟩ := x
    have one : ∀ y, received [y] = [] → recv nb f t (y :: rvs) = some (r, t, rvs) →
        ∃ used, y :: rvs = used ++ rvs ∧ bytes t.rcv = bytes t.rcv ++ received used ∧
        (∃ new, t.rcv = t.rcv ++ new) ∧ t.snd = t.snd ∧ t.sent = t.sent ∧ t.wire = t.wire := by
      intro y hy _
      exact ⟨[y], rfl, by simp [hy], ⟨[], by simp⟩, rfl, rfl, rfl⟩
    cases m with
    | false => cases h; exact one _ rfl rfl
    | true =>
      cases v with
      | closed => cases h; exact one _ rfl rfl
      | eagain => cases h; exact one _ rfl rfl
      | error => cases h; exact one _ rfl rfl
      | eintr =>
        obtain ⟨u, h1, h2, h3⟩ := ih _ _ _ _ h
        exact ⟨(true, .eintr) :: u, by rw [h1]; rfl, h2, h3⟩
      | data bs =>
        rw [recv] at h
        split at h
        · rename_i hb
          subst hb
          cases h
          exact ⟨[(true, .data [])], rfl, by simp [received], ⟨[], by simp⟩, rfl, rfl, rfl⟩
        · dsimp only at h
          split at h
          · obtain ⟨u, h1, h2, ⟨new, h3⟩, h4⟩ := ih _ _ _ _ h
            refine ⟨(true, .data bs) :: u, by rw [h1]; rfl, ?_, ⟨rcvNode f bs :: new, by rw [h3]; simp⟩, h4⟩
            rw [h2]
            simp [received, rcvNode, bytes]
          · cases h
            exact ⟨[(true, .data bs)], rfl, by simp [received, rcvNode, bytes], ⟨_, rfl⟩, rfl, rfl, rfl⟩

/-- What is reported after receiving, by the last outcome. -/
def reported : Bool × Rv → Nat
  | (false, _) => ERROR
  | (true, .error) => ERROR
  | (true, .closed) => CLOSED
  | (true, .data bs) => if bs = [] then CLOSED else NOTYET
  | _ => NOTYET

/-- The value of mln_tcp_conn_recv tells how the last call ended: the end of the stream and errors
are told from the rest. -/
theorem recv_value (nb f) : ∀ rvs t r t' rvs', recv nb f t rvs = some (r, t', rvs') →
    ∃ used x, rvs = used ++ x :: rvs' ∧ r = reported x ∧ x ≠ (true, .eintr) := by
  intro rvs
  induction rvs with
  | nil => intro t r t' rvs' h; cases h
  | cons x rvs ih =>
    intro t r t' rvs' h
    obtain ⟨m, v⟩ := x
    have more : ∀ y, (∃ used x, rvs = used ++ x :: rvs' ∧ r = reported x ∧ x ≠ (true, .eintr)) →
        ∃ used x, y :: rvs = used ++ x :: rvs' ∧ r = reported x ∧ x ≠ (true, .eintr) := by
      rintro y ⟨u, x, h⟩
      exact ⟨y :: u, x, by rw [h.1]; rfl, h.2⟩
    cases m with
    | false => cases h; exact ⟨[], (false, v), rfl, rfl, by simp⟩
    | true =>
      cases v with
      | closed => cases h; exact ⟨[], (true, .closed), rfl, rfl, by simp⟩
      | eagain => cases h; exact ⟨[], (true, .eagain), rfl, rfl, by simp⟩
      | error => cases h; exact ⟨[], (true, .error), rfl, rfl, by simp⟩
      | eintr => exact more _ (ih _ _ _ _ h)
      | data bs =>
        rw [recv] at h
        split at h
        · rename_i hb
          subst hb
          cases h
          exact ⟨[], (true, .data []), rfl, rfl, by simp⟩
        · rename_i hb
          dsimp only at h
          split at h
          · exact more _ (ih _ _ _ _ h)
          · cases h
            exact ⟨[], (true, .data bs), rfl, by simp [reported, hb], by simp⟩

/-- For sockets that do not block, sending reports an error exactly if the last call failed with
something else than EINTR and EAGAIN. -/
theorem memNon_value : ∀ evs t r t' evs', memNon evs t = some (r, t', evs') →
    ∃ used, evs = used ++ evs' ∧ (r < 0 ↔ used.getLast? = some .error) := by
  intro evs
  induction evs with
  | nil =>
    intro t r t' evs' h
    rw [memNon.eq_def] at h
    dsimp only at h
    split at h
    · cases h; exact ⟨[], rfl, by simp⟩
    · cases h
  | cons ev evs ih =>
    intro t r t' evs' h
    rw [memNon.eq_def] at h
    dsimp only at h
    have more : ∀ {y}, y ≠ .error → (∃ used, evs = used ++ evs' ∧ (r < 0 ↔ used.getLast? = some .error)) →
        ∃ used, y :: evs = used ++ evs' ∧ (r < 0 ↔ used.getLast? = some .error) := by
      rintro y hy ⟨u, h1, h2⟩
      refine ⟨y :: u, by rw [h1]; rfl, ?_⟩
      rw [h2]
      cases u with
      | nil => simp [hy]
      | cons a u => simp
    split at h
    · cases h; exact ⟨[], rfl, by simp⟩
    · cases ev with
      | eintr => exact more (by simp) (ih _ _ _ _ h)
      | eagain => cases h; exact ⟨[.eagain], rfl, by simp⟩
      | error => cases h; exact ⟨[.error], rfl, by simp⟩
      | took n =>
        dsimp only at h
        split at h
        · cases h; exact ⟨[.took n], rfl, by simp⟩
        · exact more (by simp) (ih _ _ _ _ h)

theorem send_value {t evs r t' evs'} (h : send true t evs = some (r, t', evs')) :
    ∃ used, evs = used ++ evs' ∧ (r = ERROR ↔ used.getLast? = some .error) := by
  rw [send] at h
  split at h
  · cases h; exact ⟨[], rfl, by simp [NOTYET, ERROR]⟩
  · rw [if_pos rfl, sendNon] at h
    obtain ⟨⟨n, t1, e1⟩, h1, h2⟩ := Option.bind_eq_some_iff.mp h
    dsimp only at h2
    split at h2
    · cases h2
    · cases h2
      obtain ⟨u, h3, h4⟩ := memNon_value _ _ _ _ _ h1
      refine ⟨u, h3, ?_⟩
      rw [← h4]
      unfold value
      split
      · subst_vars; simp [NOTYET, ERROR]
      · split
        · constructor
          · intro hc; cases hc
          · intro hc; omega
        · constructor
          · intro _; omega
          · intro _; rfl

/-! ## Examples -/

example : send true { snd := [some { left := [1, 2] }, none, some { left := [3, 4, 5], last := true }] }
    [.took 3, .eintr, .took 9] =
    some (FINISH, { sent := [some { left := [] }, none],
                    snd := [some { left := [4, 5], last := true }], wire := [1, 2, 3] }, [.eintr, .took 9]) := by
  decide +kernel

example : send false { snd := [some { left := [1, 2] }, some { inMem := false, inFile := true, left := [3, 4, 5], last := true }] }
    [.took 2, .took 2, .eintr, .took 9] =
    some (FINISH, { sent := [some { left := [] }, some { inMem := false, inFile := true, left := [], last := true }],
                    wire := [1, 2, 3, 4, 5] }, []) := by
  decide +kernel

example : send true { snd := [some { inMem := false, inFile := true, left := [3, 4, 5], last := true }] } [.took 9] =
    some (NOTYET, {}, [.took 9]) := by decide +kernel

example : recv true false {} [(true, .data [1, 2]), (true, .eintr), (true, .data [3]), (true, .eagain)] =
    some (NOTYET, { rcv := [some { left := [1, 2] }, some { left := [3] }] }, []) := by decide +kernel

end Verif.Conn
