import Verif.StrLife
import Mathlib.Tactic.Tauto
/-!
# Strings live as long as somebody holds them
-/
namespace Verif.StrLife

/-! ## Specification -/

/-- Where the bytes of a string are: nowhere, with the string, with another string, in memory that stays. -/
inductive Org
  | null
  | own
  | lent (t : Nat)
  | fixed
  deriving DecidableEq

/-- What the program has: how often it holds each string, where the bytes are and which. -/
structure Held where
  bal : Nat → Nat
  org : Nat → Org
  txt : Nat → List Nat

def Held.none : Held := ⟨fun _ => 0, fun _ => .null, fun _ => []⟩

/-- A new string. -/
def Held.add (h : Held) (n : Nat) (o : Org) (t : List Nat) : Held := ⟨upd h.bal n 1, upd h.org n o, upd h.txt n t⟩

/-- A string whose bytes may be used: the program holds it, and the string it has its bytes from. -/
def Held.usable (h : Held) (s : Nat) : Prop := 0 < h.bal s ∧ ∀ t, h.org s = .lent t → 0 < h.bal t

/-- The text of a string or NULL. -/
def Held.text (h : Held) : Option Nat → List Nat
  | .none => []
  | some s => h.txt s

/-- Two texts with a third in between, if there are two. -/
def Held.join (h : Held) (s1 s2 sep : Option Nat) : List Nat :=
  match s1, s2 with
  | some a, some b => h.txt a ++ h.text sep ++ h.txt b
  | a, b => h.text a ++ h.text b

/-- The rule for programs: what is used is held. -/
def Held.legal (h : Held) : Op → Prop
  | .new _ _ _ _ | .take _ _ _ | .fixed _ _ => True
  | .dup _ s _ _ | .refDup s _ | .read s => h.usable s
  | .concat _ s1 s2 sep _ _ => ∀ s, some s = s1 ∨ some s = s2 ∨ some s = sep → h.usable s
  | .ref s => 0 < h.bal s ∧ h.bal s + 1 < 2 ^ 30
  | .free s => 0 < h.bal s

/-- A string made from another has its bytes from where the other has them. -/
def Held.share (h : Held) (s : Nat) : Org := if h.org s = .own then .lent s else h.org s

/-- A number that is not used: no string has it, and none has its bytes from there. -/
def Held.free (h : Held) (n : Nat) : Prop := h.bal n = 0 ∧ ∀ s, 0 < h.bal s → h.org s ≠ .lent n

/-- What a call may give, and what the program has after it. A new string has a number that was not used. -/
inductive Held.Step (h : Held) : Op → Res → Held → Prop
  | failed {o : Op} : (∀ s, o ≠ .ref s ∧ o ≠ .free s ∧ o ≠ .read s) → Held.Step h o (.str .none) h
  | empty {p a b n} : h.free n → Held.Step h (.new p .none a b) (.str (some n)) (h.add n .null [])
  | new {p t a b n} : h.free n → Held.Step h (.new p (some t) a b) (.str (some n)) (h.add n .own t)
  | dup {p s a b n} : h.free n → Held.Step h (.dup p s a b) (.str (some n)) (h.add n .own (h.txt s))
  | take {p t a n} : h.free n → Held.Step h (.take p t a) (.str (some n)) (h.add n .own t)
  | refDup {s a n} : h.free n → Held.Step h (.refDup s a) (.str (some n)) (h.add n (h.share s) (h.txt s))
  | fixed {t a n} : h.free n → Held.Step h (.fixed t a) (.str (some n)) (h.add n .fixed t)
  | concat {p s1 s2 sep a b n} : h.free n → Held.Step h (.concat p s1 s2 sep a b) (.str (some n)) (h.add n .own (h.join s1 s2 sep))
  | ref {s} : Held.Step h (.ref s) (.str (some s)) { h with bal := upd h.bal s (h.bal s + 1) }
  | free {s} : Held.Step h (.free s) .unit { h with bal := upd h.bal s (h.bal s - 1) }
  | read {s} : Held.Step h (.read s) (.txt (h.txt s)) h

/-- Calls one after the other. -/
inductive Held.Steps : Held → List (Op × Res) → Held → Prop
  | nil {h} : Held.Steps h [] h
  | cons {h h1 h2 o r tr} : Held.Step h o r h1 → Held.Steps h1 tr h2 → Held.Steps h ((o, r) :: tr) h2

/-- A program that keeps to the rule, whatever it gets. -/
def Held.Legal : Held → Prog → Prop
  | _, .done => True
  | h, .call o k => h.legal o ∧ ∀ r h', Held.Step h o r h' → Held.Legal h' (k r)

/-! ## The memory -/

/-- The cell of a string that is held. -/
structure Good (h : Held) (m : Mem) (s : Nat) (k : Kind) (c : Cell) : Prop where
  kind : k = kind c.pool
  len : c.len = (h.txt s).length
  ref : c.ref.toNat = h.bal s
  null : h.org s = .null → c.data = none ∧ h.txt s = []
  own : h.org s = .own → c.data = some s ∧ c.dataRef = false ∧ ∃ b, m.bufs s = some (StrLife.kind c.pool, b) ∧ h.txt s <+: b
  lent : ∀ t, h.org s = .lent t → c.data = some t ∧ c.dataRef = true
  fixed : h.org s = .fixed → c.dataRef = true ∧ ∃ p b, c.data = some p ∧ m.bufs p = some (.fixed, b) ∧ h.txt s <+: b

structure Inv (h : Held) (m : Mem) : Prop where
  live : ∀ s, 0 < h.bal s → ∃ k c, m.strs s = some (k, c) ∧ Good h m s k c
  dead : ∀ s, h.bal s = 0 → m.strs s = none
  bufs : ∀ p k b, m.bufs p = some (k, b) → k = .fixed ∨ (0 < h.bal p ∧ h.org p = .own)
  lent : ∀ s t, 0 < h.bal s → h.org s = .lent t → h.org t = .own ∧ h.txt s = h.txt t ∧ t < m.next
  fresh : ∀ s, m.next ≤ s → h.bal s = 0 ∧ m.bufs s = none

theorem inv_empty : Inv Held.none Mem.empty := by
  refine ⟨fun s h => ?_, fun _ _ => rfl, fun p k b h => ?_, fun s t h => ?_, fun _ _ => ⟨rfl, rfl⟩⟩
  · exact absurd h (by simp [Held.none])
  · cases h
  · exact absurd h (by simp [Held.none])

theorem bytes_ok {h : Held} {m : Mem} (i : Inv h m) {s : Nat} (u : h.usable s) : bytes m s = some (h.txt s) := by
  obtain ⟨k, c, e, g⟩ := i.live s u.1
  rw [bytes, e]
  simp only [Option.bind_eq_bind, Option.bind_some]
  have hb : ∀ (b : List Nat), h.txt s <+: b → (if c.len ≤ b.length then some (b.take c.len) else none) = some (h.txt s) := by
    intro b hp
    rw [g.len, if_pos hp.length_le, List.prefix_iff_eq_take.1 hp]
    simp
  cases ho : h.org s with
  | null =>
    obtain ⟨e1, e2⟩ := g.null ho
    simp [e1, e2, g.len]
  | own =>
    obtain ⟨e1, _, b, e2, e3⟩ := g.own ho
    simp only [e1, e2, Option.bind_some]
    exact hb b e3
  | lent t =>
    obtain ⟨e1, _⟩ := g.lent t ho
    obtain ⟨l1, l2, _⟩ := i.lent s t u.1 ho
    obtain ⟨k', c', _, g'⟩ := i.live t (u.2 t ho)
    obtain ⟨_, _, b, e2, e3⟩ := g'.own l1
    simp only [e1, e2, Option.bind_some]
    exact hb b (l2 ▸ e3)
  | fixed =>
    obtain ⟨_, p, b, e1, e2, e3⟩ := g.fixed ho
    simp only [e1, e2, Option.bind_some]
    exact hb b e3

/-- A call that makes nothing. -/
theorem inv_next {h : Held} {m : Mem} (i : Inv h m) : Inv h { m with next := m.next + 1 } :=
  ⟨fun s hs => let ⟨k, c, e, g⟩ := i.live s hs; ⟨k, c, e, ⟨g.kind, g.len, g.ref, g.null, g.own, g.lent, g.fixed⟩⟩, i.dead, i.bufs,
    fun s t hs ho => let ⟨a, b, c⟩ := i.lent s t hs ho; ⟨a, b, Nat.lt_succ_of_lt c⟩, fun s hs => i.fresh s (Nat.le_of_succ_le hs)⟩

/-- A new string. -/
theorem inv_add {h : Held} {m m' : Mem} (i : Inv h m) {k : Kind} {c : Cell} {o : Org} {t : List Nat} (hn : m'.next = m.next + 1)
    (hs : m'.strs = upd m.strs m.next (some (k, c))) (hb : ∀ p, p ≠ m.next → m'.bufs p = m.bufs p)
    (hg : Good (h.add m.next o t) m' m.next k c) (hbn : ∀ k b, m'.bufs m.next = some (k, b) → k = .fixed ∨ o = .own)
    (hl : ∀ u, o = .lent u → h.org u = .own ∧ t = h.txt u ∧ u < m.next) : Inv (h.add m.next o t) m' := by
  have hne : ∀ s, 0 < h.bal s → s ≠ m.next := fun s h0 hc => by
    have := (i.fresh s (by omega)).1; omega
  have hsame : ∀ s, s ≠ m.next → (h.add m.next o t).bal s = h.bal s ∧ (h.add m.next o t).org s = h.org s ∧ (h.add m.next o t).txt s = h.txt s := by
    intro s hc
    simp [Held.add, upd, hc]
  refine ⟨?_, ?_, ?_, ?_, ?_⟩
  · intro s h0
    by_cases hc : s = m.next
    · subst hc
      exact ⟨k, c, by rw [hs]; simp [upd], hg⟩
    · obtain ⟨e1, e2, e3⟩ := hsame s hc
      rw [e1] at h0
      obtain ⟨k', c', e, g⟩ := i.live s h0
      refine ⟨k', c', by rw [hs]; simp [upd, hc, e], ?_⟩
      refine ⟨g.kind, by rw [e3]; exact g.len, by rw [e1]; exact g.ref, by rw [e2, e3]; exact g.null, ?_, by rw [e2]; exact g.lent, ?_⟩
      · rw [e2, e3, hb s hc]; exact g.own
      · rw [e2, e3]
        intro hf
        obtain ⟨a, p, b, e4, e5, e6⟩ := g.fixed hf
        refine ⟨a, p, b, e4, ?_, e6⟩
        rw [hb p, e5]
        intro hp
        rw [hp, (i.fresh m.next (by omega)).2] at e5
        cases e5
  · intro s h0
    have hc : s ≠ m.next := fun hc => by subst hc; simp [Held.add, upd] at h0
    rw [(hsame s hc).1] at h0
    rw [hs]
    simp [upd, hc, i.dead s h0]
  · intro p k' b e
    by_cases hc : p = m.next
    · subst hc
      rcases hbn k' b e with h1 | h1
      · exact .inl h1
      · exact .inr (by simp [Held.add, upd, h1])
    · rw [hb p hc] at e
      rw [(hsame p hc).1, (hsame p hc).2.1]
      exact i.bufs p k' b e
  · intro s u h0 ho
    by_cases hc : s = m.next
    · subst hc
      have ho' : o = .lent u := by simpa [Held.add, upd] using ho
      obtain ⟨l1, l2, l3⟩ := hl u ho'
      have hu : u ≠ m.next := by omega
      rw [(hsame u hu).2.1, (hsame u hu).2.2]
      exact ⟨l1, by simp [Held.add, upd, l2], by omega⟩
    · rw [(hsame s hc).1] at h0
      rw [(hsame s hc).2.1] at ho
      obtain ⟨l1, l2, l3⟩ := i.lent s u h0 ho
      have hu : u ≠ m.next := by omega
      rw [(hsame u hu).2.1, (hsame u hu).2.2, (hsame s hc).2.2]
      exact ⟨l1, l2, by omega⟩
  · intro s h0
    have hc : s ≠ m.next := by omega
    rw [(hsame s hc).1, hb s hc]
    exact i.fresh s (by omega)

theorem make_ok {h : Held} {m : Mem} (i : Inv h m) (pool : Bool) (t : List Nat) (a1 a2 : Bool) :
    ((make m pool t a1 a2).1 = none ∧ Inv h (make m pool t a1 a2).2) ∨
    ((make m pool t a1 a2).1 = some m.next ∧ Inv (h.add m.next .own t) (make m pool t a1 a2).2) := by
  rw [make]
  cases a1 with
  | false => exact .inl ⟨rfl, inv_next i⟩
  | true =>
    cases a2 with
    | false =>
      refine .inl ⟨rfl, ?_⟩
      have e : upd (upd m.strs m.next (some (kind pool, (⟨none, 0, false, false, 0⟩ : Cell)))) m.next none = m.strs := by
        funext s
        by_cases hc : s = m.next
        · subst hc; simp [upd, i.dead _ (i.fresh m.next (by omega)).1]
        · simp [upd, hc]
      simp only [Bool.true_eq_false, if_false, if_true, e]
      exact inv_next i
    | true =>
      refine .inr ⟨rfl, ?_⟩
      have e : ∀ x y : Option (Kind × Cell), upd (upd m.strs m.next x) m.next y = upd m.strs m.next y := by
        intro x y; funext s; by_cases hc : s = m.next <;> simp [upd, hc]
      simp only [Bool.true_eq_false, if_false, e]
      refine inv_add i rfl rfl (fun p hp => by simp [upd, hp]) ?_ (fun _ _ _ => .inr rfl) (by simp)
      refine ⟨rfl, by simp [Held.add, upd], by simp [Held.add, upd], by simp [Held.add, upd], ?_, by simp [Held.add, upd], by simp [Held.add, upd]⟩
      intro _
      exact ⟨rfl, rfl, t ++ [0], by simp [upd], by simp [Held.add, upd]⟩

theorem bytes?_ok {h : Held} {m : Mem} (i : Inv h m) {s : Option Nat} (u : ∀ x, some x = s → h.usable x) : bytes? m s = some (h.text s) := by
  cases s with
  | none => rfl
  | some x => exact bytes_ok i (u x rfl)

theorem step_ok {h : Held} {m : Mem} (i : Inv h m) (hbig : ∀ s, h.bal s < 2 ^ 30) {o : Op} (l : h.legal o) :
    ∃ r m' h', step m o = some (r, m') ∧ h.Step o r h' ∧ Inv h' m' ∧ ∀ s, h'.bal s < 2 ^ 30 := by
  have hfr := (i.fresh m.next (Nat.le_refl _)).1
  have hff : h.free m.next := ⟨hfr, fun s h0 ho => Nat.lt_irrefl _ (i.lent s _ h0 ho).2.2⟩
  have hbadd : ∀ o t s, (h.add m.next o t).bal s < 2 ^ 30 := by
    intro o t s
    by_cases hc : s = m.next
    · simp [Held.add, upd, hc]
    · have := hbig s
      simp [Held.add, upd, hc, this]
  have hmake : ∀ pool t a1 a2 (op : Op), (∀ s, op ≠ .ref s ∧ op ≠ .free s ∧ op ≠ .read s) → (h.Step op (.str (some m.next)) (h.add m.next .own t)) →
      ∃ r m' h', some (Res.str (make m pool t a1 a2).1, (make m pool t a1 a2).2) = some (r, m') ∧ h.Step op r h' ∧ Inv h' m' ∧ ∀ s, h'.bal s < 2 ^ 30 := by
    intro pool t a1 a2 op h1 h2
    rcases make_ok i pool t a1 a2 with ⟨e1, e2⟩ | ⟨e1, e2⟩
    · exact ⟨_, _, h, rfl, by rw [e1]; exact .failed h1, e2, hbig⟩
    · exact ⟨_, _, _, rfl, by rw [e1]; exact h2, e2, hbadd _ _⟩
  cases o with
  | new pool t a1 a2 =>
    cases t with
    | some t => exact hmake pool t a1 a2 _ (by simp) (.new hff)
    | none =>
      cases a1 with
      | false => exact ⟨_, _, h, rfl, .failed (by simp), inv_next i, hbig⟩
      | true =>
        refine ⟨_, _, _, rfl, .empty hff, ?_, hbadd _ _⟩
        refine inv_add i rfl rfl (fun _ _ => rfl) ?_ (fun k b e => ?_) (by simp)
        · exact ⟨rfl, by simp [Held.add, upd], by simp [Held.add, upd], fun _ => ⟨rfl, by simp [Held.add, upd]⟩, by simp [Held.add, upd], by simp [Held.add, upd], by simp [Held.add, upd]⟩
        · have : m.bufs m.next = some (k, b) := e
          rw [(i.fresh m.next (Nat.le_refl _)).2] at this
          cases this
  | dup pool s a1 a2 =>
    rw [step, bytes_ok i l]
    exact hmake pool (h.txt s) a1 a2 _ (by simp) (.dup hff)
  | take pool t a1 =>
    cases a1 with
    | false =>
      refine ⟨_, _, h, rfl, .failed (by simp), ?_, hbig⟩
      have e : upd (upd m.bufs m.next (some (kind pool, t))) m.next none = m.bufs := by
        funext s
        by_cases hc : s = m.next
        · subst hc; simp [upd, (i.fresh m.next (Nat.le_refl _)).2]
        · simp [upd, hc]
      simp only [makeRef, if_true, e]
      exact inv_next i
    | true =>
      refine ⟨_, _, _, rfl, .take hff, ?_, hbadd _ _⟩
      refine inv_add i rfl rfl (fun p hp => by simp [makeRef, upd, hp]) ?_ (fun _ _ _ => .inr rfl) (by simp)
      exact ⟨rfl, by simp [Held.add, upd], by simp [Held.add, upd], by simp [Held.add, upd], fun _ => ⟨rfl, rfl, t, by simp [makeRef, upd], by simp [Held.add, upd]⟩, by simp [Held.add, upd], by simp [Held.add, upd]⟩
  | refDup s a1 =>
    obtain ⟨k, c, e, g⟩ := i.live s l.1
    rw [step, e]
    cases a1 with
    | false => exact ⟨_, _, h, rfl, .failed (by simp), inv_next i, hbig⟩
    | true =>
      refine ⟨_, _, _, rfl, .refDup hff, ?_, hbadd _ _⟩
      have hs : s ≠ m.next := fun hc => by
        have h1 := l.1
        rw [hc, hfr] at h1
        exact Nat.lt_irrefl _ h1
      have ho : (h.add m.next (h.share s) (h.txt s)).org m.next = h.share s := by simp [Held.add, upd]
      have ht : (h.add m.next (h.share s) (h.txt s)).txt m.next = h.txt s := by simp [Held.add, upd]
      refine inv_add i rfl rfl (fun p hp => rfl) ?_ (fun k b e => ?_) ?_
      · refine ⟨rfl, by rw [ht]; exact g.len, by simp [Held.add, upd], ?_, ?_, ?_, ?_⟩
        · rw [ho, ht, Held.share]
          intro h1
          refine g.null ?_
          by_cases h2 : h.org s = .own
          · rw [if_pos h2] at h1; cases h1
          · rwa [if_neg h2] at h1
        · rw [ho, Held.share]
          intro h1
          by_cases h2 : h.org s = .own
          · rw [if_pos h2] at h1; cases h1
          · rw [if_neg h2] at h1; exact absurd h1 h2
        · rw [ho, Held.share]
          intro t h1
          by_cases h2 : h.org s = .own
          · rw [if_pos h2] at h1
            cases h1
            exact ⟨(g.own h2).1, rfl⟩
          · rw [if_neg h2] at h1
            exact ⟨(g.lent t h1).1, rfl⟩
        · rw [ho, ht, Held.share]
          intro h1
          by_cases h2 : h.org s = .own
          · rw [if_pos h2] at h1; cases h1
          · rw [if_neg h2] at h1
            exact ⟨rfl, (g.fixed h1).2⟩
      · have : m.bufs m.next = some (k, b) := e
        rw [(i.fresh m.next (Nat.le_refl _)).2] at this
        cases this
      · rw [Held.share]
        intro u h1
        by_cases h2 : h.org s = .own
        · rw [if_pos h2] at h1
          cases h1
          exact ⟨h2, rfl, Nat.lt_of_not_le fun hc => by have := (i.fresh s hc).1; have := l.1; omega⟩
        · rw [if_neg h2] at h1
          exact i.lent s u l.1 h1
  | fixed t a1 =>
    cases a1 with
    | false =>
      refine ⟨_, _, h, rfl, .failed (by simp), ?_, hbig⟩
      refine ⟨fun s hs => ?_, i.dead, ?_, fun s t hs ho => ?_, fun s hs => ?_⟩
      · obtain ⟨k, c, e, g⟩ := i.live s hs
        have hne : ∀ p k b, m.bufs p = some (k, b) → p ≠ m.next := by
          intro p k b e hc
          rw [hc, (i.fresh m.next (Nat.le_refl _)).2] at e
          cases e
        refine ⟨k, c, e, g.kind, g.len, g.ref, g.null, fun ho => ?_, g.lent, fun ho => ?_⟩
        · obtain ⟨a, b, d, e1, e2⟩ := g.own ho
          exact ⟨a, b, d, by simp [makeRef, upd, hne _ _ _ e1, e1], e2⟩
        · obtain ⟨a, p, b, e0, e1, e2⟩ := g.fixed ho
          exact ⟨a, p, b, e0, by simp [makeRef, upd, hne _ _ _ e1, e1], e2⟩
      · intro p k b e
        by_cases hc : p = m.next
        · simp [makeRef, upd, hc] at e; exact .inl e.1.symm
        · exact i.bufs p k b (by simpa [makeRef, upd, hc] using e)
      · obtain ⟨a, b, c⟩ := i.lent s t hs ho
        exact ⟨a, b, Nat.lt_succ_of_lt c⟩
      · have h1 : m.next + 1 ≤ s := hs
        have hc : s ≠ m.next := by omega
        exact ⟨(i.fresh s (by omega)).1, by simp [makeRef, upd, hc, (i.fresh s (by omega)).2]⟩
    | true =>
      refine ⟨_, _, _, rfl, .fixed hff, ?_, hbadd _ _⟩
      refine inv_add i rfl rfl (fun p hp => by simp [makeRef, upd, hp]) ?_ (fun k b e => .inl ?_) (by simp)
      · exact ⟨rfl, by simp [Held.add, upd], by simp [Held.add, upd], by simp [Held.add, upd], by simp [Held.add, upd], by simp [Held.add, upd], fun _ => ⟨rfl, m.next, t, rfl, by simp [makeRef, upd], by simp [Held.add, upd]⟩⟩
      · simp [makeRef, upd] at e; exact e.1.symm
  | concat pool s1 s2 sep a1 a2 =>
    have u1 : bytes? m s1 = some (h.text s1) := bytes?_ok i fun x hx => l x (.inl hx)
    have u2 : bytes? m s2 = some (h.text s2) := bytes?_ok i fun x hx => l x (.inr (.inl hx))
    have u3 : bytes? m sep = some (h.text sep) := bytes?_ok i fun x hx => l x (.inr (.inr hx))
    have hj : ∃ t, between m s1 s2 sep = some t ∧ h.text s1 ++ t ++ h.text s2 = h.join s1 s2 sep := by
      cases s1 <;> cases s2 <;> simp [between, Held.join, Held.text, u3]
    obtain ⟨t, e1, e2⟩ := hj
    rw [step, u1, u2, e1]
    simp only [Option.bind_eq_bind, Option.bind_some, e2]
    exact hmake pool _ a1 a2 _ (by simp) (.concat hff)
  | ref s =>
    obtain ⟨k, c, e, g⟩ := i.live s l.1
    refine ⟨.str (some s), { m with strs := upd m.strs s (some (k, { c with ref := c.ref + 1 })) }, _, by rw [step, e]; rfl, .ref, ?_, ?_⟩
    · have hpos : ∀ x, 0 < upd h.bal s (h.bal s + 1) x → 0 < h.bal x := by
        intro x hx
        by_cases hc : x = s
        · rw [hc]; exact l.1
        · simpa [upd, hc] using hx
      refine ⟨fun x hx => ?_, fun x hx => ?_, fun p k b e => ?_, fun x t hx => i.lent x t (hpos x hx), fun x hx => ?_⟩
      · by_cases hc : x = s
        · subst hc
          refine ⟨k, { c with ref := c.ref + 1 }, by simp [upd], g.kind, g.len, ?_, g.null, g.own, g.lent, g.fixed⟩
          have := l.2
          rw [BitVec.toNat_add, g.ref]
          simp [upd]
          omega
        · obtain ⟨k', c', e', g'⟩ := i.live x (hpos x hx)
          exact ⟨k', c', by simp [upd, hc, e'], g'.kind, g'.len, by simp [upd, hc, g'.ref], g'.null, g'.own, g'.lent, g'.fixed⟩
      · have hc : x ≠ s := fun hc => by simp [upd, hc] at hx
        simp [upd, hc] at hx ⊢
        exact i.dead x hx
      · rcases i.bufs p k b e with h1 | h1
        · exact .inl h1
        · refine .inr ⟨?_, h1.2⟩
          show 0 < upd h.bal s _ p
          by_cases hc : p = s <;> simp [upd, hc, h1.1]
      · have hc : x ≠ s := fun hc => by
          have := (i.fresh x hx).1
          rw [hc] at this; have := l.1; omega
        exact ⟨by simp [upd, hc, (i.fresh x hx).1], (i.fresh x hx).2⟩
    · intro x
      show upd h.bal s _ x < _
      by_cases hc : x = s
      · rw [hc]; simp only [upd, if_true]; exact l.2
      · simp only [upd, hc, if_false]; exact hbig x
  | free s =>
    obtain ⟨k, c, e, g⟩ := i.live s l
    have hbal' : ∀ x, upd h.bal s (h.bal s - 1) x < 2 ^ 30 := by
      intro x
      have := hbig x
      by_cases hc : x = s
      · subst hc; simp only [upd, if_true]; omega
      · simp only [upd, hc, if_false]; exact this
    have hpos : ∀ x, 0 < upd h.bal s (h.bal s - 1) x → 0 < h.bal x := by
      intro x hx
      by_cases hc : x = s
      · rw [hc]; exact l
      · simpa [upd, hc] using hx
    have hfr' : ∀ x, m.next ≤ x → upd h.bal s (h.bal s - 1) x = 0 := by
      intro x hx
      have := (i.fresh x hx).1
      by_cases hc : x = s
      · rw [hc] at this; have : 0 < h.bal s := l; omega
      · simp [upd, hc, this]
    by_cases h1 : c.ref.toNat ≤ 1
    · have hb1 : h.bal s = 1 := by
        have := g.ref; have h2 : 0 < h.bal s := l; omega
      have hz : upd h.bal s (h.bal s - 1) s = 0 := by simp [upd, hb1]
      -- the buffers after
      have hm : ∃ B, freeData m c = some { m with bufs := B } ∧ (∀ p, p ≠ s → B p = m.bufs p) ∧ (h.org s = .own → B s = none) ∧ (h.org s ≠ .own → B s = m.bufs s) := by
        cases ho : h.org s with
        | null =>
          obtain ⟨e1, _⟩ := g.null ho
          exact ⟨m.bufs, by rw [freeData, e1]; cases c.dataRef <;> rfl, fun _ _ => rfl, by simp, fun _ => rfl⟩
        | own =>
          obtain ⟨e1, e2, b, e3, _⟩ := g.own ho
          refine ⟨upd m.bufs s none, ?_, fun p hp => by simp [upd, hp], fun _ => by simp [upd], by simp⟩
          rw [freeData, e1, e2]
          simp [freeBuf, e3]
        | lent t =>
          obtain ⟨e1, e2⟩ := g.lent t ho
          exact ⟨m.bufs, by rw [freeData, e1, e2], fun _ _ => rfl, by simp, fun _ => rfl⟩
        | fixed =>
          obtain ⟨e2, _⟩ := g.fixed ho
          exact ⟨m.bufs, by rw [freeData, e2], fun _ _ => rfl, by simp, fun _ => rfl⟩
      obtain ⟨B, e1, e2, e3, e4⟩ := hm
      refine ⟨.unit, { m with bufs := B, strs := upd m.strs s none }, _, ?_, .free, ?_, hbal'⟩
      · rw [step, free, e]
        simp only [Option.bind_eq_bind, Option.bind_some, if_pos h1, e1]
        simp [freeStr, e, g.kind]
      · refine ⟨fun x hx => ?_, fun x hx => ?_, fun p k' b eb => ?_, fun x t hx => i.lent x t (hpos x hx), fun x hx => ⟨hfr' x hx, ?_⟩⟩
        · have hc : x ≠ s := fun hc => by
            have h2 : 0 < upd h.bal s (h.bal s - 1) x := hx
            rw [hc, hz] at h2; exact Nat.lt_irrefl _ h2
          obtain ⟨k', c', e', g'⟩ := i.live x (hpos x hx)
          refine ⟨k', c', by simp [upd, hc, e'], g'.kind, g'.len, by simp [upd, hc, g'.ref], g'.null, fun ho => ?_, g'.lent, fun ho => ?_⟩
          · obtain ⟨a, b, d, e5, e6⟩ := g'.own ho
            exact ⟨a, b, d, by show B x = _; rw [e2 x hc, e5], e6⟩
          · obtain ⟨a, p, b, e5, e6, e7⟩ := g'.fixed ho
            refine ⟨a, p, b, e5, ?_, e7⟩
            show B p = _
            by_cases hp : p = s
            · by_cases ho' : h.org s = .own
              · obtain ⟨_, _, b', e8, _⟩ := g.own ho'
                rw [hp, e8] at e6
                have := (Prod.mk.inj (Option.some.inj e6)).1
                cases hq : c.pool <;> simp [kind, hq] at this
              · rw [hp, e4 ho', ← hp, e6]
            · rw [e2 p hp, e6]
        · by_cases hc : x = s
          · simp [upd, hc]
          · simp only [upd, hc, if_false] at hx ⊢
            exact i.dead x hx
        · have eb : B p = some (k', b) := eb
          by_cases hp : p = s
          · by_cases ho' : h.org s = .own
            · rw [hp, e3 ho'] at eb; cases eb
            · rw [hp, e4 ho'] at eb
              rcases i.bufs s k' b eb with h2 | h2
              · exact .inl h2
              · exact absurd h2.2 ho'
          · rw [e2 p hp] at eb
            rcases i.bufs p k' b eb with h2 | h2
            · exact .inl h2
            · exact .inr ⟨by simpa [upd, hp] using h2.1, h2.2⟩
        · have hc : x ≠ s := fun hc => by
            have := (i.fresh x hx).1
            rw [hc] at this; have : 0 < h.bal s := l; omega
          show B x = none
          rw [e2 x hc, (i.fresh x hx).2]
    · refine ⟨.unit, { m with strs := upd m.strs s (some (k, { c with ref := c.ref - 1 })) }, _, ?_, .free, ?_, hbal'⟩
      · rw [step, free, e]
        simp only [Option.bind_eq_bind, Option.bind_some, if_neg h1]
      · have h2 : 1 < h.bal s := by rw [← g.ref]; omega
        refine ⟨fun x hx => ?_, fun x hx => ?_, fun p k' b e => ?_, fun x t hx => i.lent x t (hpos x hx), fun x hx => ⟨hfr' x hx, (i.fresh x hx).2⟩⟩
        · by_cases hc : x = s
          · subst hc
            refine ⟨k, { c with ref := c.ref - 1 }, by simp [upd], g.kind, g.len, ?_, g.null, g.own, g.lent, g.fixed⟩
            have := hbig x
            rw [BitVec.toNat_sub, g.ref]
            simp [upd]
            omega
          · obtain ⟨k', c', e', g'⟩ := i.live x (hpos x hx)
            exact ⟨k', c', by simp [upd, hc, e'], g'.kind, g'.len, by simp [upd, hc, g'.ref], g'.null, g'.own, g'.lent, g'.fixed⟩
        · have hc : x ≠ s := fun hc => by
            rw [hc] at hx
            simp [upd] at hx
            omega
          simp only [upd, hc, if_false] at hx ⊢
          exact i.dead x hx
        · rcases i.bufs p k' b e with h3 | h3
          · exact .inl h3
          · refine .inr ⟨?_, h3.2⟩
            show 0 < upd h.bal s _ p
            by_cases hc : p = s
            · simp only [upd, hc, if_true]; omega
            · simp only [upd, hc, if_false]; exact h3.1
  | read s =>
    refine ⟨_, m, h, ?_, .read, i, hbig⟩
    rw [step, bytes_ok i l]
    rfl

theorem run_ok {p : Prog} : ∀ {h : Held} {m : Mem}, Inv h m → (∀ s, h.bal s < 2 ^ 30) → h.Legal p →
    ∃ tr m' h', run m p = some (tr, m') ∧ h.Steps tr h' ∧ Inv h' m' := by
  induction p with
  | done => intro h m i _ _; exact ⟨[], m, h, rfl, .nil, i⟩
  | call o k ih =>
    intro h m i hb l
    obtain ⟨r, m1, h1, e1, s1, i1, b1⟩ := step_ok i hb l.1
    obtain ⟨tr, m2, h2, e2, s2, i2⟩ := ih r i1 b1 (l.2 r h1 s1)
    exact ⟨(o, r) :: tr, m2, h2, by rw [run, e1]; simp [e2], .cons s1 s2, i2⟩

/-! ## Theorems -/

/-- **Partial.** A program that uses only what it holds, and holds no string 2^30 times: no memory is used after it was freed, none is
freed twice or with the wrong allocator, all texts are what they should be; a string is there exactly as long as it is
held, a buffer exactly as long as its string. -/
theorem held_partial {p : Prog} (l : Held.none.Legal p) :
    ∃ tr m h, run Mem.empty p = some (tr, m) ∧ Held.none.Steps tr h ∧ (∀ s, (m.strs s).isSome ↔ 0 < h.bal s) ∧
      ∀ p, (∃ k b, m.bufs p = some (k, b) ∧ k ≠ .fixed) ↔ 0 < h.bal p ∧ h.org p = .own := by
  obtain ⟨rs, m, h, e, s, i⟩ := run_ok inv_empty (by simp [Held.none]) l
  refine ⟨rs, m, h, e, s, fun x => ?_, fun p => ?_⟩
  · constructor
    · intro hx
      by_contra hc
      rw [i.dead x (by omega)] at hx
      cases hx
    · intro hx
      obtain ⟨k, c, e, _⟩ := i.live x hx
      simp [e]
  · constructor
    · rintro ⟨k, b, e, hk⟩
      exact (i.bufs p k b e).resolve_left hk
    · rintro ⟨h1, h2⟩
      obtain ⟨k, c, e, g⟩ := i.live p h1
      obtain ⟨_, _, b, e2, _⟩ := g.own h2
      exact ⟨_, b, e2, by cases c.pool <;> simp [kind]⟩

/-- Nothing is left when nothing is held. -/
theorem nothing_left {p : Prog} (l : Held.none.Legal p) (hz : ∀ tr m h, run Mem.empty p = some (tr, m) → Held.none.Steps tr h → ∀ s, h.bal s = 0) :
    ∃ tr m, run Mem.empty p = some (tr, m) ∧ (∀ s, m.strs s = none) ∧ ∀ p k b, m.bufs p = some (k, b) → k = .fixed := by
  obtain ⟨rs, m, h, e, s, h1, h2⟩ := held_partial l
  have e0 := e
  refine ⟨rs, m, e, fun x => ?_, fun p k b e => ?_⟩
  · have := (h1 x).not.2 (by rw [hz rs m h e s x]; simp)
    simpa using this
  · by_contra hk
    have := ((h2 p).1 ⟨k, b, e, hk⟩).1
    rw [hz rs m h e0 s p] at this
    exact Nat.lt_irrefl _ this

/-- The calls of mln_string_ref for one string. -/
theorem refs {m : Mem} {s : Nat} {k : Kind} {c : Cell} (e : m.strs s = some (k, c)) (n : Nat) :
    ∃ rs m', run m (calls (List.replicate n (.ref s))) = some (rs, m') ∧ m'.strs s = some (k, { c with ref := c.ref + BitVec.ofNat 30 n }) ∧ m'.bufs = m.bufs := by
  induction n generalizing m c with
  | zero => exact ⟨[], m, rfl, by simp [e], rfl⟩
  | succ n ih =>
    obtain ⟨rs, m', e1, e2, e3⟩ := ih (m := { m with strs := upd m.strs s (some (k, { c with ref := c.ref + 1 })) }) (c := { c with ref := c.ref + 1 }) (by simp [upd])
    refine ⟨(.ref s, .str (some s)) :: rs, m', ?_, ?_, e3⟩
    · rw [List.replicate_succ, calls, run, step, e]
      simp only [Option.bind_eq_bind, Option.bind_some]
      rw [e1]
      rfl
    · rw [e2]
      congr 3
      rw [BitVec.add_assoc]
      congr 1
      apply BitVec.eq_of_toNat_eq
      simp [BitVec.toNat_add, BitVec.toNat_ofNat]
      omega

/-- A string that is held 2^30 times or more is freed with the first mln_string_free, though it is still held: for every memory
and every string in it that is held once and has its own bytes. -/
theorem count_refuted {h : Held} {m : Mem} (i : Inv h m) {s : Nat} (h1 : h.bal s = 1) (ho : h.org s = .own) :
    ∃ rs m', run m (calls (List.replicate (2 ^ 30 - 1) (.ref s) ++ [.free s])) = some (rs, m') ∧ step m' (.read s) = none ∧ step m' (.free s) = none := by
  obtain ⟨k, c, e, g⟩ := i.live s (by omega)
  have hN : ∃ N : Nat, 2 ^ 30 - 1 = N := ⟨_, rfl⟩
  obtain ⟨N, hN⟩ := hN
  rw [hN]
  obtain ⟨rs, m1, e1, e2, e3⟩ := refs e N
  obtain ⟨d1, d2, b, d3, _⟩ := g.own ho
  have hr : (c.ref + BitVec.ofNat 30 N).toNat = 0 := by
    rw [BitVec.toNat_add, g.ref, h1, BitVec.toNat_ofNat, ← hN]
  have happ : ∀ (a b : List Op) (m : Mem), run m (calls (a ++ b)) = (run m (calls a)).bind fun r => (run r.2 (calls b)).map fun q => (r.1 ++ q.1, q.2) := by
    intro a b
    induction a with
    | nil => intro m; simp [run, calls]
    | cons o a ih =>
      intro m
      rw [List.cons_append, calls, calls, run, run]
      cases step m o with
      | none => rfl
      | some r =>
        simp only [Option.bind_eq_bind, Option.bind_some, ih]
        cases run r.2 (calls a) with
        | none => rfl
        | some q =>
          simp only [Option.bind_some]
          cases run q.2 (calls b) <;> rfl
  refine ⟨rs ++ [(.free s, .unit)], { m1 with bufs := upd m1.bufs s none, strs := upd m1.strs s none }, ?_, ?_, ?_⟩
  · rw [happ, e1]
    simp only [Option.bind_some, calls, run, step, free, e2, Option.bind_eq_bind]
    rw [if_pos (by show (c.ref + _).toNat ≤ 1; rw [hr]; omega)]
    simp only [freeData, d1, d2, freeBuf, e3, d3, Option.bind_eq_bind, Option.bind_some, if_true]
    simp [freeStr, e2, g.kind]
  · simp [step, bytes, upd]
  · simp [step, free, upd]

/-- The rule is needed: a string made by mln_string_ref_dup, used after the string it was made from was freed, reads memory that
was freed, whatever the memory and the text; one made by mln_string_dup does not. -/
theorem lent_after (m : Mem) (pool : Bool) (t : List Nat) :
    (run m (calls [.new pool (some t) true true, .refDup m.next true, .free m.next])).isSome ∧
    run m (calls [.new pool (some t) true true, .refDup m.next true, .free m.next, .read (m.next + 1)]) = none ∧
    ((run m (calls [.new pool (some t) true true, .dup pool m.next true true, .free m.next, .read (m.next + 1)])).bind fun r => r.1.getLast?.map Prod.snd) = some (.txt t) := by
  refine ⟨?_, ?_, ?_⟩
  · simp [calls, run, step, make, makeRef, upd, free, freeData, freeBuf, freeStr]
  · simp [calls, run, step, make, makeRef, bytes, upd, free, freeData, freeBuf, freeStr]
  · simp [calls, run, step, make, bytes, upd, free, freeData, freeBuf, freeStr]

/-! ## Examples -/

example : ((run Mem.empty (calls [.new false (some [65, 66]) true true, .ref 0, .dup true 0 true true, .refDup 0 true, .free 0, .read 2, .free 0, .read 1,
      .concat false (some 1) (some 1) none true true, .concat false (some 1) none none true false, .read 3])).map fun r => r.1.map Prod.snd) =
    some [.str (some 0), .str (some 0), .str (some 1), .str (some 2), .unit, .txt [65, 66], .unit, .txt [65, 66], .str (some 3), .str none, .txt [65, 66, 65, 66]] := by decide
/-- Freed twice, freed while borrowed. -/
example : (run Mem.empty (calls [.take true [1] true, .free 0, .free 0])).isNone ∧ (run Mem.empty (calls [.fixed [1] true, .free 0, .ref 0])).isNone := by decide
/-- A program that looks whether it got a string. -/
example : Held.none.Legal (.call (.new false (some [65]) true true) fun | .str (some n) => .call (.read n) fun _ => .call (.free n) fun _ => .done | _ => .done) := by
  refine ⟨trivial, fun r h' s => ?_⟩
  cases s with
  | failed _ => trivial
  | @new _ _ _ _ n hn =>
    have hb : 0 < (Held.none.add n .own [65]).bal n := by simp [Held.add, upd]
    refine ⟨⟨hb, fun t ht => by simp [Held.add, upd] at ht⟩, fun r h' s => ?_⟩
    cases s with
    | failed hf => exact absurd rfl (hf n).2.2
    | read => exact ⟨hb, fun _ _ _ => trivial⟩

end Verif.StrLife
