import Verif.PgRun
/-!
# Grammars whose texts have one reading

A condition on a grammar, which can be checked by computation, under which no text has two
derivations: the next token, or behind an identifier the next two, tell which production is used.
The sets of tokens the condition needs are given as tables (`Cert`); nothing is assumed of them but
that the check succeeds.
-/
namespace Verif.Pg

/-- Tables for a grammar: the tokens that derive the empty text; what a text of a token begins with;
what can come behind it; whether it derives the text `id`; what is second in its longer texts that
begin with `id`. -/
structure Cert where
  id : Nat
  nl : Nat → Bool
  fi : Nat → List Nat
  fo : Nat → List Nat
  one : Nat → Bool
  se : Nat → List Nat

namespace Cert
variable (c : Cert) (g : List Rule)

/-- All tokens of a sequence derive the empty text. -/
def nlSeq : List Nat → Bool
  | [] => true
  | x :: xs => c.nl x && nlSeq xs

/-- What a text of a sequence begins with. -/
def fiSeq : List Nat → List Nat
  | [] => []
  | x :: xs => (if isNt g x then c.fi x else [x]) ++ (if c.nl x then fiSeq xs else [])

/-- The next token, where a sequence is read and `F` comes behind it. -/
def next (xs F : List Nat) : List Nat := c.fiSeq g xs ++ (if c.nlSeq xs then F else [])

/-- The text of the sequence can be `id` alone. -/
def oneSeq : List Nat → Bool
  | [] => false
  | x :: xs => ((x == c.id || c.one x) && c.nlSeq xs) || (c.nl x && oneSeq xs)

/-- The second token of a longer text of the sequence that begins with `id`. -/
def inSeq : List Nat → List Nat
  | [] => []
  | x :: xs => (if isNt g x then c.se x else []) ++ (if x == c.id || c.one x then c.fiSeq g xs else []) ++ (if c.nl x then inSeq xs else [])

/-- The second token, if the first one is `id` and comes from the sequence, and `F` comes behind. -/
def seSeq (F xs : List Nat) : List Nat := c.inSeq g xs ++ (if c.oneSeq xs then F else [])

/-- `F` behind the sequence agrees with the tables of its tokens. -/
def fits (F : List Nat) : List Nat → Bool
  | [] => true
  | x :: xs => (!isNt g x || (c.next g xs F).all (fun t => t ∈ c.fo x)) && fits F xs

/-- Two productions of the same token can be told apart. -/
def apart (r q : Rule) : Bool :=
  (c.next g r.rights (c.fo r.left)).all (fun t => !decide (t ∈ c.next g q.rights (c.fo q.left))) ||
  ((c.next g r.rights (c.fo r.left)).all (fun t => !decide (t ∈ c.next g q.rights (c.fo q.left)) || t == c.id) &&
    !c.nlSeq r.rights && !c.nlSeq q.rights &&
    (c.seSeq g (c.fo r.left) r.rights).all (fun t => !decide (t ∈ c.seSeq g (c.fo q.left) q.rights)))

def ruleOk (r : Rule) : Bool :=
  (!c.nlSeq r.rights || c.nl r.left) && (c.fiSeq g r.rights).all (fun t => t ∈ c.fi r.left) && c.fits g (c.fo r.left) r.rights &&
  (c.inSeq g r.rights).all (fun t => t ∈ c.se r.left) && (!c.oneSeq r.rights || c.one r.left)

/-- Each production is told apart from those behind it. -/
def pairs : List Rule → Bool
  | [] => true
  | r :: rs => rs.all (fun q => r.left != q.left || c.apart g r q) && pairs rs

def ok : Bool := !isNt g c.id && g.all (fun r => c.ruleOk g r) && c.pairs g g

end Cert

section
variable {D U : Type} {g : List Rule} {f : Nat → List (Option D) → U → U × Option (Option D)} {c : Cert}

theorem isNt_mem {r : Rule} (h : r ∈ g) : isNt g r.left = true := by
  simp only [isNt, List.any_eq_true]
  exact ⟨r, h, by simp⟩

theorem ok_rule (h : c.ok g = true) {r : Rule} (hr : r ∈ g) : c.ruleOk g r = true := by
  simp only [Cert.ok, Bool.and_eq_true, List.all_eq_true] at h
  exact h.1.2 r hr

theorem ok_id (h : c.ok g = true) : isNt g c.id = false := by
  simp only [Cert.ok, Bool.and_eq_true] at h
  simpa using h.1.1

theorem pairs_get : ∀ (l : List Rule), c.pairs g l = true → ∀ (i j : Nat) (r q : Rule), i < j → l[i]? = some r → l[j]? = some q → r.left = q.left → c.apart g r q = true
  | [], _, i, j, r, q, _, hi, _, _ => by cases hi
  | x :: xs, h, i, j, r, q, hlt, hi, hj, e => by
    simp only [Cert.pairs, Bool.and_eq_true, List.all_eq_true] at h
    obtain ⟨j, rfl⟩ : ∃ k, j = k + 1 := ⟨j - 1, by omega⟩
    rw [List.getElem?_cons_succ] at hj
    cases i with
    | zero =>
      rw [List.getElem?_cons_zero] at hi
      have := Option.some.inj hi
      subst this
      have := h.1 q (List.mem_of_getElem? hj)
      simpa [e] using this
    | succ i =>
      rw [List.getElem?_cons_succ] at hi
      exact pairs_get xs h.2 i j r q (by omega) hi hj e

/-- The text consists of tokens that are not left sides. -/
def Plain (g : List Rule) (ts : List (Tok D)) : Prop := ∀ t ∈ ts, isNt g t.type = false

theorem Plain.left {a b : List (Tok D)} (h : Plain g (a ++ b)) : Plain g a := fun t ht => h t (List.mem_append_left _ ht)
theorem Plain.right {a b : List (Tok D)} (h : Plain g (a ++ b)) : Plain g b := fun t ht => h t (List.mem_append_right _ ht)

/-- A text that is empty comes from tokens that may be empty; the first token is in the table. -/
theorem der_first (h : c.ok g = true) {b xs ts u vs u'} (d : Der g f b xs ts u vs u') (hp : Plain g ts) :
    (ts = [] → c.nlSeq xs = true) ∧ (∀ t r, ts = t :: r → t.type ∈ c.fiSeq g xs) := by
  induction d with
  | tok t u =>
    refine ⟨fun e => (by cases e), fun t' r e => ?_⟩
    have := (List.cons.inj e).1
    subst this
    have := hp t List.mem_cons_self
    simp [Cert.fiSeq, this]
  | rule hi _ _ ih =>
    have hr := List.mem_of_getElem? hi
    have hk := ok_rule h hr
    simp only [Cert.ruleOk, Bool.and_eq_true, List.all_eq_true] at hk
    obtain ⟨a, b⟩ := ih hp
    constructor
    · intro e
      have := a e
      have hk := hk.1.1.1.1
      rw [this] at hk
      simpa [Cert.nlSeq] using hk
    · intro t r e
      have := hk.1.1.1.2 _ (b t r e)
      simp only [Cert.fiSeq, isNt_mem hr, if_true, List.mem_append]
      exact Or.inl (by simpa using this)
  | nil => exact ⟨fun _ => rfl, fun t r e => (by cases e)⟩
  | @cons x xs ts us u v vs u' u'' _ _ ih1 ih2 =>
    obtain ⟨a1, b1⟩ := ih1 hp.left
    obtain ⟨a2, b2⟩ := ih2 hp.right
    constructor
    · intro e
      obtain ⟨e1, e2⟩ := List.append_eq_nil_iff.1 e
      have := a1 e1
      simp only [Cert.nlSeq, Bool.and_true] at this
      simp only [Cert.nlSeq, this, a2 e2, Bool.and_self]
    · intro t r e
      cases ts with
      | nil =>
        have := a1 rfl
        simp only [Cert.nlSeq, Bool.and_true] at this
        simp only [Cert.fiSeq, this, if_true, List.mem_append]
        exact Or.inr (b2 t r e)
      | cons t' r' =>
        have e1 := (List.cons.inj e).1
        subst e1
        have := b1 _ r' rfl
        simp only [Cert.fiSeq] at this ⊢
        rw [List.mem_append] at this ⊢
        rcases this with h | h
        · exact Or.inl h
        · split at h <;> simp at h

/-- The token behind the place where `xs` begins. -/
theorem der_next (h : c.ok g = true) {b xs ts u vs u'} (d : Der g f b xs ts u vs u') (hp : Plain g ts) {F : List Nat} {t : Tok D} {rest : List (Tok D)}
    (hF : t.type ∈ F) : ∃ n r, ts ++ t :: rest = n :: r ∧ n.type ∈ c.next g xs F := by
  obtain ⟨a, b⟩ := der_first h d hp
  cases ts with
  | nil => exact ⟨t, rest, rfl, by simp [Cert.next, a rfl, hF]⟩
  | cons n r => exact ⟨n, r ++ t :: rest, rfl, by simp [Cert.next, b n r rfl]⟩

/-- The second token, if the first is an identifier. -/
theorem der_in (h : c.ok g = true) {b xs ts u vs u'} (d : Der g f b xs ts u vs u') : Plain g ts → ∀ (a : Tok D) (ts2 : List (Tok D)), ts = a :: ts2 → a.type = c.id →
    (ts2 = [] → c.oneSeq xs = true) ∧ (∀ n r, ts2 = n :: r → n.type ∈ c.inSeq g xs) := by
  induction d with
  | tok k u =>
    intro _ a ts2 e ha
    obtain ⟨e1, e2⟩ := List.cons.inj e
    subst e1; subst e2
    exact ⟨fun _ => (by simp [Cert.oneSeq, ha, Cert.nlSeq]), fun n r e => (by cases e)⟩
  | @rule i r ts u vs u' u'' v hi _ _ ih =>
    intro hp a ts2 e ha
    have hr := List.mem_of_getElem? hi
    have hk := ok_rule h hr
    simp only [Cert.ruleOk, Bool.and_eq_true, List.all_eq_true] at hk
    obtain ⟨p, q⟩ := ih hp a ts2 e ha
    constructor
    · intro e2
      have := hk.2
      rw [p e2] at this
      have : c.one r.left = true := by simpa using this
      simp [Cert.oneSeq, this, Cert.nlSeq]
    · intro n z e2
      have := hk.1.2 _ (q n z e2)
      simp only [Cert.inSeq, isNt_mem hr, if_true, List.mem_append]
      exact Or.inl (Or.inl (by simpa using this))
  | nil => intro _ a ts2 e; cases e
  | @cons x xs ts us u v vs u' u'' d1 d2 ih1 ih2 =>
    intro hp a ts2 e ha
    cases ts with
    | nil =>
      have hn := (der_first h d1 hp.left).1 rfl
      simp only [Cert.nlSeq, Bool.and_true] at hn
      obtain ⟨p, q⟩ := ih2 hp.right a ts2 e ha
      constructor
      · intro e2
        simp [Cert.oneSeq, hn, p e2]
      · intro n r e2
        simp only [Cert.inSeq, hn, if_true, List.mem_append]
        exact Or.inr (q n r e2)
    | cons a' ts1 =>
      obtain ⟨e1, e2⟩ := List.cons.inj e
      subst e1; subst e2
      obtain ⟨p, q⟩ := ih1 hp.left a' ts1 rfl ha
      obtain ⟨p2, q2⟩ := der_first h d2 hp.right
      cases ts1 with
      | nil =>
        have hs := p rfl
        simp only [Cert.oneSeq, Cert.nlSeq, Bool.and_true, Bool.and_false, Bool.or_false] at hs
        constructor
        · intro e3
          simp only [Cert.oneSeq, hs, p2 e3, Bool.and_self, Bool.true_or]
        · intro n r e3
          simp only [Cert.inSeq, hs, if_true, List.mem_append]
          exact Or.inl (Or.inr (q2 n r e3))
      | cons n' ts3 =>
        refine ⟨fun e3 => (by cases e3), fun n r e3 => ?_⟩
        have e4 := (List.cons.inj e3).1
        subst e4
        have := q _ ts3 rfl
        simp only [Cert.inSeq, Cert.fiSeq, List.mem_append, ite_self, List.not_mem_nil, or_false] at this
        simp only [Cert.inSeq, List.mem_append]
        exact Or.inl (Or.inl this)

/-- The same, with what comes behind. -/
theorem der_second (h : c.ok g = true) {b xs ts u vs u'} (d : Der g f b xs ts u vs u') (F : List Nat) (t : Tok D) (rest : List (Tok D)) (a : Tok D)
    (ts2 : List (Tok D)) (hp : Plain g ts) (hF : t.type ∈ F) (e : ts = a :: ts2) (ha : a.type = c.id) :
    ∃ n r, ts2 ++ t :: rest = n :: r ∧ n.type ∈ c.seSeq g F xs := by
  obtain ⟨p, q⟩ := der_in h d hp a ts2 e ha
  cases ts2 with
  | nil => exact ⟨t, rest, rfl, by simp [Cert.seSeq, p rfl, hF]⟩
  | cons n r => exact ⟨n, r ++ t :: rest, rfl, by simp [Cert.seSeq, q n r rfl]⟩

theorem next_same {xs ys F G : List Nat} {ts ts' : List (Tok D)} {t t' : Tok D} {rest rest' : List (Tok D)} (e : ts ++ t :: rest = ts' ++ t' :: rest')
    (h1 : ∃ n r, ts ++ t :: rest = n :: r ∧ n.type ∈ c.next g xs F) (h2 : ∃ n r, ts' ++ t' :: rest' = n :: r ∧ n.type ∈ c.next g ys G) :
    ∃ n r, ts ++ t :: rest = n :: r ∧ n.type ∈ c.next g xs F ∧ n.type ∈ c.next g ys G := by
  obtain ⟨n, r, e1, m1⟩ := h1
  obtain ⟨n', r', e2, m2⟩ := h2
  have e3 := (e1.symm.trans e).trans e2
  obtain ⟨e4, _⟩ := List.cons.inj e3
  exact ⟨n, r, e1, m1, by rw [e4]; exact m2⟩

/-- Two productions of a token that both begin here are the same. -/
theorem same_rule (h : c.ok g = true) {i j : Nat} {r q : Rule} (hi : g[i]? = some r) (hj : g[j]? = some q) (hl : r.left = q.left)
    {ts ts' : List (Tok D)} {u vs u1 vs' u2} (d : Der g f false r.rights ts u vs u1) (d' : Der g f false q.rights ts' u vs' u2)
    (hp : Plain g ts) (hp' : Plain g ts') {t t' : Tok D} {rest rest' : List (Tok D)} (e : ts ++ t :: rest = ts' ++ t' :: rest')
    (ht : t.type ∈ c.fo r.left) (ht' : t'.type ∈ c.fo q.left) : i = j := by
  have main : ∀ {i j : Nat} {r q : Rule} (_ : g[i]? = some r) (_ : g[j]? = some q) (_ : r.left = q.left)
      {ts ts' : List (Tok D)} {u vs u1 vs' u2} (_ : Der g f false r.rights ts u vs u1) (_ : Der g f false q.rights ts' u vs' u2)
      (_ : Plain g ts) (_ : Plain g ts') {t t' : Tok D} {rest rest' : List (Tok D)} (_ : ts ++ t :: rest = ts' ++ t' :: rest')
      (_ : t.type ∈ c.fo r.left) (_ : t'.type ∈ c.fo q.left), i < j → False := by
    intro i j r q hi hj hl ts ts' u vs u1 vs' u2 d d' hp hp' t t' rest rest' e ht ht' hlt
    have hpairs : c.pairs g g = true := by
      have := h
      simp only [Cert.ok, Bool.and_eq_true] at this
      exact this.2
    have ha := pairs_get g hpairs i j r q hlt hi hj hl
    obtain ⟨n, x, e1, m1, m2⟩ := next_same e (der_next h d hp ht) (der_next h d' hp' ht')
    simp only [Cert.apart, Bool.or_eq_true, Bool.and_eq_true, List.all_eq_true] at ha
    rcases ha with ha | ⟨⟨⟨ha, hn⟩, hn'⟩, hs⟩
    · have := ha _ m1
      simp [m2] at this
    · have hid : n.type = c.id := by
        have := ha _ m1
        simpa [m2] using this
      have hr := List.mem_of_getElem? hi
      have hq := List.mem_of_getElem? hj
      cases ts with
      | nil => have := (der_first h d hp).1 rfl; rw [this] at hn; cases hn
      | cons a ts2 =>
        cases ts' with
        | nil => have := (der_first h d' hp').1 rfl; rw [this] at hn'; cases hn'
        | cons a' ts2' =>
          have ea : a = n := (List.cons.inj e1).1
          obtain ⟨eaa, et⟩ := List.cons.inj e
          obtain ⟨y, z, e2, m3⟩ := der_second h d _ t rest a ts2 hp ht rfl (by rw [ea]; exact hid)
          obtain ⟨y', z', e3, m4⟩ := der_second h d' _ t' rest' a' ts2' hp' ht' rfl (by rw [← eaa, ea]; exact hid)
          have e4 := (e2.symm.trans et).trans e3
          obtain ⟨e5, _⟩ := List.cons.inj e4
          have := hs _ m3
          rw [e5] at this
          simp [m4] at this
  rcases Nat.lt_trichotomy i j with hlt | he | hgt
  · exact (main hi hj hl d d' hp hp' e ht ht' hlt).elim
  · exact he
  · exact (main hj hi hl.symm d' d hp' hp e.symm ht' ht hgt).elim

/-- Two derivations of the same sequence in the same place, each with a token behind it that can
stand there, are of the same text and have the same value. -/
theorem der_unique (h : c.ok g = true) {b xs ts u vs u1} (d : Der g f b xs ts u vs u1) :
    ∀ (F : List Nat) (ts' : List (Tok D)) vs' u2 (t t' : Tok D) (rest rest' : List (Tok D)), Der g f b xs ts' u vs' u2 → Plain g ts → Plain g ts' → c.fits g F xs = true →
      t.type ∈ F → t'.type ∈ F → ts ++ t :: rest = ts' ++ t' :: rest' → ts = ts' ∧ vs = vs' ∧ u1 = u2 := by
  induction d with
  | tok k u =>
    intro F ts' vs' u2 t t' rest rest' d' hp hp' _ _ _ e
    have hk := hp k List.mem_cons_self
    generalize hx : [k.type] = xs at d'
    generalize hb : true = b at d'
    cases d' with
    | tok k' u =>
      have := (List.cons.inj e).1
      subst this
      exact ⟨rfl, rfl, rfl⟩
    | rule hi _ _ =>
      have := (List.cons.inj hx).1
      rw [this, isNt_mem (List.mem_of_getElem? hi)] at hk
      cases hk
    | nil => cases hb
    | cons => cases hb
  | @rule i r ts u vs u' u'' v hi d1 hv ih =>
    intro F ts' vs' u2 t t' rest rest' d' hp hp' hfit ht ht' e
    have hr := List.mem_of_getElem? hi
    have hfo : ∀ s : Tok D, s.type ∈ F → s.type ∈ c.fo r.left := by
      intro s hs
      have := hfit
      simp only [Cert.fits, isNt_mem hr, Cert.next, Cert.fiSeq, Cert.nlSeq, List.nil_append, if_true, Bool.and_true, Bool.not_true, Bool.false_or, List.all_eq_true] at this
      simpa using this _ hs
    generalize hx : [r.left] = xs at d'
    generalize hb : true = b at d'
    cases d' with
    | tok k' u =>
      have := (List.cons.inj hx).1
      have hk := hp' k' List.mem_cons_self
      rw [← this, isNt_mem hr] at hk
      cases hk
    | @rule j q _ _ ws w1 _ _ hj d2 hw =>
      have hl := (List.cons.inj hx).1
      have hij := same_rule h hi hj hl d1 d2 hp hp' e (hfo t ht) (by rw [← hl]; exact hfo t' ht')
      subst hij
      have hrq := Option.some.inj (hi.symm.trans hj)
      subst hrq
      have kr := ok_rule h hr
      simp only [Cert.ruleOk, Bool.and_eq_true] at kr
      obtain ⟨e1, e2, e3⟩ := ih _ _ _ _ t t' rest rest' d2 hp hp' kr.1.1.2 (hfo t ht) (hfo t' ht') e
      subst e1; subst e2; subst e3
      rw [hv] at hw
      obtain ⟨h1, h2⟩ := Prod.mk.inj hw
      exact ⟨rfl, by rw [Option.some.inj h2], h1⟩
    | nil => cases hb
    | cons => cases hb
  | nil u =>
    intro F ts' vs' u2 t t' rest rest' d' _ _ _ _ _ e
    cases d'
    exact ⟨rfl, rfl, rfl⟩
  | @cons x xs ts us u v vs u' u'' d1 d2 ih1 ih2 =>
    intro F ts' vs' u2 t t' rest rest' d' hp hp' hfit ht ht' e
    simp only [Cert.fits, Bool.and_eq_true] at hfit
    cases d' with
    | @cons _ _ ts1 us1 _ v1 vs1 w1 _ d3 d4 =>
      obtain ⟨n, r, e1, m1⟩ := der_next h d2 hp.right (rest := rest) ht
      obtain ⟨n', r', e2, m2⟩ := der_next h d4 hp'.right (rest := rest') ht'
      rw [List.append_assoc, List.append_assoc, e1, e2] at e
      obtain ⟨h1, h2, h3⟩ := ih1 (c.next g xs F) _ _ _ n n' r r' d3 hp.left hp'.left
        (by simpa [Cert.fits, Cert.next, Cert.fiSeq, Cert.nlSeq] using hfit.1) m1 m2 e
      subst h1; subst h3
      rw [List.append_cancel_left_eq, ← e1, ← e2] at e
      obtain ⟨h4, h5, h6⟩ := ih2 F _ _ _ t t' rest rest' d4 hp.right hp'.right hfit.2 ht ht' e
      subst h4; subst h5; subst h6
      exact ⟨rfl, by rw [(List.cons.inj h2).1], rfl⟩

end

end Verif.Pg
