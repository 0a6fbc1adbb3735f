import Verif.Queue
/-
Properties C01, C02, C03.

Specification: a FIFO of capacity `n` is a plain list, oldest element first.
-/
namespace Verif.Queue

/-! ### Specification (independent of the ring) -/

/-- Abstract bounded FIFO: list of elements, oldest first. -/
def specStep {α} (cap : Nat) (l : List α) : Op α → Out α × List α
  | .append x => if l.length < cap then (.code 0, l ++ [x]) else (.code (-1), l)
  | .get => (.ptr l.head?, l)
  | .remove => (.unit, l.drop 1)
  | .search i => (.ptr l[i]?, l)
  | .freeIndex i => (.freed (l[i]?.toList), l.eraseIdx i)

def specRun {α} (cap : Nat) (l : List α) : List (Op α) → List (Out α) × List α
  | [] => ([], l)
  | op :: ops =>
    let r := specStep cap l op
    let s := specRun cap r.2 ops
    (r.1 :: s.1, s.2)

/-- Visiting a list with a handler that can stop the walk. -/
def specVisit {α σ} (h : σ → α → σ × Bool) : List α → σ → σ × Int
  | [], s => (s, 0)
  | x :: l, s => if (h s x).2 then ((h s x).1, -1) else specVisit h l (h s x).1

/-! ### Representation invariant -/

structure Rep {α} (q : Q α) (l : List α) : Prop where
  memlen : q.mem.length = q.qlen
  pos    : 0 < q.qlen
  headlt : q.head < q.qlen
  nr     : q.nr = l.length
  le     : l.length ≤ q.qlen
  cont   : ∀ i, i < l.length → q.mem[(q.head + i) % q.qlen]? = l[i]?

/-- Full invariant: `tail` is where the next element goes. -/
structure RepT {α} (q : Q α) (l : List α) : Prop extends Rep q l where
  tail : q.tail = (q.head + l.length) % q.qlen

theorem wrap_eq (a n : Nat) (h : a < 2 * n) : (if a ≥ n then a - n else a) = a % n := by
  split
  · rw [Nat.mod_eq_sub_mod (by omega), Nat.mod_eq_of_lt (by omega)]
  · rw [Nat.mod_eq_of_lt (by omega)]

theorem wrap_succ (a n : Nat) (h : a < n) : (if a + 1 ≥ n then 0 else a + 1) = (a + 1) % n := by
  split
  · have : a + 1 = n := by omega
    simp [this]
  · rw [Nat.mod_eq_of_lt (by omega)]

theorem wrap_succ' (a n : Nat) (h : a < n) : (if a + 1 = n then 0 else a + 1) = (a + 1) % n := by
  split
  · rename_i h; simp [h]
  · rw [Nat.mod_eq_of_lt (by omega)]

theorem mod_inj {h i j n : Nat} (hh : h < n) (hi : i < n) (hj : j < n)
    (e : (h + i) % n = (h + j) % n) : i = j := by
  rw [← wrap_eq _ _ (by omega), ← wrap_eq _ _ (by omega)] at e
  split at e <;> split at e <;> omega

theorem Rep.load {α} {q : Q α} {l : List α} (r : Rep q l) {i : Nat} (hi : i < l.length) :
    load q ((q.head + i) % q.qlen) = some l[i] := by
  unfold Queue.load
  rw [r.cont i hi, List.getElem?_eq_getElem hi]

theorem rep_init {α} (null : α) (n : Nat) (hn : 0 < n) : RepT (init null n) ([] : List α) := by
  refine ⟨⟨?_, ?_, ?_, ?_, ?_, ?_⟩, ?_⟩ <;> simp [init, hn]

theorem rep_get {α} {q : Q α} {l : List α} (r : Rep q l) : get q = some l.head? := by
  unfold get
  split
  · rename_i h; rw [r.nr] at h; simp [List.length_eq_zero_iff.mp h]
  · rename_i h; rw [r.nr] at h
    have := r.load (i := 0) (by omega)
    simp only [Nat.add_zero, Nat.mod_eq_of_lt r.headlt] at this
    rw [this]
    cases l with
    | nil => exact absurd rfl h
    | cons a l => rfl

theorem rep_search {α} {q : Q α} {l : List α} (r : Rep q l) (i : Nat) : search q i = some l[i]? := by
  unfold search
  split
  · rename_i h; rw [r.nr] at h; simp [List.getElem?_eq_none h]
  · rename_i h; rw [r.nr] at h
    have hl := r.le
    have hh := r.headlt
    simp only []
    rw [wrap_eq _ _ (by omega), r.load (by omega)]
    simp [List.getElem?_eq_getElem (Nat.lt_of_not_le h)]

theorem rep_remove {α} {q : Q α} {l : List α} (r : Rep q l) : Rep (remove q) (l.drop 1) := by
  unfold remove
  split
  · rename_i h; rw [r.nr] at h
    have : l = [] := List.length_eq_zero_iff.mp h
    subst this; simpa using r
  · rename_i h; rw [r.nr] at h
    have hl := r.le
    have hh := r.headlt
    have hn := r.nr
    refine ⟨r.memlen, r.pos, ?_, ?_, ?_, ?_⟩
    · simp only []; split <;> omega
    · simp [hn]
    · simp; omega
    · intro i hi
      simp only [] 
      rw [wrap_succ _ _ hh]
      have := r.cont (1 + i) (by simp at hi; omega)
      simp only [Nat.mod_add_mod]
      rw [List.getElem?_drop, Nat.add_assoc, this]

theorem repT_remove {α} {q : Q α} {l : List α} (r : RepT q l) : RepT (remove q) (l.drop 1) := by
  refine ⟨rep_remove r.toRep, ?_⟩
  unfold remove
  split
  · rename_i h; rw [r.nr] at h
    have : l = [] := List.length_eq_zero_iff.mp h
    subst this; simpa using r.tail
  · rename_i h; rw [r.nr] at h
    simp only [r.tail]
    rw [wrap_succ _ _ r.headlt, Nat.mod_add_mod]
    simp only [List.length_drop]
    congr 1; omega

theorem repT_append {α} {q : Q α} {l : List α} (r : RepT q l) (x : α) :
    ∃ q', append q x = some ((if l.length < q.qlen then 0 else -1), q') ∧ q'.qlen = q.qlen ∧
      RepT q' (if l.length < q.qlen then l ++ [x] else l) := by
  unfold append
  have hn := r.nr
  by_cases h : l.length < q.qlen
  · rw [if_neg (by omega)]
    have ht : q.tail < q.qlen := by rw [r.tail]; exact Nat.mod_lt _ r.pos
    simp only [store, r.memlen, ht, if_true, h, Option.bind_eq_bind, Option.bind_some]
    refine ⟨_, rfl, rfl, ⟨?_, r.pos, r.headlt, ?_, ?_, ?_⟩, ?_⟩
    · simp [r.memlen]
    · simp [hn]
    · simp; omega
    · intro i hi
      simp only [List.length_append, List.length_singleton] at hi
      simp only [List.getElem?_set, r.memlen]
      by_cases hil : i = l.length
      · subst hil
        rw [if_pos r.tail, if_pos ht]
        simp
      · have hne : q.tail ≠ (q.head + i) % q.qlen := by
          rw [r.tail]; intro e
          exact hil (mod_inj r.headlt h (by omega) e).symm
        rw [if_neg hne, r.cont i (by omega), List.getElem?_append_left (by omega)]
    · simp only []
      rw [wrap_succ' _ _ ht, r.tail, Nat.mod_add_mod]
      simp [Nat.add_assoc]
  · rw [if_pos (by omega)]
    simp only [h, if_false]
    exact ⟨q, rfl, rfl, r⟩

/-! ### Theorems -/

/-- Calls covered by C01/C02: everything but `free_index`. -/
def Op.basic {α} : Op α → Bool
  | .freeIndex _ => false
  | _ => true

theorem step_refines {α} {q : Q α} {l : List α} (r : RepT q l) (op : Op α) (hb : op.basic) :
    ∃ q', step q op = some ((specStep q.qlen l op).1, q') ∧ q'.qlen = q.qlen ∧
      RepT q' (specStep q.qlen l op).2 := by
  cases op with
  | append x =>
    obtain ⟨q', h1, h2, h3⟩ := repT_append r x
    refine ⟨q', ?_, h2, ?_⟩
    · simp only [step, h1, Option.map_some, specStep]; split <;> rfl
    · simp only [specStep]; split <;> simp_all
  | get => exact ⟨q, by simp [step, rep_get r.toRep, specStep], rfl, r⟩
  | remove =>
    refine ⟨remove q, by simp [step, specStep], ?_, repT_remove r⟩
    unfold remove; split <;> rfl
  | search i => exact ⟨q, by simp [step, rep_search r.toRep, specStep], rfl, r⟩
  | freeIndex i => simp [Op.basic] at hb

theorem run_refines {α} {q : Q α} {l : List α} (r : RepT q l) (ops : List (Op α))
    (hb : ∀ op ∈ ops, op.basic) :
    ∃ q', run q ops = some ((specRun q.qlen l ops).1, q') ∧ q'.qlen = q.qlen ∧
      RepT q' (specRun q.qlen l ops).2 := by
  induction ops generalizing q l with
  | nil => exact ⟨q, rfl, rfl, r⟩
  | cons op ops ih =>
    obtain ⟨q1, h1, h2, h3⟩ := step_refines r op (hb op (by simp))
    obtain ⟨q2, k1, k2, k3⟩ := ih h3 (fun o ho => hb o (by simp [ho]))
    rw [h2] at k1 k2 k3
    refine ⟨q2, ?_, by omega, k3⟩
    simp [run, h1, k1, specRun]

/-- **C01, C02 (search).**  For every capacity `n > 0` and every history of
append/get/remove/search, no call has undefined behaviour and the results are exactly
those of a bounded FIFO list. -/
theorem queue_fifo {α} (null : α) (n : Nat) (hn : 0 < n) (ops : List (Op α))
    (hb : ∀ op ∈ ops, op.basic) :
    (run (init null n) ops).map (·.1) = some (specRun n [] ops).1 := by
  obtain ⟨q', h, -, -⟩ := run_refines (rep_init null n hn) ops hb
  rw [h]; rfl

theorem iterLoop_spec {α σ} {q : Q α} {l : List α} (r : Rep q l) (h : σ → α → σ × Bool) :
    ∀ k, k ≤ l.length → ∀ s,
      iterLoop q h (l.length - k) ((q.head + k) % q.qlen) s = some (specVisit h (l.drop k) s) := by
  intro k hk
  induction hm : l.length - k generalizing k with
  | zero =>
    intro s
    have : l.drop k = [] := by simp; omega
    simp [iterLoop, this, specVisit]
  | succ m ih =>
    intro s
    have hk' : k < l.length := by omega
    rw [List.drop_eq_getElem_cons hk']
    simp only [iterLoop, r.load hk', specVisit, Option.bind_eq_bind, Option.bind_some]
    split
    · rfl
    · rw [wrap_succ _ _ (Nat.mod_lt _ r.pos), Nat.mod_add_mod]
      exact ih (k + 1) (by omega) (by omega) _

theorem destroyLoop_spec {α} {q : Q α} {l : List α} (r : Rep q l) :
    ∀ k, k ≤ l.length → destroyLoop q (l.length - k) ((q.head + k) % q.qlen) = some (l.drop k) := by
  intro k hk
  induction hm : l.length - k generalizing k with
  | zero =>
    have : l.drop k = [] := by simp; omega
    simp [destroyLoop, this]
  | succ m ih =>
    have hk' : k < l.length := by omega
    rw [List.drop_eq_getElem_cons hk']
    simp only [destroyLoop, r.load hk', Option.bind_eq_bind, Option.bind_some]
    rw [wrap_succ _ _ (Nat.mod_lt _ r.pos), Nat.mod_add_mod, Nat.add_assoc, ih (k + 1) (by omega) (by omega)]
    rfl

theorem rep_iterate {α σ} {q : Q α} {l : List α} (r : Rep q l) (h : σ → α → σ × Bool) (s : σ) :
    iterate q h s = some (specVisit h l s) := by
  have := iterLoop_spec r h 0 (by omega) s
  simpa [iterate, r.nr, Nat.mod_eq_of_lt r.headlt] using this

theorem rep_destroy {α} {q : Q α} {l : List α} (r : Rep q l) : destroy q = some l := by
  have := destroyLoop_spec r 0 (by omega)
  simpa [destroy, r.nr, Nat.mod_eq_of_lt r.headlt] using this

/-- **C02.**  In every state reached by a history of append/get/remove/search, iterate
visits the FIFO content oldest first until the first negative handler result, and
destroy frees exactly the FIFO content, oldest first. -/
theorem queue_iterate_destroy {α σ} (null : α) (n : Nat) (hn : 0 < n) (ops : List (Op α))
    (hb : ∀ op ∈ ops, op.basic) (h : σ → α → σ × Bool) (s : σ) :
    ∃ q', run (init null n) ops = some ((specRun n [] ops).1, q') ∧
      iterate q' h s = some (specVisit h (specRun n [] ops).2 s) ∧
      destroy q' = some (specRun n [] ops).2 := by
  obtain ⟨q', h1, -, h3⟩ := run_refines (rep_init null n hn) ops hb
  exact ⟨q', h1, rep_iterate h3.toRep h s, rep_destroy h3.toRep⟩

/-! ### C03: free_index -/

/-- Calls that do not write to the ring. -/
def Op.noAppend {α} : Op α → Bool
  | .append _ => false
  | _ => true

theorem freeLoop_spec {α} (n : Nat) : ∀ (k : Nat) (q : Q α) (l : List α) (j : Nat),
    q.mem.length = q.qlen → 0 < q.qlen → q.head < q.qlen → l.length ≤ q.qlen → j + k = l.length →
    n = l.length →
    (∀ i, i < j → q.mem[(q.head + i) % q.qlen]? = l[i]?) →
    (∀ i, j < i → i < l.length → q.mem[(q.head + i) % q.qlen]? = l[i]?) →
    ∃ q', freeLoop k ((q.head + j) % q.qlen) ((q.head + j) % q.qlen) q
        = some ((q.head + n) % q.qlen, q') ∧
      q'.qlen = q.qlen ∧ q'.head = q.head ∧ q'.nr = q.nr ∧ q'.mem.length = q.qlen ∧
      (∀ i, i < j → q'.mem[(q.head + i) % q.qlen]? = l[i]?) ∧
      (∀ i, j ≤ i → i + 1 < l.length → q'.mem[(q.head + i) % q.qlen]? = l[i+1]?) := by
  intro k
  induction k with
  | zero =>
    intro q l j h1 h2 h3 h4 h5 h6 h7 h8
    refine ⟨q, ?_, rfl, rfl, rfl, h1, h7, ?_⟩
    · simp only [freeLoop]; rw [h6, ← h5, Nat.add_zero]
    · intro i hi hi'; omega
  | succ k ih =>
    intro q l j h1 h2 h3 h4 h5 h6 h7 h8
    have hp : (q.head + j) % q.qlen < q.qlen := Nat.mod_lt _ h2
    have hp' : (q.head + j + 1) % q.qlen < q.mem.length := by rw [h1]; exact Nat.mod_lt _ h2
    simp only [freeLoop, wrap_succ _ _ hp, Nat.mod_add_mod, load, store, Option.bind_eq_bind]
    rw [List.getElem?_eq_getElem hp']
    simp only [Option.bind_some, h1, hp, if_true, wrap_succ _ _ hp, Nat.mod_add_mod]
    -- the list with position j replaced
    let v := q.mem[(q.head + j + 1) % q.qlen]
    let l' := l.set j v
    have hl' : l'.length = l.length := by simp [l']
    have step := ih { q with mem := q.mem.set ((q.head + j) % q.qlen) v } l' (j + 1)
      (by simpa using h1) h2 h3 (by simpa [hl'] using h4) (by rw [hl']; omega) (by rw [hl']; omega)
      (by
        intro i hi
        simp only [List.getElem?_set, h1, l']
        by_cases hij : i = j
        · subst hij
          rw [if_pos rfl, if_pos hp, if_pos rfl, if_pos (by omega)]
        · rw [if_neg, if_neg (by omega), h7 i (by omega)]
          intro e; exact hij (mod_inj h3 (by omega) (by omega) e).symm)
      (by
        intro i hi hi'
        rw [hl'] at hi'
        simp only [List.getElem?_set, h1, l']
        rw [if_neg, if_neg (by omega), h8 i (by omega) hi']
        intro e; have := mod_inj h3 (by omega) (by omega) e; omega)
    simp only [] at step
    obtain ⟨q', e, e1, e2, e3, e4, e5, e6⟩ := step
    refine ⟨q', ?_, e1, e2, e3, e4, ?_, ?_⟩
    · rw [← e]; rfl
    · intro i hi
      rw [e5 i (by omega)]
      simp only [l', List.getElem?_set]
      rw [if_neg (by omega)]
    · intro i hi hi'
      by_cases hij : i = j
      · subst hij
        rw [e5 i (by omega)]
        simp only [l', List.getElem?_set]
        rw [if_pos trivial, if_pos (by omega)]
        rw [← h8 (i + 1) (by omega) hi', ← Nat.add_assoc, List.getElem?_eq_getElem hp']
      · rw [e6 i (by omega) (by rw [hl']; exact hi')]
        simp only [l', List.getElem?_set]
        rw [if_neg (by omega)]

theorem rep_freeIndex {α} {q : Q α} {l : List α} (r : Rep q l) (i : Nat) :
    ∃ q', freeIndex q i = some (l[i]?.toList, q') ∧ q'.qlen = q.qlen ∧ q'.head = q.head ∧
      Rep q' (l.eraseIdx i) ∧
      (i < l.length → q'.tail = (q.head + l.length) % q.qlen) := by
  unfold freeIndex
  have hn := r.nr
  have hl := r.le
  by_cases h : i < l.length
  · rw [if_neg (by omega)]
    have hh := r.headlt
    simp only [wrap_eq (q.head + i) q.qlen (by omega), r.load h, Option.bind_eq_bind, Option.bind_some]
    obtain ⟨q', e, e1, e2, e3, e4, e5, e6⟩ := freeLoop_spec l.length (q.nr - i) q l i r.memlen r.pos r.headlt hl
      (by omega) rfl (fun k hk => r.cont k (by omega)) (fun k _ hk => r.cont k hk)
    rw [e]
    simp only [Option.bind_some, List.getElem?_eq_getElem h, Option.toList_some]
    refine ⟨_, rfl, e1, e2, ⟨?_, ?_, ?_, ?_, ?_, ?_⟩, ?_⟩
    · simp [e4, e1]
    · simp only [e1]; exact r.pos
    · simp only [e1, e2]; exact hh
    · simp only [e3, hn, List.length_eraseIdx, h, if_true]
    · simp only [e1, List.length_eraseIdx, h, if_true]; omega
    · intro k hk
      simp only [List.length_eraseIdx, h, if_true] at hk
      simp only [e1, e2, List.getElem?_eraseIdx]
      split
      · rw [e5 k (by omega)]
      · rw [e6 k (by omega) (by omega)]
    · intro _; rfl
  · rw [if_pos (by omega)]
    refine ⟨q, by simp [List.getElem?_eq_none (Nat.le_of_not_lt h)], rfl, rfl, ?_, fun h' => absurd h' h⟩
    rw [List.eraseIdx_of_length_le (by omega)]; exact r

/-- Refutation of **C03** as stated: after `free_index` a later append is lost.
Capacity 4, elements 1,2,3; remove index 0, append 9: the third element should be 9. -/
theorem queue_free_index_then_append_loses :
    ∃ (n : Nat) (ops : List (Op Nat)), 0 < n ∧
      (run (init 0 n) ops).map (·.1) ≠ some (specRun n [] ops).1 :=
  ⟨4, [.append 1, .append 2, .append 3, .freeIndex 0, .append 9, .search 2], by decide, by decide⟩

theorem step_refines_noAppend {α} {q : Q α} {l : List α} (r : Rep q l) (op : Op α) (hb : op.noAppend) :
    ∃ q', step q op = some ((specStep q.qlen l op).1, q') ∧ q'.qlen = q.qlen ∧
      Rep q' (specStep q.qlen l op).2 := by
  cases op with
  | append x => simp [Op.noAppend] at hb
  | get => exact ⟨q, by simp [step, rep_get r, specStep], rfl, r⟩
  | remove =>
    refine ⟨remove q, by simp [step, specStep], ?_, rep_remove r⟩
    unfold remove; split <;> rfl
  | search i => exact ⟨q, by simp [step, rep_search r, specStep], rfl, r⟩
  | freeIndex i =>
    obtain ⟨q', h1, h2, -, h3, -⟩ := rep_freeIndex r i
    exact ⟨q', by simp [step, h1, specStep], h2, h3⟩

theorem run_refines_noAppend {α} {q : Q α} {l : List α} (r : Rep q l) (ops : List (Op α))
    (hb : ∀ op ∈ ops, op.noAppend) :
    ∃ q', run q ops = some ((specRun q.qlen l ops).1, q') ∧ q'.qlen = q.qlen ∧
      Rep q' (specRun q.qlen l ops).2 := by
  induction ops generalizing q l with
  | nil => exact ⟨q, rfl, rfl, r⟩
  | cons op ops ih =>
    obtain ⟨q1, h1, h2, h3⟩ := step_refines_noAppend r op (hb op (by simp))
    obtain ⟨q2, k1, k2, k3⟩ := ih h3 (fun o ho => hb o (by simp [ho]))
    rw [h2] at k1 k2 k3
    refine ⟨q2, ?_, by omega, k3⟩
    simp [run, h1, k1, specRun]

theorem run_append {α} (q : Q α) (a b : List (Op α)) :
    run q (a ++ b) = (run q a).bind fun r => (run r.2 b).map fun s => (r.1 ++ s.1, s.2) := by
  induction a generalizing q with
  | nil => simp [run]
  | cons op a ih =>
    simp only [List.cons_append, run, ih, Option.bind_eq_bind]
    cases step q op with
    | none => rfl
    | some p =>
      simp only [Option.bind_some]
      cases run p.2 a with
      | none => rfl
      | some p2 => simp only [Option.bind_some]; cases run p2.2 b <;> rfl

theorem specRun_append {α} (n : Nat) (l : List α) (a b : List (Op α)) :
    specRun n l (a ++ b) = ((specRun n l a).1 ++ (specRun n (specRun n l a).2 b).1,
      (specRun n (specRun n l a).2 b).2) := by
  induction a generalizing l with
  | nil => simp [specRun]
  | cons op a ih => simp [specRun, ih]

/-- **C03, partial.**  For every history `pre` without `free_index`, followed by every
history `post` without `append` (but with any number of `free_index`, get, remove,
search calls), all results agree with the list in which `free_index i` erases the
`i`-th element and frees exactly that element; also iterate and destroy see exactly the
remaining list.  Missing from C03: appends after a `free_index` (see the refutation). -/
theorem queue_free_index_partial {α σ} (null : α) (n : Nat) (hn : 0 < n) (pre post : List (Op α))
    (hpre : ∀ op ∈ pre, op.basic) (hpost : ∀ op ∈ post, op.noAppend)
    (h : σ → α → σ × Bool) (s : σ) :
    ∃ q', run (init null n) (pre ++ post) = some ((specRun n [] (pre ++ post)).1, q') ∧
      iterate q' h s = some (specVisit h (specRun n [] (pre ++ post)).2 s) ∧
      destroy q' = some (specRun n [] (pre ++ post)).2 := by
  obtain ⟨q1, h1, h2, h3⟩ := run_refines (rep_init null n hn) pre hpre
  obtain ⟨q2, k1, k2, k3⟩ := run_refines_noAppend h3.toRep post hpost
  simp only [h2, init] at k1 k3
  have h1' : run (init null n) pre = some ((specRun n [] pre).1, q1) := h1
  rw [run_append, h1', specRun_append]
  simp only [Option.bind_some, k1, Option.map_some]
  exact ⟨q2, rfl, rep_iterate k3 h s, rep_destroy k3⟩

/-- Exact damage done by `free_index`: the write position is left one past the place
the next element should go (so it is right only in a ring of capacity one). -/
theorem queue_free_index_tail {α} {q : Q α} {l : List α} (r : RepT q l) (i : Nat) (hi : i < l.length) :
    ∃ q', freeIndex q i = some ([l[i]], q') ∧
      q'.tail = (q'.head + (l.eraseIdx i).length + 1) % q'.qlen := by
  obtain ⟨q', h1, h2, h3, -, h5⟩ := rep_freeIndex r.toRep i
  refine ⟨q', by simpa [List.getElem?_eq_getElem hi] using h1, ?_⟩
  rw [h5 hi, h2, h3, List.length_eraseIdx, if_pos hi]
  congr 1; omega

/-! ### Non-vacuity -/

/-- A history that wraps around the ring and overflows it. -/
example : (run (init 0 2) [.append 1, .append 2, .append 3, .remove, .append 4, .get, .search 1]).map (·.1)
    = some [.code 0, .code 0, .code (-1), .unit, .code 0, .ptr (some 2), .ptr (some 4)] := by decide

example : ∀ op ∈ ([.append 1, .append 2, .append 3, .remove, .append 4, .get, .search 1] : List (Op Nat)),
    op.basic := by decide

example : ((run (init 0 3) [.append 1, .append 2, .remove, .append 3, .append 4, .freeIndex 1, .search 1]).map (·.1))
    = some [.code 0, .code 0, .unit, .code 0, .code 0, .freed [3], .ptr (some 4)] := by decide

end Verif.Queue
