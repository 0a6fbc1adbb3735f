import Verif.AllocProps

/-
C59, C60, C85, C86: histories of calls on a tower of memory pools; capacity; mln_alloc_re.
-/
namespace Verif.Alloc

/-! ## Calls at any level -/

/-- mln_alloc_m on the pool of level `d` of the tower (0 is malloc or shared memory). -/
def allocAt (ans : Ans) (d : Nat) : Mem → Nat → Option (Option Nat × Mem)
  | .heap L, n => if d = 0 then alloc ans (.heap L) n else some (none, .heap L)
  | .shm s, n => if d = 0 then alloc ans (.shm s) n else some (none, .shm s)
  | .pool p up, n => if d = depth up + 1 then alloc ans (.pool p up) n else (allocAt ans d up n).map (fun r => (r.1, .pool p r.2))

/-- mln_alloc_free of a block of the pool of level `d`. -/
def freeAt (ans : Ans) (d : Nat) : Mem → Nat → Option Mem
  | .heap L, ptr => free ans (.heap L) ptr
  | .shm s, ptr => free ans (.shm s) ptr
  | .pool p up, ptr => if d = depth up + 1 then free ans (.pool p up) ptr else (freeAt ans d up ptr).map (.pool p)

theorem allocAt_ok (ans : Ans) (d : Nat) (m : Mem) : ∀ n, Inv m → n + 147 * depth m + 4200 ≤ 2 ^ 63 →
    ∃ r m', allocAt ans d m n = some (r, m') ∧ Inv m' ∧ depth m' = depth m ∧ (r = none → (live m').Perm (live m) ∧ (below m').Perm (below m)) ∧
      ∀ q, r = some q → (d = depth m ∧ (live m').Perm ((q, n) :: live m) ∧ (below m').Perm (below m)) ∨
        (d ≠ depth m ∧ (live m').Perm (live m) ∧ (below m').Perm ((d, q, n) :: below m)) := by
  induction m with
  | heap L =>
    intro n h hn
    unfold allocAt
    by_cases hd : d = 0
    · rw [if_pos hd]
      obtain ⟨r, m', e, i1, i2, i3, i4, i5⟩ := alloc_ok ans (.heap L) n h hn
      exact ⟨r, m', e, i1, i2, fun g => ⟨i4 g, i3⟩, fun q g => Or.inl ⟨hd, i5 q g, i3⟩⟩
    · rw [if_neg hd]
      exact ⟨_, _, rfl, h, rfl, fun _ => ⟨List.Perm.refl _, List.Perm.refl _⟩, (fun q e => by cases e)⟩
  | shm s =>
    intro n h hn
    unfold allocAt
    by_cases hd : d = 0
    · rw [if_pos hd]
      obtain ⟨r, m', e, i1, i2, i3, i4, i5⟩ := alloc_ok ans (.shm s) n h hn
      exact ⟨r, m', e, i1, i2, fun g => ⟨i4 g, i3⟩, fun q g => Or.inl ⟨hd, i5 q g, i3⟩⟩
    · rw [if_neg hd]
      exact ⟨_, _, rfl, h, rfl, fun _ => ⟨List.Perm.refl _, List.Perm.refl _⟩, (fun q e => by cases e)⟩
  | pool p up ih =>
    intro n h hn
    unfold allocAt
    by_cases hd : d = depth up + 1
    · rw [if_pos hd]
      obtain ⟨r, m', e, i1, i2, i3, i4, i5⟩ := alloc_ok ans (.pool p up) n h hn
      exact ⟨r, m', e, i1, i2, fun g => ⟨i4 g, i3⟩, fun q g => Or.inl ⟨hd, i5 q g, i3⟩⟩
    · rw [if_neg hd]
      have h' := h
      obtain ⟨hp, hu, hch, hdep⟩ := h
      obtain ⟨r, up', e, i1, i2, i3, i4⟩ := ih n hu (by simp only [depth] at hn; omega)
      rw [e]
      refine ⟨r, .pool p up', rfl, ?_, by simp only [depth, i2], ?_, ?_⟩
      · refine ⟨hp, i1, ?_, by rw [i2]; exact hdep⟩
        intro ch hc
        cases r with
        | none => rw [(i3 rfl).1.mem_iff]; exact hch ch hc
        | some q =>
          rcases i4 q rfl with ⟨_, g, _⟩ | ⟨_, g, _⟩
          · rw [g.mem_iff]; exact List.mem_cons_of_mem _ (hch ch hc)
          · rw [g.mem_iff]; exact hch ch hc
      · intro hr
        obtain ⟨g1, g2⟩ := i3 hr
        exact ⟨List.Perm.refl _, below_same rfl g1 i2 g2⟩
      · intro q hr
        right
        refine ⟨hd, List.Perm.refl _, ?_⟩
        rcases i4 q hr with ⟨g1, g2, g3⟩ | ⟨g1, g2, g3⟩
        · have ha := apart_perm (good i1).1 g2.symm
          rw [List.pairwise_cons] at ha
          have hnc : (p.chunks.map (·.addr)).contains q = false := by
            rw [Bool.eq_false_iff]
            intro hc
            rw [List.contains_iff_mem] at hc
            obtain ⟨ch, hc1, hc2⟩ := List.mem_map.1 hc
            exact (ha.1 _ (hch ch hc1)).1 hc2.symm
          unfold below
          rw [i2]
          have hf := g2.filter (fun x => !(p.chunks.map (·.addr)).contains x.1)
          rw [List.filter_cons, if_pos (by simp only [hnc]; rfl)] at hf
          have := (hf.map (fun x => (depth up, x))).append g3
          rw [g1]
          exact this
        · unfold below
          rw [i2]
          exact (List.Perm.append ((g2.filter _).map _) g3).trans List.perm_middle

theorem freeAt_ok (ans : Ans) (hlk : ans.lock = true) (d : Nat) (m : Mem) : ∀ ptr n, Inv m → (d, ptr, n) ∈ held m →
    ∃ m', freeAt ans d m ptr = some m' ∧ Inv m' ∧ depth m' = depth m ∧
      ((d = depth m ∧ (live m).Perm ((ptr, n) :: live m') ∧ (below m').Perm (below m)) ∨
        (d ≠ depth m ∧ (live m').Perm (live m) ∧ (below m).Perm ((d, ptr, n) :: below m'))) := by
  induction m with
  | heap L =>
    intro ptr n h hm
    have hl : d = 0 ∧ (ptr, n) ∈ live (.heap L) := by
      simp only [held, below, List.append_nil, List.mem_map, Prod.mk.injEq, depth] at hm
      obtain ⟨x, hx, rfl, rfl⟩ := hm
      exact ⟨rfl, hx⟩
    obtain ⟨m', e, i1, i2, i3, i4⟩ := free_ok ans hlk _ ptr n h hl.2
    exact ⟨m', e, i1, i2, Or.inl ⟨hl.1, i4, i3⟩⟩
  | shm s =>
    intro ptr n h hm
    have hl : d = 0 ∧ (ptr, n) ∈ live (.shm s) := by
      simp only [held, below, List.append_nil, List.mem_map, Prod.mk.injEq, depth] at hm
      obtain ⟨x, hx, rfl, rfl⟩ := hm
      exact ⟨rfl, hx⟩
    obtain ⟨m', e, i1, i2, i3, i4⟩ := free_ok ans hlk _ ptr n h hl.2
    exact ⟨m', e, i1, i2, Or.inl ⟨hl.1, i4, i3⟩⟩
  | pool p up ih =>
    intro ptr n h hm
    unfold held at hm
    unfold freeAt
    by_cases hd : d = depth up + 1
    · rw [if_pos hd]
      have hl : (ptr, n) ∈ live (.pool p up) := by
        rcases List.mem_append.1 hm with g | g
        · obtain ⟨x, hx, e⟩ := List.mem_map.1 g
          have : x = (ptr, n) := by have := congrArg Prod.snd e; exact this
          rw [← this]; exact hx
        · have := below_lvl _ _ g
          simp only [depth] at this
          omega
      obtain ⟨m', e, i1, i2, i3, i4⟩ := free_ok ans hlk _ ptr n h hl
      exact ⟨m', e, i1, i2, Or.inl ⟨hd, i4, i3⟩⟩
    · rw [if_neg hd]
      have hb : (d, ptr, n) ∈ below (.pool p up) := by
        rcases List.mem_append.1 hm with g | g
        · obtain ⟨x, hx, e⟩ := List.mem_map.1 g
          have := congrArg Prod.fst e
          simp only [depth] at this
          exact absurd this.symm hd
        · exact g
      obtain ⟨hp, hu, hch, hdep⟩ := h
      unfold below at hb
      have hin : (d, ptr, n) ∈ held up := by
        unfold held
        rcases List.mem_append.1 hb with g | g
        · obtain ⟨x, hx, e⟩ := List.mem_map.1 g
          exact List.mem_append_left _ (List.mem_map.2 ⟨x, (List.mem_filter.1 hx).1, e⟩)
        · exact List.mem_append_right _ g
      have hnc : d = depth up → (p.chunks.map (·.addr)).contains ptr = false := by
        intro hdu
        rcases List.mem_append.1 hb with g | g
        · obtain ⟨x, hx, e⟩ := List.mem_map.1 g
          have h2 : x = (ptr, n) := congrArg Prod.snd e
          have := (List.mem_filter.1 hx).2
          rw [h2] at this
          simpa using this
        · have := below_lvl _ _ g
          simp only at this
          omega
      obtain ⟨up', e, i1, i2, i3⟩ := ih ptr n hu hin
      rw [e]
      refine ⟨.pool p up', rfl, ⟨hp, i1, ?_, by rw [i2]; exact hdep⟩, by simp only [depth, i2], Or.inr ⟨hd, List.Perm.refl _, ?_⟩⟩
      · intro ch hc
        rcases i3 with ⟨g1, g2, _⟩ | ⟨_, g2, _⟩
        · have := hch ch hc
          rw [g2.mem_iff] at this
          rcases List.mem_cons.1 this with k | k
          · have h3 := hnc g1
            have h4 : (p.chunks.map (·.addr)).contains ptr = true := by
              rw [List.contains_iff_mem]; exact List.mem_map.2 ⟨ch, hc, congrArg Prod.fst k⟩
            rw [h4] at h3; cases h3
          · exact k
        · rw [g2.mem_iff]; exact hch ch hc
      · rcases i3 with ⟨g1, g2, g3⟩ | ⟨g1, g2, g3⟩
        · unfold below
          rw [i2]
          have hf := g2.filter (fun x => !(p.chunks.map (·.addr)).contains x.1)
          rw [List.filter_cons, if_pos (by simp only [hnc g1]; rfl)] at hf
          have := (hf.map (fun x => (depth up, x))).append g3.symm
          rw [g1]
          exact this
        · unfold below
          rw [i2]
          exact (List.Perm.append ((g2.symm.filter _).map _) g3).trans List.perm_middle

/-- mln_alloc_destroy gives every chunk back: what is left is what callers of the ancestors hold. -/
theorem freeAll_ok (ans : Ans) (hlk : ans.lock = true) (l : List Chunk) : ∀ up, Inv up → (∀ ch ∈ l, (ch.addr, ch.size) ∈ live up) → l.Pairwise (fun x y => x.addr ≠ y.addr) →
    ∃ up', freeAll ans l up = some up' ∧ Inv up' ∧ depth up' = depth up ∧ (below up').Perm (below up) ∧ (live up').Perm ((live up).filter (fun x => !(l.map (·.addr)).contains x.1)) := by
  induction l with
  | nil =>
    intro up h _ _
    refine ⟨up, rfl, h, rfl, List.Perm.refl _, ?_⟩
    rw [List.filter_eq_self.2 (by intro x _; simp)]
  | cons ch l ih =>
    intro up h hm hpw
    rw [List.pairwise_cons] at hpw
    obtain ⟨up1, e1, i1, i2, i3, i4⟩ := free_ok ans hlk up ch.addr ch.size h (hm ch (by simp))
    have hm' : ∀ c ∈ l, (c.addr, c.size) ∈ live up1 := by
      intro c hc
      have := hm c (by simp [hc])
      rw [i4.mem_iff] at this
      rcases List.mem_cons.1 this with k | k
      · exact absurd (congrArg Prod.fst k).symm (hpw.1 c hc)
      · exact k
    obtain ⟨up', e2, j1, j2, j3, j4⟩ := ih up1 i1 hm' hpw.2
    refine ⟨up', by unfold freeAll; rw [e1]; exact e2, j1, by rw [j2, i2], j3.trans i3, j4.trans ?_⟩
    have hf := i4.filter (fun x => !((ch :: l).map (·.addr)).contains x.1)
    rw [List.filter_cons, if_neg (by simp)] at hf
    refine List.Perm.trans ?_ hf.symm
    rw [List.filter_congr]
    intro x hx
    have ha := apart_perm (good h).1 i4.symm
    rw [List.pairwise_cons] at ha
    have hne := (ha.1 x hx).1
    simp only at hne
    simp [Ne.symm hne]

theorem destroy_ok (ans : Ans) (hlk : ans.lock = true) {p : Pool} {up : Mem} (h : Inv (.pool p up)) :
    ∃ up', destroy ans (.pool p up) = some up' ∧ Inv up' ∧ depth up' = depth up ∧ (held up').Perm (below (.pool p up)) := by
  obtain ⟨hp, hu, hch, _⟩ := h
  have hpw : p.chunks.Pairwise (fun x y => x.addr ≠ y.addr) := by
    refine List.Pairwise.imp_of_mem ?_ hp.sep
    intro a b ha hb hab
    have h2 := (hp.geo a ha).pos
    have h3 := (hp.geo b hb).pos
    simp only [CSep, Sep] at hab
    omega
  obtain ⟨up', e, i1, i2, i3, i4⟩ := freeAll_ok ans hlk p.chunks up hu hch hpw
  refine ⟨up', by simp only [destroy]; rw [noLock_false hlk up]; exact e, i1, i2, ?_⟩
  unfold held
  rw [i2, below.eq_def (.pool p up)]
  exact (i4.map _).append i3

/-- A call. -/
inductive Op where
  /-- mln_alloc_m(pool of level d, n) -/
  | alloc (d n : Nat) (ans : Ans)
  /-- mln_alloc_free(ptr), of a block of level d -/
  | free (d ptr : Nat) (ans : Ans)
  /-- mln_alloc_init with the topmost pool as parent -/
  | init (cap : Nat)
  /-- mln_alloc_destroy of the topmost pool -/
  | destroy (ans : Ans)

/-- The calls, with the list of what the callers hold (level, pointer, size asked for).  `none`:
undefined behaviour. -/
def step : Mem × List (Nat × Nat × Nat) → Op → Option (Mem × List (Nat × Nat × Nat))
  | (m, U), .alloc d n ans =>
    match allocAt ans d m n with
    | none => none
    | some (none, m) => some (m, U)
    | some (some q, m) => some (m, (d, q, n) :: U)
  | (m, U), .free d ptr ans => (freeAt ans d m ptr).map (fun m => (m, U.eraseP (fun x => x.1 == d && x.2.1 == ptr)))
  | (m, U), .init cap => some (.pool (empty cap) m, U)
  | (m, U), .destroy ans =>
    match m with
    | .pool p up => (destroy ans (.pool p up)).map (fun m => (m, U.filter (fun x => x.1 != depth (.pool p up))))
    | m => some (m, U)

/-- What a caller may do: free only what is held, ask for less than 2^61 bytes, not stack more than
2^54 pools.  Locks succeed when memory is given back. -/
def Legal : Mem × List (Nat × Nat × Nat) → Op → Prop
  | _, .alloc _ n _ => n < 2 ^ 61
  | (_, U), .free d ptr ans => (∃ n, (d, ptr, n) ∈ U) ∧ ans.lock = true
  | (m, _), .init cap => cap < 2 ^ 63 ∧ depth m < 2 ^ 54
  | _, .destroy ans => ans.lock = true

/-- A history: every call is legal when it is made. -/
inductive Hist : Mem × List (Nat × Nat × Nat) → List Op → Prop where
  | nil (s) : Hist s []
  | cons (s op ops) : Legal s op → (∀ s', step s op = some s' → Hist s' ops) → Hist s (op :: ops)

def run : Mem × List (Nat × Nat × Nat) → List Op → Option (Mem × List (Nat × Nat × Nat))
  | s, [] => some s
  | s, op :: ops => (step s op).bind (fun s => run s ops)

theorem eraseP_perm {U V : List (Nat × Nat × Nat)} {d ptr n : Nat} (h : U.Perm ((d, ptr, n) :: V)) (hu : ∀ x ∈ V, ¬ (x.1 = d ∧ x.2.1 = ptr)) :
    (U.eraseP (fun x => x.1 == d && x.2.1 == ptr)).Perm V := by
  obtain ⟨a, l1, l2, h1, h2, h3, h4⟩ := List.exists_of_eraseP (p := fun x : Nat × Nat × Nat => x.1 == d && x.2.1 == ptr) (h.mem_iff.2 List.mem_cons_self) (by simp)
  have ha : a ∈ U := by rw [h3]; simp
  rw [h.mem_iff] at ha
  have he : a = (d, ptr, n) := by
    rcases List.mem_cons.1 ha with g | g
    · exact g
    · simp at h2; exact absurd h2 (hu a g)
  rw [h4]
  rw [h3, he] at h
  exact (List.perm_middle.symm.trans h).cons_inv

theorem depth_inv {m : Mem} (h : Inv m) : 147 * depth m ≤ 2 ^ 62 + 147 := by
  cases m with
  | heap L => simp only [depth]; omega
  | shm s => simp only [depth]; omega
  | pool p up =>
    have := h.2.2.2
    simp only [depth]
    omega

/-- Two held blocks of the same level have different addresses. -/
theorem held_unique {m : Mem} (h : Inv m) : (held m).Pairwise (fun x y => x.1 = y.1 → x.2.1 ≠ y.2.1) := by
  induction m with
  | heap L =>
    simp only [held, below, List.append_nil]
    rw [List.pairwise_map]
    exact (good (m := .heap L) h).1.imp (fun g _ => g.1)
  | shm s =>
    simp only [held, below, List.append_nil]
    rw [List.pairwise_map]
    exact (good (m := .shm s) h).1.imp (fun g _ => g.1)
  | pool p up ih =>
    have hg := (good h).1
    obtain ⟨_, hu, _, _⟩ := h
    have hiu := ih hu
    unfold held
    rw [List.pairwise_append, List.pairwise_map]
    refine ⟨hg.imp (fun g _ => g.1), ?_, ?_⟩
    · unfold below
      unfold held at hiu
      refine List.Pairwise.sublist ?_ hiu
      exact List.Sublist.append (List.Sublist.map _ List.filter_sublist) (List.Sublist.refl _)
    · intro a ha b hb e
      obtain ⟨x, _, rfl⟩ := List.mem_map.1 ha
      have := below_lvl _ _ hb
      simp only at e
      omega

theorem step_ok {m : Mem} {U : List (Nat × Nat × Nat)} (h : Inv m) (hU : U.Perm (held m)) (op : Op) (hl : Legal (m, U) op) :
    ∃ m' U', step (m, U) op = some (m', U') ∧ Inv m' ∧ U'.Perm (held m') := by
  have hdep := depth_inv h
  cases op with
  | alloc d n ans =>
    obtain ⟨r, m', e, i1, i2, i3, i4⟩ := allocAt_ok ans d m n h (by simp only [Legal] at hl; omega)
    simp only [step, e]
    cases r with
    | none =>
      refine ⟨_, _, rfl, i1, hU.trans ?_⟩
      unfold held
      rw [i2]
      exact (((i3 rfl).1.map _).append (i3 rfl).2).symm
    | some q =>
      refine ⟨_, _, rfl, i1, (hU.cons _).trans ?_⟩
      unfold held
      rw [i2]
      rcases i4 q rfl with ⟨g1, g2, g3⟩ | ⟨g1, g2, g3⟩
      · have := ((g2.map (fun x => (depth m, x))).append g3).symm
        rw [g1]
        exact this
      · exact List.perm_middle.symm.trans ((g2.map _).append g3).symm
  | free d ptr ans =>
    obtain ⟨⟨n, hn⟩, hlk⟩ := hl
    have hn' := hU.mem_iff.1 hn
    obtain ⟨m', e, i1, i2, i3⟩ := freeAt_ok ans hlk d m ptr n h hn'
    simp only [step, e]
    refine ⟨_, _, rfl, i1, ?_⟩
    have hp : (held m).Perm ((d, ptr, n) :: held m') := by
      unfold held
      rw [i2]
      rcases i3 with ⟨g1, g2, g3⟩ | ⟨g1, g2, g3⟩
      · have := (g2.map (fun x => (depth m, x))).append g3.symm
        rw [g1]
        exact this
      · exact ((g2.symm.map _).append g3).trans List.perm_middle
    apply eraseP_perm (hU.trans hp)
    have hu := held_unique h
    have hu' := (hp.pairwise_iff (fun {x y} g (e : y.1 = x.1) => (g e.symm).symm)).1 hu
    rw [List.pairwise_cons] at hu'
    intro x hx hh
    exact hu'.1 x hx hh.1.symm hh.2.symm
  | init cap =>
    simp only [Legal] at hl
    refine ⟨_, _, rfl, ⟨?_, h, (fun ch hc => by simp [empty] at hc), by omega⟩, hU.trans ?_⟩
    · exact { geo := fun ch hc => by simp [empty] at hc, sep := by simp [empty], free := fun c b => by simp [empty, IsFree], nodup := fun c => by simp [empty], lim := hl.1, charge := fun _ => by simp [empty, total] }
    · have : held (.pool (empty cap) m) = held m := by
        show [] ++ (((live m).filter (fun x => !([] : List Nat).contains x.1)).map (fun x => (depth m, x)) ++ below m) = held m
        rw [List.filter_eq_self.2 (by intro x _; simp)]
        rfl
      rw [this]
  | destroy ans =>
    simp only [Legal] at hl
    cases m with
    | heap L => exact ⟨_, _, rfl, h, hU⟩
    | shm s => exact ⟨_, _, rfl, h, hU⟩
    | pool p up =>
      obtain ⟨up', e, i1, i2, i3⟩ := destroy_ok ans hl h
      simp only [step, e]
      refine ⟨_, _, rfl, i1, ?_⟩
      refine ((hU.filter _).trans ?_).trans i3.symm
      unfold held
      rw [List.filter_append]
      have h1 : ((live (.pool p up)).map (fun x => (depth (.pool p up), x))).filter (fun x => x.1 != depth (.pool p up)) = [] := by
        rw [List.filter_eq_nil_iff]
        intro x hx
        obtain ⟨y, _, rfl⟩ := List.mem_map.1 hx
        simp
      have h2 : (below (.pool p up)).filter (fun x => x.1 != depth (.pool p up)) = below (.pool p up) := by
        rw [List.filter_eq_self]
        intro x hx
        have := below_lvl _ _ hx
        simp
        omega
      rw [h1, h2]
      exact List.Perm.refl _

/-- **C59.**  Whatever the history of mln_alloc_init, mln_alloc_m, mln_alloc_free and
mln_alloc_destroy on a tower of pools, starting from malloc: nothing is undefined, the blocks held
by the callers (of all levels together) are pairwise disjoint, each for the whole size it was asked
with, aligned to 8, and no record of an allocator lies in one of them. -/
theorem pool_history (ops : List Op) (hl : Hist (.heap [], []) ops) :
    ∃ m U, run (.heap [], []) ops = some (m, U) ∧ Inv m ∧ U.Perm (held m) ∧ U.Pairwise (fun x y => Sep x.2 y.2) ∧ ∀ x ∈ metas m, ∀ y ∈ U, Sep x y.2 := by
  have main : ∀ ops m U, Inv m → U.Perm (held m) → Hist (m, U) ops → ∃ m' U', run (m, U) ops = some (m', U') ∧ Inv m' ∧ U'.Perm (held m') := by
    intro ops
    induction ops with
    | nil => intro m U h1 h2 _; exact ⟨m, U, rfl, h1, h2⟩
    | cons op ops ih =>
      intro m U h1 h2 h3
      cases h3 with
      | cons _ _ _ hl hr =>
        obtain ⟨m', U', e, g1, g2⟩ := step_ok h1 h2 op hl
        simp only [run, e, Option.bind_some]
        exact ih m' U' g1 g2 (hr _ e)
  obtain ⟨m, U, e, h1, h2⟩ := main ops (.heap []) [] ⟨List.Pairwise.nil, fun x hx => by cases hx⟩ (List.Perm.refl _) hl
  refine ⟨m, U, e, h1, h2, ?_, ?_⟩
  · exact (h2.pairwise_iff (fun {x y} g => sep_symm g)).2 (held_apart h1)
  · intro x hx y hy
    exact meta_safe h1 x hx y (h2.mem_iff.1 hy)

/-- The same on top of shared memory. -/
theorem pool_history_shm {s : Shm.Pool} (hs : Shm.Inv s) (h0 : Shm.live s = []) (ops : List Op) (hl : Hist (.shm s, []) ops) :
    ∃ m U, run (.shm s, []) ops = some (m, U) ∧ Inv m ∧ U.Perm (held m) ∧ U.Pairwise (fun x y => Sep x.2 y.2) ∧ ∀ x ∈ metas m, ∀ y ∈ U, Sep x y.2 := by
  have main : ∀ ops m U, Inv m → U.Perm (held m) → Hist (m, U) ops → ∃ m' U', run (m, U) ops = some (m', U') ∧ Inv m' ∧ U'.Perm (held m') := by
    intro ops
    induction ops with
    | nil => intro m U h1 h2 _; exact ⟨m, U, rfl, h1, h2⟩
    | cons op ops ih =>
      intro m U h1 h2 h3
      cases h3 with
      | cons _ _ _ hl hr =>
        obtain ⟨m', U', e, g1, g2⟩ := step_ok h1 h2 op hl
        simp only [run, e, Option.bind_some]
        exact ih m' U' g1 g2 (hr _ e)
  obtain ⟨m, U, e, h1, h2⟩ := main ops (.shm s) [] hs (by simp [held, live, below, h0]) hl
  refine ⟨m, U, e, h1, h2, ?_, ?_⟩
  · exact (h2.pairwise_iff (fun {x y} g => sep_symm g)).2 (held_apart h1)
  · intro x hx y hy
    exact meta_safe h1 x hx y (h2.mem_iff.1 hy)

/-! ## Capacity -/

/-- The pools of a tower. -/
def pools : Mem → List Pool
  | .pool p up => p :: pools up
  | _ => []

/-- **C60.**  Of every pool with a capacity: what is charged is the sizes of the chunks it has and
what failed requests left, and it is within the capacity. -/
theorem cap_respected {m : Mem} (h : Inv m) : ∀ p ∈ pools m, p.cap ≠ 0 → total p.chunks + p.leak = p.inUsed ∧ p.inUsed ≤ p.cap := by
  induction m with
  | heap L => intro p hp; cases hp
  | shm s => intro p hp; cases hp
  | pool p up ih =>
    intro q hq hc
    rcases List.mem_cons.1 hq with rfl | hq
    · have := h.1.charge hc
      omega
    · exact ih h.2.1 q hq hc

/-- **C60.**  The same in a history from malloc. -/
theorem cap_history (ops : List Op) (hl : Hist (.heap [], []) ops) :
    ∃ m U, run (.heap [], []) ops = some (m, U) ∧ ∀ p ∈ pools m, p.cap ≠ 0 → total p.chunks + p.leak = p.inUsed ∧ p.inUsed ≤ p.cap := by
  obtain ⟨m, U, e, h, _⟩ := pool_history ops hl
  exact ⟨m, U, e, cap_respected h⟩

/-- **C86.**  mln_alloc_available_capacity of a pool is the capacity less what is charged. -/
theorem available_pool {p : Pool} {up : Mem} (h : Inv (.pool p up)) (hc : p.cap ≠ 0) : available p = p.cap - p.inUsed := by
  have h1 := h.1.charge hc
  have h2 := h.1.lim
  have hw : 18446744073709551616 = W := rfl
  unfold available
  rw [if_neg hc, show p.cap + W - p.inUsed = p.cap - p.inUsed + W by omega, Nat.add_mod_right, Nat.mod_eq_of_lt (by omega)]

/-- **C60, partial.**  A block of more than 2 MB is charged when it is handed out and the charge is
taken back when it is freed. -/
theorem cap_large_partial {p : Pool} {up : Mem} (h : Inv (.pool p up)) (hc : p.cap ≠ 0) (ans ans' : Ans) (hlk : ans'.lock = true) (n : Nat) (hn : 2097152 < n) (hn' : n < 2 ^ 61) {r : Nat} {m : Mem}
    (ha : alloc ans (.pool p up) n = some (some r, m)) :
    ∃ p1 up1 p2 up2, m = .pool p1 up1 ∧ p1.inUsed = p.inUsed + largeSz n ∧ free ans' m r = some (.pool p2 up2) ∧ p2.inUsed = p.inUsed := by
  have hdep := depth_inv h
  obtain ⟨r', m', e, i1, i2, i3, i4, i5⟩ := alloc_ok ans (.pool p up) n h (by omega)
  rw [ha] at e
  cases e
  have hcl : clsOf n = none := by
    have := clsOf_spec n
    cases hcl : clsOf n with
    | none => rfl
    | some c =>
      rw [hcl] at this
      have := (tbl_facts ⟨c, this.1⟩).2.2
      simp only at this
      omega
  have hlz := largeSz_eq (n := n) (by omega)
  unfold alloc at ha
  rw [hcl] at ha
  simp only at ha
  cases hcg : charge p (largeSz n) with
  | none => rw [hcg] at ha; cases ha
  | some p1 =>
    rw [hcg] at ha
    simp only at ha
    by_cases hnl : noLock ans up = true
    · rw [if_pos hnl] at ha; cases ha
    · rw [if_neg hnl] at ha
      cases hau : alloc ans up (largeSz n) with
      | none => rw [hau] at ha; cases ha
      | some t =>
        obtain ⟨q, up1⟩ := t
        rw [hau] at ha
        cases q with
        | none => cases ha
        | some q =>
          simp only [Option.some.injEq, Prod.mk.injEq] at ha
          obtain ⟨e1, e2⟩ := ha
          subst e2
          have hp1 : p1.inUsed = p.inUsed + largeSz n ∧ p1.cap = p.cap := by
            rcases charge_cases h.1 (by omega) hcg with ⟨h0, rfl⟩ | ⟨h0, rfl, hle⟩
            · exact absurd h0 hc
            · exact ⟨rfl, rfl⟩
          have hrl : (r, n) ∈ live (.pool { p1 with chunks := p1.chunks ++ [largeChunk q n] } up1) := by
            rw [(i5 r rfl).mem_iff]; exact List.mem_cons_self
          obtain ⟨m2, f1, f2, f3, f4, f5⟩ := free_ok ans' hlk _ r n i1 hrl
          -- the chunk that free finds is the new one
          have hpi : PInv { p1 with chunks := p1.chunks ++ [largeChunk q n] } := i1.1
          have hfind : (p1.chunks ++ [largeChunk q n]).find? (fun ch => ch.blks.any (fun x => x.addr + 56 == r && x.used)) = some (largeChunk q n) := by
            cases hf : (p1.chunks ++ [largeChunk q n]).find? (fun ch => ch.blks.any (fun x => x.addr + 56 == r && x.used)) with
            | none =>
              rw [List.find?_eq_none] at hf
              have := hf (largeChunk q n) (by simp)
              exact absurd (by simp [largeChunk]; omega) this
            | some ch' =>
              have h1 := List.mem_of_find?_eq_some hf
              have h2 := List.find?_some hf
              rw [List.any_eq_true] at h2
              obtain ⟨y, hy, hya⟩ := h2
              simp at hya
              rw [chunk_unique hpi h1 (show largeChunk q n ∈ p1.chunks ++ [largeChunk q n] by simp) hy (show _ ∈ (largeChunk q n).blks from List.mem_cons_self) (by simp only; omega)]
          have f1' := f1
          unfold free at f1
          simp only at f1
          rw [hfind] at f1
          simp only [largeChunk] at f1
          rw [noLock_false hlk up1] at f1
          rw [if_neg (by simp)] at f1
          cases hfu : free ans' up1 q with
          | none => rw [hfu] at f1; cases f1
          | some up2 =>
            rw [hfu] at f1
            simp only [uncharge] at f1
            rw [if_neg (by rw [hp1.2]; exact hc), if_neg (by rw [hp1.1]; omega)] at f1
            simp only [Option.map_some, Option.some.injEq] at f1
            subst f1
            refine ⟨_, _, _, _, rfl, hp1.1, f1', ?_⟩
            simp only
            rw [hp1.1]
            omega

theorem charge_zero {p : Pool} (h : p.cap = 0) (n : Nat) : charge p n = some p := by
  unfold charge
  rw [if_pos h]

theorem charge_fits {p : Pool} {n : Nat} (h0 : p.cap ≠ 0) (h : p.inUsed + n ≤ p.cap) (hl : p.cap < 2 ^ 63) : charge p n = some { p with inUsed := p.inUsed + n } := by
  have hw : 18446744073709551616 = W := rfl
  unfold charge
  rw [if_neg h0, Nat.mod_eq_of_lt (by omega), if_neg (by omega), Nat.mod_eq_of_lt (by omega)]

theorem take_last {p : Pool} {c n b : Nat} {l : List Nat} (h : p.free c = l ++ [b]) : take p c n =
    some (b + 56, { p with free := upd p.free c l, chunks := p.chunks.map (fun ch => if ch.blks.any (fun x => x.addr == b) then { ch with refer := ch.refer + 1, blks := ch.blks.map (fun x => if x.addr == b then { x with used := true, req := n } else x) } else ch) }) := by
  unfold take
  rw [h]
  simp

/-- **C60, refuted.**  In every fresh pool with room for it, a block of up to 2 MB that is handed out
and given back leaves the size of its chunk charged, although nothing is held any more. -/
theorem cap_not_returned (cap n q : Nat) (hq : q ≠ 0 ∧ q % 16 = 0) (c : Nat) (hn : clsOf n = some c) (hc : chunkSz c ≤ cap) (hl : cap < 2 ^ 63) (hq2 : q + chunkSz c < W) :
    ∃ r m p2 up2, alloc ⟨q, true⟩ (.pool (empty cap) (.heap [])) n = some (some r, m) ∧ free ⟨0, true⟩ m r = some (.pool p2 up2) ∧ pLive p2.chunks = [] ∧ p2.inUsed = chunkSz c ∧ 0 < chunkSz c := by
  have hcs := clsOf_spec n
  rw [hn] at hcs
  simp only at hcs
  have hsp := span_facts ⟨c, hcs.1⟩
  simp only at hsp
  have hw : 18446744073709551616 = W := rfl
  have hch : charge (empty cap) (chunkSz c) = some { empty cap with inUsed := chunkSz c } := by
    have := charge_fits (p := empty cap) (n := chunkSz c) (by show cap ≠ 0; omega) (by show 0 + chunkSz c ≤ cap; omega) hl
    rw [this, show (empty cap).inUsed + chunkSz c = chunkSz c from Nat.zero_add _]
  have hal : alloc ⟨q, true⟩ (.heap []) (chunkSz c) = some (some q, .heap [(q, chunkSz c)]) := by
    unfold alloc
    rw [if_pos ⟨hq.1, hq.2, hq2, fun x hx => by cases hx⟩]
  have ht := take_last (p := { empty cap with inUsed := chunkSz c, chunks := [newChunk c q], free := upd (fun _ => []) c [q + 88, q + 88 + span c, q + 88 + 2 * span c, q + 88 + 3 * span c] })
    (c := c) (n := n) (b := q + 88 + 3 * span c) (l := [q + 88, q + 88 + span c, q + 88 + 2 * span c]) (by simp [upd])
  have h1 : alloc ⟨q, true⟩ (.pool (empty cap) (.heap [])) n = some (some (q + 88 + 3 * span c + 56), .pool
      { cap := cap, inUsed := chunkSz c, leak := 0, free := upd (upd (fun _ => []) c [q + 88, q + 88 + span c, q + 88 + 2 * span c, q + 88 + 3 * span c]) c [q + 88, q + 88 + span c, q + 88 + 2 * span c], chunks := [{ newChunk c q with refer := 1, blks := [⟨q + 88, tbl c, false, 0⟩, ⟨q + 88 + span c, tbl c, false, 0⟩, ⟨q + 88 + 2 * span c, tbl c, false, 0⟩, ⟨q + 88 + 3 * span c, tbl c, true, n⟩] }] }
      (.heap [(q, chunkSz c)])) := by
    unfold alloc
    rw [hn]
    simp only
    rw [if_pos (by simp [empty]), hch]
    simp only [noLock, hal]
    rw [if_neg (by simp), grow_eq]
    simp only [empty, List.nil_append]
    simp only [empty] at ht
    rw [ht]
    simp only [Option.map_some, newChunk, List.map_cons, List.map_nil, List.any_cons, List.any_nil, beq_self_eq_true, Bool.or_true, Bool.true_or, if_true]
    have e1 : (q + 88 == q + 88 + 3 * span c) = false := by rw [beq_eq_false_iff_ne]; omega
    have e2 : (q + 88 + span c == q + 88 + 3 * span c) = false := by rw [beq_eq_false_iff_ne]; omega
    have e3 : (q + 88 + 2 * span c == q + 88 + 3 * span c) = false := by rw [beq_eq_false_iff_ne]; omega
    rw [e1, e2, e3]
    simp
  suffices h2 : ∃ p2 up2, free ⟨0, true⟩ (.pool
      { cap := cap, inUsed := chunkSz c, leak := 0, free := upd (upd (fun _ => []) c [q + 88, q + 88 + span c, q + 88 + 2 * span c, q + 88 + 3 * span c]) c [q + 88, q + 88 + span c, q + 88 + 2 * span c], chunks := [{ newChunk c q with refer := 1, blks := [⟨q + 88, tbl c, false, 0⟩, ⟨q + 88 + span c, tbl c, false, 0⟩, ⟨q + 88 + 2 * span c, tbl c, false, 0⟩, ⟨q + 88 + 3 * span c, tbl c, true, n⟩] }] }
      (.heap [(q, chunkSz c)])) (q + 88 + 3 * span c + 56) = some (.pool p2 up2) ∧ pLive p2.chunks = [] ∧ p2.inUsed = chunkSz c by
    obtain ⟨p2, up2, k1, k2, k3⟩ := h2
    exact ⟨_, _, p2, up2, h1, k1, k2, k3, by omega⟩
  unfold free
  simp only [List.find?_cons, List.any_cons, beq_self_eq_true, Bool.true_and, Bool.true_or, Bool.or_true, newChunk]
  rw [if_neg (by simp)]
  refine ⟨_, _, rfl, ?_, rfl⟩
  simp [pLive, chLive]

/-- **C60, refuted.**  When the parent has no memory a request of more than 2 MB fails but stays
charged. -/
theorem cap_leak {p : Pool} {L : List (Nat × Nat)} (h : Inv (.pool p (.heap L))) (n : Nat) (hn : 2097152 < n) (hn' : n < 2 ^ 61) (hc : p.inUsed + largeSz n ≤ p.cap) (lock : Bool) :
    ∃ p', alloc ⟨0, lock⟩ (.pool p (.heap L)) n = some (none, .pool p' (.heap L)) ∧ p'.inUsed = p.inUsed + largeSz n ∧ p'.chunks = p.chunks := by
  have hcl : clsOf n = none := by
    have := clsOf_spec n
    cases hcl : clsOf n with
    | none => rfl
    | some c =>
      rw [hcl] at this
      have := (tbl_facts ⟨c, this.1⟩).2.2
      simp only at this
      omega
  have hw : 18446744073709551616 = W := rfl
  have hlim := h.1.lim
  have hlz := largeSz_eq (n := n) (by omega)
  have hch : charge p (largeSz n) = some { p with inUsed := p.inUsed + largeSz n } := by
    exact charge_fits (by omega) hc hlim
  have hal : alloc ⟨0, lock⟩ (.heap L) (largeSz n) = some (none, .heap L) := by
    unfold alloc
    rw [if_neg (by simp)]
  refine ⟨lose { p with inUsed := p.inUsed + largeSz n } (largeSz n), ?_, ?_, ?_⟩
  · unfold alloc
    rw [hcl]
    simp only
    rw [hch]
    simp only [noLock, hal]
    rw [if_neg (by simp)]
  · unfold lose
    rw [if_neg (by show p.cap ≠ 0; omega)]
  · unfold lose
    rw [if_neg (by show p.cap ≠ 0; omega)]

/-- **C59, refuted for sizes near 2^64.**  A request of 2^64 - 147 bytes or more gets a block, in a
chunk of at most 144 bytes. -/
theorem alloc_wraps (n q : Nat) (h1 : W - 147 ≤ n) (h2 : n < W) (hq : q ≠ 0 ∧ q % 16 = 0 ∧ q + 144 < W) :
    ∃ p', alloc ⟨q, true⟩ (.pool (empty 0) (.heap [])) n = some (some (q + 144), .pool p' (.heap [(q, largeSz n)])) ∧ largeSz n ≤ 144 := by
  have hw : 18446744073709551616 = W := rfl
  have hcl : clsOf n = none := by
    have := clsOf_spec n
    cases hcl : clsOf n with
    | none => rfl
    | some c =>
      rw [hcl] at this
      have := (tbl_facts ⟨c, this.1⟩).2.2
      simp only at this
      omega
  have hlz : largeSz n ≤ 144 := by
    unfold largeSz
    rw [show n + 56 + 88 + 3 = n + 147 - W + W by omega, Nat.add_mod_right, Nat.mod_eq_of_lt (by omega)]
    omega
  have hal : alloc ⟨q, true⟩ (.heap []) (largeSz n) = some (some q, .heap [(q, largeSz n)]) := by
    unfold alloc
    rw [if_pos ⟨hq.1, hq.2.1, by show q + _ < W; omega, fun x hx => by cases hx⟩]
  refine ⟨{ empty 0 with chunks := (empty 0).chunks ++ [largeChunk q n] }, ?_, hlz⟩
  unfold alloc
  rw [hcl]
  simp only
  have hch : charge (empty 0) (largeSz n) = some (empty 0) := charge_zero rfl _
  rw [hch]
  simp only [noLock, hal]
  rw [if_neg (by simp)]

/-! ## mln_alloc_re -/

/-- Memory after a memcpy. -/
def copied (mem : Nat → UInt8) : Option (Nat × Nat × Nat) → Nat → UInt8
  | none => mem
  | some (src, dst, len) => fun a => if dst ≤ a ∧ a < dst + len then mem (src + (a - dst)) else mem a

theorem setReq_geo {ch : Chunk} (h : Geo ch) (ptr n : Nat) (hn : ∀ x ∈ ch.blks, x.addr + 56 = ptr → x.used = true → n ≤ x.size) :
    Geo { ch with blks := ch.blks.map (fun x => if x.addr + 56 == ptr && x.used then { x with req := n } else x) } := by
  have g1 : ∀ x : Blk, (if x.addr + 56 == ptr && x.used then { x with req := n } else x).addr = x.addr := by intro x; split <;> rfl
  have g2 : ∀ x : Blk, (if x.addr + 56 == ptr && x.used then { x with req := n } else x).size = x.size := by intro x; split <;> rfl
  have g3 : ∀ x : Blk, (if x.addr + 56 == ptr && x.used then { x with req := n } else x).used = x.used := by intro x; split <;> rfl
  refine { inside := ?_, sorted := ?_, req := ?_, small := ?_, large := ?_, align := ?_, pos := h.pos, nonempty := ?_ }
  · intro b hb
    obtain ⟨x, hx, rfl⟩ := List.mem_map.1 hb
    rw [g1, g2]
    exact h.inside x hx
  · simp only
    rw [List.pairwise_map]
    apply h.sorted.imp
    intro a b hab
    rw [g1, g2, g1]
    exact hab
  · intro b hb hu
    obtain ⟨x, hx, rfl⟩ := List.mem_map.1 hb
    rw [g3] at hu
    rw [g2]
    split
    · rename_i hc
      simp at hc
      exact hn x hx hc.1 hc.2
    · exact h.req x hx hu
  · intro c hc
    obtain ⟨k1, k2, k3⟩ := h.small c hc
    refine ⟨k1, ?_, ?_⟩
    · simp only
      rw [List.countP_map, k2]
      apply List.countP_congr
      intro x _
      simp only [Function.comp]
      rw [g3]
    · intro b hb
      obtain ⟨x, hx, rfl⟩ := List.mem_map.1 hb
      rw [g2]
      exact k3 x hx
  · intro hc
    obtain ⟨x, hx, hu⟩ := h.large hc
    refine ⟨if x.addr + 56 == ptr && x.used then { x with req := n } else x, ?_, ?_⟩
    · simp only
      rw [hx]
      rfl
    · rw [g3]; exact hu
  · intro ha b hb
    obtain ⟨x, hx, rfl⟩ := List.mem_map.1 hb
    rw [g1]
    exact h.align ha x hx
  · simp only
    intro hc
    exact h.nonempty (List.map_eq_nil_iff.1 hc)

theorem setReq_live (ch : Chunk) (ptr n : Nat) :
    chLive { ch with blks := ch.blks.map (fun x => if x.addr + 56 == ptr && x.used then { x with req := n } else x) } = (chLive ch).map (fun x => if x.1 = ptr then (ptr, n) else x) := by
  unfold chLive
  simp only
  generalize ch.blks = l
  induction l with
  | nil => rfl
  | cons x l ih =>
    rw [List.map_cons, List.filter_cons, List.filter_cons]
    by_cases hu : x.used = true
    · by_cases ha : x.addr + 56 = ptr
      · have e : (if (x.addr + 56 == ptr && x.used) = true then { x with req := n } else x) = { x with req := n } := by simp [hu, ha]
        rw [e]
        simp only [hu, if_true, List.map_cons]
        rw [ih]
        simp [ha]
      · have e : (if (x.addr + 56 == ptr && x.used) = true then { x with req := n } else x) = x := by simp [ha]
        rw [e]
        simp only [hu, if_true, List.map_cons]
        rw [ih]
        simp [ha]
    · have hu' : x.used = false := by simpa using hu
      have e : (if (x.addr + 56 == ptr && x.used) = true then { x with req := n } else x) = x := by simp [hu']
      rw [e]
      simp only [hu', Bool.false_eq_true, if_false]
      exact ih

theorem setReq_ok {p : Pool} {up : Mem} (h : Inv (.pool p up)) {ptr k bs : Nat} (hb : blkSize (.pool p up) ptr = some bs) (n : Nat) (hn : n ≤ bs) :
    Inv (setReq (.pool p up) ptr n) ∧ ∀ L, (live (.pool p up)).Perm ((ptr, k) :: L) → (live (setReq (.pool p up) ptr n)).Perm ((ptr, n) :: L) := by
  have h0 := h
  obtain ⟨hp, hu, hch, hdep⟩ := h
  have hsz : ∀ ch ∈ p.chunks, ∀ x ∈ ch.blks, x.addr + 56 = ptr → x.used = true → n ≤ x.size := by
    intro ch hc x hx hxa hxu
    unfold blkSize at hb
    simp only [Option.map_eq_some_iff] at hb
    obtain ⟨y, hy, hyb⟩ := hb
    have hym := List.mem_of_find?_eq_some hy
    have hyp := List.find?_some hy
    simp at hyp
    obtain ⟨ch', hc', hyc⟩ := List.mem_flatMap.1 hym
    have := chunk_unique hp hc hc' hx hyc (by omega)
    subst this
    rw [blk_unique (hp.geo ch hc) hx hyc (by omega), hyb]
    exact hn
  refine ⟨⟨?_, hu, ?_, hdep⟩, ?_⟩
  · refine { geo := ?_, sep := ?_, free := ?_, nodup := hp.nodup, lim := hp.lim, charge := ?_ }
    · intro ch' hc'
      obtain ⟨ch, hc, rfl⟩ := List.mem_map.1 hc'
      exact setReq_geo (hp.geo ch hc) ptr n (hsz ch hc)
    · simp only
      rw [List.pairwise_map]
      exact hp.sep.imp (fun g => g)
    · intro c b
      simp only
      rw [hp.free c b]
      unfold IsFree
      constructor
      · rintro ⟨ch, hc, hcl, x, hx, hxa, hxu⟩
        refine ⟨_, List.mem_map.2 ⟨ch, hc, rfl⟩, hcl, x, List.mem_map.2 ⟨x, hx, ?_⟩, hxa, hxu⟩
        simp [hxu]
      · rintro ⟨ch', hc', hcl, x', hx', hxa, hxu⟩
        obtain ⟨ch, hc, rfl⟩ := List.mem_map.1 hc'
        obtain ⟨x, hx, rfl⟩ := List.mem_map.1 hx'
        refine ⟨ch, hc, hcl, x, hx, ?_, ?_⟩
        · rw [← hxa]; split <;> rfl
        · rw [← hxu]; split <;> rfl
    · intro hc
      have := hp.charge hc
      simp only
      have ht : total (p.chunks.map (fun ch => { ch with blks := ch.blks.map (fun x => if x.addr + 56 == ptr && x.used then { x with req := n } else x) })) = total p.chunks := by
        unfold total
        rw [List.map_map]
        rfl
      rw [ht]
      exact this
  · intro ch' hc'
    obtain ⟨ch, hc, rfl⟩ := List.mem_map.1 hc'
    exact hch ch hc
  · intro L hL
    have hlv : live (setReq (.pool p up) ptr n) = (live (.pool p up)).map (fun x => if x.1 = ptr then (ptr, n) else x) := by
      simp only [live, setReq, pLive]
      rw [List.flatMap_map, List.map_flatMap]
      congr 1
      funext ch
      exact setReq_live ch ptr n
    rw [hlv]
    refine (hL.map _).trans ?_
    rw [List.map_cons, if_pos rfl]
    have ha := apart_perm (good h0).1 hL.symm
    rw [List.pairwise_cons] at ha
    rw [map_id_of _ L (fun x hx => if_neg (Ne.symm (ha.1 x hx).1))]

theorem blkSize_ok {p : Pool} {up : Mem} (h : Inv (.pool p up)) {ptr k : Nat} (hm : (ptr, k) ∈ live (.pool p up)) : ∃ bs, blkSize (.pool p up) ptr = some bs ∧ k ≤ bs := by
  obtain ⟨ch, hc, x, hx, hxu, hxp, hxn⟩ := mem_pLive.1 hm
  have hmem : x ∈ p.chunks.flatMap (·.blks) := List.mem_flatMap.2 ⟨ch, hc, hx⟩
  cases hf : (p.chunks.flatMap (·.blks)).find? (fun b => b.addr + 56 == ptr && b.used) with
  | none =>
    rw [List.find?_eq_none] at hf
    exact absurd (by simp [hxp, hxu]) (hf x hmem)
  | some y =>
    have hym := List.mem_of_find?_eq_some hf
    have hyp := List.find?_some hf
    simp at hyp
    obtain ⟨ch', hc', hyc⟩ := List.mem_flatMap.1 hym
    have e1 := chunk_unique h.1 hc hc' hx hyc (by omega)
    subst e1
    have e2 := blk_unique (h.1.geo ch hc) hx hyc (by omega)
    subst e2
    refine ⟨x.size, by simp only [blkSize]; rw [hf]; rfl, ?_⟩
    rw [← hxn]
    exact (h.1.geo ch hc).req x hx hxu

/-- **C85.**  mln_alloc_re of a block of the pool itself, to a size other than 0: on success exactly
that block is replaced by one of the new size, the old bytes are in it (all of them if it grows, at
least the first `n` otherwise) and no other held block has changed; on failure nothing has. -/
theorem realloc_same {p : Pool} {up : Mem} (h : Inv (.pool p up)) (ans : Ans) (hlk : ans.lock = true) {ptr k n : Nat} (hm : (ptr, k) ∈ live (.pool p up)) (h0 : 0 < n) (hn : n < 2 ^ 61) (mem : Nat → UInt8) :
    ∃ r cp m', realloc ans (.pool p up) ptr n = some (r, cp, m') ∧ Inv m' ∧
      (r = none → (live m').Perm (live (.pool p up)) ∧ copied mem cp = mem) ∧
      ∀ q, r = some q → (∃ L, (live (.pool p up)).Perm ((ptr, k) :: L) ∧ (live m').Perm ((q, n) :: L) ∧ ∀ x ∈ L, ∀ a, x.1 ≤ a → a < x.1 + x.2 → copied mem cp a = mem a) ∧
        ∀ i, i < k → i < n → copied mem cp (q + i) = mem (ptr + i) := by
  obtain ⟨bs, hb, hkb⟩ := blkSize_ok h hm
  have hdep := depth_inv h
  unfold realloc
  rw [if_neg (by omega), hb]
  simp only
  by_cases hge : bs ≥ n
  · rw [if_pos hge]
    obtain ⟨g1, g2⟩ := setReq_ok h hb n hge
    refine ⟨_, _, _, rfl, g1, (fun e => by cases e), ?_⟩
    intro q hq
    cases hq
    obtain ⟨l1, l2, e⟩ := List.append_of_mem hm
    have hL : (live (.pool p up)).Perm ((ptr, k) :: (l1 ++ l2)) := by rw [e]; exact List.perm_middle
    exact ⟨⟨_, hL, g2 _ hL, fun x _ a _ _ => rfl⟩, fun i _ _ => rfl⟩
  · rw [if_neg hge]
    obtain ⟨r, m1, e, i1, i2, i3, i4, i5⟩ := alloc_ok ans (.pool p up) n h (by omega)
    rw [e]
    cases r with
    | none => exact ⟨_, _, _, rfl, i1, fun _ => ⟨i4 rfl, rfl⟩, (fun q e => by cases e)⟩
    | some q =>
      simp only
      have hl := i5 q rfl
      obtain ⟨m2, f1, f2, f3, f4, f5⟩ := free_ok ans hlk m1 ptr k i1 (by rw [hl.mem_iff]; exact List.mem_cons_of_mem _ hm)
      rw [f1]
      refine ⟨_, _, _, rfl, f2, (fun e => by cases e), ?_⟩
      intro q' hq'
      cases hq'
      obtain ⟨l1, l2, el⟩ := List.append_of_mem hm
      have hL : (live (.pool p up)).Perm ((ptr, k) :: (l1 ++ l2)) := by rw [el]; exact List.perm_middle
      have h12 : (live m1).Perm ((ptr, k) :: (q, n) :: (l1 ++ l2)) := hl.trans ((hL.cons _).trans (List.Perm.swap _ _ _))
      have hm2 : (live m2).Perm ((q, n) :: (l1 ++ l2)) := (f5.symm.trans h12).cons_inv
      have ha := apart_perm (good i1).1 h12.symm
      rw [List.pairwise_cons, List.pairwise_cons] at ha
      refine ⟨⟨_, hL, hm2, ?_⟩, ?_⟩
      · intro x hx a ha1 ha2
        have := (ha.2.1 x hx).2
        unfold Sep at this
        simp only at this
        simp only [copied]
        rw [if_neg (by omega)]
      · intro i hi _
        simp only [copied]
        rw [if_pos (by omega)]
        congr 1
        omega

/-- **C85, refuted for a block of another pool.**  Whenever the old block is larger than the new one,
which happens exactly when a block is made smaller, mln_alloc_re copies the whole old block: the
write runs over the end of the new block. -/
theorem realloc_other_overrun (ans : Ans) {o m o' m' : Mem} {ptr n q bs : Nat} {cp : Option (Nat × Nat × Nat)} (hb : blkSize o ptr = some bs) (h : reallocFrom ans o m ptr n = some (some q, cp, o', m')) {bn : Nat}
    (_hn : blkSize m' q = some bn) (hlt : bn < bs) : ∃ src len, cp = some (src, q, len) ∧ q + bn < q + len := by
  unfold reallocFrom at h
  by_cases h0 : n = 0
  · rw [if_pos h0] at h
    cases hf : free ans o ptr with
    | none => rw [hf] at h; cases h
    | some o1 => rw [hf] at h; cases h
  · rw [if_neg h0, hb] at h
    simp only at h
    cases ha : alloc ans m n with
    | none => rw [ha] at h; cases h
    | some t =>
      obtain ⟨r, m1⟩ := t
      rw [ha] at h
      cases r with
      | none => cases h
      | some q1 =>
        simp only at h
        cases hf : free ans o ptr with
        | none => rw [hf] at h; cases h
        | some o1 =>
          rw [hf] at h
          cases h
          exact ⟨_, _, rfl, by omega⟩

/-! ## Concrete cases -/

/-- A pool on malloc, a pool on that pool; blocks of both, one given back, the upper pool destroyed. -/
def sample : List Op :=
  [.init 0, .alloc 1 100 ⟨4096, true⟩, .init 100000, .alloc 2 20 ⟨65536, true⟩, .alloc 2 3000000 ⟨0, true⟩, .alloc 0 64 ⟨1048576, true⟩, .free 1 4792 ⟨0, true⟩]

example : (run (.heap [], []) sample).map (·.2) = some [(0, 1048576, 64), (2, 67768, 20)] := by decide +kernel

example : (run (.heap [], []) (sample ++ [.destroy ⟨0, true⟩])).map (·.2) = some [(0, 1048576, 64)] := by decide +kernel

example : Hist (.heap [], []) [.init 0, .alloc 1 100 ⟨4096, true⟩, .destroy ⟨0, true⟩] :=
  .cons _ _ _ ⟨by decide, by decide⟩ fun _ _ => .cons _ _ _ (show (100 : Nat) < 2 ^ 61 by decide) fun _ _ => .cons _ _ _ rfl fun _ _ => .nil _

example : clsOf 100 = some 6 ∧ tbl 6 = 128 ∧ clsOf 2097152 = some 34 ∧ clsOf 2097153 = none := by decide +kernel

/-- The pool after one allocation of 1000 bytes. -/
def sampleOld : Mem := ((alloc ⟨4096, true⟩ (.pool (empty 0) (.heap [])) 1000).map (·.2)).getD (.heap [])

/-- 1024 bytes are copied into a block of 16. -/
example : (reallocFrom ⟨65536, true⟩ sampleOld (.pool (empty 0) (.heap [])) 7480 16).map (fun r => (r.1, r.2.1, blkSize r.2.2.2 65896)) = some (some 65896, some (7480, 65896, 1024), some 16) := by decide +kernel

example : (realloc ⟨65536, true⟩ sampleOld 7480 2000).map (fun r => (r.1, r.2.1)) = some (some 71992, some (7480, 71992, 1024)) := by decide +kernel

end Verif.Alloc
