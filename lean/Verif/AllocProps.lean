import Verif.Alloc
import Verif.ShmProps
import Mathlib.Tactic.Common
import Mathlib.Tactic.IntervalCases

/-
C59, C60, C85: memory pools.
-/
namespace Verif.Alloc

/-! ## Size classes -/

theorem tbl_facts : ∀ c : Fin 35, tbl c.val % 8 = 0 ∧ 16 ≤ tbl c.val ∧ tbl c.val ≤ 2097152 := by decide +kernel

theorem tbl_mono' : ∀ c : Fin 35, ∀ d : Fin 35, c < d → tbl c.val < tbl d.val := by decide +kernel

theorem tbl_mono {c d : Nat} (h : c < d) (hd : d < 35) : tbl c < tbl d := tbl_mono' ⟨c, by omega⟩ ⟨d, hd⟩ h

theorem tbl_le {c d : Nat} (h : c ≤ d) (hd : d < 35) : tbl c ≤ tbl d := by
  rcases Nat.lt_or_eq_of_le h with h | rfl
  · exact Nat.le_of_lt (tbl_mono h hd)
  · exact Nat.le_refl _

theorem tbl_pow : ∀ k : Fin 18, tbl (k.val * 2) = 2 ^ (k.val + 4) := by decide +kernel

/-- mln_alloc_get_mgr_by_size gives the smallest class that is big enough, and no class exactly above
2 MB. -/
theorem clsOf_spec (n : Nat) : match clsOf n with
    | none => 2097152 < n
    | some c => c < 35 ∧ n ≤ tbl c ∧ ∀ d, d < c → tbl d < n := by
  have h34 : tbl 34 = 2097152 := by decide +kernel
  have h0 : tbl 0 = 16 := by decide +kernel
  unfold clsOf
  rw [h34, h0]
  by_cases h1 : n > 2097152
  · rw [if_pos h1]; exact h1
  · rw [if_neg h1]
    by_cases h2 : n ≤ 16
    · rw [if_pos h2]
      exact ⟨by omega, by omega, fun d hd => by omega⟩
    · rw [if_neg h2]
      simp only
      have hn : n ≠ 0 := by omega
      have hlo : 2 ^ n.log2 ≤ n := Nat.log2_self_le hn
      have hhi : n < 2 ^ (n.log2 + 1) := Nat.lt_log2_self
      have hk1 : 4 ≤ n.log2 := (Nat.le_log2 hn).2 (by omega)
      have hk2 : n.log2 < 22 := (Nat.log2_lt hn).2 (by omega)
      generalize n.log2 = k at hlo hhi hk1 hk2
      have hp := tbl_pow ⟨k - 4, by omega⟩
      simp only at hp
      rw [show k - 4 + 4 = k by omega] at hp
      by_cases c1 : tbl ((k - 4) * 2) ≥ n
      · rw [if_pos c1]
        refine ⟨by omega, c1, fun d hd => ?_⟩
        have := tbl_mono hd (by omega)
        omega
      · rw [if_neg c1]
        have hk3 : k < 21 := by
          apply Nat.lt_of_le_of_ne (by omega)
          rintro rfl
          omega
        have hp2 := tbl_pow ⟨k - 3, by omega⟩
        simp only at hp2
        rw [show k - 3 + 4 = k + 1 by omega, show (k - 3) * 2 = (k - 4) * 2 + 2 by omega] at hp2
        by_cases c2 : tbl ((k - 4) * 2 + 1) ≥ n
        · rw [if_pos c2]
          refine ⟨by omega, c2, fun d hd => ?_⟩
          have := tbl_le (show d ≤ (k - 4) * 2 by omega) (by omega)
          omega
        · rw [if_neg c2]
          refine ⟨by omega, by omega, fun d hd => ?_⟩
          have := tbl_le (show d ≤ (k - 4) * 2 + 1 by omega) (by omega)
          omega

/-! ## The invariant of one pool -/

/-- The blocks of a chunk lie behind its header, one behind the other. -/
structure Geo (ch : Chunk) : Prop where
  inside : ∀ b ∈ ch.blks, ch.addr + 88 ≤ b.addr ∧ b.addr + 56 + b.size ≤ ch.addr + ch.size
  sorted : ch.blks.Pairwise (fun x y => x.addr + 56 + x.size ≤ y.addr)
  req : ∀ b ∈ ch.blks, b.used = true → b.req ≤ b.size
  small : ∀ c, ch.cls = some c → c < 35 ∧ ch.refer = ch.blks.countP (·.used) ∧ (∀ b ∈ ch.blks, b.size = tbl c)
  large : ch.cls = none → ∃ x, ch.blks = [x] ∧ x.used = true
  align : ch.addr % 8 = 0 → ∀ b ∈ ch.blks, b.addr % 8 = 0
  pos : 0 < ch.size
  nonempty : ch.blks ≠ []

/-- `b` is a free block of manager `c`. -/
def IsFree (l : List Chunk) (c b : Nat) : Prop := ∃ ch ∈ l, ch.cls = some c ∧ ∃ x ∈ ch.blks, x.addr = b ∧ x.used = false

/-- The regions of two chunks do not overlap. -/
def CSep (x y : Chunk) : Prop := Sep (x.addr, x.size) (y.addr, y.size)

/-- The sum of the sizes of the chunks. -/
def total (l : List Chunk) : Nat := (l.map (·.size)).sum

structure PInv (p : Pool) : Prop where
  geo : ∀ ch ∈ p.chunks, Geo ch
  sep : p.chunks.Pairwise CSep
  free : ∀ c b, b ∈ p.free c ↔ IsFree p.chunks c b
  nodup : ∀ c, (p.free c).Nodup
  lim : p.cap < 2 ^ 63
  charge : p.cap ≠ 0 → p.inUsed = total p.chunks + p.leak ∧ p.inUsed ≤ p.cap

/-- The live blocks of a chunk: pointer and size asked for. -/
def chLive (ch : Chunk) : List (Nat × Nat) := (ch.blks.filter (·.used)).map (fun b => (b.addr + 56, b.req))

/-- The live blocks of a pool. -/
def pLive (l : List Chunk) : List (Nat × Nat) := l.flatMap chLive

theorem sep_symm {x y : Nat × Nat} (h : Sep x y) : Sep y x := Or.symm h

theorem csep_of_ne {l : List Chunk} (h : l.Pairwise CSep) : ∀ a ∈ l, ∀ b ∈ l, a ≠ b → CSep a b := by
  induction l with
  | nil => intro a ha; cases ha
  | cons c l ih =>
    rw [List.pairwise_cons] at h
    intro a ha b hb hne
    rcases List.mem_cons.1 ha with rfl | ha' <;> rcases List.mem_cons.1 hb with rfl | hb'
    · exact absurd rfl hne
    · exact h.1 b hb'
    · exact sep_symm (h.1 a ha')
    · exact ih h.2 a ha' b hb' hne

/-- A header address belongs to one chunk. -/
theorem chunk_unique {p : Pool} (h : PInv p) {a b : Chunk} (ha : a ∈ p.chunks) (hb : b ∈ p.chunks) {x y : Blk} (hx : x ∈ a.blks) (hy : y ∈ b.blks) (e : x.addr = y.addr) : a = b := by
  by_contra hne
  have h1 := (h.geo a ha).inside x hx
  have h2 := (h.geo b hb).inside y hy
  have h3 := csep_of_ne h.sep a ha b hb hne
  simp only [CSep, Sep] at h3
  omega

/-- And to one block. -/
theorem blk_unique {ch : Chunk} (h : Geo ch) {x y : Blk} (hx : x ∈ ch.blks) (hy : y ∈ ch.blks) (e : x.addr = y.addr) : x = y := by
  have hs := h.sorted
  generalize ch.blks = l at hx hy hs
  induction l with
  | nil => cases hx
  | cons c l ih =>
    rw [List.pairwise_cons] at hs
    rcases List.mem_cons.1 hx with rfl | hx' <;> rcases List.mem_cons.1 hy with rfl | hy'
    · rfl
    · have := hs.1 y hy'; omega
    · have := hs.1 x hx'; omega
    · exact ih hx' hy' hs.2

theorem blk_apart {ch : Chunk} (h : Geo ch) {x y : Blk} (hx : x ∈ ch.blks) (hy : y ∈ ch.blks) (hne : x ≠ y) : x.addr + 56 + x.size ≤ y.addr ∨ y.addr + 56 + y.size ≤ x.addr := by
  have hs := h.sorted
  generalize ch.blks = l at hx hy hs
  induction l with
  | nil => cases hx
  | cons c l ih =>
    rw [List.pairwise_cons] at hs
    rcases List.mem_cons.1 hx with rfl | hx' <;> rcases List.mem_cons.1 hy with rfl | hy'
    · exact absurd rfl hne
    · exact Or.inl (hs.1 y hy')
    · exact Or.inr (hs.1 x hx')
    · exact ih hx' hy' hs.2

theorem map_id_of {α : Type} (f : α → α) (l : List α) (h : ∀ x ∈ l, f x = x) : l.map f = l := by
  induction l with
  | nil => rfl
  | cons a l ih => rw [List.map_cons, h a (by simp), ih (fun x hx => h x (by simp [hx]))]

theorem split_chunks {p : Pool} (h : PInv p) {ch : Chunk} (hc : ch ∈ p.chunks) : ∃ l1 l2, p.chunks = l1 ++ ch :: l2 ∧ (∀ x ∈ l1, x ≠ ch) ∧ (∀ x ∈ l2, x ≠ ch) := by
  obtain ⟨l1, l2, e⟩ := List.append_of_mem hc
  have hs := h.sep
  rw [e, List.pairwise_append, List.pairwise_cons] at hs
  have hp := (h.geo ch hc).pos
  refine ⟨l1, l2, e, ?_, ?_⟩
  · rintro x hx rfl
    have := hs.2.2 x hx x (by simp)
    simp only [CSep, Sep] at this
    omega
  · rintro x hx rfl
    have := hs.2.1.1 x hx
    simp only [CSep, Sep] at this
    omega

theorem split_blks {ch : Chunk} (h : Geo ch) {x : Blk} (hx : x ∈ ch.blks) : ∃ m1 m2, ch.blks = m1 ++ x :: m2 ∧ (∀ y ∈ m1, y.addr ≠ x.addr) ∧ (∀ y ∈ m2, y.addr ≠ x.addr) := by
  obtain ⟨m1, m2, e⟩ := List.append_of_mem hx
  have hs := h.sorted
  rw [e, List.pairwise_append, List.pairwise_cons] at hs
  refine ⟨m1, m2, e, ?_, ?_⟩
  · intro y hy hh
    have := hs.2.2 y hy x (by simp)
    omega
  · intro y hy hh
    have := hs.2.1.1 y hy
    omega

/-- Change the block at header `b` by `f`. -/
def modBlk (b : Nat) (f : Blk → Blk) (l : List Blk) : List Blk := l.map (fun x => if x.addr == b then f x else x)

theorem modBlk_split {m1 m2 : List Blk} {x : Blk} (f : Blk → Blk) (h1 : ∀ y ∈ m1, y.addr ≠ x.addr) (h2 : ∀ y ∈ m2, y.addr ≠ x.addr) :
    modBlk x.addr f (m1 ++ x :: m2) = m1 ++ f x :: m2 := by
  unfold modBlk
  rw [List.map_append, List.map_cons, map_id_of _ m1 (fun y hy => by simp [h1 y hy]), map_id_of _ m2 (fun y hy => by simp [h2 y hy])]
  simp

/-- Geometry does not depend on the flags. -/
theorem geo_mod {ch : Chunk} (h : Geo ch) {x : Blk} (f : Blk → Blk) (hx : x ∈ ch.blks) (hf1 : (f x).addr = x.addr) (hf2 : (f x).size = x.size)
    (hf3 : (f x).used = true → (f x).req ≤ x.size) (refer count : Nat) (hcls : ∃ c, ch.cls = some c) (hr : refer + (if x.used then 1 else 0) = ch.refer + if (f x).used then 1 else 0) :
    Geo { ch with refer, count, blks := modBlk x.addr f ch.blks } := by
  obtain ⟨m1, m2, e, h1, h2⟩ := split_blks h hx
  have hm : modBlk x.addr f ch.blks = m1 ++ f x :: m2 := by rw [e]; exact modBlk_split f h1 h2
  have hall : ∀ b ∈ m1 ++ f x :: m2, b = f x ∨ b ∈ ch.blks := by
    intro b hb
    rw [e]
    rcases List.mem_append.1 hb with g | g
    · right; simp [g]
    · rcases List.mem_cons.1 g with g | g
      · exact Or.inl g
      · right; simp [g]
  have hin := h.inside x hx
  refine { inside := ?_, sorted := ?_, req := ?_, small := ?_, large := ?_, align := ?_, pos := h.pos, nonempty := by simp only; rw [hm]; simp }
  · intro b hb
    simp only at hb
    rw [hm] at hb
    rcases hall b hb with rfl | g
    · rw [hf1, hf2]; exact hin
    · exact h.inside b g
  · simp only
    rw [hm]
    have hs := h.sorted
    rw [e, List.pairwise_append, List.pairwise_cons] at hs
    rw [List.pairwise_append, List.pairwise_cons]
    refine ⟨hs.1, ⟨fun y hy => by rw [hf1, hf2]; exact hs.2.1.1 y hy, hs.2.1.2⟩, ?_⟩
    intro a ha b hb
    rcases List.mem_cons.1 hb with rfl | hb
    · rw [hf1]; exact hs.2.2 a ha x (by simp)
    · exact hs.2.2 a ha b (by simp [hb])
  · intro b hb hu
    simp only at hb
    rw [hm] at hb
    rcases hall b hb with rfl | g
    · rw [hf2]; exact hf3 hu
    · exact h.req b g hu
  · intro c hc
    obtain ⟨g1, g2, g3⟩ := h.small c hc
    refine ⟨g1, ?_, ?_⟩
    · simp only
      rw [hm]
      rw [e] at g2
      simp only [List.countP_append, List.countP_cons] at g2 ⊢
      omega
    · intro b hb
      simp only at hb
      rw [hm] at hb
      rcases hall b hb with rfl | g
      · rw [hf2]; exact g3 x hx
      · exact g3 b g
  · intro hc
    obtain ⟨c, hc'⟩ := hcls
    simp only at hc
    rw [hc'] at hc
    cases hc
  · intro ha b hb
    simp only at hb
    rw [hm] at hb
    rcases hall b hb with rfl | g
    · rw [hf1]; exact h.align ha x hx
    · exact h.align ha b g

theorem pLive_split (l1 l2 : List Chunk) (ch : Chunk) : pLive (l1 ++ ch :: l2) = pLive l1 ++ (chLive ch ++ pLive l2) := by
  unfold pLive
  rw [List.flatMap_append, List.flatMap_cons]

theorem total_split (l1 l2 : List Chunk) (ch : Chunk) : total (l1 ++ ch :: l2) = total l1 + (ch.size + total l2) := by
  unfold total
  simp

theorem mem_pLive {l : List Chunk} {q n : Nat} : (q, n) ∈ pLive l ↔ ∃ ch ∈ l, ∃ x ∈ ch.blks, x.used = true ∧ x.addr + 56 = q ∧ x.req = n := by
  unfold pLive chLive
  simp only [List.mem_flatMap, List.mem_map, List.mem_filter, Prod.mk.injEq]
  constructor
  · rintro ⟨ch, hc, x, ⟨h1, h2⟩, h3, h4⟩; exact ⟨ch, hc, x, h1, h2, h3, h4⟩
  · rintro ⟨ch, hc, x, h1, h2, h3, h4⟩; exact ⟨ch, hc, x, ⟨h1, h2⟩, h3, h4⟩

/-- A chunk replaced by one of the same place. -/
theorem csep_replace {l1 l2 : List Chunk} {a a' : Chunk} (h1 : a'.addr = a.addr) (h2 : a'.size = a.size) (h : (l1 ++ a :: l2).Pairwise CSep) : (l1 ++ a' :: l2).Pairwise CSep := by
  rw [List.pairwise_append, List.pairwise_cons] at h ⊢
  refine ⟨h.1, ⟨fun y hy => by have := h.2.1.1 y hy; simp only [CSep, h1, h2] at this ⊢; exact this, h.2.1.2⟩, ?_⟩
  intro x hx y hy
  rcases List.mem_cons.1 hy with rfl | hy
  · have := h.2.2 x hx a (by simp); simp only [CSep, h1, h2] at this ⊢; exact this
  · exact h.2.2 x hx y (by simp [hy])

theorem chLive_mark {ch : Chunk} (h : Geo ch) {x : Blk} (hx : x ∈ ch.blks) (hu : x.used = false) (refer count n : Nat) :
    (chLive { ch with refer, count, blks := modBlk x.addr (fun x => { x with used := true, req := n }) ch.blks }).Perm ((x.addr + 56, n) :: chLive ch) := by
  obtain ⟨m1, m2, e, h1, h2⟩ := split_blks h hx
  unfold chLive
  simp only
  rw [e, modBlk_split _ h1 h2]
  simp only [List.filter_append, List.filter_cons, hu, if_true, Bool.false_eq_true, if_false, List.map_append, List.map_cons]
  exact List.perm_middle

theorem chLive_unmark {ch : Chunk} (h : Geo ch) {x : Blk} (hx : x ∈ ch.blks) (hu : x.used = true) (refer count : Nat) :
    (chLive ch).Perm ((x.addr + 56, x.req) :: chLive { ch with refer, count, blks := modBlk x.addr (fun x => { x with used := false }) ch.blks }) := by
  obtain ⟨m1, m2, e, h1, h2⟩ := split_blks h hx
  unfold chLive
  simp only
  rw [e, modBlk_split _ h1 h2]
  simp only [List.filter_append, List.filter_cons, hu, if_true, Bool.false_eq_true, if_false, List.map_append, List.map_cons]
  exact List.perm_middle

/-- Taking a block from the free list. -/
theorem take_spec {p : Pool} (h : PInv p) (c n : Nat) (hne : p.free c ≠ []) (hn : n ≤ tbl c) :
    ∃ r p', take p c n = some (r, p') ∧ PInv p' ∧ p'.cap = p.cap ∧ p'.chunks.map (fun x => (x.addr, x.size)) = p.chunks.map (fun x => (x.addr, x.size)) ∧
      (pLive p'.chunks).Perm ((r, n) :: pLive p.chunks) := by
  obtain ⟨b, hb⟩ : ∃ b, (p.free c).getLast? = some b := by
    cases e : (p.free c).getLast? with
    | some b => exact ⟨b, rfl⟩
    | none => rw [List.getLast?_eq_none_iff] at e; exact absurd e hne
  have hlast : p.free c = (p.free c).dropLast ++ [b] := by
    rw [List.getLast?_eq_some_iff] at hb
    obtain ⟨l, hl⟩ := hb
    rw [hl]; simp
  have hnd := h.nodup c
  rw [hlast, List.nodup_append] at hnd
  have hbm : b ∈ p.free c := by rw [hlast]; simp
  obtain ⟨ch, hch, hcls, x, hx, hxa, hxu⟩ := (h.free c b).1 hbm
  subst hxa
  have hgeo := h.geo ch hch
  obtain ⟨l1, l2, e, n1, n2⟩ := split_chunks h hch
  have hany : ∀ y ∈ p.chunks, y.blks.any (fun z => z.addr == x.addr) = true → y = ch := by
    intro y hy ha
    rw [List.any_eq_true] at ha
    obtain ⟨z, hz, hza⟩ := ha
    exact chunk_unique h hy hch hz hx (by simpa using hza)
  let ch' : Chunk := { ch with refer := ch.refer + 1, count := ch.count, blks := modBlk x.addr (fun x => { x with used := true, req := n }) ch.blks }
  have hmap : p.chunks.map (fun ch => if ch.blks.any (fun z => z.addr == x.addr) then
      { ch with refer := ch.refer + 1, blks := ch.blks.map (fun z => if z.addr == x.addr then { z with used := true, req := n } else z) } else ch) = l1 ++ ch' :: l2 := by
    rw [e, List.map_append, List.map_cons]
    have hself : ch.blks.any (fun z => z.addr == x.addr) = true := by
      rw [List.any_eq_true]; exact ⟨x, hx, by simp⟩
    rw [if_pos hself]
    rw [map_id_of _ l1 (fun y hy => by
      rw [if_neg]
      intro ha
      exact n1 y hy (hany y (by rw [e]; simp [hy]) ha))]
    rw [map_id_of _ l2 (fun y hy => by
      rw [if_neg]
      intro ha
      exact n2 y hy (hany y (by rw [e]; simp [hy]) ha))]
    rfl
  have hgeo' : Geo ch' := by
    apply geo_mod hgeo (fun x => { x with used := true, req := n }) hx rfl rfl
    · intro _
      rw [(hgeo.small c hcls).2.2 x hx]; exact hn
    · exact ⟨c, hcls⟩
    · simp [hxu]
  obtain ⟨m1, m2, eb, hb1, hb2⟩ := split_blks hgeo hx
  have hblk' : ch'.blks = m1 ++ { x with used := true, req := n } :: m2 := by
    show modBlk x.addr _ ch.blks = _
    rw [eb]; exact modBlk_split _ hb1 hb2
  refine ⟨x.addr + 56, { p with free := upd p.free c (p.free c).dropLast, chunks := l1 ++ ch' :: l2 }, ?_, ?_, rfl, ?_, ?_⟩
  · unfold take
    rw [hb]
    simp only
    rw [hmap]
  · have hfree : ∀ d b', IsFree (l1 ++ ch' :: l2) d b' ↔ IsFree p.chunks d b' ∧ b' ≠ x.addr := by
      intro d b'
      constructor
      · rintro ⟨y, hy, hyc, z, hz, hza, hzu⟩
        rcases List.mem_append.1 hy with g | g
        · refine ⟨⟨y, by rw [e]; simp [g], hyc, z, hz, hza, hzu⟩, ?_⟩
          rintro rfl
          exact n1 y g (chunk_unique h (by rw [e]; simp [g]) hch hz hx hza)
        · rcases List.mem_cons.1 g with rfl | g
          · rw [hblk'] at hz
            have hzm : z ∈ ch.blks ∧ z.addr ≠ x.addr := by
              rw [eb]
              rcases List.mem_append.1 hz with k | k
              · exact ⟨by simp [k], hb1 z k⟩
              · rcases List.mem_cons.1 k with rfl | k
                · simp at hzu
                · exact ⟨by simp [k], hb2 z k⟩
            exact ⟨⟨ch, hch, hyc, z, hzm.1, hza, hzu⟩, by rw [← hza]; exact hzm.2⟩
          · refine ⟨⟨y, by rw [e]; simp [g], hyc, z, hz, hza, hzu⟩, ?_⟩
            rintro rfl
            exact n2 y g (chunk_unique h (by rw [e]; simp [g]) hch hz hx hza)
      · rintro ⟨⟨y, hy, hyc, z, hz, hza, hzu⟩, hne'⟩
        by_cases hyc' : y = ch
        · subst hyc'
          refine ⟨ch', by simp, hyc, z, ?_, hza, hzu⟩
          rw [hblk']
          rw [eb] at hz
          rcases List.mem_append.1 hz with k | k
          · simp [k]
          · rcases List.mem_cons.1 k with rfl | k
            · exact absurd hza.symm hne'
            · simp [k]
        · refine ⟨y, ?_, hyc, z, hz, hza, hzu⟩
          rw [e] at hy
          rcases List.mem_append.1 hy with k | k
          · simp [k]
          · rcases List.mem_cons.1 k with k | k
            · exact absurd k hyc'
            · simp [k]
    refine { geo := ?_, sep := ?_, free := ?_, nodup := ?_, lim := h.lim, charge := ?_ }
    · intro y hy
      rcases List.mem_append.1 hy with g | g
      · exact h.geo y (by rw [e]; simp [g])
      · rcases List.mem_cons.1 g with rfl | g
        · exact hgeo'
        · exact h.geo y (by rw [e]; simp [g])
    · have := h.sep
      rw [e] at this
      exact csep_replace (a := ch) (a' := ch') rfl rfl this
    · intro d b'
      simp only
      rw [hfree d b', ← h.free d b']
      unfold upd
      by_cases hd : d = c
      · subst hd
        rw [if_pos rfl]
        constructor
        · intro g
          refine ⟨by rw [hlast]; simp [g], ?_⟩
          rintro rfl
          exact hnd.2.2 _ g _ (by simp) rfl
        · rintro ⟨g1, g2⟩
          rw [hlast] at g1
          rcases List.mem_append.1 g1 with k | k
          · exact k
          · simp at k; exact absurd k g2
      · rw [if_neg hd]
        constructor
        · intro g
          refine ⟨g, ?_⟩
          rintro rfl
          obtain ⟨y, hy, hyc, z, hz, hza, _⟩ := (h.free d x.addr).1 g
          have := chunk_unique h hy hch hz hx hza
          subst this
          rw [hcls] at hyc
          cases hyc
          exact hd rfl
        · exact fun g => g.1
    · intro d
      simp only [upd]
      by_cases hd : d = c
      · rw [if_pos hd]; exact hnd.1
      · rw [if_neg hd]; exact h.nodup d
    · intro hc
      have := h.charge hc
      simp only
      rw [e, total_split] at this
      rw [total_split]
      exact this
  · simp only
    rw [e, List.map_append, List.map_append, List.map_cons, List.map_cons]
  · simp only
    rw [e, pLive_split, pLive_split]
    have := chLive_mark hgeo hx hxu (ch.refer + 1) ch.count n
    exact (List.Perm.append_left _ (this.append_right _)).trans List.perm_middle

theorem oom_spec {p : Pool} (h : PInv p) (n : Nat) (k c : Nat) (hck : c + k = 35) (hn : k = 0 ∨ n ≤ tbl c) :
    (oom p n c k = none ∧ ∀ d, c ≤ d → d < 35 → p.free d = []) ∨
    ∃ r p', oom p n c k = some (r, p') ∧ PInv p' ∧ p'.cap = p.cap ∧ p'.chunks.map (fun x => (x.addr, x.size)) = p.chunks.map (fun x => (x.addr, x.size)) ∧
      (pLive p'.chunks).Perm ((r, n) :: pLive p.chunks) := by
  induction k generalizing c with
  | zero => exact Or.inl ⟨rfl, fun d h1 h2 => by omega⟩
  | succ k ih =>
    have hn' : n ≤ tbl c := by rcases hn with hn | hn; omega; exact hn
    unfold oom
    by_cases hf : p.free c = []
    · rw [if_neg (by simp [hf])]
      have hn2 : k = 0 ∨ n ≤ tbl (c + 1) := by
        by_cases hk : k = 0
        · exact Or.inl hk
        · exact Or.inr (Nat.le_trans hn' (tbl_le (by omega) (by omega)))
      rcases ih (c + 1) (by omega) hn2 with ⟨g1, g2⟩ | g
      · left
        refine ⟨g1, fun d h1 h2 => ?_⟩
        by_cases hd : d = c
        · rw [hd]; exact hf
        · exact g2 d (by omega) h2
      · exact Or.inr g
    · rw [if_pos hf]
      exact Or.inr (take_spec h c n hf hn')

theorem charge_cases {p p1 : Pool} {n : Nat} (h : PInv p) (hn : n ≤ 2 ^ 63) (hc : charge p n = some p1) :
    (p.cap = 0 ∧ p1 = p) ∨ (p.cap ≠ 0 ∧ p1 = { p with inUsed := p.inUsed + n } ∧ p.inUsed + n ≤ p.cap) := by
  unfold charge at hc
  by_cases h0 : p.cap = 0
  · rw [if_pos h0] at hc; cases hc; exact Or.inl ⟨h0, rfl⟩
  · rw [if_neg h0] at hc
    have := h.charge h0
    have hl := h.lim
    have hw : 18446744073709551616 = W := rfl
    rw [Nat.mod_eq_of_lt (a := n + p.inUsed) (by omega), Nat.mod_eq_of_lt (a := p.inUsed + n) (by omega)] at hc
    by_cases h1 : n + p.inUsed > p.cap
    · rw [if_pos h1] at hc; cases hc
    · rw [if_neg h1] at hc; cases hc; exact Or.inr ⟨h0, rfl, by omega⟩

theorem charge_lose {p p1 : Pool} {n : Nat} (h : PInv p) (hn : n ≤ 2 ^ 63) (hc : charge p n = some p1) :
    PInv (lose p1 n) ∧ (lose p1 n).cap = p.cap ∧ (lose p1 n).chunks = p.chunks := by
  rcases charge_cases h hn hc with ⟨h0, rfl⟩ | ⟨h0, rfl, hle⟩
  · unfold lose
    rw [if_pos h0]
    exact ⟨h, rfl, rfl⟩
  · unfold lose
    rw [if_neg (by exact h0)]
    refine ⟨{ h with charge := ?_ }, rfl, rfl⟩
    intro _
    have := h.charge h0
    show p.inUsed + n = total p.chunks + (p.leak + n) ∧ p.inUsed + n ≤ p.cap
    omega

/-- A new chunk. -/
theorem charge_add {p p1 : Pool} {n : Nat} (h : PInv p) (hn : n ≤ 2 ^ 63) (hc : charge p n = some p1) {ch : Chunk} (hg : Geo ch) (hs : ch.size = n)
    (hsep : ∀ x ∈ p.chunks, CSep x ch) (f : Nat → List Nat) (hf : ∀ c b, b ∈ f c ↔ b ∈ p.free c ∨ IsFree [ch] c b) (hnd : ∀ c, (f c).Nodup) :
    PInv { p1 with chunks := p1.chunks ++ [ch], free := f } ∧ p1.cap = p.cap ∧ p1.chunks = p.chunks ∧ p1.free = p.free := by
  have key : p1.cap = p.cap ∧ p1.chunks = p.chunks ∧ p1.free = p.free ∧ (p.cap ≠ 0 → p1.inUsed = total p.chunks + n + p1.leak ∧ p1.inUsed ≤ p.cap) := by
    rcases charge_cases h hn hc with ⟨h0, rfl⟩ | ⟨h0, rfl, hle⟩
    · exact ⟨rfl, rfl, rfl, fun g => absurd h0 g⟩
    · refine ⟨rfl, rfl, rfl, fun _ => ?_⟩
      have := h.charge h0
      simp only
      omega
  obtain ⟨k1, k2, k3, k4⟩ := key
  refine ⟨{ geo := ?_, sep := ?_, free := ?_, nodup := hnd, lim := by show p1.cap < _; rw [k1]; exact h.lim, charge := ?_ }, k1, k2, k3⟩
  · simp only
    intro x hx
    rw [k2] at hx
    rcases List.mem_append.1 hx with g | g
    · exact h.geo x g
    · simp at g; subst g; exact hg
  · simp only
    rw [k2, List.pairwise_append]
    refine ⟨h.sep, by simp, ?_⟩
    intro x hx y hy
    simp at hy; subst hy
    exact hsep x hx
  · intro c b
    simp only
    rw [k2, hf c b, h.free c b]
    unfold IsFree
    constructor
    · rintro (⟨x, hx, g⟩ | ⟨x, hx, g⟩)
      · exact ⟨x, by simp [hx], g⟩
      · exact ⟨x, List.mem_append_right _ hx, g⟩
    · rintro ⟨x, hx, g⟩
      rcases List.mem_append.1 hx with k | k
      · exact Or.inl ⟨x, k, g⟩
      · exact Or.inr ⟨x, k, g⟩
  · intro hc0
    simp only at hc0 ⊢
    rw [k1] at hc0
    have := k4 hc0
    rw [k1, k2]
    have ht : total (p.chunks ++ [ch]) = total p.chunks + n := by unfold total; simp [hs]
    omega

theorem span_facts : ∀ c : Fin 35, 56 + tbl c.val ≤ span c.val ∧ span c.val % 8 = 0 ∧ chunkSz c.val = 88 + 4 * span c.val ∧ chunkSz c.val ≤ 8400000 := by decide +kernel

/-- The chunk mln_alloc_m makes for a manager. -/
def newChunk (c q : Nat) : Chunk :=
  { addr := q, size := chunkSz c, refer := 0, count := 0, cls := some c, blks := [⟨q + 88, tbl c, false, 0⟩, ⟨q + 88 + span c, tbl c, false, 0⟩, ⟨q + 88 + 2 * span c, tbl c, false, 0⟩, ⟨q + 88 + 3 * span c, tbl c, false, 0⟩] }

theorem grow_eq (p : Pool) (c q : Nat) : grow p c q = { p with chunks := p.chunks ++ [newChunk c q], free := upd p.free c (p.free c ++ [q + 88, q + 88 + span c, q + 88 + 2 * span c, q + 88 + 3 * span c]) } := by
  simp [grow, newChunk]

theorem newChunk_geo (c q : Nat) (hc : c < 35) : Geo (newChunk c q) := by
  have hs := span_facts ⟨c, hc⟩
  simp only at hs
  refine { inside := ?_, sorted := ?_, req := ?_, small := ?_, large := ?_, align := ?_, pos := ?_, nonempty := by simp [newChunk] }
  · intro b hb
    simp only [newChunk, List.mem_cons, List.not_mem_nil, or_false] at hb ⊢
    rcases hb with rfl | rfl | rfl | rfl <;> simp only <;> omega
  · simp only [newChunk, List.pairwise_cons, List.mem_cons, List.not_mem_nil, or_false]
    refine ⟨?_, ?_, ?_, ?_, List.Pairwise.nil⟩
    · rintro b (rfl | rfl | rfl) <;> simp only <;> omega
    · rintro b (rfl | rfl) <;> simp only <;> omega
    · rintro b rfl; simp only; omega
    · rintro b h; exact absurd h (by simp)
  · intro b hb hu
    simp only [newChunk, List.mem_cons, List.not_mem_nil, or_false] at hb
    rcases hb with rfl | rfl | rfl | rfl <;> simp at hu
  · intro d hd
    have : d = c := by simp [newChunk] at hd; exact hd.symm
    subst this
    refine ⟨hc, by simp [newChunk], ?_⟩
    intro b hb
    simp only [newChunk, List.mem_cons, List.not_mem_nil, or_false] at hb
    rcases hb with rfl | rfl | rfl | rfl <;> rfl
  · intro hd; simp [newChunk] at hd
  · intro ha b hb
    simp only [newChunk, List.mem_cons, List.not_mem_nil, or_false] at hb ha
    rcases hb with rfl | rfl | rfl | rfl <;> simp only <;> omega
  · simp only [newChunk]; omega

theorem largeSz_eq {n : Nat} (hn : n + 147 ≤ 2 ^ 63) : largeSz n = (n + 147) / 4 * 4 := by
  unfold largeSz
  have hw : 18446744073709551616 = W := rfl
  rw [Nat.mod_eq_of_lt (by omega)]

theorem largeChunk_geo (q n : Nat) (hn : n + 147 ≤ 2 ^ 63) : Geo (largeChunk q n) := by
  have e := largeSz_eq hn
  have hw : 18446744073709551616 = W := rfl
  have e2 : (largeSz n + W - 144) % W = largeSz n - 144 := by
    rw [show largeSz n + W - 144 = largeSz n - 144 + W by omega, Nat.add_mod_right, Nat.mod_eq_of_lt (by omega)]
  refine { inside := ?_, sorted := ?_, req := ?_, small := ?_, large := ?_, align := ?_, pos := ?_, nonempty := by simp [largeChunk] }
  · intro b hb
    simp only [largeChunk, List.mem_singleton] at hb ⊢
    subst hb
    simp only [e2]
    omega
  · simp [largeChunk]
  · intro b hb _
    simp only [largeChunk, List.mem_singleton] at hb
    subst hb
    simp only [e2]
    omega
  · intro c hc; simp [largeChunk] at hc
  · intro _; exact ⟨_, rfl, rfl⟩
  · intro ha b hb
    simp only [largeChunk, List.mem_singleton] at hb ha
    subst hb
    simp only
    omega
  · simp only [largeChunk]; omega

theorem pLive_append (l : List Chunk) (ch : Chunk) : pLive (l ++ [ch]) = pLive l ++ chLive ch := by
  unfold pLive; simp

/-! ## Pools with their ancestors -/

/-- The live blocks: address and size asked for. -/
def live : Mem → List (Nat × Nat)
  | .heap L => L
  | .shm s => Shm.live s
  | .pool p _ => pLive p.chunks

/-- How many pools stand on each other. -/
def depth : Mem → Nat
  | .pool _ up => depth up + 1
  | _ => 0

/-- The blocks of the parent that no chunk of the pool occupies, for all pools on the way down: what
the callers of the ancestors hold.  First component: the level of the owner. -/
def below : Mem → List (Nat × Nat × Nat)
  | .pool p up => ((live up).filter (fun x => !(p.chunks.map (·.addr)).contains x.1)).map (fun x => (depth up, x)) ++ below up
  | _ => []

/-- Everything callers hold. -/
def held (m : Mem) : List (Nat × Nat × Nat) := (live m).map (fun x => (depth m, x)) ++ below m

/-- The invariant. -/
def Inv : Mem → Prop
  | .heap L => L.Pairwise (fun x y => x.1 ≠ y.1 ∧ Sep x y) ∧ ∀ x ∈ L, 0 < x.1 ∧ x.1 % 16 = 0 ∧ x.1 + x.2 < W
  | .shm s => Shm.Inv s
  | .pool p up => PInv p ∧ Inv up ∧ (∀ ch ∈ p.chunks, (ch.addr, ch.size) ∈ live up) ∧ 147 * depth up ≤ 2 ^ 62

/-- Pairwise different and separate. -/
def Apart (x y : Nat × Nat) : Prop := x.1 ≠ y.1 ∧ Sep x y

theorem apart_symm {x y : Nat × Nat} (h : Apart x y) : Apart y x := ⟨h.1.symm, sep_symm h.2⟩

theorem chLive_in {ch : Chunk} (h : Geo ch) : ∀ x ∈ chLive ch, ch.addr + 144 ≤ x.1 ∧ x.1 + x.2 ≤ ch.addr + ch.size := by
  intro x hx
  unfold chLive at hx
  simp only [List.mem_map, List.mem_filter] at hx
  obtain ⟨b, ⟨hb, hu⟩, rfl⟩ := hx
  have h1 := h.inside b hb
  have h2 := h.req b hb hu
  simp only
  omega

theorem chLive_apart {ch : Chunk} (h : Geo ch) : (chLive ch).Pairwise Apart := by
  unfold chLive
  rw [List.pairwise_map]
  have hs := h.sorted
  have hr := h.req
  generalize ch.blks = l at hs hr
  induction l with
  | nil => simp
  | cons a l ih =>
    rw [List.pairwise_cons] at hs
    have ih' := ih hs.2 (fun b hb => hr b (by simp [hb]))
    rw [List.filter_cons]
    by_cases hu : a.used = true
    · rw [if_pos hu, List.pairwise_cons]
      refine ⟨?_, ih'⟩
      intro b hb
      rw [List.mem_filter] at hb
      have h1 := hs.1 b hb.1
      have h2 := hr a (by simp) hu
      simp only [Apart, Sep]
      omega
    · rw [if_neg hu]; exact ih'

theorem pLive_apart {p : Pool} (h : PInv p) : (pLive p.chunks).Pairwise Apart := by
  unfold pLive
  rw [List.pairwise_flatMap]
  refine ⟨fun ch hc => chLive_apart (h.geo ch hc), ?_⟩
  refine List.Pairwise.imp_of_mem ?_ h.sep
  intro a b ha hb hab x hx y hy
  have h1 := chLive_in (h.geo a ha) x hx
  have h2 := chLive_in (h.geo b hb) y hy
  have h3 := (h.geo a ha).pos
  have h4 := (h.geo b hb).pos
  simp only [CSep, Sep] at hab
  simp only [Apart, Sep]
  omega

/-- The live blocks of any pool are apart and do not run over the end of the address space. -/
theorem good {m : Mem} (h : Inv m) : (live m).Pairwise Apart ∧ ∀ x ∈ live m, 0 < x.1 ∧ x.1 + x.2 < W := by
  induction m with
  | heap L => exact ⟨h.1, fun x hx => ⟨(h.2 x hx).1, (h.2 x hx).2.2⟩⟩
  | shm s =>
    obtain ⟨h1, h2⟩ := Shm.live_sep h
    refine ⟨?_, ?_⟩
    · refine List.Pairwise.imp_of_mem ?_ h1
      intro x y hx hy hxy
      have := h2 x hx
      have := h2 y hy
      simp only [Shm.Sep] at hxy
      simp only [Apart, Sep]
      omega
    · intro x hx
      have := h2 x hx
      have hl : s.mem + s.cap < W := Shm.Inv.lim h
      omega
  | pool p up ih =>
    obtain ⟨hp, hu, hc, _⟩ := h
    refine ⟨pLive_apart hp, ?_⟩
    intro x hx
    unfold live pLive at hx
    rw [List.mem_flatMap] at hx
    obtain ⟨ch, h1, h2⟩ := hx
    have h3 := chLive_in (hp.geo ch h1) x h2
    have h4 := (ih hu).2 _ (hc ch h1)
    simp only at h4
    omega

theorem apart_of_ne {l : List (Nat × Nat)} (h : l.Pairwise Apart) : ∀ a ∈ l, ∀ b ∈ l, a ≠ b → Apart a b := by
  induction l with
  | nil => intro a ha; cases ha
  | cons c l ih =>
    rw [List.pairwise_cons] at h
    intro a ha b hb hne
    rcases List.mem_cons.1 ha with rfl | ha' <;> rcases List.mem_cons.1 hb with rfl | hb'
    · exact absurd rfl hne
    · exact h.1 b hb'
    · exact apart_symm (h.1 a ha')
    · exact ih h.2 a ha' b hb' hne

theorem apart_perm {l l' : List (Nat × Nat)} (h : l.Pairwise Apart) (hp : l'.Perm l) : l'.Pairwise Apart :=
  (hp.pairwise_iff (fun {_ _} g => apart_symm g)).2 h

theorem addrs_eq {p p' : Pool} (h : p'.chunks.map (fun x => (x.addr, x.size)) = p.chunks.map (fun x => (x.addr, x.size))) : p'.chunks.map (·.addr) = p.chunks.map (·.addr) := by
  have := congrArg (List.map Prod.fst) h
  simpa [List.map_map, Function.comp_def] using this

theorem below_same {p p' : Pool} {up up' : Mem} (hm : p'.chunks.map (fun x => (x.addr, x.size)) = p.chunks.map (fun x => (x.addr, x.size)))
    (hl : (live up').Perm (live up)) (hd : depth up' = depth up) (hb : (below up').Perm (below up)) : (below (.pool p' up')).Perm (below (.pool p up)) := by
  unfold below
  rw [addrs_eq hm, hd]
  exact ((hl.filter _).map _).append hb

theorem below_new {p p' : Pool} {up up' : Mem} {q sz : Nat} (hm : p'.chunks.map (·.addr) = p.chunks.map (·.addr) ++ [q])
    (hg : (live up').Pairwise Apart) (hl : (live up').Perm ((q, sz) :: live up)) (hd : depth up' = depth up) (hb : (below up').Perm (below up)) : (below (.pool p' up')).Perm (below (.pool p up)) := by
  unfold below
  rw [hm, hd]
  refine List.Perm.append (List.Perm.map _ ?_) hb
  refine (hl.filter _).trans ?_
  have ha := apart_perm hg hl.symm
  rw [List.pairwise_cons] at ha
  rw [List.filter_cons, if_neg (by simp)]
  rw [List.filter_congr (q := fun x => !(p.chunks.map (·.addr)).contains x.1)]
  intro x hx
  have hne := (ha.1 x hx).1
  simp only at hne
  simp [Ne.symm hne]

theorem inv_same {p p' : Pool} {up up' : Mem} (h : Inv (.pool p up)) (hp : PInv p') (hm : p'.chunks.map (fun x => (x.addr, x.size)) = p.chunks.map (fun x => (x.addr, x.size)))
    (hu : Inv up') (hl : (live up').Perm (live up)) (hd : depth up' = depth up) : Inv (.pool p' up') := by
  refine ⟨hp, hu, ?_, by rw [hd]; exact h.2.2.2⟩
  intro ch hc
  rw [hl.mem_iff]
  have : (ch.addr, ch.size) ∈ p'.chunks.map (fun x => (x.addr, x.size)) := List.mem_map.2 ⟨ch, hc, rfl⟩
  rw [hm] at this
  obtain ⟨x, hx, e⟩ := List.mem_map.1 this
  rw [← e]
  exact h.2.2.1 x hx

/-- **C59.**  Every call of mln_alloc_m returns, keeps the invariant, and either hands out a new
block of at least the size asked for or changes no block.  (`n + 147 * depth m + 4200 ≤ 2 ^ 63` keeps
the sizes of the chunks, computed modulo 2^64, from wrapping.) -/
theorem alloc_ok (ans : Ans) (m : Mem) : ∀ n, Inv m → n + 147 * depth m + 4200 ≤ 2 ^ 63 →
    ∃ r m', alloc ans m n = some (r, m') ∧ Inv m' ∧ depth m' = depth m ∧ (below m').Perm (below m) ∧ (r = none → (live m').Perm (live m)) ∧
      ∀ p, r = some p → (live m').Perm ((p, n) :: live m) := by
  have hw : 18446744073709551616 = W := rfl
  induction m with
  | heap L =>
    intro n h _
    unfold alloc
    by_cases hc : ans.addr ≠ 0 ∧ ans.addr % 16 = 0 ∧ ans.addr + n < W ∧ ∀ x ∈ L, x.1 ≠ ans.addr ∧ Sep x (ans.addr, n)
    · rw [if_pos hc]
      refine ⟨_, _, rfl, ?_, rfl, List.Perm.refl _, (fun e => by cases e), ?_⟩
      · refine ⟨?_, ?_⟩
        · rw [List.pairwise_cons]
          exact ⟨fun x hx => ⟨(hc.2.2.2 x hx).1.symm, sep_symm (hc.2.2.2 x hx).2⟩, h.1⟩
        · intro x hx
          rcases List.mem_cons.1 hx with rfl | hx
          · exact ⟨by have := hc.1; simp only; omega, hc.2.1, hc.2.2.1⟩
          · exact h.2 x hx
      · intro p e; cases e; exact List.Perm.refl _
    · rw [if_neg hc]
      exact ⟨_, _, rfl, h, rfl, List.Perm.refl _, fun _ => List.Perm.refl _, (fun p e => by cases e)⟩
  | shm s =>
    intro n h hn
    obtain ⟨r, s', e, h1, _, _, h2, h3⟩ := Shm.shm_alloc h n (by simp only [depth] at hn; omega)
    refine ⟨r, .shm s', by unfold alloc; rw [e]; rfl, h1, rfl, List.Perm.refl _, ?_, h3⟩
    intro e; rw [(h2 e).1]
  | pool p up ih =>
    intro n h hn
    obtain ⟨hp, hu, hch, hdep⟩ := h
    have h : Inv (.pool p up) := ⟨hp, hu, hch, hdep⟩
    have hdn : depth (.pool p up) = depth up + 1 := rfl
    rw [hdn] at hn
    have hcls := clsOf_spec n
    unfold alloc
    cases hc : clsOf n with
    | none =>
      rw [hc] at hcls
      simp only at hcls ⊢
      have hlz := largeSz_eq (n := n) (by omega)
      cases hcg : charge p (largeSz n) with
      | none => exact ⟨_, _, rfl, h, rfl, List.Perm.refl _, fun _ => List.Perm.refl _, (fun p e => by cases e)⟩
      | some p1 =>
        simp only
        obtain ⟨k1, k2, k3⟩ := charge_lose hp (by omega) hcg
        by_cases hlk : noLock ans up = true
        · rw [if_pos hlk]
          refine ⟨_, _, rfl, inv_same h k1 (by rw [k3]) hu (List.Perm.refl _) rfl, rfl, below_same (by rw [k3]) (List.Perm.refl _) rfl (List.Perm.refl _), ?_, (fun p e => by cases e)⟩
          intro _; simp only [live]; rw [k3]
        · rw [if_neg hlk]
          obtain ⟨r, up', e, i1, i2, i3, i4, i5⟩ := ih (largeSz n) hu (by omega)
          rw [e]
          cases r with
          | none =>
            simp only
            refine ⟨_, _, rfl, inv_same h k1 (by rw [k3]) i1 (i4 rfl) i2, by simp only [depth, i2], below_same (by rw [k3]) (i4 rfl) i2 i3, ?_, (fun p e => by cases e)⟩
            intro _; simp only [live]; rw [k3]
          | some q =>
            simp only
            have hl := i5 q rfl
            have hgd := (good i1).1
            have hg := largeChunk_geo q n (by omega)
            have ha := apart_perm hgd hl.symm
            rw [List.pairwise_cons] at ha
            obtain ⟨j1, j2, j3, j4⟩ := charge_add hp (by omega) hcg hg rfl
              (fun x hx => sep_symm (ha.1 _ (hch x hx)).2) p.free
              (fun c b => by simp [IsFree, largeChunk]) hp.nodup
            have hj : ({ p1 with chunks := p1.chunks ++ [largeChunk q n] } : Pool) = { p1 with chunks := p1.chunks ++ [largeChunk q n], free := p.free } := by
              rw [← j4]
            rw [hj]
            refine ⟨_, _, rfl, ⟨j1, i1, ?_, by rw [i2]; exact hdep⟩, by simp only [depth, i2], below_new (by simp [j3, largeChunk]) hgd hl i2 i3, (fun e => by cases e), ?_⟩
            · intro x hx
              rw [hl.mem_iff]
              simp only [j3] at hx
              rcases List.mem_append.1 hx with g | g
              · exact List.mem_cons_of_mem _ (hch x g)
              · simp at g; subst g; exact List.mem_cons_self
            · intro r hr
              cases hr
              unfold live
              simp only
              rw [pLive_append, j3]
              exact (List.perm_append_singleton (q + 88 + 56, n) (pLive p.chunks))
    | some c =>
      rw [hc] at hcls
      simp only at hcls ⊢
      obtain ⟨c1, c2, _⟩ := hcls
      have hsp := span_facts ⟨c, c1⟩
      simp only at hsp
      have fin : ∀ p0 up', PInv p0 → p0.chunks = p.chunks → Inv up' → (live up').Perm (live up) → depth up' = depth up → (below up').Perm (below up) → ∀ r p', PInv p' →
          p'.chunks.map (fun x => (x.addr, x.size)) = p0.chunks.map (fun x => (x.addr, x.size)) → (pLive p'.chunks).Perm ((r, n) :: pLive p0.chunks) →
          ∃ r' m', some (some r, Mem.pool p' up') = some (r', m') ∧ Inv m' ∧ depth m' = depth (.pool p up) ∧ (below m').Perm (below (.pool p up)) ∧ (r' = none → (live m').Perm (live (.pool p up))) ∧
            ∀ p1, r' = some p1 → (live m').Perm ((p1, n) :: live (.pool p up)) := by
        intro p0 up' _ e0 iu il id ib r p' q1 q2 q3
        rw [e0] at q2 q3
        refine ⟨_, _, rfl, inv_same h q1 q2 iu il id, by simp only [depth, id], below_same q2 il id ib, (fun e => by cases e), ?_⟩
        intro p1 hp1; cases hp1; exact q3
      by_cases hf : p.free c = []
      · rw [if_pos hf]
        cases hcg : charge p (chunkSz c) with
        | none =>
          simp only
          rcases oom_spec hp n (35 - c) c (by omega) (Or.inr c2) with ⟨g, _⟩ | ⟨r, p', g, q1, _, q2, q3⟩
          · rw [g]
            exact ⟨_, _, rfl, h, rfl, List.Perm.refl _, fun _ => List.Perm.refl _, (fun p e => by cases e)⟩
          · rw [g]
            exact fin p up hp rfl hu (List.Perm.refl _) rfl (List.Perm.refl _) r p' q1 q2 q3
        | some p1 =>
          simp only
          obtain ⟨k1, k2, k3⟩ := charge_lose hp (by omega) hcg
          by_cases hlk : noLock ans up = true
          · rw [if_pos hlk]
            refine ⟨_, _, rfl, inv_same h k1 (by rw [k3]) hu (List.Perm.refl _) rfl, rfl, below_same (by rw [k3]) (List.Perm.refl _) rfl (List.Perm.refl _), ?_, (fun p e => by cases e)⟩
            intro _; simp only [live]; rw [k3]
          · rw [if_neg hlk]
            obtain ⟨r, up', e, i1, i2, i3, i4, i5⟩ := ih (chunkSz c) hu (by omega)
            rw [e]
            cases r with
            | none =>
              simp only
              rcases oom_spec k1 n (35 - c) c (by omega) (Or.inr c2) with ⟨g, _⟩ | ⟨r, p', g, q1, _, q2, q3⟩
              · rw [g]
                refine ⟨_, _, rfl, inv_same h k1 (by rw [k3]) i1 (i4 rfl) i2, by simp only [depth, i2], below_same (by rw [k3]) (i4 rfl) i2 i3, ?_, (fun p e => by cases e)⟩
                intro _; simp only [live]; rw [k3]
              · rw [g]
                exact fin _ up' k1 k3 i1 (i4 rfl) i2 i3 r p' q1 q2 q3
            | some q =>
              simp only
              have hl := i5 q rfl
              have hgd := (good i1).1
              have hg := newChunk_geo c q c1
              have ha := apart_perm hgd hl.symm
              rw [List.pairwise_cons] at ha
              have hnd4 : [q + 88, q + 88 + span c, q + 88 + 2 * span c, q + 88 + 3 * span c].Nodup := by
                simp only [List.nodup_cons, List.mem_cons, List.not_mem_nil, or_false, not_or, List.nodup_nil, and_true, not_false_eq_true]
                omega
              obtain ⟨j1, j2, j3, j4⟩ := charge_add hp (by omega) hcg hg rfl
                (fun x hx => sep_symm (ha.1 _ (hch x hx)).2) (upd p.free c (p.free c ++ [q + 88, q + 88 + span c, q + 88 + 2 * span c, q + 88 + 3 * span c]))
                (fun d b => by
                  unfold upd
                  by_cases hd : d = c
                  · subst hd
                    rw [if_pos rfl, List.mem_append]
                    refine or_congr Iff.rfl ?_
                    simp only [IsFree, exists_eq_left, newChunk, List.mem_cons, List.not_mem_nil, or_false, true_and, exists_eq_or_imp, and_true]
                    omega
                  · rw [if_neg hd]
                    constructor
                    · exact Or.inl
                    · rintro (g | ⟨x, hx, hxc, _⟩)
                      · exact g
                      · simp at hx; subst hx
                        simp [newChunk] at hxc
                        exact absurd hxc.symm hd)
                (fun d => by
                  unfold upd
                  by_cases hd : d = c
                  · rw [if_pos hd, hf]; exact hnd4
                  · rw [if_neg hd]; exact hp.nodup d)
              rw [grow_eq]
              rw [← j4] at j1
              obtain ⟨r, p', g, q1, _, q2, q3⟩ := take_spec j1 c n (by simp [upd]) c2
              rw [g]
              simp only [Option.map_some]
              have hadr : p'.chunks.map (·.addr) = p.chunks.map (·.addr) ++ [q] := by
                rw [addrs_eq q2]
                simp [j3, newChunk]
              refine ⟨_, _, rfl, ⟨q1, i1, ?_, by rw [i2]; exact hdep⟩, by simp only [depth, i2], below_new hadr hgd hl i2 i3, (fun e => by cases e), ?_⟩
              · intro x hx
                rw [hl.mem_iff]
                have : (x.addr, x.size) ∈ p'.chunks.map (fun x => (x.addr, x.size)) := List.mem_map.2 ⟨x, hx, rfl⟩
                rw [q2] at this
                obtain ⟨y, hy, ey⟩ := List.mem_map.1 this
                rw [← ey]
                simp only [j3] at hy
                rcases List.mem_append.1 hy with k | k
                · exact List.mem_cons_of_mem _ (hch y k)
                · simp at k; subst k; exact List.mem_cons_self
              · intro r' hr
                cases hr
                unfold live
                simp only at q3 ⊢
                refine q3.trans (List.Perm.cons _ ?_)
                rw [pLive_append, j3]
                simp [chLive, newChunk]
      · rw [if_neg hf]
        obtain ⟨r, p', g, q1, _, q2, q3⟩ := take_spec hp c n hf c2
        rw [g]
        exact fin p up hp rfl hu (List.Perm.refl _) rfl (List.Perm.refl _) r p' q1 q2 q3

/-! ## Giving blocks back -/

theorem addr_ne {p : Pool} (h : PInv p) {a b : Chunk} (ha : a ∈ p.chunks) (hb : b ∈ p.chunks) (hne : a ≠ b) : a.addr ≠ b.addr := by
  have h1 := csep_of_ne h.sep a ha b hb hne
  have h2 := (h.geo a ha).pos
  have h3 := (h.geo b hb).pos
  simp only [CSep, Sep] at h1
  omega

theorem filter_split {p : Pool} (h : PInv p) {l1 l2 : List Chunk} {ch : Chunk} (e : p.chunks = l1 ++ ch :: l2) (n1 : ∀ x ∈ l1, x ≠ ch) (n2 : ∀ x ∈ l2, x ≠ ch) :
    p.chunks.filter (fun x => x.addr != ch.addr) = l1 ++ l2 := by
  have hch : ch ∈ p.chunks := by rw [e]; simp
  rw [e, List.filter_append, List.filter_cons, if_neg (by simp)]
  rw [List.filter_eq_self.2, List.filter_eq_self.2]
  · intro x hx
    have := addr_ne h (show x ∈ p.chunks by rw [e]; simp [hx]) hch (n2 x hx)
    simpa using this
  · intro x hx
    have := addr_ne h (show x ∈ p.chunks by rw [e]; simp [hx]) hch (n1 x hx)
    simpa using this

/-- A pool without one of its chunks. -/
theorem pinv_drop {p : Pool} (h : PInv p) {l1 l2 : List Chunk} {ch : Chunk} (e : p.chunks = l1 ++ ch :: l2) (f : Nat → List Nat)
    (hf : ∀ c b, b ∈ f c ↔ IsFree (l1 ++ l2) c b) (hnd : ∀ c, (f c).Nodup) :
    ∃ p', uncharge { p with free := f, chunks := l1 ++ l2 } ch.size = some p' ∧ PInv p' ∧ p'.chunks = l1 ++ l2 ∧ p'.cap = p.cap ∧ (p.cap ≠ 0 → p'.inUsed + ch.size = p.inUsed) := by
  have hgeo : ∀ x ∈ l1 ++ l2, Geo x := by
    intro x hx
    apply h.geo x
    rw [e]
    rcases List.mem_append.1 hx with g | g <;> simp [g]
  have hsep : (l1 ++ l2).Pairwise CSep := by
    have := h.sep
    rw [e] at this
    exact this.sublist (List.Sublist.append (List.Sublist.refl _) (List.sublist_cons_self _ _))
  have ht : total p.chunks = total (l1 ++ l2) + ch.size := by
    rw [e, total_split]; unfold total; simp; omega
  unfold uncharge
  by_cases h0 : p.cap = 0
  · rw [if_pos (by exact h0)]
    exact ⟨_, rfl, { geo := hgeo, sep := hsep, free := hf, nodup := hnd, lim := h.lim, charge := fun g => absurd h0 g }, rfl, rfl, fun g => absurd h0 g⟩
  · rw [if_neg (by exact h0)]
    obtain ⟨g1, g2⟩ := h.charge h0
    rw [if_neg (by show ¬ p.inUsed < ch.size; omega)]
    refine ⟨_, rfl, { geo := hgeo, sep := hsep, free := hf, nodup := hnd, lim := h.lim, charge := ?_ }, rfl, rfl, fun _ => ?_⟩
    · intro _
      show p.inUsed - ch.size = total (l1 ++ l2) + p.leak ∧ p.inUsed - ch.size ≤ p.cap
      omega
    · show p.inUsed - ch.size + ch.size = p.inUsed
      omega

theorem below_drop {p p' : Pool} {up up' : Mem} {q sz : Nat} (hm : ∀ a, a ∈ p.chunks.map (·.addr) ↔ a = q ∨ a ∈ p'.chunks.map (·.addr))
    (hg : (live up).Pairwise Apart) (hl : (live up).Perm ((q, sz) :: live up')) (hd : depth up' = depth up) (hb : (below up').Perm (below up)) : (below (.pool p' up')).Perm (below (.pool p up)) := by
  unfold below
  rw [hd]
  refine List.Perm.append (List.Perm.map _ ?_) hb
  refine List.Perm.trans ?_ (hl.filter _).symm
  have ha := apart_perm hg hl.symm
  rw [List.pairwise_cons] at ha
  have hq : (p.chunks.map (·.addr)).contains q = true := by
    rw [List.contains_iff_mem]; exact (hm q).2 (Or.inl rfl)
  rw [List.filter_cons, if_neg (by simp only [hq]; simp)]
  rw [List.filter_congr (q := fun x => !(p.chunks.map (·.addr)).contains x.1)]
  intro x hx
  have hne := (ha.1 x hx).1
  simp only at hne
  have : (p'.chunks.map (·.addr)).contains x.1 = (p.chunks.map (·.addr)).contains x.1 := by
    rw [Bool.eq_iff_iff, List.contains_iff_mem, List.contains_iff_mem, hm x.1]
    constructor
    · exact Or.inr
    · rintro (g | g)
      · exact absurd g.symm hne
      · exact g
  rw [this]

/-- The parent gets the chunk `ch` back. -/
theorem drop_ok {p : Pool} {up : Mem} (ans : Ans) (h : Inv (.pool p up)) {l1 l2 : List Chunk} {ch : Chunk} (e : p.chunks = l1 ++ ch :: l2) (n1 : ∀ x ∈ l1, x ≠ ch) (n2 : ∀ x ∈ l2, x ≠ ch)
    (f : Nat → List Nat) (hf : ∀ c b, b ∈ f c ↔ IsFree (l1 ++ l2) c b) (hnd : ∀ c, (f c).Nodup) {up' : Mem} (hfr : free ans up ch.addr = some up') (iu : Inv up')
    (hl : (live up).Perm ((ch.addr, ch.size) :: live up')) (hd : depth up' = depth up) (hb : (below up').Perm (below up)) {ptr n : Nat} (hlive : chLive ch = [(ptr, n)]) :
    ∃ m', (match free ans up ch.addr with
        | none => none
        | some up => (uncharge { p with free := f, chunks := p.chunks.filter (fun x => x.addr != ch.addr) } ch.size).map (fun p => Mem.pool p up)) = some m' ∧
      Inv m' ∧ depth m' = depth (.pool p up) ∧ (below m').Perm (below (.pool p up)) ∧ (live (.pool p up)).Perm ((ptr, n) :: live m') := by
  obtain ⟨hp, hu, hch, hdep⟩ := h
  have hgd := (good hu).1
  have hin : ch ∈ p.chunks := by rw [e]; simp
  rw [hfr, filter_split hp e n1 n2]
  simp only
  obtain ⟨p', g1, g2, g3, g4, g5⟩ := pinv_drop hp e f hf hnd
  rw [g1]
  refine ⟨.pool p' up', rfl, ⟨g2, iu, ?_, by rw [hd]; exact hdep⟩, by simp only [depth, hd], ?_, ?_⟩
  · intro x hx
    rw [g3] at hx
    have hxc : x ∈ p.chunks ∧ x ≠ ch := by
      rw [e]
      rcases List.mem_append.1 hx with k | k
      · exact ⟨by simp [k], n1 x k⟩
      · exact ⟨by simp [k], n2 x k⟩
    have hm := hch x hxc.1
    rw [hl.mem_iff] at hm
    rcases List.mem_cons.1 hm with k | k
    · exact absurd (congrArg Prod.fst k) (addr_ne hp hxc.1 hin hxc.2)
    · exact k
  · refine below_drop ?_ hgd hl hd hb
    intro a
    rw [g3, e]
    simp only [List.map_append, List.map_cons, List.mem_append, List.mem_cons]
    constructor
    · rintro (k | k | k)
      · exact Or.inr (Or.inl k)
      · exact Or.inl k
      · exact Or.inr (Or.inr k)
    · rintro (k | k | k)
      · exact Or.inr (Or.inl k)
      · exact Or.inl k
      · exact Or.inr (Or.inr k)
  · simp only [live]
    rw [g3, e, pLive_split, hlive]
    unfold pLive
    rw [List.flatMap_append]
    exact List.perm_middle

theorem chLive_single {ch : Chunk} (h : Geo ch) {x : Blk} (hx : x ∈ ch.blks) (hu : x.used = true) (h1 : ch.blks.countP (·.used) = 1) : chLive ch = [(x.addr + 56, x.req)] ∧ ∀ y ∈ ch.blks, y.used = true → y = x := by
  obtain ⟨m1, m2, e, _, _⟩ := split_blks h hx
  rw [e] at h1
  simp only [List.countP_append, List.countP_cons, hu, if_true] at h1
  have c1 : m1.countP (·.used) = 0 := by omega
  have c2 : m2.countP (·.used) = 0 := by omega
  rw [List.countP_eq_zero] at c1 c2
  constructor
  · unfold chLive
    rw [e, List.filter_append, List.filter_cons, if_pos hu, List.filter_eq_nil_iff.2 c1, List.filter_eq_nil_iff.2 c2]
    rfl
  · intro y hy hyu
    rw [e] at hy
    rcases List.mem_append.1 hy with k | k
    · exact absurd hyu (c1 y k)
    · rcases List.mem_cons.1 k with k | k
      · exact k
      · exact absurd hyu (c2 y k)

theorem noLock_false {ans : Ans} (h : ans.lock = true) (m : Mem) : noLock ans m = false := by
  cases m <;> simp [noLock, h]

/-- **C59.**  A live block can be given back, and only it disappears.  (If the lock of a parent in
shared memory is not to be had a chunk may be lost, so the lock is assumed.) -/
theorem free_ok (ans : Ans) (hlk : ans.lock = true) (m : Mem) : ∀ ptr n, Inv m → (ptr, n) ∈ live m →
    ∃ m', free ans m ptr = some m' ∧ Inv m' ∧ depth m' = depth m ∧ (below m').Perm (below m) ∧ (live m).Perm ((ptr, n) :: live m') := by
  induction m with
  | heap L =>
    intro ptr n h hm
    unfold free
    rw [if_pos ⟨(ptr, n), hm, rfl⟩]
    have hm' : (ptr, n) ∈ L := hm
    obtain ⟨l1, l2, e⟩ := List.append_of_mem hm'
    have hpw := h.1
    rw [e, List.pairwise_append, List.pairwise_cons] at hpw
    have hfil : L.filter (fun x => x.1 != ptr) = l1 ++ l2 := by
      rw [e, List.filter_append, List.filter_cons, if_neg (by simp)]
      rw [List.filter_eq_self.2, List.filter_eq_self.2]
      · intro x hx
        have := (hpw.2.1.1 x hx).1
        simp only at this
        simpa using Ne.symm this
      · intro x hx
        have := (hpw.2.2 x hx (ptr, n) (by simp)).1
        simpa using this
    rw [hfil]
    refine ⟨_, rfl, ⟨?_, ?_⟩, rfl, List.Perm.refl _, ?_⟩
    · have := h.1
      rw [e] at this
      exact this.sublist (List.Sublist.append (List.Sublist.refl _) (List.sublist_cons_self _ _))
    · intro x hx
      apply h.2 x
      rw [e]
      rcases List.mem_append.1 hx with g | g <;> simp [g]
    · show L.Perm _
      rw [e]
      exact List.perm_middle
  | shm s =>
    intro ptr n h hm
    obtain ⟨s', n', e, h1, _, _, h2⟩ := Shm.shm_free h ptr ⟨n, hm⟩
    refine ⟨.shm s', by unfold free; rw [e]; rfl, h1, rfl, List.Perm.refl _, ?_⟩
    have hin : (ptr, n') ∈ live (.shm s) := by
      show _ ∈ Shm.live s
      rw [h2.mem_iff]; exact List.mem_cons_self
    have : n' = n := by
      by_contra hne
      exact (apart_of_ne (good (m := .shm s) h).1 _ hin _ hm (fun g => hne (congrArg Prod.snd g))).1 rfl
    rw [← this]
    exact h2
  | pool p up ih =>
    intro ptr n h hm
    obtain ⟨hp, hu, hch, hdep⟩ := h
    have h : Inv (.pool p up) := ⟨hp, hu, hch, hdep⟩
    obtain ⟨ch, hin, x, hx, hxu, hxp, hxn⟩ := mem_pLive.1 hm
    have hg := hp.geo ch hin
    obtain ⟨l1, l2, e, n1, n2⟩ := split_chunks hp hin
    have hfind : p.chunks.find? (fun ch => ch.blks.any (fun x => x.addr + 56 == ptr && x.used)) = some ch := by
      cases hf : p.chunks.find? (fun ch => ch.blks.any (fun x => x.addr + 56 == ptr && x.used)) with
      | none =>
        rw [List.find?_eq_none] at hf
        have := hf ch hin
        rw [List.any_eq_true] at this
        exact absurd ⟨x, hx, by simp [hxp, hxu]⟩ this
      | some ch' =>
        have h1 := List.mem_of_find?_eq_some hf
        have h2 := List.find?_some hf
        rw [List.any_eq_true] at h2
        obtain ⟨y, hy, hya⟩ := h2
        simp at hya
        rw [chunk_unique hp h1 hin hy hx (by omega)]
    have hpx : ptr - 56 = x.addr := by omega
    unfold free
    rw [hfind]
    simp only
    rw [noLock_false hlk up]
    obtain ⟨up', hfr, i1, i2, i3, i4⟩ := ih ch.addr ch.size hu (hch ch hin)
    have hsub : ∀ c b, IsFree (l1 ++ l2) c b → IsFree p.chunks c b := by
      rintro c b ⟨y, hy, g⟩
      refine ⟨y, ?_, g⟩
      rw [e]
      rcases List.mem_append.1 hy with k | k <;> simp [k]
    cases hcls : ch.cls with
    | none =>
      simp only
      rw [if_neg (by simp)]
      obtain ⟨y, hy, hyu⟩ := hg.large hcls
      have hxy : x = y := by rw [hy] at hx; simpa using hx
      subst hxy
      have hcl : chLive ch = [(ptr, n)] := by
        unfold chLive
        rw [hy]
        simp [hxu, hxp, hxn]
      refine drop_ok ans h e n1 n2 p.free ?_ hp.nodup hfr i1 i4 i2 i3 hcl
      intro c b
      rw [hp.free c b]
      refine ⟨?_, hsub c b⟩
      rintro ⟨y, hy, hyc, g⟩
      refine ⟨y, ?_, hyc, g⟩
      rw [e] at hy
      rcases List.mem_append.1 hy with k | k
      · simp [k]
      · rcases List.mem_cons.1 k with k | k
        · rw [k, hcls] at hyc; cases hyc
        · simp [k]
    | some c =>
      simp only
      obtain ⟨s1, s2, s3⟩ := hg.small c hcls
      have hcpos : 0 < ch.blks.countP (·.used) := List.countP_pos_iff.2 ⟨x, hx, hxu⟩
      have hnf : x.addr ∉ p.free c := by
        rw [hp.free]
        rintro ⟨y, hy, _, z, hz, hza, hzu⟩
        have := chunk_unique hp hy hin hz hx hza
        subst this
        rw [blk_unique hg hz hx hza, hxu] at hzu
        cases hzu
      have hnd' : (p.free c ++ [ptr - 56]).Nodup := by
        rw [List.nodup_append]
        refine ⟨hp.nodup c, by simp, ?_⟩
        intro a ha b hb hab
        simp at hb
        subst hab hb
        rw [hpx] at ha
        exact hnf ha
      by_cases hrel : ch.refer - 1 = 0 ∧ ch.count + 1 > 1023
      · rw [if_pos hrel, if_neg (by simp)]
        obtain ⟨hcl, honly⟩ := chLive_single hg hx hxu (by omega)
        rw [hxp, hxn] at hcl
        refine drop_ok ans h e n1 n2 _ ?_ ?_ hfr i1 i4 i2 i3 hcl
        · intro d b
          unfold upd
          by_cases hd : d = c
          · subst hd
            rw [if_pos rfl, List.mem_filter, List.mem_append, hp.free d b]
            constructor
            · rintro ⟨k1, k2⟩
              have hnb : ∀ y ∈ ch.blks, y.addr ≠ b := by
                intro y hy hyb
                have : ch.blks.any (fun x => x.addr == b) = true := by
                  rw [List.any_eq_true]; exact ⟨y, hy, by simp [hyb]⟩
                rw [this] at k2
                simp at k2
              rcases k1 with ⟨y, hy, hyc, z, hz, hza, hzu⟩ | k1
              · refine ⟨y, ?_, hyc, z, hz, hza, hzu⟩
                rw [e] at hy
                rcases List.mem_append.1 hy with k | k
                · simp [k]
                · rcases List.mem_cons.1 k with k | k
                  · subst k; exact absurd hza (hnb z hz)
                  · simp [k]
              · simp at k1
                exact absurd (by omega) (hnb x hx)
            · intro k
              refine ⟨Or.inl (hsub d b k), ?_⟩
              obtain ⟨y, hy, hyc, z, hz, hza, hzu⟩ := k
              have hyp : y ∈ p.chunks ∧ y ≠ ch := by
                rw [e]
                rcases List.mem_append.1 hy with k | k
                · exact ⟨by simp [k], n1 y k⟩
                · exact ⟨by simp [k], n2 y k⟩
              cases hany : ch.blks.any (fun x => x.addr == b) with
              | false => rfl
              | true =>
                rw [List.any_eq_true] at hany
                obtain ⟨w, hw, hwa⟩ := hany
                simp at hwa
                exact absurd (chunk_unique hp hyp.1 hin hz hw (by omega)) hyp.2
          · rw [if_neg hd, hp.free d b]
            refine ⟨?_, hsub d b⟩
            rintro ⟨y, hy, hyc, g⟩
            refine ⟨y, ?_, hyc, g⟩
            rw [e] at hy
            rcases List.mem_append.1 hy with k | k
            · simp [k]
            · rcases List.mem_cons.1 k with k | k
              · rw [k, hcls] at hyc; cases hyc; exact absurd rfl hd
              · simp [k]
        · intro d
          unfold upd
          by_cases hd : d = c
          · rw [if_pos hd]; exact hnd'.filter _
          · rw [if_neg hd]; exact hp.nodup d
      · rw [if_neg hrel]
        have hblk : ch.blks.map (fun x => if x.addr + 56 == ptr then { x with used := false } else x) = modBlk x.addr (fun x => { x with used := false }) ch.blks := by
          unfold modBlk
          apply List.map_congr_left
          intro y hy
          have : (y.addr + 56 == ptr) = (y.addr == x.addr) := by
            rw [Bool.eq_iff_iff, beq_iff_eq, beq_iff_eq]; omega
          rw [this]
        rw [hblk]
        generalize hcnt : (if ch.refer - 1 = 0 then ch.count + 1 else ch.count) = cnt
        have hgeo' := geo_mod hg (fun x => { x with used := false }) hx rfl rfl (fun g => by cases g) (ch.refer - 1) cnt ⟨c, hcls⟩ (by simp only [hxu, if_true, Bool.false_eq_true, if_false]; omega)
        have hliv := chLive_unmark hg hx hxu (ch.refer - 1) cnt
        obtain ⟨m1, m2, eb, hb1, hb2⟩ := split_blks hg hx
        have hmb : modBlk x.addr (fun x => { x with used := false }) ch.blks = m1 ++ { x with used := false } :: m2 := by
          rw [eb]; exact modBlk_split _ hb1 hb2
        generalize hch' : ({ ch with refer := ch.refer - 1, count := cnt, blks := modBlk x.addr (fun x => { x with used := false }) ch.blks } : Chunk) = ch' at hgeo' hliv
        have f1 : ch'.addr = ch.addr := by rw [← hch']
        have f2 : ch'.size = ch.size := by rw [← hch']
        have f3 : ch'.cls = some c := by rw [← hch']; exact hcls
        have f4 : ch'.blks = m1 ++ { x with used := false } :: m2 := by rw [← hch']; exact hmb
        have hmap : p.chunks.map (fun z => if z.addr = ch.addr then ({ addr := ch.addr, size := ch.size, refer := ch.refer - 1, count := cnt, cls := some c, blks := modBlk x.addr (fun x => { x with used := false }) ch.blks } : Chunk) else z) = l1 ++ ch' :: l2 := by
          rw [e, List.map_append, List.map_cons, if_pos rfl]
          rw [map_id_of _ l1 (fun y hy => if_neg (addr_ne hp (by rw [e]; simp [hy]) hin (n1 y hy)))]
          rw [map_id_of _ l2 (fun y hy => if_neg (addr_ne hp (by rw [e]; simp [hy]) hin (n2 y hy)))]
          rw [← hch', ← hcls]
        rw [hmap]
        have hreg : (l1 ++ ch' :: l2).map (fun x => (x.addr, x.size)) = p.chunks.map (fun x => (x.addr, x.size)) := by
          rw [e, List.map_append, List.map_append, List.map_cons, List.map_cons, f1, f2]
        have hpinv : PInv { p with free := upd p.free c (p.free c ++ [ptr - 56]), chunks := l1 ++ ch' :: l2 } := by
          refine { geo := ?_, sep := ?_, free := ?_, nodup := ?_, lim := hp.lim, charge := ?_ }
          · intro y hy
            rcases List.mem_append.1 hy with g | g
            · exact hp.geo y (by rw [e]; simp [g])
            · rcases List.mem_cons.1 g with rfl | g
              · exact hgeo'
              · exact hp.geo y (by rw [e]; simp [g])
          · have := hp.sep
            rw [e] at this
            exact csep_replace f1 f2 this
          · intro d b
            simp only
            have hiff : IsFree (l1 ++ ch' :: l2) d b ↔ IsFree p.chunks d b ∨ (d = c ∧ b = x.addr) := by
              constructor
              · rintro ⟨y, hy, hyc, z, hz, hza, hzu⟩
                rcases List.mem_append.1 hy with g | g
                · exact Or.inl ⟨y, by rw [e]; simp [g], hyc, z, hz, hza, hzu⟩
                · rcases List.mem_cons.1 g with rfl | g
                  · rw [f4] at hz
                    rw [f3] at hyc
                    cases hyc
                    rcases List.mem_append.1 hz with k | k
                    · exact Or.inl ⟨ch, hin, hcls, z, by rw [eb]; simp [k], hza, hzu⟩
                    · rcases List.mem_cons.1 k with rfl | k
                      · exact Or.inr ⟨rfl, hza.symm⟩
                      · exact Or.inl ⟨ch, hin, hcls, z, by rw [eb]; simp [k], hza, hzu⟩
                  · exact Or.inl ⟨y, by rw [e]; simp [g], hyc, z, hz, hza, hzu⟩
              · rintro (⟨y, hy, hyc, z, hz, hza, hzu⟩ | ⟨rfl, rfl⟩)
                · by_cases hyy : y = ch
                  · subst hyy
                    rw [hcls] at hyc
                    cases hyc
                    refine ⟨ch', by simp, f3, z, ?_, hza, hzu⟩
                    rw [f4]
                    rw [eb] at hz
                    rcases List.mem_append.1 hz with k | k
                    · simp [k]
                    · rcases List.mem_cons.1 k with k | k
                      · rw [k, hxu] at hzu; cases hzu
                      · simp [k]
                  · refine ⟨y, ?_, hyc, z, hz, hza, hzu⟩
                    rw [e] at hy
                    rcases List.mem_append.1 hy with k | k
                    · simp [k]
                    · rcases List.mem_cons.1 k with k | k
                      · exact absurd k hyy
                      · simp [k]
                · exact ⟨ch', by simp, f3, { x with used := false }, by rw [f4]; simp, rfl, rfl⟩
            rw [hiff, ← hp.free d b, hpx]
            unfold upd
            by_cases hd : d = c
            · rw [if_pos hd, hd]; simp
            · rw [if_neg hd]; simp [hd]
          · intro d
            simp only [upd]
            by_cases hd : d = c
            · rw [if_pos hd]; exact hnd'
            · rw [if_neg hd]; exact hp.nodup d
          · intro hc0
            have := hp.charge hc0
            simp only
            rw [e, total_split] at this
            rw [total_split, f2]
            exact this
        refine ⟨_, rfl, inv_same h hpinv hreg hu (List.Perm.refl _) rfl, rfl, below_same hreg (List.Perm.refl _) rfl (List.Perm.refl _), ?_⟩
        simp only [live]
        rw [e, pLive_split, pLive_split]
        rw [hxp, hxn] at hliv
        exact (List.Perm.append_left _ (hliv.append_right _)).trans List.perm_middle

/-! ## What callers hold is apart, at all levels together -/

theorem below_lvl (m : Mem) : ∀ x ∈ below m, x.1 < depth m := by
  induction m with
  | heap L => intro x hx; cases hx
  | shm s => intro x hx; cases hx
  | pool p up ih =>
    intro x hx
    unfold below at hx
    rcases List.mem_append.1 hx with g | g
    · obtain ⟨y, _, rfl⟩ := List.mem_map.1 g
      simp only [depth]; omega
    · have := ih x g
      simp only [depth]; omega

theorem live_in_chunk {p : Pool} (hp : PInv p) {y : Nat × Nat} (hy : y ∈ pLive p.chunks) : ∃ ch ∈ p.chunks, ch.addr + 144 ≤ y.1 ∧ y.1 + y.2 ≤ ch.addr + ch.size := by
  unfold pLive at hy
  obtain ⟨ch, h1, h2⟩ := List.mem_flatMap.1 hy
  exact ⟨ch, h1, chLive_in (hp.geo ch h1) y h2⟩

theorem below_apart {m : Mem} (h : Inv m) : (below m).Pairwise (fun x y => Sep x.2 y.2) ∧ ∀ x ∈ below m, ∀ y ∈ live m, Sep x.2 y := by
  induction m with
  | heap L => exact ⟨List.Pairwise.nil, fun x hx => by cases hx⟩
  | shm s => exact ⟨List.Pairwise.nil, fun x hx => by cases hx⟩
  | pool p up ih =>
    obtain ⟨hp, hu, hch, _⟩ := h
    obtain ⟨i1, i2⟩ := ih hu
    have hg := (good hu).1
    unfold below
    refine ⟨List.pairwise_append.2 ⟨?_, i1, ?_⟩, ?_⟩
    · rw [List.pairwise_map]
      exact (hg.filter _).imp (fun g => g.2)
    · intro a ha b hb
      obtain ⟨x, hx, rfl⟩ := List.mem_map.1 ha
      exact sep_symm (i2 b hb x ((List.mem_filter.1 hx).1))
    · intro x hx y hy
      obtain ⟨ch, h1, h2, h3⟩ := live_in_chunk hp hy
      have hc := hch ch h1
      have hs : Sep x.2 (ch.addr, ch.size) := by
        rcases List.mem_append.1 hx with g | g
        · obtain ⟨z, hz, rfl⟩ := List.mem_map.1 g
          rw [List.mem_filter] at hz
          refine (apart_of_ne hg z hz.1 _ hc ?_).2
          rintro rfl
          have : (p.chunks.map (·.addr)).contains ch.addr = true := by
            rw [List.contains_iff_mem]; exact List.mem_map.2 ⟨ch, h1, rfl⟩
          simp only [this] at hz
          simp at hz
        · exact i2 x g _ hc
      unfold Sep at hs ⊢
      simp only at hs
      omega

/-- **C59.**  No two blocks that callers hold overlap, at whatever level of the tower of pools. -/
theorem held_apart {m : Mem} (h : Inv m) : (held m).Pairwise (fun x y => Sep x.2 y.2) := by
  obtain ⟨h1, h2⟩ := below_apart h
  unfold held
  rw [List.pairwise_append, List.pairwise_map]
  refine ⟨(good h).1.imp (fun g => g.2), h1, ?_⟩
  intro a ha b hb
  obtain ⟨x, hx, rfl⟩ := List.mem_map.1 ha
  exact sep_symm (h2 b hb x hx)

/-- The memory the allocators keep their own records in. -/
def metas : Mem → List (Nat × Nat)
  | .heap _ => []
  | .shm s => s.as.flatMap (fun a => (a.addr, 4144) :: a.blks.map (fun b => (b.addr, 56)))
  | .pool p up => p.chunks.flatMap (fun ch => (ch.addr, 88) :: ch.blks.map (fun b => (b.addr, 56))) ++ metas up

theorem shm_meta {s : Shm.Pool} (h : Shm.Inv s) : ∀ x ∈ metas (.shm s), ∀ y ∈ live (.shm s), Sep x y := by
  have hd := (Shm.shm_disjoint h).1
  unfold Shm.feet at hd
  rw [List.pairwise_flatMap] at hd
  obtain ⟨d1, d2⟩ := hd
  intro x hx y hy
  simp only [metas, List.mem_flatMap] at hx
  simp only [live, Shm.live, List.mem_flatMap, List.mem_map] at hy
  obtain ⟨a, ha, hx⟩ := hx
  obtain ⟨a', ha', b', hb', rfl⟩ := hy
  have hneq : ∀ l : List Shm.As, l.Pairwise (fun a₁ a₂ => ∀ x ∈ (a₁.addr, 4144) :: a₁.blks.map (fun b => (b.addr, 56 + b.size)), ∀ y ∈ (a₂.addr, 4144) :: a₂.blks.map (fun b => (b.addr, 56 + b.size)), Shm.Sep x y) →
      ∀ a ∈ l, ∀ a' ∈ l, a ≠ a' → ∀ x ∈ (a.addr, 4144) :: a.blks.map (fun b => (b.addr, 56 + b.size)), ∀ y ∈ (a'.addr, 4144) :: a'.blks.map (fun b => (b.addr, 56 + b.size)), Shm.Sep x y := by
    intro l hl
    induction l with
    | nil => intro a ha; cases ha
    | cons c l ih =>
      rw [List.pairwise_cons] at hl
      intro a ha b hb hne x hx y hy
      rcases List.mem_cons.1 ha with rfl | ha' <;> rcases List.mem_cons.1 hb with rfl | hb'
      · exact absurd rfl hne
      · exact hl.1 b hb' x hx y hy
      · exact Or.symm (hl.1 a ha' y hy x hx)
      · exact ih hl.2 a ha' b hb' hne x hx y hy
  have hy' : (b'.addr, 56 + b'.size) ∈ (a'.addr, 4144) :: a'.blks.map (fun b => (b.addr, 56 + b.size)) :=
    List.mem_cons_of_mem _ (List.mem_map.2 ⟨b', hb', rfl⟩)
  rcases List.mem_cons.1 hx with rfl | hx
  · by_cases hne : a = a'
    · subst hne
      have := d1 a ha
      rw [List.pairwise_cons] at this
      have := this.1 _ (List.mem_map.2 ⟨b', hb', rfl⟩)
      unfold Shm.Sep at this
      unfold Sep
      simp only at this ⊢
      omega
    · have := hneq _ d2 a ha a' ha' hne _ List.mem_cons_self _ hy'
      unfold Shm.Sep at this
      unfold Sep
      simp only at this ⊢
      omega
  · obtain ⟨b, hb, rfl⟩ := List.mem_map.1 hx
    have hx' : (b.addr, 56 + b.size) ∈ (a.addr, 4144) :: a.blks.map (fun b => (b.addr, 56 + b.size)) :=
      List.mem_cons_of_mem _ (List.mem_map.2 ⟨b, hb, rfl⟩)
    by_cases hne : a = a'
    · subst hne
      have h1 := d1 a ha
      rw [List.pairwise_cons, List.pairwise_map] at h1
      by_cases hbb : b = b'
      · subst hbb; unfold Sep; simp only; omega
      · have hp2 : ∀ l : List Shm.Blk, l.Pairwise (fun a b => Shm.Sep (a.addr, 56 + a.size) (b.addr, 56 + b.size)) → ∀ a ∈ l, ∀ b ∈ l, a ≠ b → Shm.Sep (a.addr, 56 + a.size) (b.addr, 56 + b.size) := by
          intro l hl
          induction l with
          | nil => intro a ha; cases ha
          | cons c l ih =>
            rw [List.pairwise_cons] at hl
            intro a ha b hb hne
            rcases List.mem_cons.1 ha with rfl | ha' <;> rcases List.mem_cons.1 hb with rfl | hb'
            · exact absurd rfl hne
            · exact hl.1 b hb'
            · exact Or.symm (hl.1 a ha')
            · exact ih hl.2 a ha' b hb' hne
        have := hp2 _ h1.2 b hb b' hb' hbb
        unfold Shm.Sep at this
        unfold Sep
        simp only at this ⊢
        omega
    · have := hneq _ d2 a ha a' ha' hne _ hx' _ hy'
      unfold Shm.Sep at this
      unfold Sep
      simp only at this ⊢
      omega

/-- **C59.**  A caller that stays inside its blocks cannot touch the records of any allocator. -/
theorem meta_safe {m : Mem} (h : Inv m) : ∀ x ∈ metas m, ∀ y ∈ held m, Sep x y.2 := by
  have key : ∀ x ∈ metas m, (∀ y ∈ live m, Sep x y) ∧ ∀ y ∈ below m, Sep x y.2 := by
    induction m with
    | heap L => intro x hx; cases hx
    | shm s => intro x hx; exact ⟨shm_meta h x hx, fun y hy => by cases hy⟩
    | pool p up ih =>
      have h' := h
      obtain ⟨hp, hu, hch, _⟩ := h
      obtain ⟨b1, b2⟩ := below_apart hu
      have hg := (good hu).1
      intro x hx
      unfold metas at hx
      rcases List.mem_append.1 hx with g | g
      · obtain ⟨ch, hc, hx⟩ := List.mem_flatMap.1 g
        have hgeo := hp.geo ch hc
        have hin : ch.addr ≤ x.1 ∧ x.1 + x.2 ≤ ch.addr + ch.size ∧ 0 < x.2 := by
          rcases List.mem_cons.1 hx with rfl | hx
          · simp only
            have : 88 ≤ ch.size := by
              cases hcl : ch.cls with
              | none =>
                obtain ⟨z, hz, _⟩ := hgeo.large hcl
                have := hgeo.inside z (by rw [hz]; simp)
                omega
              | some c =>
                by_contra hlt
                have : ch.blks = [] := by
                  cases hb : ch.blks with
                  | nil => rfl
                  | cons z l =>
                    have := hgeo.inside z (by rw [hb]; simp)
                    omega
                exact absurd this (hgeo.nonempty)
            omega
          · obtain ⟨b, hb, rfl⟩ := List.mem_map.1 hx
            have := hgeo.inside b hb
            simp only
            omega
        refine ⟨?_, ?_⟩
        · intro y hy
          unfold live pLive at hy
          obtain ⟨ch', hc', hy'⟩ := List.mem_flatMap.1 hy
          have h3 := chLive_in (hp.geo ch' hc') y hy'
          by_cases hne : ch = ch'
          · subst hne
            rcases List.mem_cons.1 hx with rfl | hx
            · unfold Sep; simp only; omega
            · obtain ⟨b, hb, rfl⟩ := List.mem_map.1 hx
              unfold chLive at hy'
              simp only [List.mem_map, List.mem_filter] at hy'
              obtain ⟨b', ⟨hb', hbu⟩, rfl⟩ := hy'
              have hrq := hgeo.req b' hb' hbu
              by_cases hbb : b = b'
              · subst hbb; unfold Sep; simp only; omega
              · have := blk_apart hgeo hb hb' hbb
                unfold Sep; simp only; omega
          · have := csep_of_ne hp.sep ch hc ch' hc' hne
            unfold CSep Sep at this
            unfold Sep
            simp only at this
            omega
        · intro y hy
          have hs := (below_apart (m := .pool p up) h').2
          have hs2 : Sep y.2 (ch.addr, ch.size) := by
            unfold below at hy
            rcases List.mem_append.1 hy with g | g
            · obtain ⟨z, hz, rfl⟩ := List.mem_map.1 g
              rw [List.mem_filter] at hz
              refine (apart_of_ne hg z hz.1 _ (hch ch hc) ?_).2
              rintro rfl
              have : (p.chunks.map (·.addr)).contains ch.addr = true := by
                rw [List.contains_iff_mem]; exact List.mem_map.2 ⟨ch, hc, rfl⟩
              simp only [this] at hz
              simp at hz
            · exact b2 y g _ (hch ch hc)
          unfold Sep at hs2 ⊢
          simp only at hs2
          omega
      · obtain ⟨k1, k2⟩ := ih hu x g
        refine ⟨?_, ?_⟩
        · intro y hy
          obtain ⟨ch, h1, h2, h3⟩ := live_in_chunk hp hy
          have := k1 _ (hch ch h1)
          unfold Sep at this ⊢
          simp only at this
          omega
        · intro y hy
          unfold below at hy
          rcases List.mem_append.1 hy with g | g
          · obtain ⟨z, hz, rfl⟩ := List.mem_map.1 g
            exact k1 z ((List.mem_filter.1 hz).1)
          · exact k2 y g
  intro x hx y hy
  unfold held at hy
  rcases List.mem_append.1 hy with g | g
  · obtain ⟨z, hz, rfl⟩ := List.mem_map.1 g
    exact (key x hx).1 z hz
  · exact (key x hx).2 y g

/-- Do the pools stand on malloc? -/
def onHeap : Mem → Prop
  | .heap _ => True
  | .shm _ => False
  | .pool _ up => onHeap up

/-- **C59.**  On top of malloc every block is aligned to 8 bytes. -/
theorem aligned {m : Mem} (h : Inv m) (hb : onHeap m) : ∀ x ∈ held m, x.2.1 % 8 = 0 := by
  have key : (∀ x ∈ live m, x.1 % 8 = 0) ∧ ∀ x ∈ below m, x.2.1 % 8 = 0 := by
    induction m with
    | heap L =>
      refine ⟨fun x hx => ?_, fun x hx => by cases hx⟩
      have := (h.2 x hx).2.1
      omega
    | shm s => exact hb.elim
    | pool p up ih =>
      obtain ⟨hp, hu, hch, _⟩ := h
      obtain ⟨i1, i2⟩ := ih hu hb
      refine ⟨?_, ?_⟩
      · rintro ⟨q, n⟩ hx
        obtain ⟨ch, hc, x, hx, _, h2, _⟩ := mem_pLive.1 hx
        have := (hp.geo ch hc).align (i1 _ (hch ch hc)) x hx
        simp only
        omega
      · intro x hx
        unfold below at hx
        rcases List.mem_append.1 hx with g | g
        · obtain ⟨z, hz, rfl⟩ := List.mem_map.1 g
          exact i1 z ((List.mem_filter.1 hz).1)
        · exact i2 x g
  intro x hx
  unfold held at hx
  rcases List.mem_append.1 hx with g | g
  · obtain ⟨z, hz, rfl⟩ := List.mem_map.1 g
    exact key.1 z hz
  · exact key.2 x g

end Verif.Alloc
