import Verif.ChainBuf
import Mathlib.Data.List.Perm.Basic
import Mathlib.Data.List.Nodup
/-!
# Releasing a chain frees what it owns
-/
namespace Verif.ChainBuf

/-! ## Specification -/

/-- What the contents of a buffer are: memory of somebody else, a block, a mapping, an open file, or nothing. -/
inductive Contents
  | lent
  | block (a : Nat)
  | mapping (a len : Nat)
  | file (f : Nat)
  | nothing

/-- The thing that belongs to the buffer. -/
def Contents.owned : Contents → List Res
  | .lent | .nothing => []
  | .block a => [.blk a]
  | .mapping a len => [.map a len]
  | .file f => [.file f]

/-- The buffer is set up for its contents: `start` is where the memory begins, or it is NULL and nothing was consumed
from the beginning (and for a mapping nor was the end moved). -/
inductive Set : Buf → Contents → Prop
  | shadow {b : Buf} : b.shadow = true → Set b .lent
  | temporary {b : Buf} : b.temporary = true → Set b .lent
  | block {b : Buf} {a : Nat} : b.shadow = false → b.temporary = false → b.inMemory = true → b.mmap = false →
      (b.start = some a ∨ (b.start = none ∧ b.pos = a)) → Set b (.block a)
  | mapping {b : Buf} {a len : Nat} : b.shadow = false → b.temporary = false → b.inMemory = true → b.mmap = true →
      ((b.start = some a ∧ b.stop = a + len) ∨ (b.start = none ∧ b.pos = a ∧ b.last = a + len)) → Set b (.mapping a len)
  | file {b : Buf} : b.shadow = false → b.temporary = false → b.inMemory = false → b.inFile = true → Set b (.file b.file)
  | nothing {b : Buf} : b.shadow = false → b.temporary = false → b.inMemory = false → b.inFile = false → Set b .nothing

/-- What belongs to a node. -/
inductive Owns : Node → List Res → Prop
  | bare {n : Nat} : Owns ⟨n, none⟩ [.node n]
  | buf {n : Nat} {b : Buf} {c : Contents} : Set b c → Owns ⟨n, some b⟩ (c.owned ++ [.buf b.id, .node n])

/-- What belongs to a chain. -/
inductive OwnsAll : List Node → List Res → Prop
  | nil : OwnsAll [] []
  | cons {c : Node} {cs : List Node} {r rs : List Res} : Owns c r → OwnsAll cs rs → OwnsAll (c :: cs) (r ++ rs)

/-! ## Proof -/

theorem free_perm {h l : List Res} {r : Res} (hp : h.Perm (r :: l)) : ∃ h', free h r = some h' ∧ h'.Perm l := by
  have hm : r ∈ h := hp.mem_iff.2 (by simp)
  refine ⟨h.erase r, if_pos hm, ?_⟩
  have := hp.erase r
  rwa [List.erase_cons_head] at this

theorem buf_release {b : Buf} {c : Contents} (hs : Set b c) {h l : List Res} (hp : h.Perm (c.owned ++ (.buf b.id :: l))) :
    ∃ h', bufRelease h b = some h' ∧ h'.Perm l := by
  cases hs with
  | shadow h1 => simpa [bufRelease, h1] using free_perm hp
  | temporary h1 => simpa [bufRelease, h1] using free_perm hp
  | block h1 h2 h3 h4 h5 =>
    rename_i a
    have hmem : memory b = .blk a := by
      rcases h5 with h5 | ⟨h5, h6⟩
      · simp [memory, h4, h5]
      · simp [memory, h4, h5, h6]
    obtain ⟨h', e1, p1⟩ := free_perm (r := .blk a) hp
    obtain ⟨h'', e2, p2⟩ := free_perm p1
    exact ⟨h'', by simp [bufRelease, h1, h2, h3, hmem, e1, e2], p2⟩
  | mapping h1 h2 h3 h4 h5 =>
    rename_i a len
    have hmem : memory b = .map a len := by
      rcases h5 with ⟨h5, h6⟩ | ⟨h5, h6, h7⟩
      · simp [memory, h4, h5, h6]
      · simp [memory, h4, h5, h6, h7]
    obtain ⟨h', e1, p1⟩ := free_perm (r := .map a len) hp
    obtain ⟨h'', e2, p2⟩ := free_perm p1
    exact ⟨h'', by simp [bufRelease, h1, h2, h3, hmem, e1, e2], p2⟩
  | file h1 h2 h3 h4 =>
    obtain ⟨h', e1, p1⟩ := free_perm (r := .file b.file) hp
    obtain ⟨h'', e2, p2⟩ := free_perm p1
    exact ⟨h'', by simp [bufRelease, h1, h2, h3, h4, e1, e2], p2⟩
  | nothing h1 h2 h3 h4 => simpa [bufRelease, h1, h2, h3, h4] using free_perm hp

theorem node_release {c : Node} {r : List Res} (ho : Owns c r) {h l : List Res} (hp : h.Perm (r ++ l)) : ∃ h', nodeRelease h c = some h' ∧ h'.Perm l := by
  cases ho with
  | bare => exact free_perm hp
  | buf hs =>
    rw [List.append_assoc] at hp
    obtain ⟨h', e1, p1⟩ := buf_release hs hp
    obtain ⟨h'', e2, p2⟩ := free_perm p1
    exact ⟨h'', by simp [nodeRelease, e1, e2], p2⟩

/-! ## Properties -/

/-- C330: mln_chain_pool_release_all frees what belongs to the chain, each thing once, and nothing else: when the heap
holds the things of the chain and others, the others are left. -/
theorem release_partial {cs : List Node} {rs : List Res} (ho : OwnsAll cs rs) : ∀ {h l : List Res}, h.Perm (rs ++ l) →
    ∃ h', releaseAll h cs = some h' ∧ h'.Perm l := by
  induction ho with
  | nil => intro h l hp; exact ⟨h, rfl, hp⟩
  | cons h1 _ ih =>
    intro h l hp
    rw [List.append_assoc] at hp
    obtain ⟨h', e1, p1⟩ := node_release h1 hp
    obtain ⟨h'', e2, p2⟩ := ih p1
    exact ⟨h'', by simp [releaseAll, e1, e2], p2⟩

/-- A buffer without `start` whose `pos` was moved, as when a part of it was consumed, frees an address that is no block. -/
theorem moved_refuted {b : Buf} {h : List Res} (h1 : b.shadow = false) (h2 : b.temporary = false) (h3 : b.inMemory = true) (h4 : b.mmap = false)
    (h5 : b.start = none) (h6 : Res.blk b.pos ∉ h) : bufRelease h b = none := by
  simp [bufRelease, h1, h2, h3, memory, h4, h5, free, h6]

theorem free_sub {h h' : List Res} {r : Res} (e : free h r = some h') : h'.Sublist h ∧ (h.Nodup → r ∉ h') := by
  simp only [free] at e
  split at e
  · simp only [Option.some.injEq] at e
    subst e
    exact ⟨List.erase_sublist, fun hn => hn.not_mem_erase⟩
  · simp at e

theorem buf_sub {h h' : List Res} {b : Buf} (e : bufRelease h b = some h') : h'.Sublist h ∧ (h.Nodup → Res.buf b.id ∉ h') := by
  have two : ∀ r, (free h r).bind (fun h => free h (.buf b.id)) = some h' → h'.Sublist h ∧ (h.Nodup → Res.buf b.id ∉ h') := by
    intro r e
    obtain ⟨h1, e1, e2⟩ := Option.bind_eq_some_iff.1 e
    exact ⟨(free_sub e2).1.trans (free_sub e1).1, fun hn => (free_sub e2).2 (hn.sublist (free_sub e1).1)⟩
  simp only [bufRelease] at e
  split at e
  · exact free_sub e
  · split at e
    · exact two _ e
    · split at e
      · exact two _ e
      · exact free_sub e

theorem buf_needs {h : List Res} {b : Buf} (hb : Res.buf b.id ∉ h) : bufRelease h b = none := by
  have one : free h (.buf b.id) = none := if_neg hb
  have two : ∀ r, (free h r).bind (fun h => free h (.buf b.id)) = none := by
    intro r
    cases e : free h r with
    | none => rfl
    | some h1 => exact if_neg fun hm => hb ((free_sub e).1.subset hm)
  simp only [bufRelease]
  split
  · exact one
  · split
    · exact two _
    · split
      · exact two _
      · exact one

theorem node_sub {h h' : List Res} {c : Node} (e : nodeRelease h c = some h') : h'.Sublist h := by
  simp only [nodeRelease] at e
  split at e
  · obtain ⟨h1, e1, e2⟩ := Option.bind_eq_some_iff.1 e
    exact (free_sub e2).1.trans (buf_sub e1).1
  · exact (free_sub e).1

/-- A chain with a buffer that is gone cannot be released. -/
theorem all_needs {b : Buf} {c : Node} (hc : c.buf = some b) (ds : List Node) : ∀ (bs : List Node) {h : List Res}, Res.buf b.id ∉ h →
    releaseAll h (bs ++ c :: ds) = none := by
  intro bs
  induction bs with
  | nil => intro h hb; simp [releaseAll, nodeRelease, hc, buf_needs hb]
  | cons a bs ih =>
    intro h hb
    rw [List.cons_append, releaseAll]
    cases e : nodeRelease h a with
    | none => rfl
    | some h1 => exact ih fun hm => hb ((node_sub e).subset hm)

/-- One buffer in two nodes, anywhere in the chain: it is freed twice. -/
theorem shared_refuted {b : Buf} {c c' : Node} (hc : c.buf = some b) (hc' : c'.buf = some b) (bs ds : List Node) :
    ∀ (as : List Node) {h : List Res}, h.Nodup → releaseAll h (as ++ c :: (bs ++ c' :: ds)) = none := by
  intro as
  induction as with
  | nil =>
    intro h hn
    rw [List.nil_append, releaseAll]
    cases e : nodeRelease h c with
    | none => rfl
    | some h1 =>
      simp only [nodeRelease, hc] at e
      obtain ⟨h2, e1, e2⟩ := Option.bind_eq_some_iff.1 e
      exact all_needs hc' ds bs fun hm => (buf_sub e1).2 hn ((free_sub e2).1.subset hm)
  | cons a as ih =>
    intro h hn
    rw [List.cons_append, releaseAll]
    cases e : nodeRelease h a with
    | none => rfl
    | some h1 => exact ih (hn.sublist (node_sub e))

/-- When memory runs out the new buffer and the new node are written through NULL. -/
theorem new_refuted (h : List Res) (n : Nat) : bufNew false h n = none ∧ chainNew false h n = none := ⟨rfl, rfl⟩

/-- A new buffer and a new node own nothing but themselves. -/
theorem new_owns (h : List Res) (n m : Nat) : ∃ b c h', (bufNew true h n).bind (fun r => (chainNew true r.2 m).map fun q => (r.1, q.1, q.2)) = some (b, c, h') ∧
    c.buf = none ∧ h' = .node m :: .buf n :: h ∧ Owns { c with buf := some b } [.buf n, .node m] := by
  refine ⟨{ id := n }, ⟨m, none⟩, _, rfl, rfl, rfl, ?_⟩
  exact Owns.buf (n := m) (b := { id := n }) (c := .nothing) (.nothing rfl rfl rfl rfl)

/-! ## Examples -/

-- a block, a part of it lent to a second buffer, and a file
example : releaseAll [.node 1, .node 2, .node 3, .buf 1, .buf 2, .buf 3, .blk 100, .file 5, .blk 7]
    [⟨1, some { id := 1, inMemory := true, start := some 100, pos := 140, last := 150, stop := 164 }⟩,
     ⟨2, some { id := 2, inMemory := true, shadow := true, pos := 140, last := 150 }⟩,
     ⟨3, some { id := 3, inFile := true, file := 5 }⟩] = some [.blk 7] := by decide

-- the block without `start`, consumed in part
example : bufRelease [.buf 1, .blk 100] { id := 1, inMemory := true, pos := 110, last := 120 } = none := by decide

-- one buffer in two nodes
example : releaseAll [.node 1, .node 2, .buf 1, .blk 100]
    [⟨1, some { id := 1, inMemory := true, pos := 100 }⟩, ⟨2, some { id := 1, inMemory := true, pos := 100 }⟩] = none := by decide

end Verif.ChainBuf
