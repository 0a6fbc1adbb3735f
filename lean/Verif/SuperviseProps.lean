import Verif.Supervise
/-!
# Properties of the supervision of processes
-/
namespace Verif.Supervise

/-! ## Specification -/

/-- What is to be kept running: for each supervised process, whether it is a program, and its
arguments. -/
def wanted (s : St) : List (Bool × Option Nat) := (s.procs.filter (fun p => p.sup)).map (fun p => (p.exec, p.args))

/-- The processes that are started once. -/
def others (s : St) : List Proc := s.procs.filter (fun p => !p.sup)

/-- The kernel gives descriptors that are not in use. -/
def Fresh (fds : List Nat) : Fk → Prop
  | .noPair => True
  | .noFork a b => a ∉ fds ∧ b ∉ fds ∧ a ≠ b
  | .dies a b => a ∉ fds ∧ b ∉ fds ∧ a ≠ b
  | .parent a b _ => a ∉ fds ∧ b ∉ fds ∧ a ≠ b
  | .child a b => a ∉ fds ∧ b ∉ fds ∧ a ≠ b

/-- It does so in the whole execution. -/
def Kernel (s : St) : List (Nat × Fk) → Prop
  | [] => True
  | (i, o) :: r =>
    match s.procs[i]? with
    | none => Kernel s r
    | some p => Fresh (s.fds.erase p.fd) o ∧ ∀ t, closed s p o = .master t → Kernel t r

/-- The master has a socket open for each process, besides the descriptors `base` of its own, and an
event set on it for that process. -/
structure Master (s : St) (base : List Nat) : Prop where
  fds : s.fds.Perm (s.procs.map (·.fd) ++ base)
  nodup : s.fds.Nodup
  reg : s.reg.Perm (s.procs.map (fun p => (p.fd, p.pid)))

/-! ## The steps -/

theorem mem_fds {s : St} {base : List Nat} (h : Master s base) {p : Proc} (hp : p ∈ s.procs) : p.fd ∈ s.fds :=
  h.fds.mem_iff.2 (List.mem_append_left _ (List.mem_map_of_mem hp))

theorem nodup_fds {s : St} {base : List Nat} (h : Master s base) : (s.procs.map (·.fd) ++ base).Nodup := h.fds.nodup_iff.1 h.nodup

/-- Taking an entry out of the list, out of the descriptors and out of the events. -/
theorem drop_master {s : St} {base : List Nat} (h : Master s base) {p : Proc} (hp : p ∈ s.procs) (b : Bool) :
    Master (destroy { s with reg := s.reg.filter (fun r => r.1 != p.fd) } p b) base := by
  have hperm : s.procs.Perm (p :: s.procs.erase p) := List.perm_cons_erase hp
  have hnd := nodup_fds h
  have hnot : ∀ q ∈ s.procs.erase p, q.fd ≠ p.fd := by
    have h1 : ((p :: s.procs.erase p).map (·.fd)).Nodup := (hperm.map _).nodup_iff.1 (List.nodup_append.1 hnd).1
    rw [List.map_cons, List.nodup_cons] at h1
    intro q hq e
    exact h1.1 (List.mem_map.2 ⟨q, hq, e⟩)
  refine ⟨?_, h.nodup.erase _, ?_⟩
  · show (s.fds.erase p.fd).Perm ((s.procs.erase p).map (·.fd) ++ base)
    have h1 : s.fds.Perm (p.fd :: ((s.procs.erase p).map (·.fd) ++ base)) := by
      refine h.fds.trans ?_
      rw [← List.cons_append]
      exact (hperm.map _).append_right _
    have := h1.erase p.fd
    rwa [List.erase_cons_head] at this
  · show (s.reg.filter (fun r => r.1 != p.fd)).Perm ((s.procs.erase p).map (fun p => (p.fd, p.pid)))
    have h1 := (h.reg.trans (hperm.map _)).filter (fun r => r.1 != p.fd)
    refine h1.trans ?_
    rw [List.map_cons, List.filter_cons]
    simp only [bne_self_eq_false, Bool.false_eq_true, if_false]
    rw [List.filter_eq_self.2]
    intro r hr
    obtain ⟨q, hq, rfl⟩ := List.mem_map.1 hr
    simpa using hnot q hq

theorem destroyAll_go : ∀ (l : List Proc) (s : St) (base : List Nat), s.procs = l → s.fds.Perm (l.map (·.fd) ++ base) →
    (l.foldl (fun s p => destroy s p true) s).procs = [] ∧ (l.foldl (fun s p => destroy s p true) s).fds.Perm base
  | [], s, base, hp, hf => ⟨hp, by simpa using hf⟩
  | p :: r, s, base, hp, hf => by
    rw [List.foldl_cons]
    apply destroyAll_go r _ base
    · simp [destroy, hp]
    · show (s.fds.erase p.fd).Perm _
      have := hf.erase p.fd
      rwa [List.map_cons, List.cons_append, List.erase_cons_head] at this

theorem destroyAll_fds (s : St) (base : List Nat) (h : s.fds.Perm (s.procs.map (·.fd) ++ base)) :
    (destroyAll s).procs = [] ∧ (destroyAll s).fds.Perm base := destroyAll_go _ _ _ rfl h

theorem core_master {s t : St} {base : List Nat} (h : Master s base) {x y : Bool} {args : Option Nat} {o : Fk} (hf : Fresh s.fds o)
    (hc : core s x y args true o = .master t) : Master t base := by
  cases o with
  | noPair => cases hc
  | noFork a b => cases hc
  | dies a b => cases hc
  | child a b => cases hc
  | parent a b pid =>
    simp only [core, if_true] at hc
    injection hc with hc
    subst hc
    refine ⟨?_, ?_, ?_⟩
    · show (a :: s.fds).Perm ((s.procs ++ [_]).map _ ++ base)
      rw [List.map_append, List.append_assoc]
      refine (h.fds.cons a).trans ?_
      simp only [List.map_cons, List.map_nil, List.cons_append, List.nil_append]
      exact List.perm_middle.symm
    · show (a :: s.fds).Nodup
      exact List.nodup_cons.2 ⟨hf.1, h.nodup⟩
    · show ((a, pid) :: s.reg).Perm ((s.procs ++ [_]).map _)
      rw [List.map_append]
      refine (h.reg.cons _).trans ?_
      exact (List.perm_append_comm (l₁ := [(a, pid)]))

theorem core_child {s t : St} {base : List Nat} {m : Nat} (h : Master s base) {x y : Bool} {args : Option Nat} {o : Fk}
    (hc : core s x y args true o = .child t m) : t.procs = [] ∧ t.fds.Perm (m :: base) := by
  cases o with
  | noPair => cases hc
  | noFork a b => cases hc
  | dies a b => cases hc
  | parent a b pid => cases hc
  | child a b =>
    simp only [core] at hc
    injection hc with h1 h2
    subst h1; subst h2
    apply destroyAll_fds
    show (b :: s.fds).Perm (s.procs.map _ ++ b :: base)
    exact (h.fds.cons b).trans List.perm_middle.symm

theorem closed_master {s t : St} {base : List Nat} (h : Master s base) {p : Proc} (hp : p ∈ s.procs) {o : Fk}
    (hf : Fresh (s.fds.erase p.fd) o) (hc : closed s p o = .master t) : Master t base := by
  simp only [closed] at hc
  split at hc
  · split at hc
    · cases hc
    · rename_i x
      exact core_master (drop_master h hp false) hf hc
  · injection hc with hc
    subst hc
    exact drop_master h hp true

theorem closed_child {s t : St} {base : List Nat} {m : Nat} (h : Master s base) {p : Proc} (hp : p ∈ s.procs) {o : Fk}
    (hc : closed s p o = .child t m) : t.procs = [] ∧ t.fds.Perm (m :: base) := by
  simp only [closed] at hc
  split at hc
  · split at hc
    · cases hc
    · rename_i x
      exact core_child (drop_master h hp false) hc
  · cases hc

theorem run_master : ∀ (l : List (Nat × Fk)) (s : St) (base : List Nat), Master s base → Kernel s l →
    (∀ t, run s l = .master t → Master t base) ∧ (∀ t m, run s l = .child t m → t.procs = [] ∧ t.fds.Perm (m :: base))
  | [], s, base, h, _ => ⟨fun t e => (by injection e with e; subst e; exact h), fun t m e => (by cases e)⟩
  | (i, o) :: r, s, base, h, hk => by
    simp only [run, Kernel] at hk ⊢
    cases hi : s.procs[i]? with
    | none =>
      rw [hi] at hk
      exact run_master r s base h hk
    | some p =>
      rw [hi] at hk
      have hp : p ∈ s.procs := List.mem_of_getElem? hi
      have hreg : (p.fd, p.pid) ∈ s.reg := h.reg.mem_iff.2 (List.mem_map.2 ⟨p, hp, rfl⟩)
      dsimp only
      rw [if_pos hreg]
      cases hc : closed s p o with
      | fail t => exact ⟨fun t e => (by cases e), fun t m e => (by cases e)⟩
      | abort => exact ⟨fun t e => (by cases e), fun t m e => (by cases e)⟩
      | hangs => exact ⟨fun t e => (by cases e), fun t m e => (by cases e)⟩
      | child u k =>
        refine ⟨fun t e => (by cases e), fun t m e => ?_⟩
        injection e with e1 e2
        subst e1; subst e2
        exact closed_child h hp hc
      | master u => exact run_master r u base (closed_master h hp hk.1 hc) (hk.2 u hc)

/-! ## Supervised processes are kept running (C282) -/

theorem wanted_drop {s : St} {p : Proc} (hp : p ∈ s.procs) : (wanted s).Perm ((if p.sup then [(p.exec, p.args)] else []) ++ (s.procs.erase p |>.filter (fun p => p.sup)).map (fun p => (p.exec, p.args))) := by
  have h := ((List.perm_cons_erase hp).filter (fun p => p.sup)).map (fun p => (p.exec, p.args))
  refine h.trans ?_
  rw [List.filter_cons]
  split <;> simp

theorem closed_wanted {s t : St} {p : Proc} (hp : p ∈ s.procs) {o : Fk} (hc : closed s p o = .master t) : (wanted t).Perm (wanted s) := by
  have hw := wanted_drop hp
  simp only [closed] at hc
  by_cases hs : p.sup = true
  · rw [if_pos hs] at hc hw
    cases o with
    | noPair => cases hc
    | noFork a b => cases hc
    | dies a b => cases hc
    | child a b => cases hc
    | parent a b pid =>
      simp only [core, if_true] at hc
      injection hc with hc
      subst hc
      refine List.Perm.trans ?_ hw.symm
      simp only [wanted, destroy, List.filter_append, List.map_append]
      simp [hs]
  · rw [if_neg hs] at hc hw
    injection hc with hc
    subst hc
    exact hw.symm

/-- Whatever processes end, in whatever order and however often: as long as the master goes on, what
is supervised is what was supervised at the beginning. -/
theorem supervised_kept : ∀ (l : List (Nat × Fk)) (s t : St), run s l = .master t → (wanted t).Perm (wanted s)
  | [], s, t, h => by injection h with h; subst h; exact List.Perm.refl _
  | (i, o) :: r, s, t, h => by
    simp only [run] at h
    cases hi : s.procs[i]? with
    | none => rw [hi] at h; exact supervised_kept r s t h
    | some p =>
      rw [hi] at h
      dsimp only at h
      split at h
      · cases hc : closed s p o with
        | fail t => rw [hc] at h; cases h
        | abort => rw [hc] at h; cases h
        | hangs => rw [hc] at h; cases h
        | child u k => rw [hc] at h; cases h
        | master u =>
          rw [hc] at h
          exact (supervised_kept r u t h).trans (closed_wanted (List.mem_of_getElem? hi) hc)
      · exact supervised_kept r s t h

/-- And the end of each process is noticed: there is an event on its socket, for it and no other. -/
theorem noticed (l : List (Nat × Fk)) (s t : St) (base : List Nat) (h : Master s base) (hk : Kernel s l) (hr : run s l = .master t)
    (p : Proc) (hp : p ∈ t.procs) : (p.fd, p.pid) ∈ t.reg ∧ p.fd ∈ t.fds ∧ ∀ q, (p.fd, q) ∈ t.reg → q = p.pid := by
  have hm := (run_master l s base h hk).1 t hr
  refine ⟨hm.reg.mem_iff.2 (List.mem_map.2 ⟨p, hp, rfl⟩), mem_fds hm hp, ?_⟩
  intro q hq
  have h1 := hm.reg.mem_iff.1 hq
  obtain ⟨p', hp', e⟩ := List.mem_map.1 h1
  injection e with e1 e2
  have hnd := (List.nodup_append.1 (nodup_fds hm)).1
  have : p' = p := by
    apply Classical.byContradiction
    intro hne
    have hperm := List.perm_cons_erase hp
    have h2 : ((p :: t.procs.erase p).map (·.fd)).Nodup := (hperm.map _).nodup_iff.1 hnd
    rw [List.map_cons, List.nodup_cons] at h2
    have h3 : p' ∈ t.procs.erase p := (List.mem_erase_of_ne hne).2 hp'
    exact h2.1 (List.mem_map.2 ⟨p', h3, e1⟩)
  rw [← e2, this]

/-- The claim has a limit: if a supervised process cannot be started again, the master aborts. -/
theorem restart_fails (s : St) (p : Proc) (o : Fk) (hs : p.sup = true) (ho : o = .noPair ∨ ∃ a b, o = .noFork a b) : closed s p o = .abort := by
  rcases ho with rfl | ⟨a, b, rfl⟩ <;> simp [closed, hs, core]

/-- Two workers and a program: the second worker and then the program end. -/
def three : St := setEvents ⟨[⟨3, 100, false, true, none⟩, ⟨4, 101, false, true, none⟩, ⟨5, 102, true, true, some 9⟩], [5, 4, 3, 1], [], [9]⟩

example : run three [(1, .parent 4 6 103), (1, .parent 5 6 104)] =
    .master ⟨[⟨3, 100, false, true, none⟩, ⟨4, 103, false, true, none⟩, ⟨5, 104, true, true, some 9⟩], [5, 4, 3, 1], [(5, 104), (4, 103), (3, 100)], [9]⟩ := by decide
example : wanted three = [(false, none), (false, none), (true, some 9)] := by decide
example : Master three [1] := ⟨by decide, by decide, by decide⟩

/-! ## Processes that are started once (C283) -/

/-- When a process that is not supervised ends it is taken out, its socket and its arguments with it,
nothing is started, and the others are as they were. -/
theorem once_gone (s : St) (p : Proc) (base : List Nat) (o : Fk) (h : Master s base) (hs : p.sup = false) :
    ∃ t, closed s p o = .master t ∧ t.procs = s.procs.erase p ∧ p.fd ∉ t.fds ∧ (∀ q, (p.fd, q) ∉ t.reg) ∧
      (∀ a, p.args = some a → t.heap = s.heap.erase a) ∧ (∀ f, f ≠ p.fd → (f ∈ t.fds ↔ f ∈ s.fds)) := by
  refine ⟨_, by simp only [closed, hs]; rfl, rfl, ?_, ?_, ?_, ?_⟩
  · show p.fd ∉ s.fds.erase p.fd
    rw [h.nodup.mem_erase_iff]
    exact fun x => x.1 rfl
  · intro q hq
    have : (p.fd, q) ∈ s.reg.filter (fun r => r.1 != p.fd) := hq
    simp at this
  · intro a ha
    simp [destroy, ha]
  · intro f hf
    exact List.mem_erase_of_ne hf

/-- None is started a second time. -/
theorem once_only : ∀ (l : List (Nat × Fk)) (s t : St), run s l = .master t → (others t).Sublist (others s)
  | [], s, t, h => by injection h with h; subst h; exact List.Sublist.refl _
  | (i, o) :: r, s, t, h => by
    simp only [run] at h
    cases hi : s.procs[i]? with
    | none => rw [hi] at h; exact once_only r s t h
    | some p =>
      rw [hi] at h
      dsimp only at h
      split at h
      · cases hc : closed s p o with
        | fail t => rw [hc] at h; cases h
        | abort => rw [hc] at h; cases h
        | hangs => rw [hc] at h; cases h
        | child u k => rw [hc] at h; cases h
        | master u =>
          rw [hc] at h
          refine (once_only r u t h).trans ?_
          simp only [closed] at hc
          by_cases hs : p.sup = true
          · rw [if_pos hs] at hc
            cases o with
            | noPair => cases hc
            | noFork a b => cases hc
            | dies a b => cases hc
            | child a b => cases hc
            | parent a b pid =>
              simp only [core, if_true] at hc
              injection hc with hc
              subst hc
              simp only [others, destroy, List.filter_append]
              simp [hs]
              exact List.erase_sublist.filter _
          · rw [if_neg hs] at hc
            injection hc with hc
            subst hc
            exact List.erase_sublist.filter _
      · exact once_only r s t h

example : closed (setEvents ⟨[⟨3, 100, true, false, some 9⟩, ⟨4, 101, false, true, none⟩], [4, 3], [], [9]⟩) ⟨3, 100, true, false, some 9⟩ .noPair =
    .master ⟨[⟨4, 101, false, true, none⟩], [4], [(4, 101)], []⟩ := by decide

/-! ## A child has no connection but its own (C284) -/

/-- A worker started again by the master holds its socket to the master and the descriptors the
master had besides the sockets to its processes: no worker keeps the socket of another one open, and
so the end of each is seen by the master. -/
theorem child_alone (l : List (Nat × Fk)) (s t : St) (m : Nat) (base : List Nat) (h : Master s base) (hk : Kernel s l) (hr : run s l = .child t m) :
    t.procs = [] ∧ t.fds.Perm (m :: base) := (run_master l s base h hk).2 t m hr

theorem child_alone_first (s : St) (base : List Nat) (x y : Bool) (args : Option Nat) (ev : Bool) (a b : Nat) (t : St) (m : Nat)
    (h : s.fds.Perm (s.procs.map (·.fd) ++ base)) (hc : core s x y args ev (.child a b) = .child t m) : t.procs = [] ∧ t.fds.Perm (m :: base) := by
  simp only [core] at hc
  injection hc with h1 h2
  subst h1; subst h2
  apply destroyAll_fds
  show (b :: s.fds).Perm (s.procs.map _ ++ b :: base)
  exact (h.cons b).trans List.perm_middle.symm

example : run three [(1, .parent 4 6 103), (0, .child 3 6)] = .child ⟨[], [6, 1], [(4, 103), (5, 102)], []⟩ 6 := by decide

/-! ## A process that cannot be started leaves nothing behind (C285) -/

def forked : Fk → Nat
  | .parent _ _ _ => 1
  | _ => 0

def unforked : Fk → Nat
  | .noFork _ _ => 1
  | _ => 0

/-- The claim does not hold: whenever `fork` fails both sockets stay open, and nothing knows them. -/
theorem leak_refuted (s : St) (base : List Nat) (x y : Bool) (args : Option Nat) (ev : Bool) (a b : Nat) (h : Fresh s.fds (.noFork a b))
    (hf : s.fds.Perm (s.procs.map (·.fd) ++ base)) :
    ∃ t, core s x y args ev (.noFork a b) = .fail t ∧ a ∈ t.fds ∧ b ∈ t.fds ∧ a ∉ s.fds ∧ b ∉ s.fds ∧ ∀ p ∈ t.procs, p.fd ≠ a ∧ p.fd ≠ b := by
  refine ⟨_, rfl, by simp, by simp, h.1, h.2.1, ?_⟩
  intro p hp
  have : p.fd ∈ s.fds := hf.mem_iff.2 (List.mem_append_left _ (List.mem_map_of_mem hp))
  exact ⟨fun e => h.1 (e ▸ this), fun e => h.2.1 (e ▸ this)⟩

/-- The descriptors of a master that started its workers: one for each that runs, two for each that
`fork` refused. -/
theorem leak_count : ∀ (l : List Fk) (s t : St), startWorkers s l = .master t →
    t.fds.length = s.fds.length + (l.map forked).sum + 2 * (l.map unforked).sum ∧ t.procs.length = s.procs.length + (l.map forked).sum
  | [], s, t, h => by injection h with h; subst h; simp
  | o :: r, s, t, h => by
    cases o with
    | noPair =>
      obtain ⟨a, b⟩ := leak_count r _ t h
      simp [forked, unforked] at a b ⊢; omega
    | noFork x y =>
      obtain ⟨a, b⟩ := leak_count r _ t h
      simp [forked, unforked] at a b ⊢; omega
    | dies x y => cases h
    | child x y => cases h
    | parent x y pid =>
      obtain ⟨a, b⟩ := leak_count r _ t h
      simp [forked, unforked] at a b ⊢; omega

/-- If there are no sockets, nothing is left. -/
theorem no_pair_partial (s : St) (x y : Bool) (args : Option Nat) (ev : Bool) : core s x y args ev .noPair = .fail s := rfl

example : startWorkers ⟨[], [1], [], []⟩ [.parent 3 4 100, .noFork 4 5, .noPair, .parent 6 7 101] =
    .master ⟨[⟨3, 100, false, true, none⟩, ⟨6, 101, false, true, none⟩], [6, 4, 5, 3, 1], [], []⟩ := by decide

/-! ## Starting a process returns (C286) -/

/-- The loop never ends if no read gives a byte. -/
theorem wait_forever (r : Nat → Int) (h : ∀ i, r i ≤ 0) : ∀ fuel i, wait r fuel i = none
  | 0, _ => rfl
  | fuel + 1, i => by rw [wait, if_pos (h i)]; exact wait_forever r h fuel (i + 1)

/-- It ends with the first read that gives one. -/
theorem wait_ends (r : Nat → Int) (k : Nat) (hk : 0 < r k) : ∀ d i, i + d = k → (∀ j, j < k → r j ≤ 0) → ∀ fuel, d < fuel → wait r fuel i = some k
  | 0, i, e, _, fuel, hf => by
    obtain ⟨f, rfl⟩ : ∃ f, fuel = f + 1 := ⟨fuel - 1, by omega⟩
    have : i = k := by omega
    subst this
    rw [wait, if_neg (by omega)]
  | d + 1, i, e, hj, fuel, hf => by
    obtain ⟨f, rfl⟩ : ∃ f, fuel = f + 1 := ⟨fuel - 1, by omega⟩
    rw [wait, if_pos (hj i (by omega))]
    exact wait_ends r k hk d (i + 1) (by omega) hj f (by omega)

theorem ends_le (k i : Nat) : readAt (.ends k) i ≤ 0 := by
  simp only [readAt]; split <;> decide

theorem writes_wait (k fuel : Nat) (h : k < fuel) : wait (readAt (.writes k)) fuel 0 = some k := by
  apply wait_ends _ k (by simp [readAt]) k 0 (by omega) ?_ fuel h
  intro j hj
  simp [readAt, hj]

theorem answer_writes (a b pid k : Nat) : answer a b pid (.writes k) = .parent a b pid := by
  simp [answer, writes_wait k (k + 1) (by omega)]

theorem answer_ends (a b pid k : Nat) : answer a b pid (.ends k) = .dies a b := by
  simp [answer, wait_forever _ (ends_le k)]

/-- `dies` stands for a loop that goes on however many calls are allowed. -/
theorem answer_iff (a b pid : Nat) (l : Life) : answer a b pid l = .dies a b ↔ ∀ fuel, wait (readAt l) fuel 0 = none := by
  cases l with
  | writes k =>
    rw [answer_writes]
    constructor
    · intro h; cases h
    · intro h; have := h (k + 1); rw [writes_wait k _ (by omega)] at this; cases this
  | ends k =>
    rw [answer_ends]
    exact ⟨fun _ fuel => wait_forever _ (ends_le k) fuel 0, fun _ => rfl⟩

/-- The claim does not hold: if the child ends before it has written its byte, the master reads the
end of the socket for ever: in no number of calls does the loop end. -/
theorem start_hangs (s : St) (x y : Bool) (args : Option Nat) (ev : Bool) (a b pid k : Nat) :
    core s x y args ev (answer a b pid (.ends k)) = .hangs ∧ ∀ fuel, wait (readAt (.ends k)) fuel 0 = none :=
  ⟨by rw [answer_ends]; rfl, fun fuel => wait_forever _ (ends_le k) fuel 0⟩

/-- So does a master that replaces a supervised process, whatever else it has to do. -/
theorem restart_hangs (s : St) (p : Proc) (a b pid k : Nat) (hs : p.sup = true) : closed s p (answer a b pid (.ends k)) = .hangs := by
  simp [closed, hs, core, answer_ends]

/-- It returns whenever the child gets to its byte, after any number of interrupted reads. -/
theorem start_returns_partial (s : St) (x y : Bool) (args : Option Nat) (ev : Bool) (a b pid k : Nat) :
    ∃ t, core s x y args ev (answer a b pid (.writes k)) = .master t ∧ (⟨a, pid, x, y, args⟩ : Proc) ∈ t.procs := by
  rw [answer_writes]
  exact ⟨_, rfl, by simp⟩

example : core ⟨[], [1], [], []⟩ false true none true (answer 3 4 100 (.writes 2)) = .master ⟨[⟨3, 100, false, true, none⟩], [3, 1], [(3, 100)], []⟩ := by decide
example : closed three ⟨4, 101, false, true, none⟩ (answer 4 6 103 (.ends 1)) = .hangs := by decide

/-! ## What the master begins with -/

def KernelStart (s : St) : List Fk → Prop
  | [] => True
  | o :: r => Fresh s.fds o ∧ ∀ t, (core s false true none false o = .master t ∨ core s false true none false o = .fail t) → KernelStart t r

structure Booting (s : St) (base : List Nat) : Prop where
  fds : s.fds.Perm (s.procs.map (·.fd) ++ base)
  nodup : s.fds.Nodup
  reg : s.reg = []

theorem core_booting {s t : St} {base : List Nat} (h : Booting s base) {x y : Bool} {args : Option Nat} {o : Fk} (hf : Fresh s.fds o)
    (hc : core s x y args false o = .master t ∨ core s x y args false o = .fail t) : ∃ base', Booting t base' := by
  cases o with
  | noPair =>
    rcases hc with hc | hc
    · cases hc
    · injection hc with hc; subst hc; exact ⟨base, h⟩
  | noFork a b =>
    rcases hc with hc | hc
    · cases hc
    · injection hc with hc; subst hc
      refine ⟨a :: b :: base, ?_, ?_, h.reg⟩
      · show (a :: b :: s.fds).Perm (s.procs.map _ ++ a :: b :: base)
        refine (((h.fds.cons b).trans List.perm_middle.symm).cons a).trans List.perm_middle.symm
      · show (a :: b :: s.fds).Nodup
        have hn := h.nodup
        obtain ⟨h1, h2, h3⟩ := hf
        simp [List.nodup_cons, h1, h2, h3, hn]
  | dies a b => rcases hc with hc | hc <;> cases hc
  | child a b => rcases hc with hc | hc <;> cases hc
  | parent a b pid =>
    rcases hc with hc | hc
    · injection hc with hc; subst hc
      refine ⟨base, ?_, ?_, h.reg⟩
      · show (a :: s.fds).Perm ((s.procs ++ [_]).map _ ++ base)
        rw [List.map_append, List.append_assoc]
        refine (h.fds.cons a).trans ?_
        simp only [List.map_cons, List.map_nil, List.cons_append, List.nil_append]
        exact List.perm_middle.symm
      · exact List.nodup_cons.2 ⟨hf.1, h.nodup⟩
    · cases hc

theorem workers_booting : ∀ (l : List Fk) (s t : St) (base : List Nat), Booting s base → KernelStart s l → startWorkers s l = .master t → ∃ base', Booting t base'
  | [], s, t, base, h, _, hr => by injection hr with hr; subst hr; exact ⟨base, h⟩
  | o :: r, s, t, base, h, hk, hr => by
    simp only [startWorkers] at hr
    cases hc : core s false true none false o with
    | fail u =>
      rw [hc] at hr
      obtain ⟨b, hb⟩ := core_booting h hk.1 (Or.inr hc)
      exact workers_booting r u t b hb (hk.2 u (Or.inr hc)) hr
    | master u =>
      rw [hc] at hr
      obtain ⟨b, hb⟩ := core_booting h hk.1 (Or.inl hc)
      exact workers_booting r u t b hb (hk.2 u (Or.inl hc)) hr
    | abort => rw [hc] at hr; cases hr
    | hangs => rw [hc] at hr; cases hr
    | child u m => rw [hc] at hr; cases hr

def KernelExecs (s : St) : List (Bool × Nat × Fk) → Prop
  | [] => True
  | (sup, a, o) :: r => Fresh s.fds o ∧ ∀ t, (core { s with heap := a :: s.heap } true sup (some a) false o = .master t ∨
      core { s with heap := a :: s.heap } true sup (some a) false o = .fail t) → KernelExecs t r

theorem execs_booting : ∀ (l : List (Bool × Nat × Fk)) (s t : St) (base : List Nat), Booting s base → KernelExecs s l → startExecs s l = .master t → ∃ base', Booting t base'
  | [], s, t, base, h, _, hr => by injection hr with hr; subst hr; exact ⟨base, h⟩
  | (sup, a, o) :: r, s, t, base, h, hk, hr => by
    simp only [startExecs] at hr
    have h' : Booting { s with heap := a :: s.heap } base := ⟨h.fds, h.nodup, h.reg⟩
    cases hc : core { s with heap := a :: s.heap } true sup (some a) false o with
    | fail u =>
      rw [hc] at hr
      obtain ⟨b, hb⟩ := core_booting h' hk.1 (Or.inr hc)
      exact execs_booting r u t b hb (hk.2 u (Or.inr hc)) hr
    | master u =>
      rw [hc] at hr
      obtain ⟨b, hb⟩ := core_booting h' hk.1 (Or.inl hc)
      exact execs_booting r u t b hb (hk.2 u (Or.inl hc)) hr
    | abort => rw [hc] at hr; cases hr
    | hangs => rw [hc] at hr; cases hr
    | child u m => rw [hc] at hr; cases hr

/-- A master that has started its workers and programs and set its events is in order, and so
(`supervised_kept`, `noticed`, `child_alone`) it stays. -/
theorem started (l : List Fk) (e : List (Bool × Nat × Fk)) (fds : List Nat) (s t : St) (hn : fds.Nodup) (hk : KernelStart ⟨[], fds, [], []⟩ l)
    (hr : startWorkers ⟨[], fds, [], []⟩ l = .master s) (hke : KernelExecs s e) (he : startExecs s e = .master t) : ∃ base, Master (setEvents t) base := by
  obtain ⟨b, hb⟩ := workers_booting l ⟨[], fds, [], []⟩ s fds ⟨by simp, hn, rfl⟩ hk hr
  obtain ⟨b, hb⟩ := execs_booting e s t b hb hke he
  refine ⟨b, hb.fds, hb.nodup, ?_⟩
  show (t.procs.map (fun p => (p.fd, p.pid)) ++ t.reg).Perm (t.procs.map (fun p => (p.fd, p.pid)))
  rw [hb.reg, List.append_nil]

/-- The programs of a configuration that all start are all there, supervised or not as written. -/
theorem execs_listed : ∀ (l : List (Bool × Nat × Fk)) (s t : St), (∀ x ∈ l, ∃ a b pid, x.2.2 = .parent a b pid) → startExecs s l = .master t →
    t.procs.map (fun p => (p.exec, p.sup, p.args)) = s.procs.map (fun p => (p.exec, p.sup, p.args)) ++ l.map (fun x => (true, x.1, some x.2.1))
  | [], s, t, _, hr => by injection hr with hr; subst hr; simp
  | (sup, a, o) :: r, s, t, h, hr => by
    obtain ⟨x, y, pid, e⟩ := h _ List.mem_cons_self
    dsimp only at e
    subst e
    have := execs_listed r _ t (fun x hx => h x (List.mem_cons_of_mem _ hx)) hr
    rw [this]
    simp

example : startExecs ⟨[⟨3, 100, false, true, none⟩], [3], [], []⟩ [(true, 9, .parent 4 5 101), (false, 8, .parent 5 6 102)] =
    .master ⟨[⟨3, 100, false, true, none⟩, ⟨4, 101, true, true, some 9⟩, ⟨5, 102, true, false, some 8⟩], [5, 4, 3], [], [8, 9]⟩ := by decide

end Verif.Supervise
