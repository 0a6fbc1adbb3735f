import Verif.Boot
import Mathlib.Data.Nat.Digits.Lemmas
/-!
# Starting Melon
-/
namespace Verif.Boot

theorem takeWhile_all {p : Nat → Bool} {l : List Nat} (h : ∀ x ∈ l, p x = true) : l.takeWhile p = l := by
  induction l with
  | nil => rfl
  | cons x l ih => rw [List.takeWhile_cons, if_pos (h x (by simp)), ih fun y hy => h y (by simp [hy])]

/-! ## The user -/

/-- The process has given up all other users: all its numbers are these, and no call gets others. -/
structure Is (c : Cred) (u g : Nat) : Prop where
  ruid : c.ruid = u
  euid : c.euid = u
  suid : c.suid = u
  rgid : c.rgid = g
  egid : c.egid = g
  sgid : c.sgid = g

/-- The process may become root. -/
def Regains (c : Cred) : Prop := (seteuid c 0).1 = true

/-- A process started by root. -/
def root (groups : List Nat) : Cred := ⟨0, 0, 0, 0, 0, 0, groups⟩

/-- **Partial.** Started by root with a user that is not root: if setuid does not fail, the process has the numbers of this user and
cannot become root again. -/
theorem user_partial {users : List Nat → Option (Nat × Nat)} {s : List Nat} {rest : List Arg} {u g : Nat} (hs : s.length ≤ 255) (h0 : 0 ∉ s) (hu : users s = some (u, g)) (hr : u ≠ 0)
    (groups : List Nat) : (setId users false (some (.str s :: rest)) (root groups)).1 = true ∧ Is (setId users false (some (.str s :: rest)) (root groups)).2 u g ∧
      ¬ Regains (setId users false (some (.str s :: rest)) (root groups)).2 := by
  have hc : cname s = s := by
    rw [cname, List.take_of_length_le hs]
    apply takeWhile_all
    intro x hx
    simp only [decide_eq_true_eq]
    exact fun h => h0 (h ▸ hx)
  have hr' : (0 : Nat) ≠ u := fun h => hr h.symm
  have e : setId users false (some (.str s :: rest)) (root groups) = (true, ⟨u, u, u, g, g, g, groups⟩) := by
    simp [setId, target, hc, hu, root, hr, setgid, setuid, setegid, seteuid]
  rw [e]
  refine ⟨rfl, ⟨rfl, rfl, rfl, rfl, rfl, rfl⟩, ?_⟩
  simp [Regains, seteuid, hr, hr']

/-- The process stays in all groups of the one who started it, whatever the configuration says. -/
theorem groups_refuted (users : List Nat → Option (Nat × Nat)) (again : Bool) (cmd : Option (List Arg)) (c : Cred) : (setId users again cmd c).2.groups = c.groups := by
  have h1 : ∀ c g, (setgid c g).2.groups = c.groups := by intro c g; rw [setgid]; split_ifs <;> rfl
  have h2 : ∀ c g, (setuid again c g).2.groups = c.groups := by intro c g; rw [setuid]; split_ifs <;> rfl
  have h3 : ∀ c g, (setegid c g).2.groups = c.groups := by intro c g; rw [setegid]; split_ifs <;> rfl
  have h4 : ∀ c g, (seteuid c g).2.groups = c.groups := by intro c g; rw [seteuid]; split_ifs <;> rfl
  rw [setId]
  cases target users cmd c with
  | none => rfl
  | some p =>
    dsimp only
    split_ifs
    · exact h1 c p.2
    · rw [h4, h3, h2, h1]

/-- If setuid fails for root, the start succeeds all the same and the process may become root again: for all users. -/
theorem setuid_refuted {users : List Nat → Option (Nat × Nat)} {s : List Nat} {rest : List Arg} {u g : Nat} (hu : users (cname s) = some (u, g)) (groups : List Nat) :
    (setId users true (some (.str s :: rest)) (root groups)).1 = true ∧ Regains (setId users true (some (.str s :: rest)) (root groups)).2 := by
  by_cases hr : u = 0
  · subst hr
    simp [setId, target, hu, root, setgid, setuid, setegid, seteuid, Regains]
  · simp [setId, target, hu, root, hr, setgid, setuid, setegid, seteuid, Regains]

/-- Started by somebody else than root, with a user of the same group: the start succeeds, and the process runs as the one who started it. -/
theorem other_refuted {users : List Nat → Option (Nat × Nat)} {s : List Nat} {rest : List Arg} {u g a : Nat} (hu : users (cname s) = some (u, g)) (ha : a ≠ 0) (hua : u ≠ a)
    (again : Bool) (groups : List Nat) : setId users again (some (.str s :: rest)) ⟨a, a, a, g, g, g, groups⟩ = (true, ⟨a, a, a, g, g, g, groups⟩) := by
  simp [setId, target, hu, hua, ha, setgid, setuid, setegid, seteuid]

/-- A name that is too long is cut: the user whose name is the first 255 bytes is taken. -/
theorem name_refuted {users : List Nat → Option (Nat × Nat)} {s : List Nat} (hs : s.length = 255) (x : List Nat) (rest : List Arg) (again : Bool) (c : Cred) :
    setId users again (some (.str (s ++ x) :: rest)) c = setId users again (some (.str s :: rest)) c := by
  have : cname (s ++ x) = cname s := by
    rw [cname, cname, List.take_append_of_le_length (by omega)]
  simp [setId, target, this]

/-- Without a user, and with a name that is not known, nothing changes. -/
theorem unknown {users : List Nat → Option (Nat × Nat)} {again : Bool} {c : Cred} {s : List Nat} {rest : List Arg} (hu : users (cname s) = none) :
    setId users again (some (.str s :: rest)) c = (false, c) := by
  simp [setId, target, hu]
theorem nobody (users : List Nat → Option (Nat × Nat)) (u g : Nat) (groups : List Nat) :
    setId users false none ⟨u, u, u, g, g, g, groups⟩ = (true, ⟨u, u, u, g, g, g, groups⟩) := by
  by_cases hu : u = 0 <;> simp [setId, target, setgid, setuid, setegid, seteuid, hu]

/-! ## Limits -/

/-- **Partial.** A limit that is not negative and fits is set as it is; unlimited is no limit; without the command nothing is set; everything else
is refused. -/
theorem limit_partial (set : Nat → Bool) : limit none set = some (true, none) ∧
    (∀ (n : Nat) rest, n < 2 ^ 64 → set n = true → limit (some (.int n :: rest)) set = some (true, some n)) ∧
    (∀ rest, set infinity = true → limit (some (.str unlimited :: rest)) set = some (true, some infinity)) ∧
    (∀ s rest, s ≠ unlimited → limit (some (.str s :: rest)) set = some (false, none)) ∧
    ∀ rest, limit (some (.other :: rest)) set = some (false, none) := by
  refine ⟨rfl, ?_, ?_, ?_, fun _ => rfl⟩
  · intro n rest hn hs
    have : ((n : Int) % 2 ^ 64).toNat = n := by omega
    simp only [limit, List.head?_cons, this, hs, if_true]
  · intro rest hs
    simp [limit, hs]
  · intro s rest hs
    simp [limit, hs]

/-- A command without an argument makes the start follow a NULL pointer; a negative number is a huge limit, -1 is unlimited. -/
theorem limit_refuted (set : Nat → Bool) : limit (some []) set = none ∧
    ∀ (n : Nat) rest, 0 < n → n ≤ 2 ^ 64 → set (2 ^ 64 - n) = true → limit (some (.int (-n) :: rest)) set = some (true, some (2 ^ 64 - n)) := by
  refine ⟨rfl, fun n rest h0 hn hs => ?_⟩
  have : ((-(n : Int)) % 2 ^ 64).toNat = 2 ^ 64 - n := by omega
  simp only [limit, List.head?_cons, this, hs, if_true]

/-! ## The file melon.pid -/

theorem number_map (l : List Nat) (hl : ∀ d ∈ l, d < 10) : number (l.map (· + 48)) = Nat.ofDigits 10 l.reverse := by
  have h1 : (l.map (· + 48)).takeWhile isDigit = l.map (· + 48) := by
    apply takeWhile_all
    intro x hx
    obtain ⟨d, hd, rfl⟩ := List.mem_map.1 hx
    have := hl d hd
    simp [isDigit]
    omega
  rw [number, h1, List.foldl_map]
  clear h1 hl
  induction l using List.reverseRecOn with
  | nil => rfl
  | append_singleton l d ih =>
    rw [List.foldl_append, ih, List.reverse_append]
    simp [Nat.ofDigits_cons]
    ring

/-- The number in the file is read again. -/
theorem atoi_print {n : Nat} (h0 : 0 < n) (h1 : n < 2 ^ 31) : atoi (print n) = some (n : Int) := by
  have hd : ∀ d ∈ (Nat.digits 10 n).reverse, d < 10 := fun d hd => Nat.digits_lt_base (by omega) (List.mem_reverse.1 hd)
  have hn : number (print n) = n := by
    rw [print, if_neg (by omega), number_map _ hd, List.reverse_reverse, Nat.ofDigits_digits]
  obtain ⟨d, l, hl⟩ : ∃ d l, print n = d :: l ∧ 48 ≤ d ∧ d ≤ 57 := by
    rw [print, if_neg (by omega)]
    cases hr : (Nat.digits 10 n).reverse with
    | nil =>
      have := Nat.digits_eq_nil_iff_eq_zero.1 (List.reverse_eq_nil_iff.1 hr)
      omega
    | cons d l =>
      rw [hr] at hd
      have := hd d (by simp)
      exact ⟨d + 48, l.map (· + 48), rfl, by omega, by omega⟩
  obtain ⟨hp, h2, h3⟩ := hl
  have hb : isBlank d = false := by
    simp [isBlank]; omega
  rw [atoi, hp, List.dropWhile_cons_of_neg (by simp [hb])]
  have hm : signed (d :: l) = (number (d :: l) : Int) := by rw [signed, if_neg (by omega), if_neg (by omega)]
  try dsimp only
  rw [hm, ← hp, hn, if_pos (by constructor <;> omega)]

/-- **Partial.** If it does not run as a daemon, the process that was started is the one that the boot parameter for stopping kills. -/
theorem stop_partial {pid : Nat} (h0 : 0 < pid) (h1 : pid < 2 ^ 31) (child : Nat) :
    bootStop (some (daemon pid false child).file) = some (.kill ((daemon pid false child).pid : Int)) := by
  have hlen : (print pid).length ≤ 1023 ∧ (print pid).length ≠ 0 := by
    have h2 : (Nat.digits 10 pid).length ≤ 10 := by
      have := (Nat.digits_length_le_iff (b := 10) (k := 10) (by omega) pid).2 (by omega)
      exact this
    rw [print, if_neg (by omega), List.length_map, List.length_reverse]
    refine ⟨by omega, fun h => ?_⟩
    have := Nat.digits_eq_nil_iff_eq_zero.1 (List.eq_nil_of_length_eq_zero h)
    omega
  rw [bootStop, stop, daemon, if_pos rfl]
  try dsimp only
  rw [List.take_of_length_le hlen.1, if_neg hlen.2, atoi_print h0 h1]
  rfl

/-- A daemon is never stopped: the file has the number of the process that ended when the daemon was started. -/
theorem stop_refuted {pid child : Nat} (h0 : 0 < pid) (h1 : pid < 2 ^ 31) (hc : child ≠ pid) :
    ∃ n, bootStop (some (daemon pid true child).file) = some (.kill (n : Nat)) ∧ n ∈ (daemon pid true child).ended ∧ n ≠ (daemon pid true child).pid := by
  refine ⟨pid, ?_, by simp [daemon], by simp [daemon]; exact fun h => hc h.symm⟩
  exact stop_partial h0 h1 child

/-- The boot parameter for reloading never reaches a process, whatever is in the file. -/
theorem reload_refuted (file : Option (List Nat)) : bootReload file = some .exit1 := rfl

/-- With a file that does not begin with a number the signal goes to the group of the one who calls. -/
theorem garbage_refuted {c : Nat} {r : List Nat} (hb : isBlank c = false) (hd : isDigit c = false) (h1 : c ≠ 45) (h2 : c ≠ 43) : bootStop (some (c :: r)) = some (.kill 0) := by
  have ht : (c :: r).take 1023 = c :: r.take 1022 := rfl
  rw [bootStop, stop]
  try dsimp only
  rw [ht, if_neg (by simp), atoi, List.dropWhile_cons_of_neg (by simp [hb])]
  have hm : signed (c :: r.take 1022) = 0 := by
    rw [signed, if_neg h1, if_neg h2]
    simp [number, hd]
  try dsimp only
  rw [hm]
  rfl

/-! ## Examples -/

example : print 1234 = [49, 50, 51, 52] ∧ atoi [49, 50, 51, 52] = some 1234 ∧ atoi [32, 45, 55, 120] = some (-7) := by
  refine ⟨by simp [print], by decide, by decide⟩
example : stop (some [52, 50, 10]) = some (.kill 42) ∧ stop none = some .exit1 ∧ stop (some []) = some .exit1 := by decide
example : setId (fun s => if s = [97] then some (7, 8) else none) false (some [.str [97]]) (root [0, 5]) = (true, ⟨7, 7, 7, 8, 8, 8, [0, 5]⟩) ∧
    setId (fun s => if s = [97] then some (7, 8) else none) true (some [.str [97]]) (root [0, 5]) = (true, ⟨0, 7, 0, 8, 8, 8, [0, 5]⟩) ∧
    setId (fun s => if s = [97] then some (7, 8) else none) true (some [.int 3]) (root [0, 5]) = (false, root [0, 5]) := by decide
example : limit (some [.int (-1)]) (fun _ => true) = some (true, some infinity) ∧ limit (some [.int 4096, .other]) (fun n => n < 5000) = some (true, some 4096) ∧
    limit (some [.int 6000]) (fun n => n < 5000) = some (false, none) := by decide

end Verif.Boot
