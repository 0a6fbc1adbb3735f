import Verif.Notice
import Mathlib.Tactic.Tauto
/-!
# What is sent at the start and at the end of a program
-/
namespace Verif.Notice

/-- The request: the target, the host and a name, and an empty line. -/
def request (suffix : List Nat) : List Nat := get ++ suffix ++ rest

theorem copy_ok (bs : List Nat) : ∀ (a c : List Nat), bs.length ≤ c.length → copy (a ++ c) a.length bs = (a ++ bs ++ c.drop bs.length, a.length + bs.length) := by
  induction bs with
  | nil => intro a c _; simp [copy]
  | cons b bs ih =>
    intro a c h
    cases c with
    | nil => simp at h
    | cons x c =>
      rw [copy, if_pos (by simp)]
      have h1 : (a ++ x :: c).set a.length b = (a ++ [b]) ++ c := by simp
      have h2 := ih (a ++ [b]) c (by simpa using h)
      rw [List.length_append, List.length_singleton] at h2
      rw [h1, h2]
      simp
      omega

theorem copy_inside (bs : List Nat) : ∀ (buf : List Nat) (i : Nat), i ≤ buf.length →
    (copy buf i bs).2 ≤ buf.length ∧ (copy buf i bs).1.length = buf.length := by
  induction bs with
  | nil => intro buf i h; exact ⟨h, rfl⟩
  | cons b bs ih =>
    intro buf i h
    rw [copy]
    split
    · have := ih (buf.set i b) (i + 1) (by rw [List.length_set]; omega)
      rwa [List.length_set] at this
    · exact ⟨h, rfl⟩

/-- No byte is written behind the buffer of 512 bytes, for every suffix: the position behind the last byte that is
written by each of the two loops is at most 512. -/
theorem inside (suffix : List Nat) :
    let r := copy (get ++ List.replicate 506 0) 6 suffix
    r.2 ≤ 512 ∧ (copy r.1 r.2 rest).2 ≤ 512 ∧ (message suffix).length = 512 := by
  have hl : (get ++ List.replicate 506 0).length = 512 := by
    rw [List.length_append, List.length_replicate]; rfl
  have h1 := copy_inside suffix (get ++ List.replicate 506 0) 6 (by rw [hl]; omega)
  rw [hl] at h1
  have h2 := copy_inside rest _ _ (le_of_le_of_eq h1.1 h1.2.symm)
  rw [h1.2] at h2
  exact ⟨h1.1, h2.1, h2.2⟩

/-- The buffer has the request and zeros behind it, for every suffix that fits. -/
theorem message_ok (suffix : List Nat) (h : suffix.length ≤ 447) : message suffix = request suffix ++ List.replicate (447 - suffix.length) 0 := by
  have h1 := copy_ok suffix get (List.replicate 506 0) (by rw [List.length_replicate]; omega)
  have hg : get.length = 6 := rfl
  have hr : rest.length = 59 := rfl
  rw [hg] at h1
  have h2 := copy_ok rest (get ++ suffix) ((List.replicate 506 0).drop suffix.length) (by rw [hr, List.length_drop, List.length_replicate]; omega)
  rw [List.length_append, hg] at h2
  simp only [message, h1, h2, request, hr]
  rw [List.drop_drop, List.drop_replicate]
  congr 2
  omega

/-- C329: when the address is found and there is a socket, the request is sent at the start and at the end, with zeros
behind it to 511 bytes; the list of addresses is freed at the end, once. -/
theorem program_partial (e1 e2 : Env) (h1 : e1.gai = true) (h2 : e1.socket = true) (h3 : e2.socket = true) :
    program e1 e2 = some (request start ++ List.replicate 441 0, request stop ++ List.replicate 442 0, .freed) := by
  have m1 : (message start).take 511 = request start ++ List.replicate 441 0 := by
    rw [message_ok start (by decide)]; decide +kernel
  have m2 : (message stop).take 511 = request stop ++ List.replicate 442 0 := by
    rw [message_ok stop (by decide)]; decide +kernel
  have hs : start ≠ stop := by decide
  have n1 : notice e1 start .null = some (request start ++ List.replicate 441 0, .live) := by
    rw [notice, if_pos rfl, h1, if_neg (by simp), talk, h2, if_neg (by simp), m1, if_neg hs]
  have n2 : notice e2 stop .live = some (request stop ++ List.replicate 442 0, .freed) := by
    rw [notice, if_neg (by simp), talk, h3, if_neg (by simp), m2, if_pos rfl]
  rw [program, n1]
  simp only [Option.bind_eq_bind, Option.bind_some, n2]

/-- The memory of the list of addresses is used right, except exactly when there was no socket at the start though the
address was found. -/
theorem memory_iff (e1 e2 : Env) : program e1 e2 = none ↔ e1.gai = true ∧ e1.socket = false := by
  have hs : start ≠ stop := by decide
  obtain ⟨g1, s1⟩ := e1
  obtain ⟨g2, s2⟩ := e2
  cases g1 <;> cases s1 <;> cases g2 <;> cases s2 <;> simp [program, notice, talk, hs]

/-- A program that could not make a socket at its start uses freed memory at its end. -/
theorem socket_refuted (e1 e2 : Env) (h1 : e1.gai = true) (h2 : e1.socket = false) : program e1 e2 = none := (memory_iff e1 e2).2 ⟨h1, h2⟩

/-- What is sent is not the request alone: zeros follow it. -/
theorem zeros_refuted (e : Env) (suffix : List Nat) (h1 : e.gai = true) (h2 : e.socket = true) (hl : suffix.length < 446) :
    ∃ b h, notice e suffix .null = some (b, h) ∧ b ≠ request suffix ∧ request suffix <+: b := by
  refine ⟨(message suffix).take 511, if suffix = stop then .freed else .live, by simp [notice, talk, h1, h2], ?_, ?_⟩
  · intro hc
    have := congrArg List.length hc
    rw [message_ok suffix (by omega)] at this
    have hr : (request suffix).length = 65 + suffix.length := by simp only [request, List.length_append]; have : get.length = 6 := rfl; have : rest.length = 59 := rfl; omega
    rw [List.length_take, List.length_append, List.length_replicate, hr] at this
    omega
  · rw [message_ok suffix (by omega)]
    have hr : (request suffix).length ≤ 511 := by simp only [request, List.length_append]; have : get.length = 6 := rfl; have : rest.length = 59 := rfl; omega
    exact List.prefix_take_iff.2 ⟨List.prefix_append _ _, hr⟩

/-! ## Examples -/

-- GET /?stop HTTP/1.1
example : (message stop).take 21 = [71, 69, 84, 32, 47, 63, 115, 116, 111, 112, 32, 72, 84, 84, 80, 47, 49, 46, 49, 13, 10] := by decide +kernel

example : program ⟨false, true⟩ ⟨false, true⟩ = some ([], [], .null) := by decide

end Verif.Notice
