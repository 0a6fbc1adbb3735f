import Verif.SearchPath

/-!
# Properties of the search for files
-/
namespace Verif.SearchPath

/-! ### Spec -/

/-- A name of a directory, as it may stand in the variable. -/
def Clean (d : List Nat) : Prop := ∀ b ∈ d, b ≠ 59 ∧ b ≠ 0

/-- The value `d1;d2;…;last` of the variable. -/
def enc : List (List Nat) → List Nat → List Nat
  | [], last => last
  | d :: ds, last => d ++ 59 :: enc ds last

/-- `d/p`. -/
def inDir (d p : List Nat) : List Nat := d ++ [47] ++ p

/-- The file that is meant: the one in the first directory that has it; otherwise the last directory
is tried, or if the value ends with a semicolon the library's own directory. -/
def meant (ex : List Nat → Bool) (lib : List Nat) (ds : List (List Nat)) (last p : List Nat) : List Nat :=
  match ds.find? (fun d => ex (inDir d p)) with
  | some d => inDir d p
  | none => if last = [] then inDir lib p else inDir last p

/-! ### Proofs -/

theorem cstr_self : ∀ (l : List Nat), (∀ b ∈ l, b ≠ 0) → cstr l = l
  | [], _ => rfl
  | b :: l, h => by
    have e : (b != 0) = true := by simp [h b (List.mem_cons_self ..)]
    have := cstr_self l (fun x hx => h x (List.mem_cons_of_mem _ hx))
    unfold cstr at this ⊢
    rw [List.takeWhile_cons, if_pos e, this]

theorem inDir_eq (d p : List Nat) : d ++ 47 :: p = inDir d p := by simp [inDir]

theorem join_ok {d p : List Nat} (h : (inDir d p).length ≤ 1022) : join d p = some (inDir d p) := by
  unfold join print
  rw [inDir_eq, if_pos (by omega), List.take_of_length_le h]

theorem takeWhile_clean {d : List Nat} (h : Clean d) (r : List Nat) (hr : r = [] ∨ ∃ x t, r = x :: t ∧ (x = 59 ∨ x = 0)) :
    (d ++ r).takeWhile (fun b => b != 59 && b != 0) = d ∧ (d ++ r).dropWhile (fun b => b != 59 && b != 0) = r := by
  induction d with
  | nil =>
    rcases hr with rfl | ⟨x, t, rfl, rfl | rfl⟩ <;> exact ⟨rfl, rfl⟩
  | cons b d ih =>
    obtain ⟨h1, h2⟩ := h b (List.mem_cons_self ..)
    obtain ⟨i1, i2⟩ := ih (fun x hx => h x (List.mem_cons_of_mem _ hx))
    have : (b != 59 && b != 0) = true := by simp [h1, h2]
    simp [this, i1, i2]

theorem cstr_clean {d : List Nat} (h : Clean d) (r : List Nat) : cstr (d ++ 0 :: r) = d := by
  unfold cstr
  induction d with
  | nil => rfl
  | cons b d ih =>
    have : (b != 0) = true := by simp [(h b (List.mem_cons_self ..)).2]
    simp only [List.cons_append, List.takeWhile_cons, this, if_true]
    rw [ih (fun x hx => h x (List.mem_cons_of_mem _ hx))]

theorem walk_enc (ex : List Nat → Bool) (lib p : List Nat) (last : List Nat) (hl : Clean last) :
    ∀ (ds : List (List Nat)) (n : Nat) (tail : List Nat), (tail = [] ∨ ∃ t, tail = 0 :: t) → (∀ d ∈ ds, Clean d) → ds.length < n → (∀ d ∈ lib :: last :: ds, (inDir d p).length ≤ 1022) →
      (walk ex lib p n (enc ds last ++ tail)).2 = .open (meant ex lib ds last p) := by
  intro ds
  induction ds with
  | nil =>
    intro n tail ht _ hn hs
    obtain ⟨n, rfl⟩ : ∃ m, n = m + 1 := ⟨n - 1, by simp at hn; omega⟩
    have hr : tail = [] ∨ ∃ x t, tail = x :: t ∧ (x = 59 ∨ x = 0) := by
      rcases ht with rfl | ⟨t, rfl⟩
      · exact .inl rfl
      · exact .inr ⟨0, t, rfl, .inr rfl⟩
    obtain ⟨h1, h2⟩ := takeWhile_clean hl tail hr
    simp only [walk, enc, h1, h2, meant, List.find?_nil]
    have e : (if last = [] then openOr (join lib p) else openOr (join last p)) = Res.open (if last = [] then inDir lib p else inDir last p) := by
      split
      · rw [join_ok (hs lib (by simp))]; rfl
      · rw [join_ok (hs last (by simp))]; rfl
    rcases ht with rfl | ⟨t, rfl⟩ <;> exact e
  | cons d ds ih =>
    intro n tail ht hc hn hs
    obtain ⟨n, rfl⟩ : ∃ m, n = m + 1 := ⟨n - 1, by simp at hn; omega⟩
    obtain ⟨h1, h2⟩ := takeWhile_clean (hc d (List.mem_cons_self ..)) (59 :: (enc ds last ++ tail)) (.inr ⟨59, _, rfl, .inl rfl⟩)
    have e : enc (d :: ds) last ++ tail = d ++ 59 :: (enc ds last ++ tail) := by simp [enc]
    rw [e]
    simp only [walk, h1, h2, join_ok (hs d (by simp))]
    by_cases hx : ex (inDir d p) = true
    · simp [hx, meant]
    · simp only [hx, Bool.false_eq_true, if_false]
      rw [ih n tail ht (fun x hx => hc x (List.mem_cons_of_mem _ hx)) (by simp at hn; omega) (fun x hm => hs x (by simp at hm ⊢; rcases hm with h | h | h <;> simp [h]))]
      simp [meant, hx]

theorem enc_length (ds : List (List Nat)) (last : List Nat) : ds.length ≤ (enc ds last).length := by
  induction ds with
  | nil => simp
  | cons d ds ih => simp [enc]; omega

/-- The first lookup of a file that is not in the working directory opens the file that is meant. -/
theorem lookup_meant (ex : List Nat → Bool) (lib : List Nat) (ds : List (List Nat)) (last p : List Nat) (hl : Clean last) (hc : ∀ d ∈ ds, Clean d)
    (hs : ∀ d ∈ lib :: last :: ds, (inDir d p).length ≤ 1022) (hp : ex p = false) :
    (lookup ex lib (some (enc ds last)) p).2 = .open (meant ex lib ds last p) := by
  unfold lookup
  rw [if_neg (by simp [hp])]
  have := walk_enc ex lib p last hl ds ((enc ds last).length + 1) [] (.inl rfl) hc (by have := enc_length ds last; omega) hs
  simpa using this

/-- … and if one of the directories has it, that is the file in the first of those. -/
theorem meant_first (ex : List Nat → Bool) (lib : List Nat) (ds : List (List Nat)) (last p d : List Nat) (hn : last ≠ []) (hd : d ∈ ds ++ [last]) (hx : ex (inDir d p) = true) :
    ∃ l r e, ds ++ [last] = l ++ e :: r ∧ meant ex lib ds last p = inDir e p ∧ ex (inDir e p) = true ∧ ∀ a ∈ l, ex (inDir a p) = false := by
  unfold meant
  cases h : ds.find? (fun d => ex (inDir d p)) with
  | some e =>
    obtain ⟨h1, l, r, h2, h3⟩ := List.find?_eq_some_iff_append.1 h
    exact ⟨l, r ++ [last], e, by simp [h2], rfl, h1, fun a ha => by simpa using h3 a ha⟩
  | none =>
    have h0 := List.find?_eq_none.1 h
    have : d = last := by
      rcases List.mem_append.1 hd with m | m
      · exact absurd hx (h0 d m)
      · simpa using m
    subst this
    exact ⟨ds, [], d, rfl, by simp [hn], hx, fun a ha => by simpa using h0 a ha⟩

/-- A lookup that gets past the working directory cuts the variable off behind its first
directory. -/
theorem walk_cuts (ex : List Nat → Bool) (lib p : List Nat) (d r : List Nat) (hd : Clean d) (n : Nat) :
    ∃ t, (walk ex lib p (n + 1) (d ++ 59 :: r)).1 = d ++ 0 :: t := by
  obtain ⟨h1, h2⟩ := takeWhile_clean hd (59 :: r) (.inr ⟨59, r, rfl, .inl rfl⟩)
  simp only [walk, h1, h2]
  split
  · exact ⟨_, rfl⟩
  · split
    · exact ⟨_, rfl⟩
    · exact ⟨_, rfl⟩

theorem lookup_cuts (ex : List Nat → Bool) (lib p : List Nat) (d r : List Nat) (hd : Clean d) (hp : ex p = false) :
    ∃ t, (lookup ex lib (some (d ++ 59 :: r)) p).1 = some (d ++ 0 :: t) := by
  unfold lookup
  rw [if_neg (by simp [hp])]
  obtain ⟨t, h⟩ := walk_cuts ex lib p d r hd ((d ++ 59 :: r).length)
  exact ⟨t, by simp only [h]⟩

/-- So the value that getenv returns afterwards is the first directory alone. -/
theorem env_cut (ex : List Nat → Bool) (lib p : List Nat) (d r : List Nat) (hd : Clean d) (hp : ex p = false) :
    ((lookup ex lib (some (d ++ 59 :: r)) p).1.map cstr) = some d := by
  obtain ⟨t, h⟩ := lookup_cuts ex lib p d r hd hp
  rw [h]
  simp [cstr_clean hd]

/-- From the second lookup on only the first directory counts: a file of any other directory is
not found again, be it the same file. -/
theorem second_lookup (ex : List Nat → Bool) (lib p q : List Nat) (d r : List Nat) (hd : Clean d) (hn : d ≠ []) (hp : ex p = false) (hq : ex q = false) (hs : (inDir d q).length ≤ 1022) :
    (lookup ex lib (lookup ex lib (some (d ++ 59 :: r)) p).1 q).2 = .open (inDir d q) := by
  obtain ⟨t, h⟩ := lookup_cuts ex lib p d r hd hp
  rw [h]
  unfold lookup
  rw [if_neg (by simp [hq])]
  obtain ⟨h1, h2⟩ := takeWhile_clean hd (0 :: t) (.inr ⟨0, t, rfl, .inr rfl⟩)
  simp only [walk, h1, h2, join_ok hs, hn, if_false]
  rfl

/-- Lookups that end in the working directory, of absolute paths, or with at most one directory in
the variable leave it as it is. -/
theorem find_keeps_partial (ex : List Nat → Bool) (lib : List Nat) (env : Option (List Nat)) (p : List Nat)
    (h : p.head? = some 47 ∨ ex p = true ∨ ∀ l, env = some l → 59 ∉ cstr l) : (find ex lib env p).1 = env := by
  unfold find
  split
  · rfl
  · rename_i hp
    unfold lookup
    split
    · rfl
    · rename_i hx
      cases env with
      | none => rfl
      | some l =>
        have h := (h.resolve_left hp).resolve_left (by simpa using hx) l rfl
        simp only [walk]
        have : ∀ l : List Nat, 59 ∉ cstr l → ∀ r, l.dropWhile (fun b => b != 59 && b != 0) ≠ 59 :: r := by
          intro l
          induction l with
          | nil => intro _ r; simp
          | cons b l ih =>
            intro hb r
            unfold cstr at hb ih
            by_cases h0 : b = 0
            · subst h0; simp
            · have e : (b != 0) = true := by simp [h0]
              rw [List.takeWhile_cons, if_pos e] at hb
              have h59 : b ≠ 59 := fun e => hb (by simp [e])
              have e2 : (b != 59 && b != 0) = true := by simp [h0, h59]
              rw [List.dropWhile_cons, if_pos e2]
              exact ih (fun m => hb (List.mem_cons_of_mem _ m)) r
        split
        · rename_i r hr
          exact absurd hr (this l h r)
        · rfl

/-! #### Buffers -/

/-- A directory and a path of together 1023 bytes or more are written behind the end of the
buffer, whatever files there are. -/
theorem long_bad (ex : List Nat → Bool) (lib p : List Nat) (d r : List Nat) (hd : Clean d) (hp : ex p = false) (hl : 1023 ≤ d.length + p.length) :
    (lookup ex lib (some (d ++ 59 :: r)) p).2 = .ub := by
  unfold lookup
  rw [if_neg (by simp [hp])]
  obtain ⟨h1, h2⟩ := takeWhile_clean hd (59 :: r) (.inr ⟨59, r, rfl, .inl rfl⟩)
  simp only [walk, h1, h2]
  have : join d p = none := by unfold join print; rw [if_neg (by simp; omega)]
  rw [this]

theorem long_lib_bad (ex : List Nat → Bool) (lib p : List Nat) (hp : ex p = false) (hl : 1023 ≤ lib.length + p.length) :
    (lookup ex lib none p).2 = .ub := by
  unfold lookup
  rw [if_neg (by simp [hp])]
  have : join lib p = none := by unfold join print; rw [if_neg (by simp; omega)]
  simp [this, openOr]

/-- With short names nothing is written outside, whatever stands in the variable. -/
theorem find_safe_partial (ex : List Nat → Bool) (lib p : List Nat) (env : Option (List Nat)) (hlib : lib.length + p.length < 1023)
    (he : ∀ l, env = some l → l.length + p.length < 1023) : (find ex lib env p).2 ≠ .ub := by
  have J : ∀ d : List Nat, d.length + p.length < 1023 → ∃ t, join d p = some t := fun d h => by
    unfold join print; rw [if_pos (by simp; omega)]; exact ⟨_, rfl⟩
  have W : ∀ (n : Nat) (l : List Nat), l.length < n → l.length + p.length < 1023 → (walk ex lib p n l).2 ≠ .ub := by
    intro n
    induction n with
    | zero => intro l h; omega
    | succ n ih =>
      intro l hn hlen
      have hd : (l.takeWhile (fun b => b != 59 && b != 0)).length ≤ l.length := (List.takeWhile_sublist _).length_le
      have hr : (l.dropWhile (fun b => b != 59 && b != 0)).length ≤ l.length := (List.dropWhile_sublist _).length_le
      obtain ⟨t, ht⟩ := J _ (by omega : (l.takeWhile (fun b => b != 59 && b != 0)).length + p.length < 1023)
      obtain ⟨t2, ht2⟩ := J lib hlib
      simp only [walk]
      split
      · rename_i r hr2
        rw [hr2] at hr
        simp at hr
        rw [ht]
        simp only
        split
        · simp
        · exact ih r (by omega) (by omega)
      · rw [ht, ht2]
        split <;> simp [openOr]
  unfold find
  split
  · simp
  · unfold lookup
    split
    · simp
    · cases env with
      | none => obtain ⟨t2, ht2⟩ := J lib hlib; simp [ht2, openOr]
      | some l => exact W _ l (by omega) (he l rfl)

/-- A file included with `@` from a directory: written behind the buffer, or read behind it, if both
together have 1023 bytes or more. -/
theorem at_bad (ex : List Nat → Bool) (lib : List Nat) (env : Option (List Nat)) (dir x : List Nat) (h1 : x.length ≤ 1023) (h : 1023 ≤ dir.length + x.length) :
    (lexOpen ex lib env (some dir) (64 :: x)).2 = .ub := by
  unfold lexOpen lexPath
  simp only [Option.getD_some]
  rw [if_neg (by simp; omega)]

theorem at_bad_top (ex : List Nat → Bool) (lib : List Nat) (env : Option (List Nat)) (x : List Nat) (h : 1022 ≤ x.length) : (lexOpen ex lib env none (64 :: x)).2 = .ub := by
  unfold lexOpen lexPath
  simp only [Option.getD_none]
  rw [if_neg (by simp; omega)]

/-- Otherwise the file next to the including one is looked for. -/
theorem at_dir_partial (dir x : List Nat) (hz : ∀ b ∈ dir ++ x, b ≠ 0) (h : dir.length + x.length < 1022) : lexPath (some dir) (64 :: x) = some (inDir dir x) := by
  unfold lexPath
  simp only [Option.getD_some]
  rw [if_pos (by simp; omega), List.take_of_length_le (by simp; omega), List.take_of_length_le (by omega)]
  rw [cstr_self]
  · rfl
  · intro b hb
    simp only [List.mem_append, List.mem_singleton] at hb
    rcases hb with (m | rfl) | m
    · exact hz b (by simp [m])
    · decide
    · exact hz b (by simp [m])

/-- Without a directory it is the working directory. -/
theorem at_here_partial (x : List Nat) (hz : ∀ b ∈ x, b ≠ 0) (h : x.length < 1021) : lexPath none (64 :: x) = some (inDir [46] x) := by
  have e : lexPath none (64 :: x) = lexPath (some [46]) (64 :: x) := rfl
  rw [e]
  refine at_dir_partial [46] x ?_ (by simp; omega)
  intro b hb
  rcases List.mem_append.1 hb with hb | hb
  · rw [List.mem_singleton.1 hb]; decide
  · exact hz b hb

/-- `Import` with a name of 1021 bytes and more that begins with a slash. -/
theorem import_bad (ex : List Nat → Bool) (lib : List Nat) (env : Option (List Nat)) (x : List Nat) (hz : ∀ b ∈ x, b ≠ 0) (h : 1020 ≤ x.length) :
    (importOpen ex lib env (47 :: x)).2 = .ub := by
  have : cstr (47 :: x) = 47 :: x := cstr_self _ (fun b hb => by
    rcases List.mem_cons.1 hb with rfl | m
    · decide
    · exact hz b m)
  unfold importOpen
  rw [if_pos (List.head?_cons ..), this]
  simp only [print]
  rw [if_neg (by simp [so]; omega)]
  rfl

/-- The report that a library could not be loaded is written behind its buffer already for a path of
993 bytes, which itself is put together without fault. -/
theorem import_report_bad (ex : List Nat → Bool) (lib : List Nat) (env : Option (List Nat)) (x : List Nat) (hz : ∀ b ∈ x, b ≠ 0) (h : 989 ≤ x.length) (h2 : x.length ≤ 1018) :
    ∃ p, (importOpen ex lib env (47 :: x)).2 = .open p ∧ importFailOk p = false := by
  have : cstr (47 :: x) = 47 :: x := cstr_self _ (fun b hb => by
    rcases List.mem_cons.1 hb with rfl | m
    · decide
    · exact hz b m)
  refine ⟨47 :: x ++ so, ?_, ?_⟩
  · unfold importOpen
    rw [if_pos (List.head?_cons ..), this]
    simp only [print]
    rw [if_pos (by simp [so]; omega), List.take_of_length_le (by simp [so]; omega)]
    rfl
  · unfold importFailOk
    simp [so]
    omega

/-- `Eval` of an `@` path: written behind the buffer for every script in a directory of `k` bytes and
every path of `1023 - k` bytes and more behind the `@`. -/
theorem eval_bad (dir base x : List Nat) (hb : 47 ∉ base) (hz : ∀ b ∈ dir ++ base ++ x, b ≠ 0) (h : 1023 ≤ dir.length + x.length) :
    evalPath (some (dir ++ 47 :: base)) (64 :: x) = none := by
  have e1 : cstr (dir ++ 47 :: base) = dir ++ 47 :: base := cstr_self _ (fun b hm => by
    simp only [List.mem_append, List.mem_cons] at hm
    rcases hm with m | rfl | m
    · exact hz b (by simp [m])
    · decide
    · exact hz b (by simp [m]))
  have e2 : cstr x = x := cstr_self _ (fun b hm => hz b (by simp [hm]))
  have e3 : (dir ++ 47 :: base).reverse.findIdx (· == 47) = base.length := by
    rw [List.reverse_append, List.reverse_cons, List.append_assoc, List.findIdx_append]
    rw [if_neg]
    · simp [List.findIdx_cons]
    · intro hlt
      rw [List.findIdx_lt_length] at hlt
      obtain ⟨b, h1, h2⟩ := hlt
      have e : b = 47 := by simpa using h2
      exact hb (e ▸ List.mem_reverse.1 h1)
  unfold evalPath
  simp only [e1, e2, e3]
  rw [if_pos (by simp), if_neg (by simp; omega)]

/-- Otherwise the path is the one next to the running script. -/
theorem eval_dir_partial (dir base x : List Nat) (hb : 47 ∉ base) (hz : ∀ b ∈ dir ++ base ++ x, b ≠ 0) (h : dir.length + x.length < 1022) :
    evalPath (some (dir ++ 47 :: base)) (64 :: x) = some (inDir dir x) := by
  have e1 : cstr (dir ++ 47 :: base) = dir ++ 47 :: base := cstr_self _ (fun b hm => by
    simp only [List.mem_append, List.mem_cons] at hm
    rcases hm with m | rfl | m
    · exact hz b (by simp [m])
    · decide
    · exact hz b (by simp [m]))
  have e2 : cstr x = x := cstr_self _ (fun b hm => hz b (by simp [hm]))
  have e3 : (dir ++ 47 :: base).reverse.findIdx (· == 47) = base.length := by
    rw [List.reverse_append, List.reverse_cons, List.append_assoc, List.findIdx_append]
    rw [if_neg]
    · simp [List.findIdx_cons]
    · intro hlt
      rw [List.findIdx_lt_length] at hlt
      obtain ⟨b, h1, h2⟩ := hlt
      have e : b = 47 := by simpa using h2
      exact hb (e ▸ List.mem_reverse.1 h1)
  have e4 : min 1023 ((dir ++ 47 :: base).length - 1 - base.length) = dir.length := by simp; omega
  unfold evalPath
  simp only [e1, e2, e3, e4]
  rw [if_pos (by simp), if_pos (by simp; omega), if_pos (by simp; omega)]
  simp [inDir]

/-! ### Examples -/

/-- Directories a and b, of which only b has the file f: found once, not again. -/
def onlyB : List Nat → Bool := fun p => p == [98, 47, 102]

example : lookup onlyB [108] (some [97, 59, 98]) [102] = (some [97, 0, 98], .open [98, 47, 102]) := by decide +kernel
example : lookup onlyB [108] (some [97, 0, 98]) [102] = (some [97, 0, 98], .open [97, 47, 102]) := by decide +kernel
/-- Three directories, the file in the second. -/
example : lookup onlyB [108] (some [97, 59, 98, 59, 99]) [102] = (some [97, 0, 98, 0, 99], .open [98, 47, 102]) := by decide +kernel
/-- The value ends with a semicolon: the library's directory. -/
example : lookup onlyB [108] (some [97, 59]) [103] = (some [97, 0], .open [108, 47, 103]) := by decide +kernel
example : enc [[97], [98]] [99] = [97, 59, 98, 59, 99] := by decide +kernel
example : astOpen onlyB [108] (some [97, 59, 98]) [47, 120] = (some [97, 59, 98], .open [47, 120]) := by decide +kernel
example : lexOpen (fun _ => true) [108] none (some [100]) [64, 102] = (none, .open [100, 47, 102]) := by decide +kernel
example : importOpen onlyB [108] none [109] = (none, .open [108, 47, 46, 47, 109, 46, 115, 111]) := by decide +kernel
example : evalPath (some [100, 47, 97]) [64, 102] = some [100, 47, 102] := by decide +kernel
example : evalPath (some [97]) [64, 47, 102] = some [102] := by decide +kernel

end Verif.SearchPath
