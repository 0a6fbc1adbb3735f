import Verif.ConfApi
import Verif.LangKeyProps
/-!
# A configuration changed from a program
-/
namespace Verif.ConfApi
open Verif.RbTree

/-! ## Specification -/

/-- A command: its number, its name, its arguments. -/
abbrev Entry (α : Type) := Nat × α × List Nat

/-- What a call may give, and what the commands are after it. The commands are in the order in which they were
inserted; with several of one name it is not said which is found. -/
inductive Step {α : Type} : List (Entry α) → Op α → Res → List (Entry α) → Prop
  | insert {es : List (Entry α)} {n : Nat} (k : α) : n ≠ 0 → (∀ e ∈ es, e.1 ≠ n) → Step es (.insert k) (.cmd n) (es ++ [(n, k, [])])
  | found {es : List (Entry α)} {e : Entry α} : e ∈ es → e.1 ≠ 0 → Step es (.search e.2.1) (.cmd e.1) es
  | missing {es : List (Entry α)} {k : α} : (∀ e ∈ es, e.2.1 ≠ k) → Step es (.search k) (.cmd 0) es
  | remove {a b : List (Entry α)} (e : Entry α) : Step (a ++ e :: b) (.remove e.2.1) .unit (a ++ b)
  | absent {es : List (Entry α)} {k : α} : (∀ e ∈ es, e.2.1 ≠ k) → Step es (.remove k) .unit es
  | update {a b : List (Entry α)} {n : Nat} {k : α} {l : List Nat} (items : List Nat) : Step (a ++ (n, k, l) :: b) (.update n items) .unit (a ++ (n, k, items) :: b)
  | item {es : List (Entry α)} {n : Nat} {k : α} {l : List Nat} (i : Nat) : (n, k, l) ∈ es → Step es (.item n i) (.arg (if i = 0 then none else l[i - 1]?)) es
  | num {es : List (Entry α)} : Step es .num (.num es.length) es
  | cmds {es : List (Entry α)} : Step es .cmds (.cmds (es.map Prod.fst)) es

/-- Calls one after the other. -/
inductive Steps {α : Type} : List (Entry α) → List (Op α × Res) → List (Entry α) → Prop
  | nil {es : List (Entry α)} : Steps es [] es
  | cons {es es1 es2 : List (Entry α)} {o : Op α} {r : Res} {os : List (Op α × Res)} : Step es o r es1 → Steps es1 os es2 → Steps es ((o, r) :: os) es2

/-- How many commands of the name `k` there are after the calls, if there were `c` before. -/
def balance {α : Type} [DecidableEq α] (k : α) : Nat → List (Op α) → Nat
  | c, [] => c
  | c, .insert k' :: os => balance k (if k' = k then c + 1 else c) os
  | c, .remove k' :: os => balance k (if k' = k then c - 1 else c) os
  | c, _ :: os => balance k c os

/-- The arguments of a call are commands that are there. -/
def Op.legal {α : Type} (es : List (Entry α)) : Op α → Prop
  | .update n _ | .item n _ => n ∈ es.map Prod.fst
  | _ => True

/-- No command is used after it was removed, whatever is found. -/
def Legal {α : Type} : List (Entry α) → Prog α → Prop
  | _, .done => True
  | es, .call o k => o.legal es ∧ ∀ r es', Step es o r es' → Legal es' (k r)

/-! ## The trees -/

section
variable {α : Type} {cmp : α → α → Int}

/-- The tree holds the commands. -/
structure Rel (cmp : α → α → Int) (d : Dom α) (es : List (Entry α)) : Prop where
  inv : ∃ s, Inv cmp d.t s ∧ s.queue = es.map Prod.fst ∧ ∀ e ∈ es, s.data e.1 = e.2.1
  heap : ∀ i, (d.t.chain.heap i).isSome
  iter : d.t.iter = none
  del : d.t.del = false
  live : d.live = es.map Prod.fst
  args : ∀ e ∈ es, d.args e.1 = e.2.2
  range : ∀ e ∈ es, e.1 ≤ d.next ∧ e.1 ≠ 0
  nodup : (es.map Prod.fst).Nodup

theorem entry_of {es : List (Entry α)} {n : Nat} (h : n ∈ es.map Prod.fst) : ∃ e ∈ es, e.1 = n := by simpa using h

theorem iterate_put {t : Tree α} {s : S α} (h : Inv cmp t s) (hd : t.del = false) : ∃ t', iterate put (nodeNum t + 1) t [] = some (t', s.queue, 0) := by
  have hput : (put : Tree α → Nat → List Nat → _) = handler (recorder fun _ => false) := by
    funext t n l
    simp [put, handler, recorder, deleteAll]
  obtain ⟨x, hz, hg, ex⟩ := h.tree
  have hnd := h.chain.nodup
  have hhd : t.chain.head = s.queue.head? := by
    rw [h.chain.head]; cases s.queue <;> rfl
  obtain ⟨t', f1, _⟩ := iterateFrom_ok (cmp := cmp) (recorder fun _ => false) (nodeNum t + 1) s.queue [] (t := { t with iter := t.chain.head }) (s := s) []
    (by rw [nodeNum, h.nr, h.perm.length_eq]; omega) ⟨h.tree, h.data, h.sorted, h.min, h.nr, h.chain, h.perm⟩ (by rw [← ex]; exact hz.nodup) rfl hhd hd
    (legal_recorder _ _ _ _ hnd fun _ h => h)
  refine ⟨t', ?_⟩
  rw [hput, iterate, f1, visits_recorder _ _ _ hnd]
  rfl

theorem step_rel (o : CmpOrd cmp) (ez : ∀ a b, cmp a b = 0 ↔ a = b) {d : Dom α} {es : List (Entry α)} (h : Rel cmp d es) {op : Op α} (hl : op.legal es) :
    ∃ r d' es', step cmp d op = some (r, d') ∧ Step es op r es' ∧ Rel cmp d' es' := by
  obtain ⟨s, hi, hq, hdat⟩ := h.inv
  cases op with
  | insert k =>
    have hfresh : ∀ e ∈ es, e.1 ≠ d.next + 1 := fun e he => by have := (h.range e he).1; omega
    have hf : d.next + 1 ∉ s.queue := by
      rw [hq]; intro hm
      obtain ⟨e, he, h1⟩ := entry_of hm
      exact hfresh e he h1
    have h1 := assign_ok hi k hf
    obtain ⟨t', e1, e2, e3, e4, e5⟩ := insert_ok o h1 (n := d.next + 1) (by omega) hf (h.heap _)
    refine ⟨.cmd (d.next + 1), ⟨t', d.live ++ [d.next + 1], upd d.args (d.next + 1) [], d.next + 1⟩, _, ?_, .insert k (by omega : d.next + 1 ≠ 0) hfresh, ?_⟩
    · rw [step]; simp only [e1, Option.bind_eq_bind, Option.bind_some]
    · refine ⟨⟨_, e2, by simp [specStep, hq], ?_⟩, fun i => (e5 i).2 (h.heap i), e3.trans h.iter, e4.trans h.del, by simp [h.live], ?_, ?_, ?_⟩
      · intro e he
        rcases List.mem_append.1 he with he | he
        · show upd s.data _ k e.1 = _
          rw [upd, if_neg (hfresh e he)]; exact hdat e he
        · rw [List.mem_singleton.1 he]; exact if_pos rfl
      · intro e he
        show upd d.args _ [] e.1 = _
        rcases List.mem_append.1 he with he | he
        · rw [upd, if_neg (hfresh e he)]; exact h.args e he
        · rw [List.mem_singleton.1 he]; exact if_pos rfl
      · intro e he
        show e.1 ≤ d.next + 1 ∧ e.1 ≠ 0
        rcases List.mem_append.1 he with he | he
        · have := h.range e he; omega
        · rw [List.mem_singleton.1 he]; simp
      · rw [List.map_append, List.nodup_append]
        refine ⟨h.nodup, by simp, ?_⟩
        intro a ha b hb
        simp at hb
        obtain ⟨e, he, rfl⟩ := entry_of ha
        rw [hb]; exact hfresh e he
  | search k =>
    obtain ⟨x, hx, hc⟩ := search_nr o hi k
    refine ⟨.cmd x, d, es, by rw [step]; simp [hx], ?_, h⟩
    rcases hc with ⟨rfl, hn⟩ | ⟨hm, he⟩
    · refine .missing fun e he hk => hn e.1 (by rw [hq]; exact List.mem_map_of_mem he) ?_
      rw [hdat e he, hk]; exact (ez k k).2 rfl
    · rw [hq] at hm
      obtain ⟨e, hem, rfl⟩ := entry_of hm
      rw [hdat e hem, ez] at he
      rw [he]
      exact .found hem (h.range e hem).2
  | remove k =>
    obtain ⟨x, hx, hc⟩ := search_nr o hi k
    rcases hc with ⟨rfl, hn⟩ | ⟨hm, he⟩
    · refine ⟨.unit, d, es, by rw [step]; simp [hx], .absent fun e he hk => hn e.1 (by rw [hq]; exact List.mem_map_of_mem he) ?_, h⟩
      rw [hdat e he, hk]; exact (ez k k).2 rfl
    · have hm0 := hm
      rw [hq] at hm
      obtain ⟨e, hem, rfl⟩ := entry_of hm
      rw [hdat e hem, ez] at he
      subst he
      obtain ⟨t', e1, e2, e3, e4, e5⟩ := delete_ok hi hm0
      obtain ⟨a, b, rfl⟩ := List.append_of_mem hem
      have hn := h.nodup
      have her : ((a ++ e :: b).map Prod.fst).erase e.1 = (a ++ b).map Prod.fst := by
        rw [List.map_append, List.map_cons, List.nodup_append] at hn
        rw [List.map_append, List.map_cons, List.erase_append_right _ (fun hc => hn.2.2 _ hc _ (by simp) rfl), List.erase_cons_head, ← List.map_append]
      have hsub : ∀ x ∈ a ++ b, x ∈ a ++ e :: b := fun x hx => by
        rcases List.mem_append.1 hx with hx | hx <;> simp [hx]
      refine ⟨.unit, { d with t := t', live := d.live.erase e.1 }, a ++ b, ?_, .remove e, ?_⟩
      · rw [step]; simp [hx, (h.range e hem).2, e1]
      · refine ⟨⟨_, e2, ?_, fun x hx => hdat x (hsub x hx)⟩, fun i => (e5 i).2 (h.heap i), ?_, ?_, ?_, fun x hx => h.args x (hsub x hx), fun x hx => h.range x (hsub x hx), ?_⟩
        · show s.queue.erase e.1 = _
          rw [hq, her]
        · rw [e3, h.iter]; simp
        · rw [e4, h.iter]; simpa using h.del
        · show d.live.erase e.1 = _
          rw [h.live, her]
        · rw [← her]; exact hn.erase _
  | update n items =>
    obtain ⟨e, hem, rfl⟩ := entry_of hl
    obtain ⟨n, k, l⟩ := e
    obtain ⟨a, b, rfl⟩ := List.append_of_mem hem
    have hmap : (a ++ (n, k, items) :: b).map Prod.fst = (a ++ (n, k, l) :: b).map Prod.fst := by simp
    have hn := h.nodup
    have hne : ∀ x ∈ a ++ b, x.1 ≠ n := by
      intro x hx hc
      have : x.1 ∈ a.map Prod.fst ∨ x.1 ∈ b.map Prod.fst := by
        rcases List.mem_append.1 hx with hx | hx
        · exact .inl (List.mem_map_of_mem hx)
        · exact .inr (List.mem_map_of_mem hx)
      rw [hc] at this
      rw [List.map_append, List.map_cons, List.nodup_append, List.nodup_cons] at hn
      rcases this with h1 | h1
      · exact hn.2.2 _ h1 _ (by simp) rfl
      · exact hn.2.1.1 h1
    have hor : ∀ x ∈ a ++ (n, k, items) :: b, x = (n, k, items) ∨ x ∈ a ++ b := by
      intro x hx
      simp only [List.mem_append, List.mem_cons] at hx ⊢
      tauto
    have hsub : ∀ x ∈ a ++ b, x ∈ a ++ (n, k, l) :: b := fun x hx => by
      rcases List.mem_append.1 hx with hx | hx <;> simp [hx]
    refine ⟨.unit, { d with args := upd d.args n items }, _, ?_, .update items, ?_⟩
    · rw [step, if_pos (by rw [h.live]; exact hl)]
    · refine ⟨⟨s, hi, by rw [hmap]; exact hq, ?_⟩, h.heap, h.iter, h.del, by rw [hmap]; exact h.live, ?_, ?_, by rw [hmap]; exact hn⟩
      · intro x hx
        rcases hor x hx with rfl | hx
        · exact hdat (n, k, l) hem
        · exact hdat x (hsub x hx)
      · intro x hx
        show upd d.args n items x.1 = _
        rcases hor x hx with rfl | hx
        · exact if_pos rfl
        · rw [upd, if_neg (hne x hx)]; exact h.args x (hsub x hx)
      · intro x hx
        rcases hor x hx with rfl | hx
        · exact h.range (n, k, l) hem
        · exact h.range x (hsub x hx)
  | item n i =>
    obtain ⟨e, hem, rfl⟩ := entry_of hl
    refine ⟨.arg (if i = 0 then none else e.2.2[i - 1]?), d, es, ?_, .item (k := e.2.1) i hem, h⟩
    rw [step, if_pos (by rw [h.live]; exact hl), h.args e hem]
    by_cases h0 : i = 0
    · simp [h0]
    · by_cases h1 : i > e.2.2.length
      · rw [if_pos (.inr h1), if_neg h0, List.getElem?_eq_none (by omega)]
      · rw [if_neg (by tauto), if_neg h0]
  | num =>
    refine ⟨.num es.length, d, es, ?_, .num, h⟩
    rw [step, nodeNum, hi.nr, hi.perm.length_eq, hq, List.length_map]
  | cmds =>
    obtain ⟨t', ht⟩ := iterate_put hi h.del
    refine ⟨.cmds (es.map Prod.fst), d, es, ?_, .cmds, h⟩
    rw [step, ht, hq]
    rfl

theorem rel_empty (cmp : α → α → Int) (v : α) : Rel cmp (empty v) [] :=
  ⟨⟨S.empty fun _ => v, new_inv cmp _ _ _, rfl, by simp⟩, fun _ => rfl, rfl, rfl, rfl, by simp, by simp, by simp⟩

theorem run_rel (o : CmpOrd cmp) (ez : ∀ a b, cmp a b = 0 ↔ a = b) {p : Prog α} : ∀ {d : Dom α} {es : List (Entry α)}, Rel cmp d es → Legal es p →
    ∃ tr d' es', run cmp d p = some (tr, d') ∧ Steps es tr es' ∧ Rel cmp d' es' := by
  induction p with
  | done => intro d es h _; exact ⟨[], d, es, rfl, .nil, h⟩
  | call op k ih =>
    intro d es h hl
    obtain ⟨r, d1, es1, e1, s1, h1⟩ := step_rel o ez h hl.1
    obtain ⟨tr, d2, es2, e2, s2, h2⟩ := ih r h1 (hl.2 r es1 s1)
    exact ⟨(op, r) :: tr, d2, es2, by rw [run, e1]; simp [e2], .cons s1 s2, h2⟩

theorem steps_balance [DecidableEq α] (k : α) {es es' : List (Entry α)} {tr : List (Op α × Res)} (h : Steps es tr es') :
    (es'.countP fun e => e.2.1 = k) = balance k (es.countP fun e => e.2.1 = k) (tr.map Prod.fst) := by
  induction h with
  | nil => rfl
  | cons s _ ih =>
    rw [ih, List.map_cons]
    clear ih
    cases s with
    | insert k' _ _ =>
      rw [balance, List.countP_append, List.countP_singleton]
      by_cases hk : k' = k <;> simp [hk]
    | found _ _ => rfl
    | missing _ => rfl
    | remove e =>
      rw [balance, List.countP_append, List.countP_append, List.countP_cons]
      by_cases hk : e.2.1 = k <;> simp [hk]
    | @absent _ k' hn =>
      rw [balance]
      by_cases hk : k' = k
      · subst hk
        rw [if_pos rfl, List.countP_eq_zero.2 (by simpa using hn)]
      · rw [if_neg hk]
    | update items => rw [balance]; simp [List.countP_append, List.countP_cons]; all_goals simp
    | item i _ => rfl
    | num => rfl
    | cmds => rfl

end

/-! ## Theorems -/

open Verif.LangKey (Txt cmpTxt cmpTxt_ord cmpTxt_zero cmpStr badKeys)
open Verif.Str (Byte Ascii)

/-- The empty name. -/
def noName : Txt := ⟨[], by simp [Ascii]⟩

/-- **Partial.** Whatever a program does with a domain, with names of 7-bit characters and with commands that were
not removed: all calls give what the list of commands says. -/
theorem calls_partial {p : Prog Txt} (hl : Legal [] p) :
    ∃ tr d es, run cmpTxt (empty noName) p = some (tr, d) ∧ Steps [] tr es := by
  obtain ⟨tr, d, es, e, s, _⟩ := run_rel cmpTxt_ord cmpTxt_zero (rel_empty cmpTxt noName) hl
  exact ⟨tr, d, es, e, s⟩

theorem search_same {d d' : Dom Txt} {k : Txt} {r : Res} (e : step cmpTxt d (.search k) = some (r, d')) : d' = d := by
  rw [step] at e
  simp only [Option.bind_eq_bind, Option.bind_eq_some_iff] at e
  obtain ⟨x, _, e⟩ := e
  simp at e
  exact e.2.symm

theorem found_of {d : Dom Txt} {es : List (Entry Txt)} (h : Rel cmpTxt d es) (k : Txt) :
    ∃ n, step cmpTxt d (.search k) = some (.cmd n, d) ∧ (n ≠ 0 ↔ 0 < es.countP fun e => e.2.1 = k) := by
  obtain ⟨r, d', es', e1, s1, h1⟩ := step_rel cmpTxt_ord cmpTxt_zero h (op := .search k) trivial
  have hd := search_same e1
  subst hd
  rw [List.countP_pos_iff]
  cases s1 with
  | found hm hn => exact ⟨_, e1, by simp only [ne_eq, hn, not_false_eq_true, true_iff]; exact ⟨_, hm, by simp⟩⟩
  | missing hn =>
    refine ⟨0, e1, ?_⟩
    simp only [ne_eq, not_true_eq_false, false_iff, not_exists, not_and]
    intro x hx; simpa using hn x hx

/-- A command of a name is found exactly if one was inserted more often than removed. -/
theorem found_iff {p : Prog Txt} (hl : Legal [] p) (k : Txt) :
    ∃ tr d n, run cmpTxt (empty noName) p = some (tr, d) ∧ step cmpTxt d (.search k) = some (.cmd n, d) ∧ (n ≠ 0 ↔ 0 < balance k 0 (tr.map Prod.fst)) := by
  obtain ⟨tr, d, es, e, s, h⟩ := run_rel cmpTxt_ord cmpTxt_zero (rel_empty cmpTxt noName) hl
  have hb := steps_balance k s
  rw [List.countP_nil] at hb
  obtain ⟨n, e1, e2⟩ := found_of h k
  exact ⟨tr, d, n, e, e1, by rw [← hb]; exact e2⟩

/-- A name that was inserted again is not gone when it is removed: after every program, two insertions and a removal
leave a command of the name. -/
theorem removed_refuted {p : Prog Txt} (hl : Legal [] p) (k : Txt) :
    ∃ tr d tr' d' n, run cmpTxt (empty noName) p = some (tr, d) ∧ run cmpTxt d (calls [.insert k, .insert k, .remove k]) = some (tr', d') ∧
      step cmpTxt d' (.search k) = some (.cmd n, d') ∧ n ≠ 0 := by
  obtain ⟨tr, d, es, e, s, h⟩ := run_rel cmpTxt_ord cmpTxt_zero (rel_empty cmpTxt noName) hl
  obtain ⟨tr', d', es', e', s', h'⟩ := run_rel cmpTxt_ord cmpTxt_zero (p := calls [.insert k, .insert k, .remove k]) h (by simp [calls, Legal, Op.legal])
  obtain ⟨n, e1, e2⟩ := found_of h' k
  refine ⟨tr, d, tr', d', n, e, e', e1, e2.2 ?_⟩
  have ht : tr'.map Prod.fst = [.insert k, .insert k, .remove k] := by
    simp only [calls, run, Option.bind_eq_bind, Option.bind_eq_some_iff] at e'
    obtain ⟨_, _, _, ⟨_, _, _, ⟨_, _, _, h3, h4⟩, h5⟩, h6⟩ := e'
    simp at h3 h4 h5 h6
    rw [← h6.1, ← h5, ← h4, ← h3]
    rfl
  rw [steps_balance k s', ht]
  simp [balance]

/-- With names of other characters a command that was inserted is not found. -/
theorem lost_refuted : ((run cmpStr (empty []) (calls (badKeys.map .insert ++ [.search [97, 98, 99, 48]]))).bind fun r => r.1.getLast?.map Prod.snd) = some (.cmd 0) := by decide +kernel

/-! ## Hooks -/

theorem dropWhile_split {a : List Nat} {h : Nat} {b : List Nat} (hn : (a ++ h :: b).Nodup) : ((a ++ h :: b).dropWhile (· ≠ h)) = h :: b := by
  rw [List.dropWhile_append_of_pos]
  · simp
  · intro x hx
    rw [List.nodup_append] at hn
    simp only [decide_eq_true_eq]
    exact hn.2.2 x hx h (by simp)

theorem fire_in {f : Nat → List Nat × Bool} {fuel h : Nat} {l l' : List Nat} (hl : (f h).1.foldl hookUnset l = l') (hs : (f h).2 = true) (hm : h ∈ l') :
    fire f (fuel + 1) l (some h) = (fire f fuel l' ((l'.dropWhile (· ≠ h))[1]?)).map fun r => (h :: r.1, r.2) := by
  subst hl
  rw [fire]
  try dsimp only
  rw [if_neg (by simp [hs]), if_pos hm]

theorem fire_out {f : Nat → List Nat × Bool} {fuel h : Nat} {l l' : List Nat} (hl : (f h).1.foldl hookUnset l = l') (hs : (f h).2 = true) (hm : h ∉ l') :
    fire f (fuel + 1) l (some h) = none := by
  subst hl
  rw [fire]
  try dsimp only
  rw [if_neg (by simp [hs]), if_neg hm]

/-- **Partial.** If callbacks remove no hooks: all are called, once, in the order in which they were set, up to the first that
fails. -/
theorem fire_partial {f : Nat → List Nat × Bool} (hf : ∀ h, (f h).1 = []) (b : List Nat) : ∀ (a : List Nat), (a ++ b).Nodup →
    ∀ fuel, b.length < fuel → fire f fuel (a ++ b) b.head? =
      some (b.takeWhile (fun h => (f h).2) ++ (b.dropWhile (fun h => (f h).2)).take 1, b.all (fun h => (f h).2), a ++ b) := by
  induction b with
  | nil => intro a _ fuel hfu; cases fuel with
    | zero => simp at hfu
    | succ n => rfl
  | cons h b ih =>
    intro a hn fuel hfu
    cases fuel with
    | zero => simp at hfu
    | succ fuel =>
      rw [List.head?_cons]
      cases hs : (f h).2 with
      | false => rw [fire]; simp [hs, hf h]
      | true =>
        rw [fire_in (l' := a ++ h :: b) (by rw [hf h]; rfl) hs (by simp), dropWhile_split hn]
        have := ih (a ++ [h]) (by simpa using hn) fuel (by simp at hfu; omega)
        simp only [List.append_assoc, List.singleton_append] at this
        rw [show (h :: b)[1]? = b.head? by cases b <;> rfl, this]
        simp [hs]

/-- The hooks in mln_conf_reload. -/
theorem reload_partial {f : Nat → List Nat × Bool} (hf : ∀ h, (f h).1 = []) {l : List Nat} (hn : l.Nodup) :
    reload f l = some (l.takeWhile (fun h => (f h).2) ++ (l.dropWhile (fun h => (f h).2)).take 1, l.all (fun h => (f h).2), l) := by
  have := fire_partial hf l [] (by simpa using hn) (l.length + 1) (by omega)
  simpa [reload] using this

/-- A callback that removes its own hook makes mln_conf_reload read it after it was freed: for every list of hooks
whose callbacks before it remove nothing and succeed. -/
theorem unset_refuted {f : Nat → List Nat × Bool} {h : Nat} {b : List Nat} (hf : (f h) = ([h], true)) : ∀ (p a : List Nat), (a ++ p ++ h :: b).Nodup → (∀ x ∈ p, f x = ([], true)) →
    ∀ fuel, fire f fuel (a ++ p ++ h :: b) (p ++ h :: b).head? = none := by
  intro p
  induction p with
  | nil =>
    intro a hn _ fuel
    cases fuel with
    | zero => rfl
    | succ fuel =>
      rw [List.append_nil] at *
      rw [List.nil_append, List.head?_cons]
      exact fire_out (l' := (a ++ h :: b).erase h) (by rw [hf]; rfl) (by rw [hf]) fun hm => hn.not_mem_erase hm
  | cons x p ih =>
    intro a hn hp fuel
    cases fuel with
    | zero => rfl
    | succ fuel =>
      rw [List.cons_append, List.head?_cons]
      have hn' : (a ++ x :: (p ++ h :: b)).Nodup := by simpa using hn
      have he : a ++ x :: p ++ h :: b = a ++ x :: (p ++ h :: b) := by simp
      rw [he, fire_in (l' := a ++ x :: (p ++ h :: b)) (by rw [hp x (by simp)]; rfl) (by rw [hp x (by simp)]) (by simp), dropWhile_split hn']
      have := ih (a ++ [x]) (by simpa using hn) (fun y hy => hp y (by simp [hy])) fuel
      rw [show (x :: (p ++ h :: b))[1]? = (p ++ h :: b).head? by cases p <;> rfl]
      rw [show a ++ [x] ++ p ++ h :: b = a ++ x :: (p ++ h :: b) by simp] at this
      rw [this]
      rfl

/-- **Partial.** With a file that is valid, the callbacks see the new configuration, and it is the configuration after. -/
theorem reload_conf_partial {β : Type} {old : Option β} {c : β} {f : Option β → Nat → List Nat × Bool} (hf : ∀ h, (f (some c) h).1 = []) {l : List Nat} (hn : l.Nodup) :
    ∃ calls, reloadConf old (some c) f l = some (some c, calls, l.all (fun h => (f (some c) h).2), l) ∧ calls <+: l ∧
      (∀ h ∈ calls.dropLast, (f (some c) h).2 = true) ∧ ((∀ h ∈ calls, (f (some c) h).2 = true) → calls = l) := by
  rw [reloadConf, reload_partial hf hn]
  have h0 : ∀ (g : Nat → Bool) (l : List Nat), (l.takeWhile g ++ (l.dropWhile g).take 1 <+: l) ∧ (∀ h ∈ (l.takeWhile g ++ (l.dropWhile g).take 1).dropLast, g h = true) ∧
      ((∀ h ∈ l.takeWhile g ++ (l.dropWhile g).take 1, g h = true) → l.takeWhile g ++ (l.dropWhile g).take 1 = l) := by
    intro g l
    induction l with
    | nil => simp
    | cons x l ih =>
      cases hx : g x with
      | false => simp [hx]
      | true =>
        simp only [List.takeWhile_cons, List.dropWhile_cons, hx, if_true, List.cons_append]
        refine ⟨List.cons_prefix_cons.2 ⟨rfl, ih.1⟩, ?_, ?_⟩
        · intro h hh
          generalize l.takeWhile g ++ (l.dropWhile g).take 1 = q at ih hh
          cases q with
          | nil => simp at hh
          | cons y q =>
            rw [List.dropLast_cons_cons, List.mem_cons] at hh
            rcases hh with rfl | hh
            · exact hx
            · exact ih.2.1 h hh
        · intro h
          rw [ih.2.2 fun y hy => h y (List.mem_cons_of_mem _ hy)]
  exact ⟨_, rfl, (h0 _ l).1, (h0 _ l).2.1, (h0 _ l).2.2⟩

/-- A reload of a file that is not valid loses the configuration there was, calls the callbacks without one and
succeeds: for all hooks whose callbacks succeed. -/
theorem reload_refuted {β : Type} {old : Option β} {f : Option β → Nat → List Nat × Bool} (hf : ∀ h, f none h = ([], true)) {l : List Nat} (hn : l.Nodup) :
    reloadConf old none f l = some (none, l, true, l) := by
  rw [reloadConf, reload_partial (by intro h; rw [hf]) hn]
  have : (fun h => (f none h).2) = fun _ => true := by funext h; rw [hf]
  rw [this]
  have h1 : ∀ l : List Nat, l.takeWhile (fun _ => true) = l ∧ l.dropWhile (fun _ => true) = [] := by
    intro l
    induction l with
    | nil => exact ⟨rfl, rfl⟩
    | cons x l ih => exact ⟨by rw [List.takeWhile_cons, if_pos rfl, ih.1], by rw [List.dropWhile_cons, if_pos rfl, ih.2]⟩
  simp [(h1 l).1, (h1 l).2]

/-! ## Examples -/

example : ((run cmpStr (empty []) (calls [.insert [97], .insert [98], .search [97], .update 1 [5, 6], .item 1 2, .item 1 0, .item 1 3, .remove [97], .search [97], .search [98], .num, .insert [97], .cmds])).map fun r => r.1.map Prod.snd) =
    some [.cmd 1, .cmd 2, .cmd 1, .unit, .arg (some 6), .arg none, .arg none, .unit, .cmd 0, .cmd 2, .num 1, .cmd 3, .cmds [2, 3]] := by decide +kernel
/-- A program that updates the command that it got. -/
example : Legal [] (.call (.insert noName) fun | .cmd n => .call (.update n [7]) fun _ => .call (.item n 1) fun _ => .done | _ => .done) := by
  generalize ([] : List (Entry Txt)) = es
  refine ⟨trivial, fun r es' s => ?_⟩
  cases s with
  | @insert _ n _ _ _ =>
    refine ⟨by simp [Op.legal], fun r es'' s => ⟨?_, fun _ _ _ => trivial⟩⟩
    generalize es ++ [(n, noName, [])] = es at s
    cases s with
    | @update a b _ k l _ =>
      show n ∈ (a ++ (n, k, [7]) :: b).map Prod.fst
      simp
/-- A command that was removed. -/
example : (run cmpStr (empty []) (calls [.insert [97], .remove [97], .item 1 1])).isNone := by decide +kernel
example : reload (fun h => ([], h ≠ 3)) [1, 2, 3, 4] = some ([1, 2, 3], false, [1, 2, 3, 4]) ∧ reload (fun h => (if h = 2 then [3] else [], true)) [1, 2, 3, 4] = some ([1, 2, 4], true, [1, 2, 4]) ∧
    reload (fun h => (if h = 2 then [2] else [], true)) [1, 2, 3] = none := by decide +kernel
example : reloadConf (some 1) (some 2) (fun c _ => ([], c = some 2)) [1, 2] = some (some 2, [1, 2], true, [1, 2]) ∧ reloadConf (some 1) none (fun c _ => ([], c = none)) [1, 2] = some (none, [1, 2], true, [1, 2]) := by decide +kernel

end Verif.ConfApi
