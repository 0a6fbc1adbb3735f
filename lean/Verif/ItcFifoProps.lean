import Verif.ItcProps

/-!
# Messages between threads arrive in order
-/
namespace Verif.Itc

/-! ### Putting messages together -/

theorem dec_some {bs : List B} {m : Msg} (h : dec bs = some m) : bs = enc m := by
  unfold dec at h
  split at h
  · cases h
  · split at h
    · cases h; assumption
    · cases h

theorem enc_length (m : Msg) : (enc m).length = W := by simp [enc]

theorem dec_enc (m : Msg) : dec (enc m) = some m := by
  have : enc m = ⟨m, 0⟩ :: (List.range 71).map (fun i => B.mk m (i + 1)) := by
    simp [enc, W, List.range_succ_eq_map]
  unfold dec
  rw [this]
  dsimp only
  rw [← this, if_pos rfl]

/-! ### Two threads -/

/-- What is still to be written of the messages being written. -/
def rest (tx : List (Msg × Nat)) : List B := tx.flatMap fun p => (enc p.1).drop p.2

/-- All that was, is and will be written to a thread, as things are. -/
def stream (t : Th) : List B := t.out ++ rest t.tx ++ t.dest.flatMap fun q => enc q.msg

/-- What matters here of a thread. -/
def view (s : St) (x : Nat) : Option (String × List B × List B × List B) :=
  (s.th x).map fun t => (t.name, t.said, left t.rx, stream t)

/-- `S` are the messages taken from thread `a` (named `na`), `H` those written to or waiting for thread
`b` (named `nb`); those of `H` from `a` are those of `S` for `b`. -/
structure Pair (a b : Nat) (na nb : String) (s : St) (S H : List Msg) : Prop where
  ta : ∃ l st, view s a = some (na, S.flatMap enc ++ l, l, st)
  tb : ∃ sa l, view s b = some (nb, sa, l, H.flatMap enc)
  eq : H.filter (fun m => m.src = some na) = (S.filter (fun m => m.dest = nb)).map fun m => { m with src := some na }
  srch : search s nb = some b
  own : ∀ x t, x ≠ a → s.th x = some t → t.name ≠ na
  nod : s.tree.Nodup
  alv : ∀ y ∈ s.tree, (s.th y).isSome

theorem view_alias {s s' : St} {x : Nat} {t : Th} (h : view s' x = view s x) (ht : s'.th x = some t) : ∃ t0, s.th x = some t0 ∧ t0.name = t.name := by
  unfold view at h
  rw [ht] at h
  cases hs : s.th x with
  | none => rw [hs] at h; cases h
  | some t0 =>
    rw [hs] at h
    simp only [Option.map_some, Option.some.injEq, Prod.mk.injEq] at h
    exact ⟨t0, rfl, h.1.symm⟩

theorem search_congr {s s' : St} (ht : s'.tree = s.tree) (h : ∀ x, (s'.th x).map Th.name = (s.th x).map Th.name) (n : String) : search s' n = search s n := by
  unfold search
  rw [ht]
  congr 1
  funext x
  unfold named
  have := h x
  cases h1 : s.th x <;> cases h2 : s'.th x <;> simp_all

theorem view_alias_map {s s' : St} {x : Nat} (h : view s' x = view s x) : (s'.th x).map Th.name = (s.th x).map Th.name := by
  unfold view at h
  cases h1 : s.th x <;> cases h2 : s'.th x <;> simp_all

/-- Steps that change nothing that matters. -/
theorem pair_same {a b na nb s s' S H} (h : Pair a b na nb s S H) (hv : ∀ x, view s' x = view s x) (ht : s'.tree = s.tree) : Pair a b na nb s' S H := by
  refine ⟨?_, ?_, h.eq, ?_, ?_, by rw [ht]; exact h.nod, ?_⟩
  · rw [hv]; exact h.ta
  · rw [hv]; exact h.tb
  · rw [search_congr ht (fun x => view_alias_map (hv x))]; exact h.srch
  · intro x t hx hst
    obtain ⟨t0, h1, h2⟩ := view_alias (hv x) hst
    rw [← h2]; exact h.own x t0 hx h1
  · intro y hy
    rw [ht] at hy
    have := h.alv y hy
    have e := view_alias_map (hv y)
    cases h1 : s.th y <;> cases h2 : s'.th y <;> simp_all

theorem pair_put {a b na nb s S H} (h : Pair a b na nb s S H) {x : Nat} {t t' : Th} (hx : s.th x = some t)
    (e1 : t'.name = t.name) (e2 : t'.said = t.said) (e3 : left t'.rx = left t.rx) (e4 : stream t' = stream t) : Pair a b na nb (s.put x t') S H := by
  refine pair_same h ?_ rfl
  intro y
  unfold view
  rw [put_th]
  by_cases hy : y = x
  · rw [if_pos hy, hy, hx]; simp [e1, e2, e3, e4]
  · rw [if_neg hy]

theorem pair_live {a b na nb s S H} (h : Pair a b na nb s S H) : (∃ t, s.th a = some t ∧ t.name = na) ∧ (∃ t, s.th b = some t ∧ t.name = nb) := by
  obtain ⟨l, st, h1⟩ := h.ta
  obtain ⟨sa, l', h2⟩ := h.tb
  unfold view at h1 h2
  constructor
  · cases e : s.th a with
    | none => rw [e] at h1; cases h1
    | some t => rw [e] at h1; simp only [Option.map_some, Option.some.injEq, Prod.mk.injEq] at h1; exact ⟨t, rfl, h1.1⟩
  · cases e : s.th b with
    | none => rw [e] at h2; cases h2
    | some t => rw [e] at h2; simp only [Option.map_some, Option.some.injEq, Prod.mk.injEq] at h2; exact ⟨t, rfl, h2.1⟩

/-- A message is taken from thread `x` and goes nowhere. -/
theorem pair_take {a b na nb s S H} (h : Pair a b na nb s S H) {x : Nat} {t : Th} (hx : s.th x = some t) {m : Msg} {rx : List Node}
    (hl : left t.rx = enc m ++ left rx) (hd : x = a → search s m.dest = none) : ∃ S', Pair a b na nb (s.put x { t with rx := rx }) S' H := by
  have hs : ∀ n, search (s.put x { t with rx := rx }) n = search s n := by
    intro n
    refine search_congr (s := s) (s' := s.put x { t with rx := rx }) rfl ?_ n
    intro y; rw [put_th]
    by_cases hy : y = x
    · rw [if_pos hy, hy, hx]; rfl
    · rw [if_neg hy]
  have hown : ∀ y u, y ≠ a → (s.put x { t with rx := rx }).th y = some u → u.name ≠ na := by
    intro y u hy hu
    rw [put_th] at hu
    by_cases hyx : y = x
    · rw [if_pos hyx] at hu; cases hu
      exact h.own x t (hyx ▸ hy) hx
    · rw [if_neg hyx] at hu; exact h.own y u hy hu
  have halv : ∀ y ∈ (s.put x { t with rx := rx }).tree, ((s.put x { t with rx := rx }).th y).isSome := by
    intro y hy
    rw [put_th]
    split
    · rfl
    · exact h.alv y hy
  have hb : ∃ sa l, view (s.put x { t with rx := rx }) b = some (nb, sa, l, H.flatMap enc) := by
    obtain ⟨sa, l, h2⟩ := h.tb
    unfold view at h2 ⊢
    rw [put_th]
    by_cases hbx : b = x
    · rw [if_pos hbx]
      rw [hbx, hx] at h2
      simp only [Option.map_some, Option.some.injEq, Prod.mk.injEq] at h2 ⊢
      exact ⟨_, _, h2.1, rfl, rfl, h2.2.2.2⟩
    · rw [if_neg hbx]; exact ⟨sa, l, h2⟩
  by_cases hxa : x = a
  · refine ⟨S ++ [m], ?_, hb, ?_, by rw [hs]; exact h.srch, hown, h.nod, halv⟩
    · obtain ⟨l, st, h1⟩ := h.ta
      unfold view at h1 ⊢
      rw [← hxa, hx] at h1
      rw [put_th, if_pos hxa.symm]
      simp only [Option.map_some, Option.some.injEq, Prod.mk.injEq] at h1 ⊢
      refine ⟨left rx, stream t, h1.1, ?_, rfl, rfl⟩
      rw [h1.2.1, ← h1.2.2.1, hl, List.flatMap_append, List.append_assoc]
      simp
    · rw [List.filter_append]
      have : m.dest ≠ nb := by
        intro e
        have := hd hxa
        rw [e, h.srch] at this; cases this
      simp [this, h.eq]
  · refine ⟨S, ?_, hb, h.eq, by rw [hs]; exact h.srch, hown, h.nod, halv⟩
    obtain ⟨l, st, h1⟩ := h.ta
    unfold view at h1 ⊢
    rw [put_th, if_neg (Ne.symm hxa)]
    exact ⟨l, st, h1⟩

theorem stream_enq (x y z : Nat) (q : Tmq) (t : Th) : stream (enqF x y q z t) = if z = y then stream t ++ enc q.msg else stream t := by
  unfold stream enqF
  by_cases h : z = y <;> simp [h]

/-- A message is taken from thread `x` and queued for thread `y`. -/
theorem pair_enq {a b na nb s S H} (h : Pair a b na nb s S H) {x y : Nat} {t : Th} (hx : s.th x = some t) {m : Msg} {rx : List Node}
    (hl : left t.rx = enc m ++ left rx) (hy : search s m.dest = some y) (i n : Nat) :
    ∃ S' H', Pair a b na nb { (s.put x { t with rx := rx }).mapTh (enqF x y { id := i, sender := some x, msg := { m with src := some t.name } }) with next := n } S' H' := by
  obtain ⟨u, hu, hua, _⟩ := search_some hy
  generalize hq : ({ id := i, sender := some x, msg := { m with src := some t.name } } : Tmq) = q
  have hqm : q.msg = { m with src := some t.name } := by rw [← hq]
  have hth : ∀ z, ({ (s.put x { t with rx := rx }).mapTh (enqF x y q) with next := n } : St).th z =
      if z = x then some (enqF x y q x { t with rx := rx }) else (s.th z).map (enqF x y q z) := by
    intro z
    simp only [St.mapTh, put_th]
    by_cases hz : z = x
    · simp [hz]
    · simp [hz]
  generalize hs' : ({ (s.put x { t with rx := rx }).mapTh (enqF x y q) with next := n } : St) = s' at hth
  have htree : s'.tree = s.tree := by rw [← hs']; rfl
  have hal : ∀ z, (s'.th z).map Th.name = (s.th z).map Th.name := by
    intro z
    rw [hth]
    by_cases hz : z = x
    · rw [if_pos hz, hz, hx]; rfl
    · rw [if_neg hz]
      cases s.th z <;> rfl
  have hs : ∀ n, search s' n = search s n := search_congr htree hal
  have hown : ∀ z v, z ≠ a → s'.th z = some v → v.name ≠ na := by
    intro z v hz hv
    have e := hal z
    rw [hv] at e
    cases h0 : s.th z with
    | none => rw [h0] at e; cases e
    | some v0 =>
      rw [h0] at e
      simp only [Option.map_some, Option.some.injEq] at e
      rw [e]; exact h.own z v0 hz h0
  have halv : ∀ z ∈ s'.tree, (s'.th z).isSome := by
    intro z hz
    rw [htree] at hz
    have := h.alv z hz
    have e := hal z
    cases h1 : s.th z <;> cases h2 : s'.th z <;> simp_all
  obtain ⟨⟨ta, hta, htaa⟩, tb, htb, htba⟩ := pair_live h
  -- the view of thread b
  have hb : ∃ sa l, view s' b = some (nb, sa, l, (if y = b then H ++ [q.msg] else H).flatMap enc) := by
    obtain ⟨sa, l, h2⟩ := h.tb
    unfold view at h2 ⊢
    rw [hth]
    by_cases hbx : b = x
    · rw [if_pos hbx]
      rw [hbx, hx] at h2
      simp only [Option.map_some, Option.some.injEq, Prod.mk.injEq] at h2 ⊢
      refine ⟨_, _, h2.1, rfl, rfl, ?_⟩
      rw [stream_enq]
      have e : stream { t with rx := rx } = stream t := rfl
      rw [e, h2.2.2.2]
      by_cases hyb : y = b
      · rw [if_pos hyb, if_pos (by rw [hyb, hbx])]; simp
      · rw [if_neg hyb, if_neg (fun e => hyb (by rw [hbx, e]))]
    · rw [if_neg hbx, htb]
      rw [htb] at h2
      simp only [Option.map_some, Option.some.injEq, Prod.mk.injEq] at h2 ⊢
      refine ⟨_, _, h2.1, rfl, rfl, ?_⟩
      rw [stream_enq, h2.2.2.2]
      by_cases hyb : y = b
      · rw [if_pos hyb, if_pos hyb.symm]; simp
      · rw [if_neg hyb, if_neg (Ne.symm hyb)]
  have hdest : m.dest = nb ↔ y = b := by
    constructor
    · intro e; rw [e, h.srch] at hy; exact (Option.some.inj hy).symm
    · intro e; subst e; rw [htb] at hu; cases hu; rw [← hua, htba]
  by_cases hxa : x = a
  · refine ⟨S ++ [m], _, ?_, hb, ?_, by rw [hs]; exact h.srch, hown, by rw [htree]; exact h.nod, halv⟩
    · obtain ⟨l, st, h1⟩ := h.ta
      unfold view at h1 ⊢
      rw [← hxa, hx] at h1
      rw [hth, if_pos hxa.symm]
      simp only [Option.map_some, Option.some.injEq, Prod.mk.injEq] at h1 ⊢
      refine ⟨left rx, _, h1.1, ?_, rfl, rfl⟩
      show t.said = _
      rw [h1.2.1, ← h1.2.2.1, hl, List.flatMap_append, List.append_assoc]
      simp
    · have hta' : t.name = na := by
        rw [hxa, hta] at hx; cases hx; exact htaa
      rw [List.filter_append, List.map_append, ← h.eq]
      by_cases hyb : y = b
      · rw [if_pos hyb, List.filter_append]
        congr 1
        simp [hqm, hta', hdest.2 hyb]
      · rw [if_neg hyb]
        have : ¬ m.dest = nb := fun e => hyb (hdest.1 e)
        simp [this]
  · refine ⟨S, _, ?_, hb, ?_, by rw [hs]; exact h.srch, hown, by rw [htree]; exact h.nod, halv⟩
    · obtain ⟨l, st, h1⟩ := h.ta
      unfold view at h1 ⊢
      rw [hth, if_neg (Ne.symm hxa), hta]
      rw [hta] at h1
      simp only [Option.map_some, Option.some.injEq, Prod.mk.injEq] at h1 ⊢
      exact ⟨l, _, h1.1, h1.2.1, h1.2.2.1, rfl⟩
    · have : t.name ≠ na := h.own x t hxa hx
      by_cases hyb : y = b
      · rw [if_pos hyb, List.filter_append, h.eq]
        simp [hqm, this]
      · rw [if_neg hyb]; exact h.eq

/-- The two together. -/
def Both (a b : Nat) (na nb : String) (s : St) : Prop := Inv s ∧ ∃ S H, Pair a b na nb s S H

theorem process_pair {a b : Nat} {na nb : String} : ∀ (n : Nat) (s : St) (x : Nat) (mem : Mem), (∃ S H, Pair a b na nb s S H) → (x = a → mem = []) → (s.th x).isSome →
    (process n s x mem).Sat fun s => ∃ S H, Pair a b na nb s S H
  | 0, s, x, mem, h, _, _ => h
  | n + 1, s, x, mem, h, hm, hx => by
    rw [process]
    cases ht : s.th x with
    | none => rw [ht] at hx; cases hx
    | some t =>
      dsimp only
      cases hg : getBuf t.rx with
      | none => exact h
      | some p =>
        obtain ⟨bytes, rx⟩ := p
        dsimp only
        cases hd : dec bytes with
        | none => exact True.intro
        | some m =>
          dsimp only
          obtain ⟨S, H, hp⟩ := h
          have hl : left t.rx = enc m ++ left rx := by
            rw [(getBuf_some hg).1, dec_some hd]
          have hx' : (s.put x { t with rx := rx }).th x = some { t with rx := rx } := by simp [put_th]
          have hsr : ∀ n, search (s.put x { t with rx := rx }) n = search s n := by
            intro n
            refine search_congr (s := s) (s' := s.put x { t with rx := rx }) rfl ?_ n
            intro y; rw [put_th]
            by_cases hy : y = x
            · rw [if_pos hy, hy, ht]; rfl
            · rw [if_neg hy]
          have drop : ∀ mem', (x = a → mem' = []) → (x = a → search s m.dest = none) →
              (process n (s.put x { t with rx := rx }) x mem').Sat (fun s => ∃ S H, Pair a b na nb s S H) := by
            intro mem' hm' hn
            obtain ⟨S', hp'⟩ := pair_take hp ht hl hn
            exact process_pair n _ x mem' ⟨S', H, hp'⟩ hm' (by rw [hx']; rfl)
          unfold route
          have pop : ∀ mem : Mem, (x = a → mem = []) → (x = a → mem.pop = (true, [])) := by
            intro mem h e; rw [h e]; rfl
          have h1 := pop mem hm
          rcases hmp : mem.pop with ⟨b1, mem1⟩
          rw [hmp] at h1
          cases b1 with
          | false => exact drop mem1 (fun e => by cases h1 e) (fun e => by cases h1 e)
          | true =>
            dsimp only
            have h2 := pop mem1 (fun e => by cases h1 e; rfl)
            rcases hmp2 : mem1.pop with ⟨b2, mem2⟩
            rw [hmp2] at h2
            cases b2 with
            | false => exact drop mem2 (fun e => by cases h2 e) (fun e => by cases h2 e)
            | true =>
              dsimp only
              rw [hx']
              dsimp only
              rw [hsr]
              cases hse : search s m.dest with
              | none => exact drop mem2 (fun e => by cases h2 e; rfl) (fun _ => hse)
              | some y =>
                obtain ⟨u, hu, _, _⟩ := search_some hse
                have hu' : ∃ u', (s.put x { t with rx := rx }).th y = some u' := by
                  rw [put_th]; split
                  · exact ⟨_, rfl⟩
                  · exact ⟨u, hu⟩
                obtain ⟨u', hu'⟩ := hu'
                dsimp only
                rw [enqueue_eq hx' hu', bind_ok, bind_ok]
                refine process_pair n _ x mem2 ?_ (fun e => by cases h2 e; rfl) ?_
                · exact pair_enq hp ht hl hse _ _
                · simp [St.mapTh, put_th]

theorem find_erase {p p' : Nat → Bool} {b x : Nat} : ∀ (l : List Nat), l.find? p = some b → b ≠ x → (∀ y, y ∈ l → p' y = true → p y = true) → p' b = true →
    (l.erase x).find? p' = some b
  | [], h, _, _, _ => by cases h
  | y :: l, h, hb, hp, hpb => by
    rw [List.erase_cons]
    by_cases hy : p y = true
    · rw [List.find?_cons_of_pos hy] at h
      cases h
      have : (b == x) = false := by simpa using hb
      rw [this]
      simp [hpb]
    · have hy' : p y = false := by simpa using hy
      rw [List.find?_cons_of_neg (by simp [hy'])] at h
      have hpy : p' y = false := by
        cases e : p' y with
        | false => rfl
        | true => exact absurd (hp y List.mem_cons_self e) hy
      by_cases hyx : (y == x) = true
      · rw [if_pos hyx]
        have key : ∀ l : List Nat, l.find? p = some b → (∀ y, y ∈ l → p' y = true → p y = true) → l.find? p' = some b := by
          intro l
          induction l with
          | nil => intro h; cases h
          | cons z l ih =>
            intro h hq
            by_cases hz : p z = true
            · rw [List.find?_cons_of_pos hz] at h; cases h
              rw [List.find?_cons_of_pos hpb]
            · rw [List.find?_cons_of_neg hz] at h
              have : p' z = false := by
                cases e : p' z with
                | false => rfl
                | true => exact absurd (hq z List.mem_cons_self e) hz
              rw [List.find?_cons_of_neg (by simp [this])]
              exact ih h (fun w hw => hq w (List.mem_cons_of_mem _ hw))
        exact key l h (fun w hw => hp w (List.mem_cons_of_mem _ hw))
      · rw [if_neg hyx, List.find?_cons_of_neg (by simp [hpy])]
        exact find_erase l h hb (fun w hw => hp w (List.mem_cons_of_mem _ hw)) hpb

/-- The end of another thread does not matter. -/
theorem exit_pair {a b : Nat} {na nb : String} {s : St} {S H : List Msg} (h : Pair a b na nb s S H) (hc : Chains s.core s.next) {x : Nat} {t : Th} (hx : s.th x = some t) (hxa : x ≠ a) (hxb : x ≠ b)
    (again : Bool) : (exit s x again).Sat fun s' => Pair a b na nb s' S H := by
  unfold exit
  rw [hx]
  dsimp only
  refine sat_bind (fun _ => True) ?_ ?_
  · generalize t.rx = l
    induction l with
    | nil => exact True.intro
    | cons n r ih => unfold release; split; exact ih; exact True.intro
  · intro _ _
    obtain ⟨s', e1, e2, e3, t', e4, e5, e6⟩ := clearQueue_sat (s := { s with tree := s.tree.erase x }) (a := x) (t := t) hc hx
    rw [e1, bind_ok, e4]
    dsimp only
    have hview : ∀ y, y ≠ x → view s' y = view s y := by
      intro y hy
      unfold view
      cases hs : s.th y with
      | none => rw [e3.none y hs]
      | some v =>
        obtain ⟨v', f1, f2, f3, f4, f5, f6, f7, f8, f9⟩ := e3.some y v hs
        rw [f1]
        have : v'.dest.flatMap (fun q => enc q.msg) = v.dest.flatMap fun q => enc q.msg := by
          have g : ∀ l : List Tmq, l.flatMap (fun q => enc q.msg) = (l.map Tmq.msg).flatMap enc := by
            intro l; rw [List.flatMap_map]
          rw [g, g, f9 hy]
        simp only [Option.map_some, Option.some.injEq, Prod.mk.injEq]
        refine ⟨f2, f8, by rw [f4], ?_⟩
        unfold stream
        rw [f7, f5, this]
    obtain ⟨⟨ta, hta, htaa⟩, tb, htb, htba⟩ := pair_live h
    -- any end state that agrees with s' on the others
    have fin : ∀ s2 : St, (∀ y, y ≠ x → s2.th y = s'.th y) → (∀ u, s2.th x = some u → u.name = t.name) →
        (s2.tree = s.tree.erase x ∨ (s2.tree = s.tree.erase x ++ [x] ∧ (s2.th x).isSome)) → Pair a b na nb s2 S H := by
      intro s2 hothers hself htree
      have hv : ∀ y, y ≠ x → view s2 y = view s y := by
        intro y hy
        rw [← hview y hy]
        unfold view
        rw [hothers y hy]
      have hsub : ∀ y, named s2 nb y = true → named s nb y = true := by
        intro y hy
        unfold named at *
        by_cases hyx : y = x
        · subst hyx
          cases h2 : s2.th y with
          | none => rw [h2] at hy; cases hy
          | some u =>
            rw [h2] at hy
            rw [hx]
            dsimp only at hy ⊢
            rw [← hself u h2]; exact hy
        · have := view_alias_map (hv y hyx)
          cases h1 : s.th y <;> cases h2 : s2.th y <;> simp_all
      have hpb : named s2 nb b = true := by
        unfold named
        have := view_alias_map (hv b (Ne.symm hxb))
        rw [htb] at this
        cases h2 : s2.th b with
        | none => rw [h2] at this; cases this
        | some u => rw [h2] at this; simp at this; simp [this, htba]
      have hfind : (s.tree.erase x).find? (named s2 nb) = some b :=
        find_erase s.tree h.srch (Ne.symm hxb) (fun y _ => hsub y) hpb
      refine ⟨by rw [hv a (Ne.symm hxa)]; exact h.ta, by rw [hv b (Ne.symm hxb)]; exact h.tb, h.eq, ?_, ?_, ?_, ?_⟩
      · unfold search
        rcases htree with e | ⟨e, _⟩
        · rw [e]; exact hfind
        · rw [e, List.find?_append, hfind]; rfl
      · intro y u hy hu
        by_cases hyx : y = x
        · subst hyx
          rw [hself u hu]
          exact h.own y t hxa hx
        · obtain ⟨u0, g1, g2⟩ := view_alias (hv y hyx) hu
          rw [← g2]; exact h.own y u0 hy g1
      · have hne : (s.tree.erase x).Nodup := h.nod.erase x
        rcases htree with e | ⟨e, _⟩
        · rw [e]; exact hne
        · rw [e, List.nodup_append]
          refine ⟨hne, by simp, ?_⟩
          intro y hy z hz
          simp at hz
          subst hz
          rw [h.nod.mem_erase_iff] at hy
          exact hy.1
      · intro y hy
        by_cases hyx : y = x
        · rcases htree with e | ⟨e, he⟩
          · rw [e, h.nod.mem_erase_iff] at hy
            exact absurd hyx hy.1
          · rw [hyx]; exact he
        · have hy' : y ∈ s.tree := by
            rcases htree with e | ⟨e, _⟩ <;> rw [e] at hy
            · exact List.mem_of_mem_erase hy
            · rcases List.mem_append.1 hy with hy | hy
              · exact List.mem_of_mem_erase hy
              · exact absurd (by simpa using hy) hyx
          have := h.alv y hy'
          have e := view_alias_map (hv y hyx)
          cases h1 : s.th y <;> cases h2 : s2.th y <;> simp_all
    obtain ⟨t2, g1, g2, _⟩ := e3.some x t hx
    rw [e4] at g1; cases g1
    split
    · refine fin _ ?_ ?_ (Or.inr ⟨?_, ?_⟩)
      · intro y hy; simp [put_th, hy]
      · intro u hu; simp [put_th] at hu; rw [← hu]; exact g2
      · show s'.tree ++ [x] = _
        rw [e3.tree]
      · simp [put_th]
    · refine fin _ ?_ ?_ (Or.inl ?_)
      · intro y hy; simp [upd, hy]
      · intro u hu; simp [upd] at hu
      · exact e3.tree

theorem view_pop {s : St} {x : Nat} {q : Tmq} {r : List Tmq} {y : Nat} (hy : y ≠ x) : view (s.mapTh (popF x q r)) y = view s y := by
  have e : (s.mapTh (popF x q r)).th y = (s.th y).map (popF x q r y) := rfl
  unfold view
  rw [e]
  cases s.th y with
  | none => rfl
  | some t => simp [popF, hy, stream]

theorem send_pair {a b : Nat} {na nb : String} : ∀ (n : Nat) (s : St) (x : Nat) (t : Th) (outs : List Out) (renew : Bool) (mem : Mem), Chains s.core s.next →
    (∃ S H, Pair a b na nb s S H) → s.th x = some t → t.tx.length ≤ 1 → (x = b → mem = []) → (x = a ∨ x = b → Out.error ∉ outs) →
    (send n s x outs renew mem).Sat fun s' => ∃ S H, Pair a b na nb s' S H
  | 0, s, x, t, outs, renew, mem, h, hp, hx, hl, hm, ho => hp
  | n + 1, s, x, t, outs, renew, mem, h, hp, hx, hl, hm, ho => by
    rw [send.eq_def]
    dsimp only
    rw [hx]
    dsimp only
    obtain ⟨S, H, hp⟩ := hp
    cases htx : t.tx with
    | cons p r =>
      obtain ⟨m, k⟩ := p
      have hr : r = [] := by rw [htx] at hl; simp at hl; exact hl
      subst hr
      dsimp only
      have go : ∀ outs, (x = a ∨ x = b → Out.error ∉ outs) → (send n (s.put x { t with tx := [], out := t.out ++ (enc m).drop k }) x outs renew mem).Sat fun s' => ∃ S H, Pair a b na nb s' S H := by
        intro outs ho
        refine send_pair n _ x { t with tx := [], out := t.out ++ (enc m).drop k } outs renew mem ?_ ⟨S, H, ?_⟩ (by simp [put_th]) (by simp) hm ho
        · rw [core_put s x t { t with tx := [], out := t.out ++ (enc m).drop k } hx rfl rfl]; exact h
        · refine pair_put hp hx rfl rfl rfl ?_
          simp [stream, rest, htx]
      cases outs with
      | nil => exact go [] (by simp)
      | cons o outs =>
        have ho' : x = a ∨ x = b → Out.error ∉ outs := fun e c => ho e (List.mem_cons_of_mem _ c)
        cases o with
        | full => exact go outs ho'
        | part j =>
          refine ⟨S, H, pair_put hp hx rfl rfl rfl ?_⟩
          simp only [stream, rest, htx, List.flatMap_cons, List.flatMap_nil, List.append_nil, List.append_assoc]
          rw [← List.drop_drop, ← List.append_assoc (List.take _ _), List.take_append_drop]
        | error =>
          by_cases hab : x = a ∨ x = b
          · exact absurd List.mem_cons_self (ho hab)
          · have hxa : x ≠ a := fun e => hab (Or.inl e)
            have hxb : x ≠ b := fun e => hab (Or.inr e)
            exact sat_mono (exit_pair hp h hx hxa hxb renew) fun s' e => ⟨S, H, e⟩
    | nil =>
      dsimp only
      cases hd : t.dest with
      | nil => exact ⟨S, H, hp⟩
      | cons q r =>
        dsimp only
        rw [popHead_eq h hx hd, bind_ok]
        have hpc := pop_chains h hx hd
        have hx' : (s.mapTh (popF x q r)).th x = some (popF x q r x t) := by simp [St.mapTh, hx]
        rw [hx']
        dsimp only
        have htx' : (popF x q r x t).tx = [] := by simp [popF, htx]
        have h1 : x = b → mem.pop = (true, []) := by intro e; rw [hm e]; rfl
        rcases hmp : mem.pop with ⟨b1, mem1⟩
        rw [hmp] at h1
        cases b1 with
        | false =>
          have hxb : x ≠ b := fun e => by cases h1 e
          refine send_pair n _ x (popF x q r x t) outs renew mem1 hpc ⟨S, H, ?_⟩ hx' (by rw [htx']; simp) (fun e => absurd e hxb) ho
          -- another thread loses a message
          have hal : ∀ z, ((s.mapTh (popF x q r)).th z).map Th.name = (s.th z).map Th.name := by
            intro z; simp only [St.mapTh]; cases s.th z <;> rfl
          refine ⟨?_, by rw [view_pop (Ne.symm hxb)]; exact hp.tb, hp.eq, by rw [search_congr (s := s) (s' := s.mapTh (popF x q r)) rfl hal]; exact hp.srch, ?_, hp.nod, ?_⟩
          · obtain ⟨l, st, e⟩ := hp.ta
            by_cases hax : a = x
            · subst hax
              unfold view at e ⊢
              rw [hx] at e
              rw [hx']
              simp only [Option.map_some, Option.some.injEq, Prod.mk.injEq] at e ⊢
              exact ⟨l, _, e.1, e.2.1, e.2.2.1, rfl⟩
            · rw [view_pop hax]; exact ⟨l, st, e⟩
          · intro z v hz hv
            have e := hal z
            rw [hv] at e
            cases h0 : s.th z with
            | none => rw [h0] at e; cases e
            | some v0 =>
              rw [h0] at e
              simp only [Option.map_some, Option.some.injEq] at e
              rw [e]; exact hp.own z v0 hz h0
          · intro z hz
            have := hp.alv z hz
            have e := hal z
            cases g1 : s.th z <;> cases g2 : (s.mapTh (popF x q r)).th z <;> simp_all
        | true =>
          refine send_pair n _ x { popF x q r x t with tx := [(q.msg, 0)] } outs renew mem1 ?_ ⟨S, H, ?_⟩ (by simp [put_th]) (by simp) (fun e => by cases h1 e; rfl) ho
          · rw [core_put (s.mapTh (popF x q r)) x (popF x q r x t) { popF x q r x t with tx := [(q.msg, 0)] } hx' rfl rfl]; exact hpc
          · refine pair_same hp ?_ rfl
            intro y
            by_cases hy : y = x
            · subst hy
              unfold view
              rw [put_th, if_pos rfl, hx]
              simp [popF, stream, rest, htx, hd]
            · rw [← view_pop (s := s) (q := q) (r := r) hy]
              unfold view
              rw [put_th, if_neg hy]

/-- Neither of the two threads ends, no other one bears the name of the first, and there is memory for
the messages of the first and for the second. -/
def Fair (a b : Nat) (na : String) : Ev → Prop
  | .recv x _ e _ mem => (x = a → mem = []) ∧ (x = a ∨ x = b → e = .again)
  | .send x outs _ mem => (x = b → mem = []) ∧ (x = a ∨ x = b → Out.error ∉ outs)
  | .create _ al _ => al ≠ na

theorem find_congr {p p' : Nat → Bool} : ∀ (l : List Nat), (∀ y ∈ l, p y = p' y) → l.find? p = l.find? p'
  | [], _ => rfl
  | y :: l, h => by
    rw [List.find?_cons, List.find?_cons, h y List.mem_cons_self, find_congr l fun z hz => h z (List.mem_cons_of_mem _ hz)]

theorem step_pair {a b : Nat} {na nb : String} (s : St) (e : Ev) (h : Both a b na nb s) (hf : Fair a b na e) : (step s e).Sat (Both a b na nb) := by
  have hinv := step_sat s e h.1
  obtain ⟨hi, S, H, hp⟩ := h
  suffices hs : (step s e).Sat fun s' => ∃ S H, Pair a b na nb s' S H by
    cases hr : step s e with
    | ub => rw [hr] at hs; exact hs
    | garbage => exact True.intro
    | ok s' => rw [hr] at hs hinv; exact ⟨hinv, hs⟩
  cases e with
  | recv x pieces e renew mem =>
    unfold step
    dsimp only
    split
    · rename_i hsx
      unfold recv
      cases hx : s.th x with
      | none => rw [hx] at hsx; cases hsx
      | some t =>
        dsimp only
        generalize ht' : ({ t with rx := t.rx ++ pieces.map fun p => { data := p, used := 0 }, said := t.said ++ pieces.flatten } : Th) = t'
        have hleft : left t'.rx = left t.rx ++ pieces.flatten := by
          rw [← ht']
          simp only [left, List.flatMap_append]
          congr 1
          rw [List.flatMap_map]
          simp [Node.left, List.flatMap_id']
        have hc' : Chains (s.put x t').core (s.put x t').next := by
          rw [core_put s x t t' hx (by rw [← ht']) (by rw [← ht'])]; exact hi.chains
        have hal : ∀ z, ((s.put x t').th z).map Th.name = (s.th z).map Th.name := by
          intro z; rw [put_th]
          by_cases hz : z = x
          · rw [if_pos hz, hz, hx, ← ht']; rfl
          · rw [if_neg hz]
        have hp' : Pair a b na nb (s.put x t') S H := by
          refine ⟨?_, ?_, hp.eq, by rw [search_congr (s := s) (s' := s.put x t') rfl hal]; exact hp.srch, ?_, hp.nod, ?_⟩
          · obtain ⟨l, st, e⟩ := hp.ta
            unfold view at e ⊢
            rw [put_th]
            by_cases hax : a = x
            · rw [if_pos hax]
              rw [hax, hx] at e
              simp only [Option.map_some, Option.some.injEq, Prod.mk.injEq] at e ⊢
              refine ⟨l ++ pieces.flatten, st, ?_, ?_, ?_, ?_⟩
              · rw [← ht']; exact e.1
              · rw [← ht', ← List.append_assoc, ← e.2.1]
              · rw [hleft, e.2.2.1]
              · rw [← ht']; exact e.2.2.2
            · rw [if_neg hax]; exact ⟨l, st, e⟩
          · obtain ⟨sa, l, e⟩ := hp.tb
            unfold view at e ⊢
            rw [put_th]
            by_cases hbx : b = x
            · rw [if_pos hbx]
              rw [hbx, hx] at e
              simp only [Option.map_some, Option.some.injEq, Prod.mk.injEq] at e ⊢
              refine ⟨_, _, ?_, rfl, rfl, ?_⟩
              · rw [← ht']; exact e.1
              · rw [← ht']; exact e.2.2.2
            · rw [if_neg hbx]; exact ⟨sa, l, e⟩
          · intro z v hz hv
            have e := hal z
            rw [hv] at e
            cases h0 : s.th z with
            | none => rw [h0] at e; cases e
            | some v0 =>
              rw [h0] at e
              simp only [Option.map_some, Option.some.injEq] at e
              rw [e]; exact hp.own z v0 hz h0
          · intro z hz
            have := hp.alv z hz
            have e := hal z
            cases g1 : s.th z <;> cases g2 : (s.put x t').th z <;> simp_all
        have hx' : (s.put x t').th x = some t' := by simp [put_th]
        have out : ∀ e', e' ≠ End.again → e = e' → (exit (s.put x t') x renew).Sat fun s' => ∃ S H, Pair a b na nb s' S H := by
          intro e' hne he
          have hxa : x ≠ a := fun c => hne (by rw [← he]; exact hf.2 (Or.inl c))
          have hxb : x ≠ b := fun c => hne (by rw [← he]; exact hf.2 (Or.inr c))
          exact sat_mono (exit_pair hp' hc' hx' hxa hxb renew) fun s' e => ⟨S, H, e⟩
        cases e with
        | again => exact process_pair _ _ x mem ⟨S, H, hp'⟩ hf.1 (by rw [hx']; rfl)
        | closed => exact out .closed (by simp) rfl
        | error => exact out .error (by simp) rfl
    · exact ⟨S, H, hp⟩
  | send x outs renew mem =>
    unfold step
    dsimp only
    cases hx : s.th x with
    | none => exact ⟨S, H, hp⟩
    | some t =>
      dsimp only
      split
      · unfold sendEv
        rw [hx]
        dsimp only
        refine send_pair _ _ x { t with armed := false } outs renew mem ?_ ⟨S, H, ?_⟩ (by simp [put_th]) (hi.live x t (by simp) hx).1 hf.1 hf.2
        · rw [core_put s x t { t with armed := false } hx rfl rfl]; exact hi.chains
        · exact pair_put hp hx rfl rfl rfl rfl
      · exact ⟨S, H, hp⟩
  | create x al rs =>
    unfold step
    dsimp only
    split
    · exact ⟨S, H, hp⟩
    · rename_i hs
      have hn : s.th x = none := by
        cases hx : s.th x with
        | none => rfl
        | some t => rw [hx] at hs; simp at hs
      obtain ⟨⟨ta, hta, htaa⟩, tb, htb, htba⟩ := pair_live hp
      have hxa : x ≠ a := fun e => by rw [e, hta] at hn; cases hn
      have hxb : x ≠ b := fun e => by rw [e, htb] at hn; cases hn
      have hxt : x ∉ s.tree := fun c => by have := hp.alv x c; rw [hn] at this; cases this
      have hv : ∀ y, y ≠ x → view ({ s.put x { name := al, restart := rs } with tree := s.tree ++ [x] } : St) y = view s y := by
        intro y hy; unfold view; simp [put_th, hy]
      refine ⟨S, H, by rw [hv a (Ne.symm hxa)]; exact hp.ta, by rw [hv b (Ne.symm hxb)]; exact hp.tb, hp.eq, ?_, ?_, ?_, ?_⟩
      · have := hp.srch
        unfold search at this ⊢
        rw [List.find?_append]
        have e : s.tree.find? (named { s.put x { name := al, restart := rs } with tree := s.tree ++ [x] } nb) = some b := by
          rw [← this]
          apply find_congr
          intro y hy
          have : y ≠ x := fun e => hxt (e ▸ hy)
          simp [named, put_th, this]
        rw [e]; rfl
      · intro y u hy hu
        simp only [put_th] at hu
        by_cases hyx : y = x
        · rw [if_pos hyx] at hu; cases hu
          exact hf
        · rw [if_neg hyx] at hu
          exact hp.own y u hy hu
      · rw [List.nodup_append]
        refine ⟨hp.nod, by simp, ?_⟩
        intro y hy z hz e
        simp at hz
        exact hxt (by rw [← hz, ← e]; exact hy)
      · intro y hy
        simp only [put_th]
        split
        · rfl
        · rename_i hyx
          rcases List.mem_append.1 hy with hy | hy
          · exact hp.alv y hy
          · exact absurd (by simpa using hy) hyx

theorem run_pair {a b : Nat} {na nb : String} : ∀ (es : List Ev) (s : St), Both a b na nb s → (∀ e ∈ es, Fair a b na e) → (run s es).Sat (Both a b na nb)
  | [], _, h, _ => h
  | e :: es, s, h, hf => sat_bind _ (step_pair s e h (hf e List.mem_cons_self)) fun s' h' => run_pair es s' h' fun e he => hf e (List.mem_cons_of_mem _ he)

/-! ### The theorems -/

/-- A thread that nothing was read from or written to. -/
structure Fresh (t : Th) : Prop where
  rx : t.rx = []
  tx : t.tx = []
  dest : t.dest = []
  out : t.out = []
  said : t.said = []

/-- Let `a` be the only thread of its name and `b` the one its name finds, both of them just made, at any
time.  Whatever happens then — other threads may start, send, fail and end, allocations may fail for
them — as long as `a` and `b` go on and the allocations for `a`'s messages to go in and for `b`'s to go out
succeed: of what `a` has written, all whole messages `S` were taken; what `b` was written and is going to be
written are whole messages `H`; and those in `H` that bear `a`'s name as their sender are exactly those
in `S` for `b`, each of them once, in their order, and nothing but `src` is different. -/
theorem itc_fifo {es0 es : List Ev} {s0 s : St} {a b : Nat} {ta tb : Th} (h0 : run St.init es0 = .ok s0)
    (ha : s0.th a = some ta) (hb : s0.th b = some tb) (fa : Fresh ta) (fb : Fresh tb) (hs : search s0 tb.name = some b)
    (own : ∀ x t, x ≠ a → s0.th x = some t → t.name ≠ ta.name) (hf : ∀ e ∈ es, Fair a b ta.name e) (h : run s0 es = .ok s) :
    ∃ (ta' tb' : Th) (S H : List Msg) (l : List B), s.th a = some ta' ∧ s.th b = some tb' ∧ ta'.said = S.flatMap enc ++ l ∧ l.length < W ∧ stream tb' = H.flatMap enc ∧
      H.filter (fun m => m.src = some ta.name) = (S.filter (fun m => m.dest = tb.name)).map fun m => { m with src := some ta.name } := by
  have hi0 := run_sat es0 St.init inv_init
  rw [h0] at hi0
  have hi : InvE [] [] s0 := hi0
  have hp : Pair a b ta.name tb.name s0 [] [] := by
    refine ⟨⟨[], stream ta, ?_⟩, ⟨tb.said, left tb.rx, ?_⟩, rfl, hs, own, hi.nod, hi.alv⟩
    · simp [view, ha, fa.said, fa.rx, left]
    · simp [view, hb, stream, fb.out, fb.tx, fb.dest, rest]
  have := run_pair es s0 ⟨hi, [], [], hp⟩ hf
  rw [h] at this
  obtain ⟨hi', S, H, hp'⟩ := this
  obtain ⟨l, st, e1⟩ := hp'.ta
  obtain ⟨sa, l', e2⟩ := hp'.tb
  unfold view at e1 e2
  cases g1 : s.th a with
  | none => rw [g1] at e1; cases e1
  | some ta' =>
    cases g2 : s.th b with
    | none => rw [g2] at e2; cases e2
    | some tb' =>
      rw [g1] at e1; rw [g2] at e2
      simp only [Option.map_some, Option.some.injEq, Prod.mk.injEq] at e1 e2
      refine ⟨ta', tb', S, H, l, rfl, rfl, e1.2.1, ?_, e2.2.2.2, hp'.eq⟩
      have := hi'.short a ta' (by simp) g1
      unfold Short at this
      rw [total_eq, e1.2.2.1] at this
      exact this

theorem enc_inj {m m' : Msg} (h : enc m = enc m') : m = m' := by
  have := dec_enc m
  rw [h, dec_enc] at this
  exact (Option.some.inj this).symm

theorem flat_inj : ∀ (S S' : List Msg) (l : List B), l.length < W → S.flatMap enc ++ l = S'.flatMap enc → S = S' ∧ l = []
  | [], [], l, _, h => by simpa using h
  | [], m :: S', l, hl, h => by
    have := congrArg List.length h
    simp [enc_length] at this
    omega
  | m :: S, [], l, hl, h => by
    have := congrArg List.length h
    simp [enc_length, W] at this
  | m :: S, m' :: S', l, hl, h => by
    rw [List.flatMap_cons, List.flatMap_cons, List.append_assoc] at h
    obtain ⟨h1, h2⟩ := List.append_inj h (by rw [enc_length, enc_length])
    obtain ⟨h3, h4⟩ := flat_inj S S' l hl h2
    exact ⟨by rw [enc_inj h1, h3], h4⟩

/-- If `a` wrote the messages `S`, and nothing is left to be written to `b`, then `b` was written whole
messages `H`, and those from `a` are those of `S` for `b`. -/
theorem itc_delivered {es0 es : List Ev} {s0 s : St} {a b : Nat} {ta tb ta' tb' : Th} {S : List Msg} (h0 : run St.init es0 = .ok s0)
    (ha : s0.th a = some ta) (hb : s0.th b = some tb) (fa : Fresh ta) (fb : Fresh tb) (hs : search s0 tb.name = some b)
    (own : ∀ x t, x ≠ a → s0.th x = some t → t.name ≠ ta.name) (hf : ∀ e ∈ es, Fair a b ta.name e) (h : run s0 es = .ok s)
    (ha' : s.th a = some ta') (hb' : s.th b = some tb') (hS : ta'.said = S.flatMap enc) (ht : tb'.tx = []) (hd : tb'.dest = []) :
    ∃ H : List Msg, tb'.out = H.flatMap enc ∧
      H.filter (fun m => m.src = some ta.name) = (S.filter (fun m => m.dest = tb.name)).map fun m => { m with src := some ta.name } := by
  obtain ⟨ua, ub, S', H, l, e1, e2, e3, e4, e5, e6⟩ := itc_fifo h0 ha hb fa fb hs own hf h
  rw [ha'] at e1; cases e1
  rw [hb'] at e2; cases e2
  rw [hS] at e3
  obtain ⟨e7, _⟩ := flat_inj S' S l e4 e3.symm
  subst e7
  refine ⟨H, ?_, e6⟩
  rw [← e5]
  simp [stream, ht, hd, rest]

/-- A message for the thread at address 7 and one for the one at 9, in three pieces; the thread at 9 reads
slowly; another thread ends in between. -/
def es0 : List Ev := [.create 7 "a" false, .create 8 "x" true, .create 9 "b" false]

def m1 : Msg := ⟨"b", none, 1⟩

def m2 : Msg := ⟨"a", none, 2⟩

def m3 : Msg := ⟨"b", some "liar", 3⟩

def es1 : List Ev :=
  let l := enc m1 ++ enc m2 ++ enc m3
  [.recv 7 [l.take 50, (l.drop 50).take 40] .again false [], .recv 8 [enc ⟨"b", none, 4⟩] .again false [],
   .send 9 [.part 30] false [], .recv 8 [] .closed true [], .recv 7 [l.drop 90] .again false [], .send 9 [] false []]

def outOf (x : M St) (a : Nat) : Option (List B × List B) :=
  match x with
  | .ok s => (s.th a).map fun t => (t.said, t.out)
  | _ => none

example : outOf (run St.init (es0 ++ es1)) 9 = some ([], enc ⟨"b", some "a", 1⟩ ++ enc ⟨"b", some "x", 4⟩ ++ enc ⟨"b", some "a", 3⟩) := by decide +kernel

example : outOf (run St.init (es0 ++ es1)) 7 = some (enc m1 ++ enc m2 ++ enc m3, []) := by decide +kernel

example : ∀ e ∈ es1, Fair 7 9 "a" e := by simp [es1, Fair]

/-! ### Nothing but messages is taken for messages -/

/-- The beginning of a sequence of messages. -/
def Clean (l : List B) : Prop := ∃ ms : List Msg, l <+: ms.flatMap enc

/-- `P` of the state after, or `G` if garbage was taken for a message. -/
def M.SatG (x : M St) (P : St → Prop) (G : Prop) : Prop :=
  match x with
  | .ub => True
  | .garbage => G
  | .ok s => P s

/-- What was taken from a thread are whole messages. -/
def Al (s : St) : Prop := ∀ x t, s.th x = some t → ∃ S : List Msg, t.said = S.flatMap enc ++ left t.rx

theorem al_put {s : St} (h : Al s) {a : Nat} {t' : Th} (ht : ∃ S : List Msg, t'.said = S.flatMap enc ++ left t'.rx) : Al (s.put a t') := by
  intro x u hu
  rw [put_th] at hu
  by_cases hx : x = a
  · rw [if_pos hx] at hu; cases hu; exact ht
  · rw [if_neg hx] at hu; exact h x u hu

theorem al_map {s : St} (h : Al s) {f : Nat → Th → Th} (h1 : ∀ x t, (f x t).said = t.said) (h2 : ∀ x t, (f x t).rx = t.rx) : Al (s.mapTh f) := by
  intro x u hu
  simp only [St.mapTh] at hu
  cases hx : s.th x with
  | none => rw [hx] at hu; cases hu
  | some w =>
    rw [hx] at hu; cases hu
    rw [h1, h2]; exact h x w hx

theorem clean_take : ∀ (S : List Msg) (bs r : List B), Clean (S.flatMap enc ++ bs ++ r) → bs.length = W → (dec bs).isSome
  | [], bs, r, ⟨ms, hms⟩, hb => by
    cases ms with
    | nil =>
      have := hms.length_le
      simp [W] at hb this
      rw [this.1] at hb
      cases hb
    | cons m ms =>
      obtain ⟨w, hw⟩ := hms
      rw [List.flatMap_nil, List.nil_append, List.append_assoc, List.flatMap_cons] at hw
      obtain ⟨h1, _⟩ := List.append_inj hw (by rw [hb, enc_length])
      rw [h1, dec_enc]; rfl
  | m' :: S, bs, r, ⟨ms, hms⟩, hb => by
    cases ms with
    | nil =>
      have := hms.length_le
      simp [enc_length, W] at this
    | cons m ms =>
      obtain ⟨w, hw⟩ := hms
      rw [List.flatMap_cons, List.flatMap_cons] at hw
      simp only [List.append_assoc] at hw
      obtain ⟨_, h2⟩ := List.append_inj hw (by rw [enc_length, enc_length])
      refine clean_take S bs r ⟨ms, w, ?_⟩ hb
      simp only [List.append_assoc]
      exact h2

theorem process_al : ∀ (n : Nat) (s : St) (a : Nat) (t : Th) (mem : Mem), Al s → s.th a = some t → (process n s a mem).SatG Al (¬Clean t.said)
  | 0, s, a, t, mem, h, _ => h
  | n + 1, s, a, t, mem, h, ht => by
    rw [process, ht]
    dsimp only
    cases hg : getBuf t.rx with
    | none => exact h
    | some p =>
      obtain ⟨bytes, rx⟩ := p
      dsimp only
      obtain ⟨S, hS⟩ := h a t ht
      obtain ⟨hl, hw⟩ := getBuf_some hg
      cases hd : dec bytes with
      | none =>
        intro hc
        rw [hS, hl, ← List.append_assoc] at hc
        have := clean_take S bytes _ hc hw
        rw [hd] at this; cases this
      | some m =>
        dsimp only
        have hal : Al (s.put a { t with rx := rx }) := by
          refine al_put h ⟨S ++ [m], ?_⟩
          show t.said = _
          rw [hS, hl, dec_some hd]
          simp
        have ht' : (s.put a { t with rx := rx }).th a = some { t with rx := rx } := by simp [put_th]
        rcases route_cases ht' m mem with ⟨mem', e, _⟩ | ⟨mem', b, u, e, _, _, hu⟩
        · rw [e, bind_ok]
          exact process_al n _ a { t with rx := rx } mem' hal ht'
        · rw [e, bind_ok]
          have := al_map hal (f := enqF a b { id := (s.put a { t with rx := rx }).next, sender := some a, msg := { m with src := some t.name } }) (fun _ _ => rfl) (fun _ _ => rfl)
          exact process_al n { ((s.put a { t with rx := rx }).mapTh (enqF a b { id := (s.put a { t with rx := rx }).next, sender := some a, msg := { m with src := some t.name } })) with next := _ } a
            (enqF a b _ a { t with rx := rx }) mem' this (by show Option.map _ _ = _; rw [ht']; rfl)

theorem send_al : ∀ (n : Nat) (s : St) (a : Nat) (t : Th) (outs : List Out) (renew : Bool) (mem : Mem), Chains s.core s.next → Al s →
    s.th a = some t → Out.error ∉ outs → (send n s a outs renew mem).SatG Al False
  | 0, s, a, t, outs, renew, mem, h, hal, ha, ho => hal
  | n + 1, s, a, t, outs, renew, mem, h, hal, ha, ho => by
    rw [send.eq_def]
    dsimp only
    rw [ha]
    dsimp only
    cases htx : t.tx with
    | cons p r =>
      obtain ⟨m, k⟩ := p
      dsimp only
      have go : ∀ outs, Out.error ∉ outs → (send n (s.put a { t with tx := r, out := t.out ++ (enc m).drop k }) a outs renew mem).SatG Al False := by
        intro outs ho
        refine send_al n _ a { t with tx := r, out := t.out ++ (enc m).drop k } outs renew mem ?_ (al_put hal (hal a t ha)) (by simp [put_th]) ho
        rw [core_put s a t { t with tx := r, out := t.out ++ (enc m).drop k } ha rfl rfl]; exact h
      cases outs with
      | nil => exact go [] ho
      | cons o outs =>
        cases o with
        | full => exact go outs (fun c => ho (List.mem_cons_of_mem _ c))
        | part j => exact al_put hal (hal a t ha)
        | error => exact absurd List.mem_cons_self ho
    | nil =>
      dsimp only
      cases hd : t.dest with
      | nil => exact hal
      | cons q r =>
        dsimp only
        rw [popHead_eq h ha hd, bind_ok]
        have ha' : (s.mapTh (popF a q r)).th a = some (popF a q r a t) := by simp [St.mapTh, ha]
        have hal' : Al (s.mapTh (popF a q r)) := al_map hal (fun _ _ => rfl) (fun _ _ => rfl)
        rw [ha']
        dsimp only
        rcases mem.pop with ⟨b, mem⟩
        cases b with
        | false => exact send_al n _ a (popF a q r a t) outs renew mem (pop_chains h ha hd) hal' ha' ho
        | true =>
          refine send_al n _ a { popF a q r a t with tx := [(q.msg, 0)] } outs renew mem ?_ (al_put hal' (show ∃ S : List Msg, (popF a q r a t).said = S.flatMap enc ++ left (popF a q r a t).rx from hal' a _ ha')) (by simp [put_th]) ho
          rw [core_put _ a (popF a q r a t) { popF a q r a t with tx := [(q.msg, 0)] } ha' rfl rfl]; exact pop_chains h ha hd

/-- No thread ends. -/
def Stays : Ev → Prop
  | .recv _ _ e _ _ => e = .again
  | .send _ outs _ _ => Out.error ∉ outs
  | .create _ _ _ => True

theorem run_al : ∀ (es : List Ev) (s : St), Inv s → Al s → (∀ e ∈ es, Stays e) → run s es = .garbage →
    ∃ s1 x t pieces renew mem es1 es2, es = es1 ++ Ev.recv x pieces .again renew mem :: es2 ∧ run s es1 = .ok s1 ∧ s1.th x = some t ∧ ¬Clean (t.said ++ pieces.flatten)
  | [], s, _, _, _, h => by cases h
  | e :: es, s, hi, hal, hf, h => by
    have key : (step s e).SatG Al (∃ x t pieces renew mem, e = Ev.recv x pieces .again renew mem ∧ s.th x = some t ∧ ¬Clean (t.said ++ pieces.flatten)) := by
      have hfe := hf e List.mem_cons_self
      cases e with
      | recv x pieces e renew mem =>
        unfold step
        dsimp only
        split
        · rename_i hsx
          unfold recv
          cases hx : s.th x with
          | none => rw [hx] at hsx; cases hsx
          | some t =>
            have : e = .again := hfe
            subst this
            dsimp only
            have hal' : Al (s.put x { t with rx := t.rx ++ pieces.map fun p => { data := p, used := 0 }, said := t.said ++ pieces.flatten }) := by
              obtain ⟨S, hS⟩ := hal x t hx
              refine al_put hal ⟨S, ?_⟩
              simp only [hS, left, List.flatMap_append, List.append_assoc]
              congr 2
              rw [List.flatMap_map]
              simp [Node.left, List.flatMap_id']
            have := process_al (total (t.rx ++ pieces.map fun p => { data := p, used := 0 }) + 1) _ x _ mem hal' (by rw [put_th, if_pos rfl])
            revert this
            generalize process _ _ _ _ = y
            intro this
            cases y with
            | ub => exact True.intro
            | garbage => exact ⟨x, t, pieces, renew, mem, rfl, hx, this⟩
            | ok s' => exact this
        · exact hal
      | send x outs renew mem =>
        unfold step
        dsimp only
        cases hx : s.th x with
        | none => exact hal
        | some t =>
          dsimp only
          split
          · unfold sendEv
            rw [hx]
            dsimp only
            have := send_al (2 * (t.tx.length + t.dest.length) + 1) (s.put x { t with armed := false }) x { t with armed := false } outs renew mem
              (by rw [core_put s x t { t with armed := false } hx rfl rfl]; exact hi.chains) (al_put hal (hal x t hx)) (by simp [put_th]) hfe
            revert this
            generalize send _ _ _ _ _ _ = y
            intro this
            cases y with
            | ub => exact True.intro
            | garbage => exact this.elim
            | ok s' => exact this
          · exact hal
      | create x al rs =>
        unfold step
        dsimp only
        split
        · exact hal
        · intro y u hu
          simp only [put_th] at hu
          by_cases hy : y = x
          · rw [if_pos hy] at hu; cases hu
            exact ⟨[], rfl⟩
          · rw [if_neg hy] at hu; exact hal y u hu
    have hinv := step_sat s e hi
    rw [run] at h
    cases hst : step s e with
    | ub => rw [hst] at hinv; exact hinv.elim
    | garbage =>
      rw [hst] at key
      obtain ⟨x, t, pieces, renew, mem, e1, e2, e3⟩ := key
      exact ⟨s, x, t, pieces, renew, mem, [], es, by rw [e1]; rfl, rfl, e2, e3⟩
    | ok s' =>
      rw [hst] at key hinv h
      obtain ⟨s1, x, t, pieces, renew, mem, es1, es2, e1, e2, e3, e4⟩ := run_al es s' hinv key (fun e he => hf e (List.mem_cons_of_mem _ he)) h
      refine ⟨s1, x, t, pieces, renew, mem, e :: es1, es2, by rw [e1]; rfl, ?_, e3, e4⟩
      rw [run, hst]; exact e2

/-- As long as no thread ends, bytes that are not a message are taken for one only if a thread has
written something else than messages — however the bytes were cut into pieces. -/
theorem itc_no_garbage {es : List Ev} (hf : ∀ e ∈ es, Stays e) (h : run St.init es = .garbage) :
    ∃ s1 x t pieces renew mem es1 es2, es = es1 ++ Ev.recv x pieces .again renew mem :: es2 ∧ run St.init es1 = .ok s1 ∧ s1.th x = some t ∧ ¬Clean (t.said ++ pieces.flatten) :=
  run_al es St.init inv_init (fun x t hx => by cases hx) hf h

example : run St.init [.create 1 "a" false, .recv 1 [(enc m1).drop 1 ++ enc m2] .again false []] matches .garbage := by decide +kernel

/-! ### What happens when a thread ends -/

/-- When reading ends with the closing of the socket, nothing of what was read is passed on: what other
threads were and will be written does not depend on the pieces just read, and is what it was before. -/
theorem closed_lost {es : List Ev} {s s' : St} {a : Nat} {pieces : List (List B)} {renew : Bool} {mem : Mem} (h0 : run St.init es = .ok s)
    (h : step s (.recv a pieces .closed renew mem) = .ok s') {x : Nat} {t : Th} (hx : x ≠ a) (ht : s.th x = some t) :
    ∃ t', s'.th x = some t' ∧ stream t' = stream t := by
  have hi0 := run_sat es St.init inv_init
  rw [h0] at hi0
  have hi : InvE [] [] s := hi0
  unfold step at h
  dsimp only at h
  split at h
  · rename_i hs
    unfold recv at h
    cases ha : s.th a with
    | none => rw [ha] at hs; cases hs
    | some ta =>
      rw [ha] at h
      dsimp only at h
      generalize hta : ({ ta with rx := ta.rx ++ pieces.map fun p => { data := p, used := 0 }, said := ta.said ++ pieces.flatten } : Th) = ta' at h
      have hc : Chains ({ s.put a ta' with tree := s.tree.erase a } : St).core ({ s.put a ta' with tree := s.tree.erase a } : St).next := by
        have : ({ s.put a ta' with tree := s.tree.erase a } : St).core = (s.put a ta').core := rfl
        rw [this, core_put s a ta ta' ha (by rw [← hta]) (by rw [← hta])]; exact hi.chains
      have ha' : (s.put a ta').th a = some ta' := by simp [put_th]
      obtain ⟨s1, e1, e2, e3, t', e4, e5, e6⟩ := clearQueue_sat (a := a) (t := ta') hc ha'
      unfold exit at h
      rw [ha'] at h
      dsimp only at h
      cases hr : release ta'.rx with
      | ub => rw [hr] at h; cases h
      | garbage => rw [hr] at h; cases h
      | ok _ =>
        rw [hr, bind_ok] at h
        rw [show clearQueue { s.put a ta' with tree := (s.put a ta').tree.erase a } a = .ok s1 from e1, bind_ok, e4] at h
        dsimp only at h
        have hxt : ({ s.put a ta' with tree := s.tree.erase a } : St).th x = some t := by simp [put_th, hx, ht]
        obtain ⟨v, f1, f2, f3, f4, f5, f6, f7, f8, f9⟩ := e3.some x t hxt
        have hv : stream v = stream t := by
          have g : v.dest.flatMap (fun q => enc q.msg) = t.dest.flatMap (fun q => enc q.msg) := by
            have := f9 hx
            have := congrArg (fun l => l.flatMap enc) this
            simpa [List.flatMap_map] using this
          unfold stream
          rw [g, f7, f5]
        split at h
        · cases h
          exact ⟨v, by simp [put_th, hx, f1], hv⟩
        · cases h
          exact ⟨v, by simp [upd, hx, f1], hv⟩
  · cases h
    exact ⟨t, ht, rfl⟩

theorem enc_get (m : Msg) (i : Nat) (h : i < W) : (enc m)[i]? = some ⟨m, i⟩ := by
  simp [enc, h]

theorem flat_get : ∀ (ms : List Msg) (i : Nat) (b : B), (ms.flatMap enc)[i]? = some b → b.off = i % W
  | [], i, b, h => by simp at h
  | m :: ms, i, b, h => by
    rw [List.flatMap_cons] at h
    by_cases hi : i < W
    · rw [List.getElem?_append_left (by rw [enc_length]; exact hi), enc_get m i hi] at h
      cases h
      exact (Nat.mod_eq_of_lt hi).symm
    · rw [List.getElem?_append_right (by rw [enc_length]; omega), enc_length] at h
      rw [flat_get ms (i - W) b h, ← Nat.mod_eq_sub_mod (by omega)]

theorem dec_head {l : List B} (h : (dec l).isSome) : ∃ m r, l = ⟨m, 0⟩ :: r := by
  cases hd : dec l with
  | none => rw [hd] at h; cases h
  | some m =>
    refine ⟨m, (List.range 71).map (fun i => B.mk m (i + 1)), ?_⟩
    rw [dec_some hd]
    simp [enc, W, List.range_succ_eq_map]

theorem release_garbage : ∀ (l r : List Node) (n : Node), ¬(n.used = 0 ∧ (dec (n.data.take W)).isSome) → release (l ++ n :: r) = .garbage
  | [], r, n, h => by
    rw [List.nil_append, release, if_neg h]
  | k :: l, r, n, h => by
    rw [List.cons_append, release]
    split
    · exact release_garbage l r n h
    · rfl

theorem recv_closed_garbage {s : St} {a : Nat} {t : Th} {pieces : List (List B)} {renew : Bool} {mem : Mem} (ha : s.th a = some t)
    (hr : release (t.rx ++ pieces.map fun p => { data := p, used := 0 }) = .garbage) : step s (.recv a pieces .closed renew mem) = .garbage := by
  unfold step
  dsimp only
  rw [ha, if_pos (by rfl)]
  unfold recv
  rw [ha]
  dsimp only
  unfold exit
  rw [put_th, if_pos rfl]
  dsimp only
  rw [hr]
  rfl

/-- A thread has written messages and then ended; they are read in pieces (the buffers have 1024 bytes),
and the first piece ends within a message.  Then bytes that are not a message are cleared as one: whatever is in
them as `src`, `sval` and `pval` is given to `free`. -/
theorem closed_garbage {s : St} {a : Nat} {t : Th} {p1 p2 : List B} {rest : List (List B)} {ms : List Msg} {renew : Bool} {mem : Mem}
    (ha : s.th a = some t) (hp : (p1 :: p2 :: rest).flatten = ms.flatMap enc) (h1 : p1.length % W ≠ 0) (h2 : p2 ≠ []) :
    step s (.recv a (p1 :: p2 :: rest) .closed renew mem) = .garbage := by
  refine recv_closed_garbage ha ?_
  have : t.rx ++ ((p1 :: p2 :: rest).map fun p => ({ data := p, used := 0 } : Node)) =
      (t.rx ++ [{ data := p1, used := 0 }]) ++ { data := p2, used := 0 } :: rest.map fun p => { data := p, used := 0 } := by simp
  rw [this]
  refine release_garbage _ _ _ ?_
  rintro ⟨_, h⟩
  obtain ⟨m, r, hm⟩ := dec_head h
  cases p2 with
  | nil => exact h2 rfl
  | cons b p2 =>
    dsimp only at hm
    rw [W, List.take_succ_cons] at hm
    have hb : b = ⟨m, 0⟩ := (List.cons.inj hm).1
    have : (ms.flatMap enc)[p1.length]? = some b := by
      rw [← hp, List.flatten_cons, List.getElem?_append_right (Nat.le_refl _), Nat.sub_self]
      simp
    have := flat_get ms _ b this
    rw [hb] at this
    exact h1 this.symm

/-- So it is whenever the first buffer is full. -/
theorem closed_full_buffer {s : St} {a : Nat} {t : Th} {p1 p2 : List B} {rest : List (List B)} {ms : List Msg} {renew : Bool} {mem : Mem}
    (ha : s.th a = some t) (hp : (p1 :: p2 :: rest).flatten = ms.flatMap enc) (h1 : p1.length = 1024) (h2 : p2 ≠ []) :
    step s (.recv a (p1 :: p2 :: rest) .closed renew mem) = .garbage :=
  closed_garbage ha hp (by rw [h1]; decide) h2

/-- And when a part of a buffer was used: its first message was passed on, and is freed once more. -/
theorem closed_used {s : St} {a : Nat} {t : Th} {n : Node} {pieces : List (List B)} {renew : Bool} {mem : Mem}
    (ha : s.th a = some t) (hn : n ∈ t.rx) (hu : n.used ≠ 0) : step s (.recv a pieces .closed renew mem) = .garbage := by
  refine recv_closed_garbage ha ?_
  obtain ⟨l, r, e⟩ := List.append_of_mem hn
  rw [e, List.append_assoc, List.cons_append]
  exact release_garbage _ _ _ (fun c => hu c.1)

/-- The message of a thread that ends is lost if both are noticed at the same time; otherwise it is not. -/
example : outOf (run St.init (es0 ++ [.recv 7 [enc m1] .closed false [], .send 9 [] false []])) 9 = some ([], []) := by decide +kernel

example : outOf (run St.init (es0 ++ [.recv 7 [enc m1] .again false [], .recv 7 [] .closed false [], .send 9 [] false []])) 9 =
    some ([], enc ⟨"b", some "a", 1⟩) := by decide +kernel

/-- A message and a half; then the thread ends. -/
example : run St.init (es0 ++ [.recv 7 [enc m1 ++ (enc m2).take 36] .again false [], .recv 7 [] .closed false []]) matches .garbage := by decide +kernel

/-- A message for a name that no thread has is thrown away. -/
theorem unknown_dropped {s : St} {a : Nat} {t : Th} {m : Msg} {mem : Mem} (ha : s.th a = some t) (hn : search s m.dest = none) :
    ∃ mem', route s a m mem = .ok (s, mem') := by
  rcases route_cases ha m mem with ⟨mem', e, _⟩ | ⟨mem', b, u, _, _, e, _⟩
  · exact ⟨mem', e⟩
  · rw [hn] at e; cases e

end Verif.Itc
