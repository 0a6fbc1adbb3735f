import Verif.ConfLexProps
/-
What loading a configuration gives (src/mln_conf.c), and what it does not refuse.
-/
namespace Verif.Conf
open Verif.Lex

/-! ## Specification -/

/-- The number that the digits stand for. -/
def value : List Byte → Nat
  | [] => 0
  | d :: ds => (d.toNat - 48) * 10 ^ ds.length + value ds

/-- An argument as the user means it; a number is a sign and digits. -/
inductive Arg where
  | str (s : List Byte)
  | chr (b : Byte)
  | bool (b : Bool)
  | int (neg : Bool) (ds : List Byte)
  | real (neg : Bool) (w : List Byte)

def signed (neg : Bool) (w : List Byte) : List Byte := if neg then 45#8 :: w else w

/-- The token it is written with. -/
def Arg.tok : Arg → Ty × List Byte
  | .str s => (STRING, s)
  | .chr b => (CHAR, [b])
  | .bool true => (ON, [111#8, 110#8])
  | .bool false => (OFF, [111#8, 102#8, 102#8])
  | .int neg ds => (.dec, signed neg ds)
  | .real neg w => (.real, signed neg w)

/-- What a program gets. -/
def Arg.item (real : List Byte → BitVec 32) : Arg → Item
  | .str s => .str s
  | .chr b => .chr b
  | .bool b => .bool b
  | .int true ds => .int (-(value ds))
  | .int false ds => .int (value ds)
  | .real neg w => .real (real (signed neg w))

/-- Digits, and a number that fits. -/
def Arg.Fits : Arg → Prop
  | .int neg ds => ds ≠ [] ∧ (∀ c ∈ ds, isDigit c) ∧ value ds < 2 ^ 63 + (if neg then 1 else 0)
  | _ => True

/-- A command with its arguments. -/
structure Cmd where
  name : List Byte
  args : List Arg

def Cmd.toks (c : Cmd) : List (Ty × List Byte) :=
  (.id, c.name) :: c.args.map Arg.tok ++ [(SEMIC, [59#8])]
def Cmd.out (real : List Byte → BitVec 32) (c : Cmd) : List Byte × List Item := (c.name, c.args.map (Arg.item real))
def Cmd.Fits (c : Cmd) : Prop := ∀ a ∈ c.args, a.Fits

/-- What a file consists of. -/
inductive Entry where
  | cmd (c : Cmd)
  | dom (name : List Byte) (cs : List Cmd)

def Entry.toks : Entry → List (Ty × List Byte)
  | .cmd c => c.toks
  | .dom name cs => (.id, name) :: (LBRACE, [123#8]) :: cs.flatMap Cmd.toks ++ [(RBRACE, [125#8])]

/-- The numbers fit and no domain is called `main`. -/
def Entry.Fits : Entry → Prop
  | .cmd c => c.Fits
  | .dom name cs => name ≠ main ∧ ∀ c ∈ cs, c.Fits

/-- The commands outside of domains. -/
def cmdsOf (real : List Byte → BitVec 32) : List Entry → List (List Byte × List Item)
  | [] => []
  | .cmd c :: es => c.out real :: cmdsOf real es
  | .dom _ _ :: es => cmdsOf real es

/-- The domains. -/
def domsOf (real : List Byte → BitVec 32) : List Entry → List Dom
  | [] => []
  | .cmd _ :: es => domsOf real es
  | .dom name cs :: es => { name := name, cmds := cs.map (Cmd.out real) } :: domsOf real es

/-- The configuration: `main` has the commands outside of domains. -/
def confOf (real : List Byte → BitVec 32) (es : List Entry) : Conf :=
  { name := main, cmds := cmdsOf real es } :: domsOf real es

/-! ## Arguments -/

theorem number_value (ds : List Byte) : number ds = value ds := by
  have : ∀ ds : List Byte, ∀ a : Nat, ds.foldl (fun a c => a * 10 + (c.toNat - 48)) a = a * 10 ^ ds.length + value ds := by
    intro ds
    induction ds with
    | nil => intro a; simp [value]
    | cons d ds ih =>
      intro a
      rw [List.foldl_cons, ih, value, List.length_cons, pow_succ, Nat.add_mul, Nat.mul_assoc, Nat.mul_comm (10 ^ ds.length) 10, Nat.add_assoc]
  rw [Conf.number, this]; simp

theorem digit_ne : ∀ c : Byte, isDigit c = true → c ≠ 45#8 := by decide +kernel

/-- A number is what its digits say if it fits, else the largest or the smallest one. -/
theorem atol_signed {neg ds} (h : ds ≠ []) (hd : ∀ c ∈ ds, isDigit c) :
    atol (signed neg ds) =
      if neg then (if value ds ≤ 2 ^ 63 then -(value ds : Int) else -(2 ^ 63))
      else (if value ds < 2 ^ 63 then (value ds : Int) else 2 ^ 63 - 1) := by
  cases neg with
  | true =>
    rw [if_pos rfl, signed, if_pos rfl, atol, if_pos rfl, number_value]
    split <;> omega
  | false =>
    obtain ⟨c, cs, rfl⟩ := List.exists_cons_of_ne_nil h
    have := digit_ne c (hd c (by simp))
    rw [if_neg (by decide), signed, if_neg (by decide), atol, if_neg this, number_value]
    split <;> omega

theorem itemInit_tok {real t} {a : Arg} (h1 : t.type = a.tok.1) (h2 : t.text = a.tok.2) (hf : a.Fits) :
    itemInit real t = some (a.item real) := by
  cases a with
  | str s => rw [itemInit, h1, h2]; rfl
  | chr s => rw [itemInit, h1, h2]; rfl
  | bool b => cases b <;> (rw [itemInit, h1]; rfl)
  | int neg ds =>
    obtain ⟨f1, f2, f3⟩ := hf
    rw [itemInit, h1, h2]
    show some (Item.int (atol (signed neg ds))) = _
    rw [atol_signed f1 f2]
    cases neg with
    | true =>
      rw [if_pos rfl] at f3 ⊢
      rw [if_pos (by omega)]; rfl
    | false =>
      rw [if_neg (by decide)] at f3 ⊢
      rw [if_pos (by omega)]; rfl
  | real neg w => rw [itemInit, h1, h2]; rfl

theorem tok_type (a : Arg) : a.tok.1 ≠ .eof ∧ a.tok.1 ≠ SEMIC ∧ a.tok.1 ≠ LBRACE := by
  cases a with
  | bool b => cases b <;> simp [Arg.tok]
  | _ => simp [Arg.tok]

theorem items_ok {E : Env} {ts} : ∀ {args : List Arg} {n t l ty s us}, (∀ a ∈ args, a.Fits) →
    args.map Arg.tok ++ [(SEMIC, [59#8])] = (ty, s) :: us → t.type = ty → t.text = s →
    Reads E l (us ++ ts) → args.length < n →
    ∃ l', items E n (some t) l = some (some (args.map (Arg.item E.real)), l') ∧ Reads E l' ts := by
  intro args
  induction args with
  | nil =>
    intro n t l ty s us _ he h1 h2 hr hn
    obtain ⟨n, rfl⟩ : ∃ m, n = m + 1 := ⟨n - 1, by omega⟩
    simp only [List.map_nil, List.nil_append, List.cons.injEq, Prod.mk.injEq] at he
    obtain ⟨⟨rfl, rfl⟩, rfl⟩ := he
    refine ⟨l, ?_, hr⟩
    rw [items]
    rw [if_neg (by rw [h1]; decide), if_pos h1]
    rfl
  | cons a args ih =>
    intro n t l ty s us hf he h1 h2 hr hn
    obtain ⟨n, rfl⟩ : ∃ m, n = m + 1 := ⟨n - 1, by omega⟩
    simp only [List.map_cons, List.cons_append, List.cons.injEq] at he
    obtain ⟨he1, rfl⟩ := he
    have e1 : a.tok.1 = ty := by rw [he1]
    have e2 : a.tok.2 = s := by rw [he1]
    obtain ⟨⟨ty', s'⟩, us', hu⟩ : ∃ p us', args.map Arg.tok ++ [(SEMIC, [59#8])] = p :: us' :=
      List.exists_cons_of_ne_nil (by simp)
    rw [hu] at hr
    obtain ⟨t2, l2, a1, a2, a3, a4⟩ := reads_token hr
    obtain ⟨l3, b1, b2⟩ := ih (n := n) (fun x hx => hf x (by simp [hx])) hu a2 a3 a4 (by simpa using hn)
    refine ⟨l3, ?_, b2⟩
    have ht := tok_type a
    rw [items]
    rw [if_neg (by rw [h1, ← e1]; exact ht.1), if_neg (by rw [h1, ← e1]; exact ht.2.1), a1]
    simp only [Option.bind_eq_bind, Option.bind_some]
    rw [b1]
    simp only [Option.bind_some]
    rw [itemInit_tok (by rw [h1, e1]) (by rw [h2, e2]) (hf a (by simp))]
    rfl

/-! ## Commands -/

theorem load_cmd {E : Env} {n cur C l} {c : Cmd} {ts} (hc : c.Fits) (hr : Reads E l (c.toks ++ ts)) :
    ∃ l', load E (n + 1) cur C l = load E n cur (addCmd C cur c.name (c.args.map (Arg.item E.real))) l' ∧
      Reads E l' ts := by
  have hlen := written_length hr.written
  have hsm := hr.small
  rw [Cmd.toks] at hr hlen
  simp only [List.cons_append, List.length_cons, List.length_append, List.length_map] at hr hlen
  obtain ⟨t, l1, a1, a2, a3, a4⟩ := reads_token hr
  obtain ⟨⟨ty', s'⟩, us', hu⟩ : ∃ p us', c.args.map Arg.tok ++ [(SEMIC, [59#8])] = p :: us' :=
    List.exists_cons_of_ne_nil (by simp)
  rw [hu] at a4
  obtain ⟨t2, l2, b1, b2, b3, b4⟩ := reads_token a4
  obtain ⟨l3, c1, c2⟩ := items_ok (n := E.fuel) hc hu b2 b3 b4 (by omega)
  have hty : ty' ≠ .eof ∧ ty' ≠ LBRACE := by
    cases ha : c.args with
    | nil => rw [ha] at hu; simp at hu; rw [← hu.1.1]; decide
    | cons x xs =>
      rw [ha] at hu
      simp only [List.map_cons, List.cons_append, List.cons.injEq] at hu
      have := tok_type x
      rw [hu.1] at this
      exact ⟨this.1, this.2.2⟩
  refine ⟨l3, ?_, c2⟩
  rw [load, a1]
  simp only [Option.bind_eq_bind, Option.bind_some]
  rw [if_neg (by rw [a2]; decide), if_neg (by rw [a2]; decide), if_neg (by rw [a2]; decide), b1]
  simp only [Option.bind_some]
  rw [if_neg (by rw [b2]; exact hty.1), if_neg (by rw [b2]; exact hty.2), c1]
  simp only [Option.bind_some]
  rw [a3]

/-- Commands are appended to the domain. -/
theorem load_cmds {E : Env} {cur ts} : ∀ {cs : List Cmd} {n C l}, (∀ c ∈ cs, c.Fits) →
    Reads E l (cs.flatMap Cmd.toks ++ ts) →
    ∃ l', load E (n + cs.length) cur C l =
      load E n cur (C.modify cur fun d => { d with cmds := d.cmds ++ cs.map (Cmd.out E.real) }) l' ∧ Reads E l' ts := by
  intro cs
  induction cs with
  | nil =>
    intro n C l _ hr
    refine ⟨l, ?_, hr⟩
    congr 1
    simp only [List.map_nil, List.append_nil]
    exact (List.modify_id _ _).symm
  | cons c cs ih =>
    intro n C l hf hr
    rw [List.flatMap_cons, List.append_assoc] at hr
    obtain ⟨l1, a1, a2⟩ := load_cmd (n := n + cs.length) (cur := cur) (C := C) (hf c (by simp)) hr
    obtain ⟨l2, b1, b2⟩ := ih (n := n) (C := addCmd C cur c.name (c.args.map (Arg.item E.real)))
      (fun x hx => hf x (by simp [hx])) a2
    refine ⟨l2, ?_, b2⟩
    rw [List.length_cons, ← Nat.add_assoc, a1, b1]
    congr 1
    rw [addCmd, List.modify_modify_eq]
    congr 1
    funext d
    simp [Cmd.out]

/-! ## Entries -/

/-- The configuration with one more entry. -/
def step (real : List Byte → BitVec 32) (C : Conf) : Entry → Conf
  | .cmd c => addCmd C 0 c.name (c.args.map (Arg.item real))
  | .dom name cs => C ++ [{ name := name, cmds := cs.map (Cmd.out real) }]

def Main (C : Conf) : Prop := C[0]?.map (·.name) = some main

theorem main_step {real C e} (h : Main C) : Main (step real C e) := by
  cases C with
  | nil => simp [Main] at h
  | cons d C => cases e <;> simpa [Main, step, addCmd] using h

theorem steps_conf (real : List Byte → BitVec 32) : ∀ (es : List Entry) (d : Dom) (C : Conf),
    es.foldl (step real) (d :: C) = { d with cmds := d.cmds ++ cmdsOf real es } :: (C ++ domsOf real es) := by
  intro es
  induction es with
  | nil => intro d C; simp [cmdsOf, domsOf]
  | cons e es ih =>
    intro d C
    rw [List.foldl_cons]
    cases e with
    | cmd c => rw [step, addCmd, List.modify_zero_cons, ih]; simp [cmdsOf, domsOf, Cmd.out]
    | dom name cs => rw [step, List.cons_append, ih]; simp [cmdsOf, domsOf]

theorem modify_end {α} (C : List α) (d : α) (f : α → α) : (C ++ [d]).modify C.length f = C ++ [f d] := by
  induction C with
  | nil => rfl
  | cons c C ih => simp [ih]

theorem name_last (C : Conf) (d : Dom) : ((C ++ [d])[C.length]?.map (·.name)).getD [] = d.name := by simp

/-- The start of a domain. -/
theorem load_open {E : Env} {n C l name ts} (hm : Main C) (hr : Reads E l ((.id, name) :: (LBRACE, [123#8]) :: ts)) :
    ∃ l', Reads E l' ts ∧ load E (n + 1) 0 C l =
      (load E n C.length (C ++ [{ name := name }]) l').bind fun r =>
        if r.1 then load E n 0 r.2.1 r.2.2 else some (false, r.2.1, r.2.2) := by
  obtain ⟨t, l1, a1, a2, a3, a4⟩ := reads_token hr
  obtain ⟨t2, l2, b1, b2, b3, b4⟩ := reads_token a4
  refine ⟨l2, b4, ?_⟩
  rw [load, a1]
  simp only [Option.bind_eq_bind, Option.bind_some]
  rw [if_neg (by rw [a2]; decide), if_neg (by rw [a2]; decide), if_neg (by rw [a2]; decide), b1]
  simp only [Option.bind_some]
  rw [if_neg (by rw [b2]; decide), if_pos b2]
  rw [Main] at hm
  rw [hm, if_neg (by simp), a3]

/-- The end of a domain. -/
theorem load_close {E : Env} {n cur C l s ts} (hr : Reads E l ((RBRACE, s) :: ts)) :
    ∃ l', Reads E l' ts ∧ load E (n + 1) cur C l = some ((C[cur]?.map (·.name)).getD [] != main, C, l') := by
  obtain ⟨t, l1, a1, a2, a3, a4⟩ := reads_token hr
  refine ⟨l1, a4, ?_⟩
  rw [load, a1]
  simp only [Option.bind_eq_bind, Option.bind_some]
  rw [if_neg (by rw [a2]; decide), if_pos a2]

/-- The end of the file, in whatever domain. -/
theorem load_eof {E : Env} {n cur C l} (hr : Reads E l []) :
    ∃ l', Reads E l' [] ∧ load E (n + 1) cur C l = some (true, C, l') := by
  obtain ⟨t, l1, a1, a2, a3⟩ := reads_end hr
  refine ⟨l1, a3, ?_⟩
  rw [load, a1]
  simp only [Option.bind_eq_bind, Option.bind_some]
  rw [if_pos a2]

/-- A domain up to what follows its commands. -/
theorem load_dom {E : Env} {n C l name cs ts} (hm : Main C) (hf : ∀ c ∈ cs, Cmd.Fits c)
    (hr : Reads E l ((.id, name) :: (LBRACE, [123#8]) :: cs.flatMap Cmd.toks ++ ts)) :
    ∃ l', Reads E l' ts ∧ load E (n + cs.length + 1) 0 C l =
      (load E n C.length (step E.real C (.dom name cs)) l').bind fun r =>
        if r.1 then load E (n + cs.length) 0 r.2.1 r.2.2 else some (false, r.2.1, r.2.2) := by
  obtain ⟨l1, a1, a2⟩ := load_open (n := n + cs.length) hm hr
  obtain ⟨l2, b1, b2⟩ := load_cmds (n := n) (cur := C.length) (C := C ++ [{ name := name }]) hf a1
  refine ⟨l2, b2, ?_⟩
  rw [a2, b1, modify_end]
  rfl

theorem step_name {real : List Byte → BitVec 32} {C name cs} :
    ((step real C (.dom name cs))[C.length]?.map (·.name)).getD [] = name := name_last C _

/-- How many entries and commands there are. -/
def weight : Entry → Nat
  | .cmd _ => 1
  | .dom _ cs => cs.length + 2

theorem load_entry {E : Env} {n C l} {e : Entry} {ts} (hm : Main C) (hf : e.Fits) (hr : Reads E l (e.toks ++ ts))
    (hn : weight e ≤ n) :
    ∃ l' k, load E n 0 C l = load E k 0 (step E.real C e) l' ∧ Reads E l' ts ∧ n ≤ k + weight e := by
  cases e with
  | cmd c =>
    simp only [weight] at hn ⊢
    obtain ⟨n, rfl⟩ : ∃ m, n = m + 1 := ⟨n - 1, by omega⟩
    obtain ⟨l1, a1, a2⟩ := load_cmd (n := n) (cur := 0) (C := C) hf hr
    exact ⟨l1, n, a1, a2, le_refl _⟩
  | dom name cs =>
    simp only [weight] at hn ⊢
    obtain ⟨n, rfl⟩ : ∃ m, n = (m + 1) + cs.length + 1 := ⟨n - cs.length - 2, by omega⟩
    obtain ⟨l1, a1, a2⟩ := load_dom (n := n + 1) (name := name) hm hf.2 (by simpa [Entry.toks] using hr)
    obtain ⟨l2, b1, b2⟩ := load_close (n := n) (cur := C.length) (C := step E.real C (.dom name cs)) a1
    refine ⟨l2, n + 1 + cs.length, ?_, b1, by omega⟩
    rw [a2, b2, Option.bind_some, step_name]
    have : (name != main) = true := by simpa using hf.1
    rw [this, if_pos rfl]

theorem load_entries {E : Env} {ts} : ∀ {es : List Entry} {n C l}, Main C → (∀ e ∈ es, e.Fits) →
    Reads E l (es.flatMap Entry.toks ++ ts) → (es.map weight).sum ≤ n →
    ∃ l' k, load E n 0 C l = load E k 0 (es.foldl (step E.real) C) l' ∧ Main (es.foldl (step E.real) C) ∧
      Reads E l' ts ∧ n ≤ k + (es.map weight).sum := by
  intro es
  induction es with
  | nil => intro n C l hm _ hr _; exact ⟨l, n, rfl, hm, hr, by simp⟩
  | cons e es ih =>
    intro n C l hm hf hr hn
    rw [List.flatMap_cons, List.append_assoc] at hr
    simp only [List.map_cons, List.sum_cons] at hn ⊢
    obtain ⟨l1, k, a1, a2, a3⟩ := load_entry (n := n) hm (hf e (by simp)) hr (by omega)
    obtain ⟨l2, k2, b1, b2, b3, b4⟩ := ih (n := k) (main_step (e := e) hm) (fun x hx => hf x (by simp [hx])) a2 (by omega)
    exact ⟨l2, k2, a1.trans b1, b2, b3, by omega⟩

theorem cmds_length (cs : List Cmd) : cs.length ≤ (cs.flatMap Cmd.toks).length := by
  induction cs with
  | nil => simp
  | cons c cs ih =>
    rw [List.flatMap_cons, List.length_append, List.length_cons]
    have h1 : 1 ≤ c.toks.length := by simp [Cmd.toks]
    omega

theorem weight_toks (e : Entry) : weight e ≤ e.toks.length := by
  cases e with
  | cmd c => simp [weight, Entry.toks, Cmd.toks]
  | dom name cs =>
    have := cmds_length cs
    simp only [weight, Entry.toks, List.length_cons, List.length_append]
    omega

theorem weights_toks (es : List Entry) : (es.map weight).sum ≤ (es.flatMap Entry.toks).length := by
  induction es with
  | nil => simp
  | cons e es ih =>
    have := weight_toks e
    simp only [List.map_cons, List.sum_cons, List.flatMap_cons, List.length_append]
    omega

theorem main_empty : Main empty := rfl
theorem conf_steps (real : List Byte → BitVec 32) (es : List Entry) :
    es.foldl (step real) empty = confOf real es := by
  rw [empty, steps_conf]
  simp [confOf]

/-- The file before what is looked at. -/
theorem conf_prefix {E : Env} {path T} {es : List Entry} {ts} (hf : ∀ e ∈ es, Entry.Fits e)
    (hw : Written T (es.flatMap Entry.toks ++ ts)) (hc : Clean T) (hn : T.length + 1 < E.fuel) :
    ∃ l k, load E E.fuel 0 empty (initFile path T) = load E k 0 (confOf E.real es) l ∧ Main (confOf E.real es) ∧
      Reads E l ts ∧ ts.length + 1 < k := by
  have h1 := written_length hw
  have h2 := weights_toks es
  rw [List.length_append] at h1
  obtain ⟨l, k, a1, a2, a3, a4⟩ := load_entries (n := E.fuel) main_empty hf (reads_file (path := path) hw hc hn) (by omega)
  rw [conf_steps] at a1 a2
  exact ⟨l, k, a1, a2, a3, by omega⟩

theorem conf_of_load {E : Env} {path T ok C l} (h : load E E.fuel 0 empty (initFile path T) = some (ok, C, l)) :
    confLoad E path (some T) none = some (ok, if ok then some C else none) := by
  rw [confLoad, h]; rfl

/-! ## Loading a file -/

/-- Every file gives the commands and domains written in it, with their arguments, in their order. -/
theorem load_ok {E : Env} {path T} {es : List Entry} (hw : Written T (es.flatMap Entry.toks)) (hf : ∀ e ∈ es, Entry.Fits e)
    (hc : Clean T) (hn : T.length + 1 < E.fuel) :
    confLoad E path (some T) none = some (true, some (confOf E.real es)) := by
  obtain ⟨l, k, a1, a2, a3, a4⟩ := conf_prefix (path := path) (ts := []) hf (by simpa using hw) hc hn
  obtain ⟨k, rfl⟩ : ∃ m, k = m + 1 := ⟨k - 1, by omega⟩
  obtain ⟨l2, b1, b2⟩ := load_eof (n := k) (cur := 0) (C := confOf E.real es) a3
  exact conf_of_load (a1.trans b2)

/-- A domain that is not closed is accepted, as if it were closed at the end of the file. -/
theorem open_domain_accepted {E : Env} {path T name} {es : List Entry} {cs : List Cmd} (hw : Written T (es.flatMap Entry.toks ++
      (.id, name) :: (LBRACE, [123#8]) :: cs.flatMap Cmd.toks))
    (hf : ∀ e ∈ es, Entry.Fits e) (hfc : ∀ c ∈ cs, Cmd.Fits c) (hc : Clean T) (hn : T.length + 1 < E.fuel) :
    confLoad E path (some T) none = some (true, some (confOf E.real (es ++ [.dom name cs]))) := by
  obtain ⟨l, k, a1, a2, a3, a4⟩ := conf_prefix (path := path) hf hw hc hn
  have hlen := cmds_length cs
  simp only [List.length_cons] at a4
  obtain ⟨k, rfl⟩ : ∃ m, k = (m + 1) + cs.length + 1 := ⟨k - cs.length - 2, by omega⟩
  obtain ⟨l2, b1, b2⟩ := load_dom (n := k + 1) (name := name) (ts := []) a2 hfc (by simpa using a3)
  obtain ⟨l3, c1, c2⟩ := load_eof (n := k) (cur := (confOf E.real es).length) (C := step E.real (confOf E.real es) (.dom name cs)) b1
  obtain ⟨l4, d1, d2⟩ := load_eof (n := k + cs.length) (cur := 0) (C := step E.real (confOf E.real es) (.dom name cs)) c1
  have e : step E.real (confOf E.real es) (.dom name cs) = confOf E.real (es ++ [.dom name cs]) := by
    rw [← conf_steps, ← conf_steps, List.foldl_append]; rfl
  rw [← e]
  refine conf_of_load (l := l4) ?_
  rw [a1, b2, c2]
  simp only [Option.bind_some, if_true]
  rw [show k + 1 + cs.length = k + cs.length + 1 by omega, d2]

/-! ## What is refused -/

theorem refused {E : Env} {path T C l} (h : load E E.fuel 0 empty (initFile path T) = some (false, C, l)) :
    confLoad E path (some T) none = some (false, none) := conf_of_load h

/-- A domain `main` is refused, whatever is in it. -/
theorem main_domain_refused {E : Env} {path T} {es : List Entry} {cs : List Cmd} {ts} (hw : Written T (es.flatMap Entry.toks ++
      ((.id, main) :: (LBRACE, [123#8]) :: cs.flatMap Cmd.toks ++ (RBRACE, [125#8]) :: ts)))
    (hf : ∀ e ∈ es, Entry.Fits e) (hfc : ∀ c ∈ cs, Cmd.Fits c) (hc : Clean T) (hn : T.length + 1 < E.fuel) :
    confLoad E path (some T) none = some (false, none) := by
  obtain ⟨l, k, a1, a2, a3, a4⟩ := conf_prefix (path := path) hf hw hc hn
  have hlen := cmds_length cs
  simp only [List.length_cons, List.length_append] at a4
  obtain ⟨k, rfl⟩ : ∃ m, k = (m + 1) + cs.length + 1 := ⟨k - cs.length - 2, by omega⟩
  obtain ⟨l2, b1, b2⟩ := load_dom (n := k + 1) a2 hfc a3
  obtain ⟨l3, c1, c2⟩ := load_close (n := k) (cur := (confOf E.real es).length) (C := step E.real (confOf E.real es) (.dom main cs)) b1
  refine refused (l := l3) (C := step E.real (confOf E.real es) (.dom main cs)) ?_
  rw [a1, b2, c2, step_name]
  rfl

/-- A domain inside of a domain is refused. -/
theorem nested_domain_refused {E : Env} {path T name inner} {es : List Entry} {cs : List Cmd} {ts}
    (hw : Written T (es.flatMap Entry.toks ++
      ((.id, name) :: (LBRACE, [123#8]) :: cs.flatMap Cmd.toks ++ (.id, inner) :: (LBRACE, [123#8]) :: ts)))
    (hname : name ≠ main)
    (hf : ∀ e ∈ es, Entry.Fits e) (hfc : ∀ c ∈ cs, Cmd.Fits c) (hc : Clean T) (hn : T.length + 1 < E.fuel) :
    confLoad E path (some T) none = some (false, none) := by
  obtain ⟨l, k, a1, a2, a3, a4⟩ := conf_prefix (path := path) hf hw hc hn
  have hlen := cmds_length cs
  simp only [List.length_cons, List.length_append] at a4
  obtain ⟨k, rfl⟩ : ∃ m, k = (m + 1) + cs.length + 1 := ⟨k - cs.length - 2, by omega⟩
  obtain ⟨l2, b1, b2⟩ := load_dom (n := k + 1) a2 hfc a3
  obtain ⟨t, l3, c1, c2, c3, c4⟩ := reads_token b1
  obtain ⟨t2, l4, d1, d2, d3, d4⟩ := reads_token c4
  refine refused (l := l4) (C := step E.real (confOf E.real es) (.dom name cs)) ?_
  rw [a1, b2, load, c1]
  simp only [Option.bind_eq_bind, Option.bind_some]
  rw [if_neg (by rw [c2]; decide), if_neg (by rw [c2]; decide), if_neg (by rw [c2]; decide), d1]
  simp only [Option.bind_some]
  rw [if_neg (by rw [d2]; decide), if_pos d2, step_name, if_pos hname]
  rfl

/-- A closing brace without a domain is refused. -/
theorem extra_brace_refused {E : Env} {path T} {es : List Entry} {s ts}
    (hw : Written T (es.flatMap Entry.toks ++ (RBRACE, s) :: ts))
    (hf : ∀ e ∈ es, Entry.Fits e) (hc : Clean T) (hn : T.length + 1 < E.fuel) :
    confLoad E path (some T) none = some (false, none) := by
  obtain ⟨l, k, a1, a2, a3, a4⟩ := conf_prefix (path := path) hf hw hc hn
  obtain ⟨k, rfl⟩ : ∃ m, k = m + 1 := ⟨k - 1, by omega⟩
  obtain ⟨l3, c1, c2⟩ := load_close (n := k) (cur := 0) (C := confOf E.real es) a3
  refine refused (l := l3) (C := confOf E.real es) ?_
  rw [a1, c2, show (confOf E.real es)[0]?.map (·.name) = some main from a2]
  simp

/-- A command that does not begin with a name is refused. -/
theorem no_name_refused {E : Env} {path T} {es : List Entry} {ty s ts}
    (hw : Written T (es.flatMap Entry.toks ++ (ty, s) :: ts)) (h1 : ty ≠ .id) (h2 : ty ≠ RBRACE) (h3 : ty ≠ .eof)
    (hf : ∀ e ∈ es, Entry.Fits e) (hc : Clean T) (hn : T.length + 1 < E.fuel) :
    confLoad E path (some T) none = some (false, none) := by
  obtain ⟨l, k, a1, a2, a3, a4⟩ := conf_prefix (path := path) hf hw hc hn
  obtain ⟨k, rfl⟩ : ∃ m, k = m + 1 := ⟨k - 1, by omega⟩
  obtain ⟨t, l3, c1, c2, c3, c4⟩ := reads_token a3
  refine refused (l := l3) (C := confOf E.real es) ?_
  rw [a1, load, c1]
  simp only [Option.bind_eq_bind, Option.bind_some]
  rw [if_neg (by rw [c2]; exact h3), if_neg (by rw [c2]; exact h2), if_pos (by rw [c2]; exact h1)]

/-- The types of tokens that arguments are written with. -/
def argTypes : List Ty := [.dec, .real, STRING, CHAR, ON, OFF]

theorem itemInit_none {real t} (h : t.type ∉ argTypes) : itemInit real t = none := by
  simp only [argTypes, List.mem_cons, List.not_mem_nil, or_false, not_or] at h
  obtain ⟨h1, h2, h3, h4, h5, h6⟩ := h
  rw [itemInit]
  split <;> first | rfl | (rename_i h; simp_all)

/-- What follows the tokens of a command: its semicolon, or the end of the file. -/
theorem items_bad {E : Env} {tail : List (Ty × List Byte)} (ht : tail = [] ∨ ∃ s ts, tail = (SEMIC, s) :: ts) :
    ∀ {us : List (Ty × List Byte)} {n : Nat} {t : Tok} {l : Lex}, t.type ≠ .eof → t.type ≠ SEMIC →
    (∀ u ∈ us, u.1 ≠ .eof ∧ u.1 ≠ SEMIC) → Reads E l (us ++ tail) → us.length + 1 < n →
    ∃ r l', items E n (some t) l = some (r, l') ∧
      (tail = [] ∨ t.type ∉ argTypes ∨ (∃ u ∈ us, u.1 ∉ argTypes) → r = none) := by
  intro us
  induction us with
  | nil =>
    intro n t l h1 h2 _ hr hn
    obtain ⟨n, rfl⟩ : ∃ m, n = m + 2 := ⟨n - 2, by simp at hn; omega⟩
    rcases ht with rfl | ⟨s, ts, rfl⟩
    · obtain ⟨t2, l2, b1, b2, b3⟩ := reads_end hr
      refine ⟨none, l2, ?_, fun _ => rfl⟩
      rw [items]
      rw [if_neg h1, if_neg h2, b1]
      simp only [Option.bind_eq_bind, Option.bind_some]
      rw [items]
      rw [if_pos b2]
      rfl
    · obtain ⟨t2, l2, b1, b2, b3, b4⟩ := reads_token hr
      refine ⟨(itemInit E.real t).map (· :: []), l2, ?_, ?_⟩
      · rw [items]
        rw [if_neg h1, if_neg h2, b1]
        simp only [Option.bind_eq_bind, Option.bind_some]
        rw [items]
        rw [if_neg (by rw [b2]; decide), if_pos b2]
        rfl
      · rintro (h | h | ⟨u, hu, _⟩)
        · cases h
        · rw [itemInit_none h]; rfl
        · cases hu
  | cons u us ih =>
    intro n t l h1 h2 hu hr hn
    obtain ⟨n, rfl⟩ : ∃ m, n = m + 1 := ⟨n - 1, by omega⟩
    obtain ⟨t2, l2, b1, b2, b3, b4⟩ := reads_token (ty := u.1) (s := u.2) hr
    have hu1 := hu u (by simp)
    obtain ⟨r, l3, c1, c2⟩ := ih (n := n) (t := t2) (l := l2) (by rw [b2]; exact hu1.1) (by rw [b2]; exact hu1.2)
      (fun x hx => hu x (by simp [hx])) b4 (by simpa using hn)
    refine ⟨r.bind fun is => (itemInit E.real t).map (· :: is), l3, ?_, ?_⟩
    · rw [items]
      rw [if_neg h1, if_neg h2, b1]
      simp only [Option.bind_eq_bind, Option.bind_some]
      rw [c1]
      cases r <;> rfl
    · rintro (h | h | ⟨v, hv, h⟩)
      · rw [c2 (.inl h)]; rfl
      · rw [itemInit_none h]; cases r <;> rfl
      · rcases List.mem_cons.mp hv with rfl | hv
        · rw [c2 (.inr (.inl (by rw [b2]; exact h)))]; rfl
        · rw [c2 (.inr (.inr ⟨v, hv, h⟩))]; rfl

/-- A command is refused if it is not ended by a semicolon, or if one of its arguments is none (octal and
hexadecimal numbers among them). -/
theorem bad_command_refused {E : Env} {path T name} {es : List Entry} {us tail : List (Ty × List Byte)}
    (hw : Written T (es.flatMap Entry.toks ++ (.id, name) :: (us ++ tail)))
    (ht : tail = [] ∨ ∃ s ts, tail = (SEMIC, s) :: ts)
    (hus : ∀ u ∈ us, u.1 ≠ .eof ∧ u.1 ≠ SEMIC) (hb : us.head?.map (·.1) ≠ some LBRACE)
    (hbad : tail = [] ∨ ∃ u ∈ us, u.1 ∉ argTypes)
    (hf : ∀ e ∈ es, Entry.Fits e) (hc : Clean T) (hn : T.length + 1 < E.fuel) :
    confLoad E path (some T) none = some (false, none) := by
  have hlen := written_length hw
  obtain ⟨l, k, a1, a2, a3, a4⟩ := conf_prefix (path := path) hf hw hc hn
  obtain ⟨k, rfl⟩ : ∃ m, k = m + 1 := ⟨k - 1, by omega⟩
  obtain ⟨t, l3, c1, c2, c3, c4⟩ := reads_token a3
  cases us with
  | nil =>
    obtain rfl : tail = [] := by
      rcases hbad with h | ⟨u, hu, _⟩
      · exact h
      · cases hu
    obtain ⟨t2, l4, d1, d2, d3⟩ := reads_end c4
    refine refused (l := l4) (C := confOf E.real es) ?_
    rw [a1, load, c1]
    simp only [Option.bind_eq_bind, Option.bind_some]
    rw [if_neg (by rw [c2]; decide), if_neg (by rw [c2]; decide), if_neg (by rw [c2]; decide), d1]
    simp only [Option.bind_some]
    rw [if_pos d2]
  | cons u us =>
    obtain ⟨t2, l4, d1, d2, d3, d4⟩ := reads_token (ty := u.1) (s := u.2) c4
    have hu1 := hus u (by simp)
    have hub : u.1 ≠ LBRACE := by simpa using hb
    obtain ⟨r, l5, e1, e2⟩ := items_bad ht (n := E.fuel) (t := t2) (l := l4) (by rw [d2]; exact hu1.1) (by rw [d2]; exact hu1.2)
      (fun x hx => hus x (by simp [hx])) d4 (by simp at hlen; omega)
    obtain rfl : r = none := by
      rcases hbad with h | ⟨v, hv, h⟩
      · exact e2 (.inl h)
      · rcases List.mem_cons.mp hv with rfl | hv
        · exact e2 (.inr (.inl (by rw [d2]; exact h)))
        · exact e2 (.inr (.inr ⟨v, hv, h⟩))
    refine refused (l := l5) (C := confOf E.real es) ?_
    rw [a1, load, c1]
    simp only [Option.bind_eq_bind, Option.bind_some]
    rw [if_neg (by rw [c2]; decide), if_neg (by rw [c2]; decide), if_neg (by rw [c2]; decide), d1]
    simp only [Option.bind_some]
    rw [if_neg (by rw [d2]; exact hu1.1), if_neg (by rw [d2]; exact hub), e1]
    rfl

/-! ## Numbers that do not fit -/

/-- A number that does not fit becomes another one without a message. -/
theorem large_number {E : Env} {path T name} {ds : List Byte} (hw : Written T [(.id, name), (.dec, ds), (SEMIC, [59#8])])
    (h : 2 ^ 63 ≤ value ds) (hd : ∀ c ∈ ds, isDigit c) (hc : Clean T) (hn : T.length + 1 < E.fuel) :
    confLoad E path (some T) none = some (true, some [{ name := main, cmds := [(name, [.int (2 ^ 63 - 1)])] }]) := by
  have hne : ds ≠ [] := by rintro rfl; simp [value] at h
  have hlen := written_length hw
  simp only [List.length_cons, List.length_nil] at hlen
  have hr := reads_file (path := path) hw hc hn
  obtain ⟨t1, l1, a1, a2, a3, a4⟩ := reads_token hr
  obtain ⟨t2, l2, b1, b2, b3, b4⟩ := reads_token a4
  obtain ⟨t3, l3, c1, c2, c3, c4⟩ := reads_token b4
  obtain ⟨F, hF⟩ : ∃ m, E.fuel = m + 2 := ⟨E.fuel - 2, by omega⟩
  obtain ⟨l4, d1, d2⟩ := load_eof (n := F) (cur := 0)
    (C := addCmd empty 0 t1.text [.int (2 ^ 63 - 1)]) c4
  have hi : itemInit E.real t2 = some (.int (2 ^ 63 - 1)) := by
    rw [itemInit, b2, b3]
    have := atol_signed (neg := false) hne hd
    rw [signed, if_neg (by decide), if_neg (by decide), if_neg (by omega)] at this
    rw [this]
  have hit : items E E.fuel (some t2) l2 = some (some [.int (2 ^ 63 - 1)], l3) := by
    rw [hF, items]
    rw [if_neg (by rw [b2]; decide), if_neg (by rw [b2]; decide), c1]
    simp only [Option.bind_eq_bind, Option.bind_some]
    rw [items]
    rw [if_neg (by rw [c2]; decide), if_pos c2]
    simp only [Option.bind_some, hi, Option.map_some]
  rw [← a3]
  refine conf_of_load (l := l4) (C := addCmd empty 0 t1.text [.int (2 ^ 63 - 1)]) ?_
  rw [hF] at hit ⊢
  rw [load, a1]
  simp only [Option.bind_eq_bind, Option.bind_some]
  rw [if_neg (by rw [a2]; decide), if_neg (by rw [a2]; decide), if_neg (by rw [a2]; decide), b1]
  simp only [Option.bind_some]
  rw [if_neg (by rw [b2]; decide), if_neg (by rw [b2]; decide), hF, hit]
  simp only [Option.bind_some]
  exact d2

/-! ## Comments -/

theorem block_append {a b : List Byte} (ha : Block a) (hb : Block b) : Block (a ++ b) := by
  induction ha with
  | nil => exact hb
  | byte h _ ih => exact .byte h ih
  | star h _ ih => exact .star h ih

theorem stars_snoc (w : List Byte) : stars (w ++ [42#8]) = stars w + 1 := by
  simp [stars]

theorem plain_snoc {w : List Byte} (h : Plain w) : Plain (w ++ [42#8]) := by
  rintro ⟨a, b, he⟩
  rcases List.eq_nil_or_concat b with rfl | ⟨b', x, rfl⟩
  · have := congrArg List.getLast? he
    simp at this
  · apply h
    refine ⟨a, b', ?_⟩
    have := List.append_inj_left' (show (a ++ [42#8, 47#8] ++ b') ++ [x] = w ++ [42#8] by simpa using he) rfl
    exact this

/-- After an odd number of stars `*/` does not end a comment: what follows is lost, up to the end of the
file if no other `*/` comes. -/
theorem odd_stars_go_on {E : Env} {path} {w v : List Byte} (hw : Plain w) (ho : ¬ Even (stars w)) (hv : Plain v)
    (hc : Clean (47#8 :: 42#8 :: w ++ 42#8 :: 47#8 :: v)) (hn : w.length + v.length + 5 < E.fuel) :
    confLoad E path (some (47#8 :: 42#8 :: w ++ 42#8 :: 47#8 :: v)) none = some (true, some empty) := by
  have b1 : Block (w ++ [42#8]) := block_of _ (le_refl _) (plain_snoc hw) (by
    rw [stars_snoc]; exact Nat.even_add_one.mpr ho)
  have ht : text (initFile path (47#8 :: 42#8 :: w ++ 42#8 :: 47#8 :: v)) = 47#8 :: 42#8 :: w ++ 42#8 :: 47#8 :: v := by
    simp [text, initFile, pushFile, push, Input.rest]
  obtain ⟨F, hF⟩ : ∃ m, E.fuel = m + 1 := ⟨E.fuel - 1, by omega⟩
  have hb : ∃ t l', token (cfg E.fs) (F + 1) (initFile path (47#8 :: 42#8 :: w ++ 42#8 :: 47#8 :: v)) = some (some t, l') ∧
      t.type = COMMENT ∧ text l' = [] ∧ l'.res = [] ∧ l'.ignore = false := by
    rcases block_open _ (le_refl _) hv with hv' | ⟨v', rfl, hv'⟩
    · exact token_block (ws := []) (w := w ++ [42#8] ++ 47#8 :: v) (rest := []) rfl rfl (by rw [ht]; simp) (by simp)
        (block_append b1 (.byte (by decide) hv')) (fun h _ h' => block_end h h') (ht.symm ▸ hc) (by rw [ht]; simp; omega)
    · exact token_block (ws := []) (w := w ++ [42#8] ++ 47#8 :: v') (rest := [42#8]) rfl rfl (by rw [ht]; simp) (by simp)
        (block_append b1 (.byte (by decide) hv')) (fun h _ h' => block_star_end h h') (ht.symm ▸ hc) (by rw [ht]; simp at hn ⊢; omega)
  obtain ⟨t, l1, a1, a2, a3, a4, a5⟩ := hb
  obtain ⟨t2, l2, c1, c2, c3⟩ := conf_end (fs := E.fs) (F := F + 1) (n := F) (l := l1) a4 a5 (by simp [a3]) (by simp [a3, Clean])
    (by simp [a3]; omega) (by omega)
  have htok : E.token (initFile path (47#8 :: 42#8 :: w ++ 42#8 :: 47#8 :: v)) = some (some t2, l2) := by
    rw [Env.token, hF, confToken, a1]
    simp only [Option.bind_eq_bind, Option.bind_some]
    rw [if_pos a2, if_neg (by decide), c1]
  refine conf_of_load (l := l2) ?_
  rw [hF, load, htok]
  simp only [Option.bind_eq_bind, Option.bind_some]
  rw [if_pos c2]

/-! ## Reloading -/

theorem hooks_all {g : Option Conf} {hs : List (Option Conf → Int)} (h : ∀ f ∈ hs, 0 ≤ f g) : runHooks g hs = true := by
  induction hs with
  | nil => rfl
  | cons f hs ih =>
    have := h f (by simp)
    rw [runHooks, if_neg (by omega)]
    exact ih fun f hf => h f (by simp [hf])

/-- With a good file the hooks decide, and the configuration is the new one. -/
theorem reload_good {E : Env} {path T hooks old} {es : List Entry} (hw : Written T (es.flatMap Entry.toks))
    (hf : ∀ e ∈ es, Entry.Fits e) (hc : Clean T) (hn : T.length + 1 < E.fuel) :
    reload E path (some T) hooks old = some (runHooks (some (confOf E.real es)) hooks, some (confOf E.real es)) := by
  rw [reload, load_ok hw hf hc hn]; rfl

/-- A hook that returns a negative number makes it fail. -/
theorem runHooks_iff {g : Option Conf} {hs : List (Option Conf → Int)} : runHooks g hs = true ↔ ∀ f ∈ hs, 0 ≤ f g := by
  refine ⟨?_, hooks_all⟩
  induction hs with
  | nil => simp
  | cons f hs ih =>
    rw [runHooks]
    split
    · simp
    · intro h x hx
      rcases List.mem_cons.mp hx with rfl | hx
      · omega
      · exact ih h x hx

/-- With a file that is refused, reloading reports success and there is no configuration any more. -/
theorem reload_bad {E : Env} {path T hooks old} (h : confLoad E path (some T) none = some (false, none))
    (hh : ∀ f ∈ hooks, 0 ≤ f none) : reload E path (some T) hooks old = some (true, none) := by
  rw [reload, h]
  show some (runHooks none hooks, none) = _
  rw [hooks_all hh]

/-! ## Arguments by their number -/

/-- Arguments are counted from 1. -/
theorem search_item {is : List Item} {k : Nat} : itemSearch is (k + 1) = is[k]? ∧ itemSearch is 0 = none := by
  refine ⟨?_, by simp [itemSearch]⟩
  rw [itemSearch]
  split
  · rename_i h
    rw [List.getElem?_eq_none (by omega)]
  · rfl

/-! ## Strings that are not closed -/

theorem dblq_open {w s} (h : Body w s) : ∀ {n l}, text l = w → Clean (text l) → w.length < n → ∃ l2, dblq n l = some (none, l2) := by
  induction h with
  | nil =>
    intro n l ht hc hn
    obtain ⟨n, rfl⟩ : ∃ m, n = m + 1 := ⟨n - 1, by simp at hn; omega⟩
    obtain ⟨g1, -⟩ := getchar_nil ht
    rw [dblq]; dsimp only
    rw [g1, if_neg (by decide), if_pos rfl]
    exact ⟨_, rfl⟩
  | @byte c w s hcq hc92 _ ih =>
    intro n l ht hc hn
    obtain ⟨n, rfl⟩ : ∃ m, n = m + 1 := ⟨n - 1, by simp at hn; omega⟩
    obtain ⟨g1, g2, g3, g4⟩ := getchar_cons ht
    have hcc := hc c (by rw [ht]; simp)
    have ht2 : text (put (getchar l).2 c) = w := g2
    obtain ⟨l2, a1⟩ := ih (n := n) ht2 (by rw [ht2]; exact clean_tail hc (by rw [ht]; simp)) (by simp at hn; omega)
    refine ⟨l2, ?_⟩
    rw [dblq]; dsimp only
    rw [g1, if_neg hcc.2, if_neg hcc.1, if_neg hcq, getEsc, if_neg hc92]
    exact a1
  | @esc m b w s hm _ ih =>
    intro n l ht hc hn
    obtain ⟨n, rfl⟩ : ∃ m, n = m + 1 := ⟨n - 1, by simp at hn; omega⟩
    obtain ⟨g1, g2, g3, g4⟩ := getchar_cons ht
    have hcl2 : Clean (text (getchar l).2) := by rw [g2]; exact clean_tail hc (by rw [ht]; exact List.suffix_cons _ _)
    obtain ⟨l3, k1, k2, k3, k4⟩ := getEsc_esc g2 hcl2 hm
    obtain ⟨l2, a1⟩ := ih (n := n) k2 (by rw [k2]; exact clean_tail hc (by rw [ht]; exact ⟨[92#8, m], by simp⟩)) (by simp at hn; omega)
    refine ⟨l2, ?_⟩
    rw [dblq]; dsimp only
    rw [g1, if_neg (by decide), if_neg (by decide), if_neg (by decide), k1]
    exact a1

/-- A string that is not closed is no token. -/
theorem token_open {fs} {l : Lex} {ws w s : List Byte} {n : Nat} (ht : text l = ws ++ 34#8 :: w) (hws : ∀ c ∈ ws, isWs c)
    (hb : Body w s) (hc : Clean (text l)) (hn : (text l).length < n) : ∃ l', token (cfg fs) (n + 1) l = some (none, l') := by
  obtain ⟨x, l1, s1, s2, s3, s4, -⟩ := start l (n := n) hn
  have hlen : w.length < n := by rw [ht] at hn; simp at hn; omega
  rw [ht, (ws_skip hws (by intro y hy; cases hy; decide)).1] at s2
  have e := pending_ne s2 (by simp)
  simp only [List.cons.injEq] at e
  obtain ⟨rfl, e⟩ := e
  have ht2 : text (clean (put l1 34#8)) = w := e.symm
  obtain ⟨l2, a1⟩ := dblq_open hb (n := n) ht2 (by rw [ht2]; intro b hb; exact hc b (by rw [ht]; simp [hb])) hlen
  refine ⟨l2, ?_⟩
  have hk : special (cfg fs) (token (cfg fs) n) n (put l1 34#8) 34#8 = dblq n (clean (put l1 34#8)) := by
    rw [special, if_pos (by decide)]
    rfl
  rw [token_at s1 (by decide) (by decide), dispatch, if_neg (by decide), if_neg (by decide), hk, a1]
  rfl

/-- A file is refused if it ends in a string that is not closed, the first argument of a command. -/
theorem open_string_refused {E : Env} {path name ws w s} (hx : Lexeme keywords .id name (ws ++ 34#8 :: w)) (hws : ∀ c ∈ ws, isWs c) (hb : Body w s)
    (hc : Clean (name ++ (ws ++ 34#8 :: w))) (hn : (name ++ (ws ++ 34#8 :: w)).length + 1 < E.fuel) :
    confLoad E path (some (name ++ (ws ++ 34#8 :: w))) none = some (false, none) := by
  have e : text (initFile path (name ++ (ws ++ 34#8 :: w))) = name ++ (ws ++ 34#8 :: w) := by simp [text, initFile, pushFile, push, Input.rest]
  obtain ⟨t, l', a1, a2, a3, a4, a5, a6⟩ := conf_signed (fs := E.fs) (F := E.fuel) (n := E.fuel) (l := initFile path (name ++ (ws ++ 34#8 :: w))) (ws := []) rfl rfl
    (by rw [e]; rfl) (by simp) (.pos (.plain hx (by simp) (by simp) (by simp) (by simp) (by simp) (by simp))) (by rw [e]; exact hc) (by rw [e]; exact hn) (by rw [e]; exact hn)
  obtain ⟨f, hf⟩ : ∃ f, E.fuel = f + 1 := ⟨E.fuel - 1, by omega⟩
  obtain ⟨l2, b1⟩ := token_open (fs := E.fs) (n := f) a4 hws hb (by rw [a4]; exact clean_tail hc (List.suffix_append _ _)) (by rw [a4]; simp only [List.length_append] at hn ⊢; omega)
  have h1 : E.token (initFile path (name ++ (ws ++ 34#8 :: w))) = some (some t, l') := a1
  have h2 : E.token l' = some (none, l2) := by
    show confToken E.fs E.fuel E.fuel false l' = _
    rw [hf, confToken, b1]
    rfl
  refine refused (l := l2) (C := empty) ?_
  rw [hf, load, h1]
  simp only [Option.bind_eq_bind, Option.bind_some]
  rw [if_neg (by rw [a2]; decide), if_neg (by rw [a2]; decide), if_neg (by rw [a2]; decide), h2]
  rfl

/-! ## Examples -/

/-- Real numbers are left out. -/
def exE : Env := { real := fun _ => 0#32, fuel := 60 }

/-- `a 1 -2 "x\n" 'c' on; /* c */ d { e off; } // end` -/
example : confLoad exE [] (some [97#8, 32#8, 49#8, 32#8, 45#8, 50#8, 32#8, 34#8, 120#8, 92#8, 110#8, 34#8, 32#8, 39#8, 99#8, 39#8, 32#8, 111#8, 110#8, 59#8, 32#8, 47#8, 42#8, 32#8, 99#8, 32#8, 42#8, 47#8, 32#8, 100#8, 32#8, 123#8, 32#8, 101#8, 32#8, 111#8, 102#8, 102#8, 59#8, 32#8, 125#8, 32#8, 47#8, 47#8, 32#8, 101#8, 110#8, 100#8]) none = some (true, some [{ name := main, cmds := [([97#8], [.int 1, .int (-2), .str [120#8, 10#8], .chr 99#8, .bool true])] },
      { name := [100#8], cmds := [([101#8], [.bool false])] }]) := by decide +kernel
/-- `d{a;` -/
example : confLoad exE [] (some [100#8, 123#8, 97#8, 59#8]) none = some (true, some [{ name := main }, { name := [100#8], cmds := [([97#8], [])] }]) := by decide +kernel
/-- `main{a;}` -/
example : confLoad exE [] (some [109#8, 97#8, 105#8, 110#8, 123#8, 97#8, 59#8, 125#8]) none = some (false, none) := by decide +kernel
/-- `d{e{a;}}` -/
example : confLoad exE [] (some [100#8, 123#8, 101#8, 123#8, 97#8, 59#8, 125#8, 125#8]) none = some (false, none) := by decide +kernel
/-- `a 0x1;` -/
example : confLoad exE [] (some [97#8, 32#8, 48#8, 120#8, 49#8, 59#8]) none = some (false, none) := by decide +kernel
/-- `a 1` -/
example : confLoad exE [] (some [97#8, 32#8, 49#8]) none = some (false, none) := by decide +kernel
/-- `a "b` -/
example : confLoad exE [] (some [97#8, 32#8, 34#8, 98#8]) none = some (false, none) := by decide +kernel
/-- `a;/***/b;` -/
example : confLoad exE [] (some [97#8, 59#8, 47#8, 42#8, 42#8, 42#8, 47#8, 98#8, 59#8]) none = some (true, some [{ name := main, cmds := [([97#8], [])] }]) := by decide +kernel
/-- `a;/****/b;` -/
example : confLoad exE [] (some [97#8, 59#8, 47#8, 42#8, 42#8, 42#8, 42#8, 47#8, 98#8, 59#8]) none = some (true, some [{ name := main, cmds := [([97#8], []), ([98#8], [])] }]) := by decide +kernel
/-- `a 9223372036854775808;` -/
example : confLoad exE [] (some [97#8, 32#8, 57#8, 50#8, 50#8, 51#8, 51#8, 55#8, 50#8, 48#8, 51#8, 54#8, 56#8, 53#8, 52#8, 55#8, 55#8, 53#8, 56#8, 48#8, 56#8, 59#8]) none = some (true, some [{ name := main, cmds := [([97#8], [.int 9223372036854775807])] }]) := by decide +kernel

/-- `/**/a -1;` is written with the tokens of a command. -/
example : Written [47#8, 42#8, 42#8, 47#8, 97#8, 32#8, 45#8, 49#8, 59#8] (Cmd.toks { name := [97#8], args := [.int true [49#8]] }) := by
  refine .cons (g := [47#8, 42#8, 42#8, 47#8]) (w := [97#8]) (rest := [32#8, 45#8, 49#8, 59#8]) (.block (w := []) (g := []) ?_ (by decide) .nil)
    (.pos (.plain (.id ⟨⟨_, _, rfl, by decide⟩, by decide⟩ (by decide) (by decide) (by intro c h; cases h; decide))
      (by simp) (by simp) (by simp) (by simp) (by simp) (by simp))) ?_
  · simp [Plain]
  refine .cons (g := [32#8]) (w := [45#8, 49#8]) (rest := [59#8]) (.ws (by decide) .nil)
    (.neg (ws := []) (.inl rfl) (by simp) (.plain (.num ⟨by simp, by decide, by simp⟩ (by intro c h; cases h; decide))
      (by simp) (by simp) (by simp) (by simp) (by simp) (by simp))) ?_
  exact .cons (g := []) (w := [59#8]) (rest := []) .nil
    (.pos (.plain (.spec (by decide) (by decide)) (by simp) (by simp) (by simp) (by simp) (by simp) (by simp)))
    (.nil (.gap .nil))

/-- Reloading a bad file: success, and no configuration. -/
example : reload exE [] (some [125#8]) [fun _ => 0] (some empty) = some (true, none) := by decide +kernel

example : itemSearch [.int 5, .bool true] 2 = some (.bool true) := by decide

end Verif.Conf
