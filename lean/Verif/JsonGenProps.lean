import Verif.JsonGen
import Verif.JsonMoreProps
/-!
# Theorems about mln_json_generate
-/
namespace Verif.Json
open Verif.Str (Byte)

/-! ## Specification

The manual: formats are nested objects and arrays with letters in them, each letter stands for an
argument. A template is a format together with the arguments that belong to it. -/

inductive Leaf (D : Type)
  | j (x : Json D)
  | d (n : BitVec 32)
  | D (n : BitVec 64)
  | u (n : BitVec 32)
  | U (n : BitVec 64)
  | F (x : D)
  | t
  | f
  | n
  | s (s : List Byte)
  | S (s : List Byte)
  | c (v : Json D)

inductive Key
  | s (s : List Byte)
  | S (s : List Byte)
  | c (s : List Byte)

mutual
inductive Tp (D : Type)
  | leaf (l : Leaf D)
  | obj (m : Om D)
  | arr (m : Am D)
/-- What comes behind `{`, and behind a comma in an object. -/
inductive Om (D : Type)
  | close
  | last (k : Key) (v : Tp D)
  | more (k : Key) (v : Tp D) (m : Om D)
/-- What comes behind `[`, and behind a comma in an array. -/
inductive Am (D : Type)
  | close
  | last (v : Tp D)
  | more (v : Tp D) (m : Am D)
end

variable {D : Type}

def Leaf.letter : Leaf D → Byte
  | .j _ => 106 | .d _ => 100 | .D _ => 68 | .u _ => 117 | .U _ => 85 | .F _ => 70
  | .t => 116 | .f => 102 | .n => 110 | .s _ => 115 | .S _ => 83 | .c _ => 99

def Leaf.args : Leaf D → List (Arg D)
  | .j x => [.json x] | .d i => [.s32 i] | .D i => [.s64 i] | .u i => [.u32 i] | .U i => [.u64 i] | .F x => [.dbl x]
  | .t => [] | .f => [] | .n => [] | .s w => [.cstr w] | .S w => [.string w] | .c v => [.call (some v)]

def Leaf.value (cvt : Int → D) : Leaf D → Json D
  | .j x => x | .d i => .num (cvt i.toInt) | .D i => .num (cvt i.toInt) | .u i => .num (cvt i.toNat) | .U i => .num (cvt i.toNat)
  | .F x => .num x | .t => .tru | .f => .fls | .n => .null | .s w => .str w | .S w => .str w | .c v => v

def Leaf.given : Leaf D → List (Json D)
  | .j x => [x]
  | _ => []

def Key.letter : Key → Byte
  | .s _ => 115 | .S _ => 83 | .c _ => 99

def Key.arg : Key → Arg D
  | .s w => .cstr w | .S w => .string w | .c w => .call (some (.str w))

def Key.text : Key → List Byte
  | .s w => w | .S w => w | .c w => w

mutual
/-- The format. -/
def Tp.fmt : Tp D → List Byte
  | .leaf l => [l.letter]
  | .obj m => 123 :: m.fmt
  | .arr m => 91 :: m.fmt
def Om.fmt : Om D → List Byte
  | .close => [125]
  | .last k v => k.letter :: 58 :: (v.fmt ++ [125])
  | .more k v m => k.letter :: 58 :: (v.fmt ++ 44 :: m.fmt)
def Am.fmt : Am D → List Byte
  | .close => [93]
  | .last v => v.fmt ++ [93]
  | .more v m => v.fmt ++ 44 :: m.fmt
end

mutual
/-- The arguments. -/
def Tp.args : Tp D → List (Arg D)
  | .leaf l => l.args
  | .obj m => m.args
  | .arr m => m.args
def Om.args : Om D → List (Arg D)
  | .close => []
  | .last k v => k.arg :: v.args
  | .more k v m => k.arg :: (v.args ++ m.args)
def Am.args : Am D → List (Arg D)
  | .close => []
  | .last v => v.args
  | .more v m => v.args ++ m.args
end

mutual
/-- The values given with `j`. -/
def Tp.given : Tp D → List (Json D)
  | .leaf l => l.given
  | .obj m => m.given
  | .arr m => m.given
def Om.given : Om D → List (Json D)
  | .close => []
  | .last _ v => v.given
  | .more _ v m => v.given ++ m.given
def Am.given : Am D → List (Json D)
  | .close => []
  | .last v => v.given
  | .more v m => v.given ++ m.given
end

mutual
/-- The value: what the interface makes of it, member by member (mln_json_obj_update) and element by
element (mln_json_array_append). `none` only if keys cannot be compared. -/
def Tp.value (cvt : Int → D) : Tp D → Option (Json D)
  | .leaf l => some (l.value cvt)
  | .obj m => (m.value cvt []).map .obj
  | .arr m => (m.value cvt []).map .arr
def Om.value (cvt : Int → D) : Om D → List (List Byte × Json D) → Option (List (List Byte × Json D))
  | .close, kvs => some kvs
  | .last k v, kvs => (v.value cvt).bind fun x => update kvs k.text x
  | .more k v m, kvs => (v.value cvt).bind fun x => (update kvs k.text x).bind (m.value cvt)
def Am.value (cvt : Int → D) : Am D → List (Json D) → Option (List (Json D))
  | .close, vs => some vs
  | .last v, vs => (v.value cvt).map fun x => vs ++ [x]
  | .more v m, vs => (v.value cvt).bind fun x => m.value cvt (vs ++ [x])
end

/-! ## Success -/

variable {cvt : Int → D}

theorem leaf_ok (l : Leaf D) (f : List Byte) (as : List (Arg D)) : genLeaf cvt l.letter f (l.args ++ as) = some (.ok (l.value cvt) f as l.given) := by
  cases l <;> rfl

theorem key_ok (k : Key) (f : List Byte) (as : List (Arg D)) : genKey k.letter f (k.arg :: as) = some (.ok (.str k.text) f as []) := by
  cases k <;> rfl

theorem letter_plain (l : Leaf D) : l.letter ≠ 123 ∧ l.letter ≠ 91 ∧ l.letter ≠ 93 := by
  cases l <;> (simp only [Leaf.letter]; decide)

theorem key_plain (k : Key) : k.letter ≠ 125 := by
  cases k <;> (simp only [Key.letter]; decide)

theorem Tp.fmt_cons : ∀ (t : Tp D), ∃ c r, t.fmt = c :: r ∧ c ≠ 93
  | .leaf l => ⟨_, _, rfl, (letter_plain l).2.2⟩
  | .obj _ => ⟨_, _, rfl, by decide⟩
  | .arr _ => ⟨_, _, rfl, by decide⟩

mutual
theorem val_ok : ∀ (t : Tp D) (v : Json D), t.value cvt = some v → ∀ n, 2 * t.fmt.length ≤ n → ∀ c r, t.fmt = c :: r → ∀ f as,
    genVal cvt n c (r ++ f) (t.args ++ as) = some (.ok v f as t.given)
  | .leaf l, v, hv, n, hn, c, r, hc, f, as => by
    simp only [Tp.fmt, List.cons.injEq] at hc
    obtain ⟨e1, e2⟩ := hc
    subst e1 e2
    simp only [Tp.value, Option.some.injEq] at hv
    subst hv
    cases n with
    | zero => simp [Tp.fmt] at hn
    | succ n =>
      simp only [genVal, List.nil_append, Tp.args, Tp.given]
      rw [if_neg (letter_plain l).1, if_neg (letter_plain l).2.1]
      exact leaf_ok l f as
  | .obj m, v, hv, n, hn, c, r, hc, f, as => by
    simp only [Tp.fmt, List.cons.injEq] at hc
    obtain ⟨e1, e2⟩ := hc
    subst e1 e2
    simp only [Tp.value, Option.map_eq_some_iff] at hv
    obtain ⟨kvs, h1, h2⟩ := hv
    subst h2
    cases n with
    | zero => simp [Tp.fmt] at hn
    | succ n =>
      simp only [genVal, if_true, Tp.args, Tp.given]
      exact obj_ok m [] kvs h1 n (by simp [Tp.fmt] at hn; omega) f as []
  | .arr m, v, hv, n, hn, c, r, hc, f, as => by
    simp only [Tp.fmt, List.cons.injEq] at hc
    obtain ⟨e1, e2⟩ := hc
    subst e1 e2
    simp only [Tp.value, Option.map_eq_some_iff] at hv
    obtain ⟨kvs, h1, h2⟩ := hv
    subst h2
    cases n with
    | zero => simp [Tp.fmt] at hn
    | succ n =>
      simp only [genVal, if_true, Tp.args, Tp.given]
      rw [if_neg (by decide)]
      exact arr_ok m [] kvs h1 n (by simp [Tp.fmt] at hn; omega) f as []
theorem obj_ok : ∀ (m : Om D) (kvs kvs' : List (List Byte × Json D)), m.value cvt kvs = some kvs' → ∀ n, 2 * m.fmt.length < n + 1 → ∀ f as gone,
    genObj cvt n kvs (m.fmt ++ f) (m.args ++ as) gone = some (.ok (.obj kvs') f as (gone ++ m.given))
  | .close, kvs, kvs', hv, n, hn, f, as, gone => by
    cases n with
    | zero => simp [Om.fmt] at hn
    | succ n =>
      simp only [Om.value, Option.some.injEq] at hv
      subst hv
      simp [Om.fmt, Om.args, Om.given, genObj]
  | .last k v, kvs, kvs', hv, n, hn, f, as, gone => by
    cases n with
    | zero => simp [Om.fmt] at hn
    | succ n =>
      simp only [Om.value, Option.bind_eq_some_iff] at hv
      obtain ⟨x, h1, h2⟩ := hv
      obtain ⟨c, r, hc, _⟩ := v.fmt_cons
      have := val_ok v x h1 n (by simp [Om.fmt] at hn; omega) c r hc (125 :: f) as
      simp only [Om.fmt, Om.args, Om.given, hc, List.cons_append, List.append_assoc, List.nil_append, genObj]
      rw [if_neg (key_plain k), key_ok]
      dsimp only
      rw [if_pos rfl, this]
      dsimp only
      rw [h2]
      simp
  | .more k v m, kvs, kvs', hv, n, hn, f, as, gone => by
    cases n with
    | zero => simp [Om.fmt] at hn
    | succ n =>
      simp only [Om.value, Option.bind_eq_some_iff] at hv
      obtain ⟨x, h1, y, h2, h3⟩ := hv
      obtain ⟨c, r, hc, _⟩ := v.fmt_cons
      have := val_ok v x h1 n (by simp [Om.fmt] at hn; omega) c r hc (44 :: (m.fmt ++ f)) (m.args ++ as)
      have h4 := obj_ok m y kvs' h3 n (by simp [Om.fmt] at hn; omega) f as (gone ++ v.given)
      simp only [Om.fmt, Om.args, Om.given, hc, List.cons_append, List.append_assoc, genObj]
      rw [if_neg (key_plain k), key_ok]
      dsimp only
      rw [if_pos rfl, this]
      dsimp only
      rw [h2]
      dsimp only
      rw [if_neg (by decide), if_pos rfl, h4, List.append_assoc]
theorem arr_ok : ∀ (m : Am D) (vs vs' : List (Json D)), m.value cvt vs = some vs' → ∀ n, 2 * m.fmt.length < n + 1 → ∀ f as gone,
    genArr cvt n vs (m.fmt ++ f) (m.args ++ as) gone = some (.ok (.arr vs') f as (gone ++ m.given))
  | .close, vs, vs', hv, n, hn, f, as, gone => by
    cases n with
    | zero => simp [Am.fmt] at hn
    | succ n =>
      simp only [Am.value, Option.some.injEq] at hv
      subst hv
      simp [Am.fmt, Am.args, Am.given, genArr]
  | .last v, vs, vs', hv, n, hn, f, as, gone => by
    cases n with
    | zero => simp [Am.fmt] at hn
    | succ n =>
      simp only [Am.value, Option.map_eq_some_iff] at hv
      obtain ⟨x, h1, h2⟩ := hv
      subst h2
      obtain ⟨c, r, hc, hp⟩ := v.fmt_cons
      have := val_ok v x h1 n (by simp [Am.fmt] at hn; omega) c r hc (93 :: f) as
      simp only [Am.fmt, Am.args, Am.given, hc, List.cons_append, List.append_assoc, List.nil_append, genArr]
      rw [if_neg hp, this]
      simp
  | .more v m, vs, vs', hv, n, hn, f, as, gone => by
    cases n with
    | zero => simp [Am.fmt] at hn
    | succ n =>
      simp only [Am.value, Option.bind_eq_some_iff] at hv
      obtain ⟨x, h1, h2⟩ := hv
      obtain ⟨c, r, hc, hp⟩ := v.fmt_cons
      have := val_ok v x h1 n (by simp [Am.fmt] at hn; omega) c r hc (44 :: (m.fmt ++ f)) (m.args ++ as)
      have h4 := arr_ok m (vs ++ [x]) vs' h2 n (by simp [Am.fmt] at hn; omega) f as (gone ++ v.given)
      simp only [Am.fmt, Am.args, Am.given, hc, List.cons_append, List.append_assoc, genArr]
      rw [if_neg hp, this]
      dsimp only
      rw [if_neg (by decide), if_pos rfl, h4, List.append_assoc]
end

/-! ## Nothing else succeeds -/

theorem leaf_only {c : Byte} {f f' : List Byte} {as as' : List (Arg D)} {v : Json D} {g : List (Json D)} (h : genLeaf cvt c f as = some (.ok v f' as' g)) :
    ∃ l : Leaf D, c = l.letter ∧ as = l.args ++ as' ∧ v = l.value cvt ∧ g = l.given ∧ f' = f := by
  unfold genLeaf at h
  by_cases h106 : c = 106
  · rw [if_pos h106] at h
    split at h
    · cases h; exact ⟨.j _, h106, rfl, rfl, rfl, rfl⟩
    · cases h
  rw [if_neg h106] at h
  by_cases h100 : c = 100
  · rw [if_pos h100] at h
    split at h
    · cases h; exact ⟨.d _, h100, rfl, rfl, rfl, rfl⟩
    · cases h
  rw [if_neg h100] at h
  by_cases h68 : c = 68
  · rw [if_pos h68] at h
    split at h
    · cases h; exact ⟨.D _, h68, rfl, rfl, rfl, rfl⟩
    · cases h
  rw [if_neg h68] at h
  by_cases h117 : c = 117
  · rw [if_pos h117] at h
    split at h
    · cases h; exact ⟨.u _, h117, rfl, rfl, rfl, rfl⟩
    · cases h
  rw [if_neg h117] at h
  by_cases h85 : c = 85
  · rw [if_pos h85] at h
    split at h
    · cases h; exact ⟨.U _, h85, rfl, rfl, rfl, rfl⟩
    · cases h
  rw [if_neg h85] at h
  by_cases h70 : c = 70
  · rw [if_pos h70] at h
    split at h
    · cases h; exact ⟨.F _, h70, rfl, rfl, rfl, rfl⟩
    · cases h
  rw [if_neg h70] at h
  by_cases h116 : c = 116
  · rw [if_pos h116] at h
    cases h; exact ⟨.t, h116, rfl, rfl, rfl, rfl⟩
  rw [if_neg h116] at h
  by_cases h102 : c = 102
  · rw [if_pos h102] at h
    cases h; exact ⟨.f, h102, rfl, rfl, rfl, rfl⟩
  rw [if_neg h102] at h
  by_cases h110 : c = 110
  · rw [if_pos h110] at h
    cases h; exact ⟨.n, h110, rfl, rfl, rfl, rfl⟩
  rw [if_neg h110] at h
  by_cases h115 : c = 115
  · rw [if_pos h115] at h
    split at h
    · cases h; exact ⟨.s _, h115, rfl, rfl, rfl, rfl⟩
    · cases h
  rw [if_neg h115] at h
  by_cases h83 : c = 83
  · rw [if_pos h83] at h
    split at h
    · cases h; exact ⟨.S _, h83, rfl, rfl, rfl, rfl⟩
    · cases h
  rw [if_neg h83] at h
  by_cases h99 : c = 99
  · rw [if_pos h99] at h
    split at h
    · cases h; exact ⟨.c _, h99, rfl, rfl, rfl, rfl⟩
    · cases h
    · cases h
  rw [if_neg h99] at h
  cases h

theorem key_only {c : Byte} {f f' : List Byte} {as as' : List (Arg D)} {k : List Byte} {g : List (Json D)} (h : genKey c f as = some (.ok (.str k) f' as' g)) :
    ∃ l : Key, c = l.letter ∧ as = l.arg :: as' ∧ k = l.text ∧ f' = f := by
  unfold genKey at h
  split at h
  · split at h
    · cases h; exact ⟨.s _, by assumption, rfl, rfl, rfl⟩
    · cases h
  split at h
  · split at h
    · cases h; exact ⟨.S _, by assumption, rfl, rfl, rfl⟩
    · cases h
  split at h
  · split at h
    · cases h; exact ⟨.c _, by assumption, rfl, rfl, rfl⟩
    · cases h
    · cases h
  · cases h

theorem only (n : Nat) :
    (∀ c f as v f' as' g, genVal cvt n c f as = some (.ok v f' as' g) →
      ∃ t : Tp D, c :: f = t.fmt ++ f' ∧ as = t.args ++ as' ∧ t.value cvt = some v ∧ g = t.given) ∧
    (∀ kvs f as gone v f' as' g, genObj cvt n kvs f as gone = some (.ok v f' as' g) →
      ∃ (m : Om D) (kvs' : _), f = m.fmt ++ f' ∧ as = m.args ++ as' ∧ m.value cvt kvs = some kvs' ∧ v = .obj kvs' ∧ g = gone ++ m.given) ∧
    (∀ vs f as gone v f' as' g, genArr cvt n vs f as gone = some (.ok v f' as' g) →
      ∃ (m : Am D) (vs' : _), f = m.fmt ++ f' ∧ as = m.args ++ as' ∧ m.value cvt vs = some vs' ∧ v = .arr vs' ∧ g = gone ++ m.given) := by
  induction n with
  | zero =>
    refine ⟨fun c f as v f' as' g h => ?_, fun kvs f as gone v f' as' g h => ?_, fun vs f as gone v f' as' g h => ?_⟩
    · simp [genVal] at h
    · simp [genObj] at h
    · simp [genArr] at h
  | succ n ih =>
    obtain ⟨ihv, iho, iha⟩ := ih
    refine ⟨fun c f as v f' as' g h => ?_, fun kvs f as gone v f' as' g h => ?_, fun vs f as gone v f' as' g h => ?_⟩
    · simp only [genVal] at h
      split at h
      · rename_i hc
        obtain ⟨m, kvs', h1, h2, h3, h4, h5⟩ := iho _ _ _ _ _ _ _ _ h
        refine ⟨.obj m, by simp [Tp.fmt, hc, h1], h2, by simp [Tp.value, h3, h4], by simpa [Tp.given] using h5⟩
      · split at h
        · rename_i hc
          obtain ⟨m, kvs', h1, h2, h3, h4, h5⟩ := iha _ _ _ _ _ _ _ _ h
          refine ⟨.arr m, by simp [Tp.fmt, hc, h1], h2, by simp [Tp.value, h3, h4], by simpa [Tp.given] using h5⟩
        · obtain ⟨l, h1, h2, h3, h4, h5⟩ := leaf_only h
          exact ⟨.leaf l, by simp [Tp.fmt, h1, h5], h2, by simp [Tp.value, h3], h4⟩
    · cases f with
      | nil => simp [genObj] at h
      | cons c f =>
        simp only [genObj] at h
        split at h
        · rename_i hc
          cases h
          exact ⟨.close, kvs, by simp [Om.fmt, hc], rfl, rfl, rfl, by simp [Om.given]⟩
        · split at h
          · cases h
          · cases h
          · rename_i k f1 as1 g1 hk
            split at h
            · rename_i a c2 f2
              split at h
              · rename_i ha
                split at h
                · cases h
                · cases h
                · rename_i v1 f3 as2 g2 hv
                  split at h
                  · rename_i ks
                    split at h
                    · cases h
                    · rename_i kvs1 hu
                      obtain ⟨kk, e1, e2, e3, e4⟩ := key_only hk
                      obtain ⟨t, t1, t2, t3, t4⟩ := ihv _ _ _ _ _ _ _ hv
                      split at h
                      · cases h
                      · rename_i d f4
                        split at h
                        · rename_i hd
                          cases h
                          refine ⟨.last kk t, kvs1, ?_, ?_, ?_, rfl, ?_⟩
                          · simp [Om.fmt, e1, ← e4, ha, t1, hd]
                          · simp [Om.args, e2, t2]
                          · simp [Om.value, t3, ← e3, hu]
                          · simp [Om.given, t4]
                        · split at h
                          · rename_i hd
                            obtain ⟨m, kvs', h1, h2, h3, h4, h5⟩ := iho _ _ _ _ _ _ _ _ h
                            refine ⟨.more kk t m, kvs', ?_, ?_, ?_, h4, ?_⟩
                            · simp [Om.fmt, e1, ← e4, ha, t1, hd, h1]
                            · simp [Om.args, e2, t2, h2]
                            · simp [Om.value, t3, ← e3, hu, h3]
                            · simp [Om.given, t4, h5]
                          · cases h
                  · cases h
              · cases h
            · cases h
    · cases f with
      | nil => simp [genArr] at h
      | cons c f =>
        simp only [genArr] at h
        split at h
        · rename_i hc
          cases h
          exact ⟨.close, vs, by simp [Am.fmt, hc], rfl, rfl, rfl, by simp [Am.given]⟩
        · split at h
          · cases h
          · cases h
          · rename_i v1 f3 as2 g2 hv
            obtain ⟨t, t1, t2, t3, t4⟩ := ihv _ _ _ _ _ _ _ hv
            split at h
            · cases h
            · rename_i d f4
              split at h
              · rename_i hd
                cases h
                refine ⟨.last t, vs ++ [v1], ?_, ?_, ?_, rfl, ?_⟩
                · simp [Am.fmt, t1, hd]
                · simp [Am.args, t2]
                · simp [Am.value, t3]
                · simp [Am.given, t4]
              · split at h
                · rename_i hd
                  obtain ⟨m, kvs', h1, h2, h3, h4, h5⟩ := iha _ _ _ _ _ _ _ _ h
                  refine ⟨.more t m, kvs', ?_, ?_, ?_, h4, ?_⟩
                  · simp [Am.fmt, t1, hd, h1]
                  · simp [Am.args, t2, h2]
                  · simp [Am.value, t3, h3]
                  · simp [Am.given, t4, h5]
                · cases h

/-! ## The call -/

/-- Specification: an object is made or added to, an array likewise. -/
def add (cvt : Int → D) : Json D → Tp D → Option (Json D)
  | .none, .obj m => (m.value cvt []).map .obj
  | .obj kvs, .obj m => (m.value cvt kvs).map .obj
  | .none, .arr m => (m.value cvt []).map .arr
  | .arr vs, .arr m => (m.value cvt vs).map .arr
  | _, _ => none

/-- What the manual says, for every template and whatever is behind it: the arguments are filled in, in
their order and no others, and `*j` is the value or what was there with the value added. -/
theorem generates {j v : Json D} {t : Tp D} (h : add cvt j t = some v) (f : List Byte) (as : List (Arg D)) :
    generate cvt j (t.fmt ++ f) (t.args ++ as) = some ⟨true, v, as, t.given⟩ := by
  cases t with
  | leaf l => cases j <;> simp [add] at h
  | obj m =>
    cases j <;> simp only [add, Option.map_eq_some_iff, reduceCtorEq] at h
    · obtain ⟨kvs, h1, h2⟩ := h
      subst h2
      have := obj_ok m [] kvs h1 (2 * (123 :: (m.fmt ++ f)).length) (by simp; omega) f as []
      simp only [generate, Tp.fmt, Tp.args, Tp.given, List.cons_append, if_true, this, List.nil_append]
    · obtain ⟨kvs, h1, h2⟩ := h
      subst h2
      have := obj_ok m _ kvs h1 (2 * (123 :: (m.fmt ++ f)).length) (by simp; omega) f as []
      simp only [generate, Tp.fmt, Tp.args, Tp.given, List.cons_append, if_true, this, List.nil_append]
  | arr m =>
    have n1 : ¬ (91 : Byte) = 123 := by decide
    cases j <;> simp only [add, Option.map_eq_some_iff, reduceCtorEq] at h
    · obtain ⟨kvs, h1, h2⟩ := h
      subst h2
      have := arr_ok m [] kvs h1 (2 * (91 :: (m.fmt ++ f)).length) (by simp; omega) f as []
      simp only [generate, Tp.fmt, Tp.args, Tp.given, List.cons_append, if_true, n1, if_false, this, List.nil_append]
    · obtain ⟨kvs, h1, h2⟩ := h
      subst h2
      have := arr_ok m _ kvs h1 (2 * (91 :: (m.fmt ++ f)).length) (by simp; omega) f as []
      simp only [generate, Tp.fmt, Tp.args, Tp.given, List.cons_append, if_true, n1, if_false, this, List.nil_append]

/-- A call succeeds only for a template at the start of the format whose arguments were given, and the
value is the one of the template. -/
theorem generates_only {j : Json D} {fmt : List Byte} {as : List (Arg D)} {r : Made D} (h : generate cvt j fmt as = some r) (hr : r.ok = true) :
    ∃ (t : Tp D) (f : List Byte), fmt = t.fmt ++ f ∧ as = t.args ++ r.rest ∧ add cvt j t = some r.j ∧ r.gone = t.given := by
  cases fmt with
  | nil => simp only [generate, Option.some.injEq] at h; subst h; cases hr
  | cons c f =>
    by_cases h1 : c = 123
    · simp only [generate, if_pos h1] at h
      cases j <;> simp only [Option.some.injEq] at h
      case none =>
        cases hg : genObj cvt (2 * (c :: f).length) [] f as [] with
        | none => rw [hg] at h; cases h
        | some g =>
          rw [hg] at h
          cases g with
          | fail g => cases h; cases hr
          | ok v f' as' g =>
            cases h
            obtain ⟨m, kvs, a1, a2, a3, a4, a5⟩ := (only _).2.1 _ _ _ _ _ _ _ _ hg
            exact ⟨.obj m, f', by simp [Tp.fmt, h1, a1], a2, by simp [add, a3, a4], by simpa [Tp.given] using a5⟩
      case obj k =>
        cases hg : genObj cvt (2 * (c :: f).length) k f as [] with
        | none => rw [hg] at h; cases h
        | some g =>
          rw [hg] at h
          cases g with
          | fail g => cases h; cases hr
          | ok v f' as' g =>
            cases h
            obtain ⟨m, kvs, a1, a2, a3, a4, a5⟩ := (only _).2.1 _ _ _ _ _ _ _ _ hg
            exact ⟨.obj m, f', by simp [Tp.fmt, h1, a1], a2, by simp [add, a3, a4], by simpa [Tp.given] using a5⟩
      all_goals (subst h; cases hr)
    · by_cases h2 : c = 91
      · simp only [generate, if_neg h1, if_pos h2] at h
        cases j <;> simp only [Option.some.injEq] at h
        case none =>
          cases hg : genArr cvt (2 * (c :: f).length) [] f as [] with
          | none => rw [hg] at h; cases h
          | some g =>
            rw [hg] at h
            cases g with
            | fail g => cases h; cases hr
            | ok v f' as' g =>
              cases h
              obtain ⟨m, kvs, a1, a2, a3, a4, a5⟩ := (only _).2.2 _ _ _ _ _ _ _ _ hg
              exact ⟨.arr m, f', by simp [Tp.fmt, h2, a1], a2, by simp [add, a3, a4], by simpa [Tp.given] using a5⟩
        case arr k =>
          cases hg : genArr cvt (2 * (c :: f).length) k f as [] with
          | none => rw [hg] at h; cases h
          | some g =>
            rw [hg] at h
            cases g with
            | fail g => cases h; cases hr
            | ok v f' as' g =>
              cases h
              obtain ⟨m, kvs, a1, a2, a3, a4, a5⟩ := (only _).2.2 _ _ _ _ _ _ _ _ hg
              exact ⟨.arr m, f', by simp [Tp.fmt, h2, a1], a2, by simp [add, a3, a4], by simpa [Tp.given] using a5⟩
        all_goals (subst h; cases hr)
      · simp only [generate, if_neg h1, if_neg h2, Option.some.injEq] at h
        subst h; cases hr

/-! ### Formats that should be refused

Specification: the manual allows no other symbols, and a comma only between members. -/

/-- What stands behind the closing bracket is never looked at: no format that begins with a good one is
refused. -/
theorem behind_refuted {j v : Json D} {t : Tp D} (h : add cvt j t = some v) (f : List Byte) : generate cvt j (t.fmt ++ f) t.args = some ⟨true, v, [], t.given⟩ := by
  have := generates h f []
  rwa [List.append_nil] at this

/-- A comma before the closing bracket of an array is accepted, and means nothing. -/
theorem comma_refuted {j v : Json D} {x : Tp D} (h : add cvt j (.arr (.last x)) = some v) :
    generate cvt j (91 :: (x.fmt ++ [44, 93])) x.args = some ⟨true, v, [], x.given⟩ := by
  have h' : add cvt j (.arr (.more x .close)) = some v := by
    rw [← h]
    cases j <;> simp only [add, Am.value] <;> cases x.value cvt <;> rfl
  have := generates h' [] []
  simpa [Tp.fmt, Am.fmt, Tp.args, Am.args, Tp.given, Am.given] using this

/-! ### What a failure leaves

Specification: after a failed call `*j` is what it was, and the values given with `j` still belong to
the caller; the manual takes them from the caller after success only. -/

/-- An object or array that was to be added to is lost when the call fails behind the bracket. -/
theorem failure_resets {j : Json D} {c : Byte} {f : List Byte} {as : List (Arg D)} {r : Made D} (h : generate cvt j (c :: f) as = some r) (hr : r.ok = false)
    (hj : (c = 123 ∧ (j = .none ∨ ∃ k, j = .obj k)) ∨ (c = 91 ∧ (j = .none ∨ ∃ k, j = .arr k))) : r.j = .none := by
  rcases hj with ⟨hc, e | ⟨k, e⟩⟩ | ⟨hc, e | ⟨k, e⟩⟩ <;> subst hc e <;> simp only [generate, if_true] at h
  · split at h
    · rename_i hh; cases hh
    · cases h
    · cases h; rfl
    · cases h; cases hr
  · split at h
    · rename_i hh; cases hh
    · cases h
    · cases h; rfl
    · cases h; cases hr
  · rw [if_neg (by decide)] at h
    split at h
    · rename_i hh; cases hh
    · cases h
    · cases h; rfl
    · cases h; cases hr
  · rw [if_neg (by decide)] at h
    split at h
    · rename_i hh; cases hh
    · cases h
    · cases h; rfl
    · cases h; cases hr

/-- `[j,` and then nothing that could stand there: whatever was in the array and the value of the
caller are both destroyed. -/
theorem failure_destroys_refuted (vs : List (Json D)) (x : Json D) (as : List (Arg D)) :
    generate cvt (.arr vs) [91, 106, 44] (.json x :: as) = some ⟨false, .none, [], [x]⟩ := rfl

/-- The caller cannot tell: with the same arguments and the same answer nothing was destroyed. -/
theorem failure_keeps (x : Json D) (as : List (Arg D)) :
    generate cvt .none [91, 44, 106] (.json x :: as) = some ⟨false, .none, [], []⟩ := rfl

theorem given_args : (∀ (t : Tp D), ∀ x ∈ t.given, Arg.json x ∈ t.args) := by
  intro t
  refine Tp.rec (motive_1 := fun t => ∀ x ∈ t.given, Arg.json x ∈ t.args) (motive_2 := fun m => ∀ x ∈ m.given, Arg.json x ∈ m.args)
    (motive_3 := fun m => ∀ x ∈ m.given, Arg.json x ∈ m.args) ?_ ?_ ?_ ?_ ?_ ?_ ?_ ?_ ?_ t
  · intro l x hx
    cases l <;> simp_all [Tp.given, Tp.args, Leaf.given, Leaf.args]
  · intro m ih x hx; exact ih x (by simpa [Tp.given] using hx)
  · intro m ih x hx; exact ih x (by simpa [Tp.given] using hx)
  · intro x hx; simp [Om.given] at hx
  · intro k v ih x hx; simp only [Om.args, List.mem_cons]; exact Or.inr (ih x (by simpa [Om.given] using hx))
  · intro k v m ih ih2 x hx
    simp only [Om.given, List.mem_append] at hx
    simp only [Om.args, List.mem_cons, List.mem_append]
    rcases hx with h | h
    · exact Or.inr (Or.inl (ih x h))
    · exact Or.inr (Or.inr (ih2 x h))
  · intro x hx; simp [Am.given] at hx
  · intro v ih x hx; exact ih x (by simpa [Am.given] using hx)
  · intro v m ih ih2 x hx
    simp only [Am.given, List.mem_append] at hx
    simp only [Am.args, List.mem_append]
    rcases hx with h | h
    · exact Or.inl (ih x h)
    · exact Or.inr (ih2 x h)

theorem leaf_fail {c : Byte} {f : List Byte} {as : List (Arg D)} {g : List (Json D)} (h : genLeaf cvt c f as = some (.fail g)) : g = [] := by
  unfold genLeaf at h
  by_cases h106 : c = 106
  · rw [if_pos h106] at h
    split at h
    · cases h
    · cases h
  rw [if_neg h106] at h
  by_cases h100 : c = 100
  · rw [if_pos h100] at h
    split at h
    · cases h
    · cases h
  rw [if_neg h100] at h
  by_cases h68 : c = 68
  · rw [if_pos h68] at h
    split at h
    · cases h
    · cases h
  rw [if_neg h68] at h
  by_cases h117 : c = 117
  · rw [if_pos h117] at h
    split at h
    · cases h
    · cases h
  rw [if_neg h117] at h
  by_cases h85 : c = 85
  · rw [if_pos h85] at h
    split at h
    · cases h
    · cases h
  rw [if_neg h85] at h
  by_cases h70 : c = 70
  · rw [if_pos h70] at h
    split at h
    · cases h
    · cases h
  rw [if_neg h70] at h
  by_cases h116 : c = 116
  · rw [if_pos h116] at h
    cases h
  rw [if_neg h116] at h
  by_cases h102 : c = 102
  · rw [if_pos h102] at h
    cases h
  rw [if_neg h102] at h
  by_cases h110 : c = 110
  · rw [if_pos h110] at h
    cases h
  rw [if_neg h110] at h
  by_cases h115 : c = 115
  · rw [if_pos h115] at h
    split at h
    · cases h
    · cases h
  rw [if_neg h115] at h
  by_cases h83 : c = 83
  · rw [if_pos h83] at h
    split at h
    · cases h
    · cases h
  rw [if_neg h83] at h
  by_cases h99 : c = 99
  · rw [if_pos h99] at h
    split at h
    · cases h
    · cases h; rfl
    · cases h
  rw [if_neg h99] at h
  cases h
  rfl

theorem fail_from (n : Nat) :
    (∀ c f as g, genVal cvt n c f as = some (.fail g) → ∀ x ∈ g, Arg.json x ∈ as) ∧
    (∀ kvs f as gone g, genObj cvt n kvs f as gone = some (.fail g) → ∀ x ∈ g, x ∈ gone ∨ Arg.json x ∈ as) ∧
    (∀ vs f as gone g, genArr cvt n vs f as gone = some (.fail g) → ∀ x ∈ g, x ∈ gone ∨ Arg.json x ∈ as) := by
  induction n with
  | zero =>
    refine ⟨fun c f as g h => ?_, fun kvs f as gone g h => ?_, fun vs f as gone g h => ?_⟩
    · simp [genVal] at h
    · simp [genObj] at h
    · simp [genArr] at h
  | succ n ih =>
    obtain ⟨ihv, iho, iha⟩ := ih
    refine ⟨fun c f as g h x hx => ?_, fun kvs f as gone g h x hx => ?_, fun vs f as gone g h x hx => ?_⟩
    · simp only [genVal] at h
      split at h
      · rcases iho _ _ _ _ _ h x hx with e | e
        · cases e
        · exact e
      · split at h
        · rcases iha _ _ _ _ _ h x hx with e | e
          · cases e
          · exact e
        · rw [leaf_fail h] at hx; cases hx
    · cases f with
      | nil => simp only [genObj] at h; cases h; exact Or.inl hx
      | cons c f =>
        simp only [genObj] at h
        split at h
        · cases h
        · split at h
          · cases h
          · cases h; exact Or.inl hx
          · rename_i k f1 as1 g1 hk
            have hsub : ∀ y, y ∈ as1 → y ∈ as := by
              intro y hy
              unfold genKey at hk
              by_cases h115 : c = 115
              · rw [if_pos h115] at hk
                split at hk
                · cases hk; exact List.mem_cons_of_mem _ hy
                · cases hk
              rw [if_neg h115] at hk
              by_cases h83 : c = 83
              · rw [if_pos h83] at hk
                split at hk
                · cases hk; exact List.mem_cons_of_mem _ hy
                · cases hk
              rw [if_neg h83] at hk
              by_cases h99 : c = 99
              · rw [if_pos h99] at hk
                split at hk
                · cases hk; exact List.mem_cons_of_mem _ hy
                · cases hk
                · cases hk
              rw [if_neg h99] at hk
              cases hk
            split at h
            · rename_i a c2 f2
              split at h
              · split at h
                · cases h
                · rename_i g2 hv
                  cases h
                  rcases List.mem_append.1 hx with e | e
                  · exact Or.inl e
                  · exact Or.inr (hsub _ (ihv _ _ _ _ hv x e))
                · rename_i v1 f3 as2 g2 hv
                  obtain ⟨t, t1, t2, t3, t4⟩ := (only n).1 _ _ _ _ _ _ _ hv
                  have hg2 : ∀ y ∈ g2, Arg.json y ∈ as := by
                    intro y hy
                    rw [t4] at hy
                    exact hsub _ (by rw [t2]; exact List.mem_append_left _ (given_args t y hy))
                  have hdone : ∀ y, y ∈ gone ++ g2 → y ∈ gone ∨ Arg.json y ∈ as := by
                    intro y hy
                    rcases List.mem_append.1 hy with e | e
                    · exact Or.inl e
                    · exact Or.inr (hg2 y e)
                  split at h
                  · split at h
                    · cases h
                    · split at h
                      · cases h; exact hdone x hx
                      · split at h
                        · cases h
                        · split at h
                          · rcases iho _ _ _ _ _ h x hx with e | e
                            · exact hdone x e
                            · exact Or.inr (hsub _ (by rw [t2]; exact List.mem_append_right _ e))
                          · cases h; exact hdone x hx
                  · cases h; exact hdone x hx
              · cases h; exact Or.inl hx
            · cases h; exact Or.inl hx
    · cases f with
      | nil => simp only [genArr] at h; cases h; exact Or.inl hx
      | cons c f =>
        simp only [genArr] at h
        split at h
        · cases h
        · split at h
          · cases h
          · rename_i g2 hv
            cases h
            rcases List.mem_append.1 hx with e | e
            · exact Or.inl e
            · exact Or.inr (ihv _ _ _ _ hv x e)
          · rename_i v1 f3 as2 g2 hv
            obtain ⟨t, t1, t2, t3, t4⟩ := (only n).1 _ _ _ _ _ _ _ hv
            have hdone : ∀ y, y ∈ gone ++ g2 → y ∈ gone ∨ Arg.json y ∈ as := by
              intro y hy
              rcases List.mem_append.1 hy with e | e
              · exact Or.inl e
              · rw [t4] at e
                exact Or.inr (by rw [t2]; exact List.mem_append_left _ (given_args t y e))
            split at h
            · cases h; exact hdone x hx
            · split at h
              · cases h
              · split at h
                · rcases iha _ _ _ _ _ h x hx with e | e
                  · exact hdone x e
                  · exact Or.inr (by rw [t2]; exact List.mem_append_right _ e)
                · cases h; exact hdone x hx

/-- What is true: only values given with `j` are destroyed, so a call without them, on a value that is
not yet anything, changes nothing when it fails. -/
theorem failure_partial {fmt : List Byte} {as : List (Arg D)} {r : Made D} (h : generate cvt .none fmt as = some r) (hr : r.ok = false) (ha : ∀ x, Arg.json x ∉ as) :
    r.j = .none ∧ r.gone = [] := by
  cases fmt with
  | nil => simp only [generate, Option.some.injEq] at h; subst h; exact ⟨rfl, rfl⟩
  | cons c f =>
    by_cases h1 : c = 123
    · refine ⟨failure_resets h hr (Or.inl ⟨h1, Or.inl rfl⟩), ?_⟩
      simp only [generate, if_pos h1] at h
      split at h
      · rename_i hh; cases hh
      · cases h
      · rename_i g hg
        cases h
        rw [List.eq_nil_iff_forall_not_mem]
        intro x hx
        rcases (fail_from _).2.1 _ _ _ _ _ (Option.some.inj hg) x hx with e | e
        · cases e
        · exact ha x e
      · cases h; cases hr
    · by_cases h2 : c = 91
      · refine ⟨failure_resets h hr (Or.inr ⟨h2, Or.inl rfl⟩), ?_⟩
        simp only [generate, if_neg h1, if_pos h2] at h
        split at h
        · rename_i hh; cases hh
        · cases h
        · rename_i g hg
          cases h
          rw [List.eq_nil_iff_forall_not_mem]
          intro x hx
          rcases (fail_from _).2.2 _ _ _ _ _ (Option.some.inj hg) x hx with e | e
          · cases e
          · exact ha x e
        · cases h; cases hr
      · simp only [generate, if_neg h1, if_neg h2, Option.some.injEq] at h
        subst h; exact ⟨rfl, rfl⟩

/-! ## Examples -/

/-- The manual: `[{s:d,s:d,s:{s:d}},d]` with "a", 1, "b", 3, "c", "d", 4, 5. -/
def manual : Tp Int :=
  .arr (.more (.obj (.more (.s [97]) (.leaf (.d 1)) (.more (.s [98]) (.leaf (.d 3)) (.last (.s [99]) (.obj (.last (.s [100]) (.leaf (.d 4)))))))) (.last (.leaf (.d 5))))

example : manual.fmt = [91, 123, 115, 58, 100, 44, 115, 58, 100, 44, 115, 58, 123, 115, 58, 100, 125, 125, 44, 100, 93] := rfl
example : manual.args = [.cstr [97], .s32 1, .cstr [98], .s32 3, .cstr [99], .cstr [100], .s32 4, .s32 5] := rfl
example : generate id .none manual.fmt manual.args =
    some ⟨true, .arr [.obj [([97], .num 1), ([98], .num 3), ([99], .obj [([100], .num 4)])], .num 5], [], []⟩ := rfl
/-- `{s:n,s:t}` with the same key twice: the second counts. -/
example : generate (D := Int) id .none [123, 115, 58, 110, 44, 83, 58, 116, 125] [.cstr [97], .string [97]] = some ⟨true, .obj [([97], .tru)], [], []⟩ := rfl
/-- Adding `[s,F]` to an array. -/
example : generate (D := Int) id (.arr [.null]) [91, 115, 44, 70, 93] [.cstr [103], .dbl 99] = some ⟨true, .arr [.null, .str [103], .num 99], [], []⟩ := rfl
/-- -1 as `d` and as `u`. -/
example : generate (D := Int) id .none [91, 100, 44, 117, 93] [.s32 (-1), .u32 (-1)] = some ⟨true, .arr [.num (-1), .num 4294967295], [], []⟩ := rfl

end Verif.Json
