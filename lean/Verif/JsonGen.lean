import Verif.Json
/-!
# mln_json_generate

mln_json.c:1105-1426: a value is made from a format and the arguments behind it.

* The format is the list of its bytes up to the NUL byte; a position in it is what is left, and at the
  end every test for a character fails as for the NUL byte.
* An argument carries its type. An argument that is missing or of another type than the format says is
  undefined behaviour: the result is `none`. So is a comparison of keys that is (`Verif.Json.update`).
* Of a callback (`c`) only the result counts: the value it made, or that it failed.
* Allocations succeed. `(double)n` is the parameter `cvt`.
* `gone` are the values given with `j` that the call has copied into its own (`v = *json`): from there
  on whoever destroys the copy destroys what the caller's value consists of.
* The loops carry fuel, twice the length of the format is enough.
-/
namespace Verif.Json
open Verif.Str (Byte)

variable {D : Type}

/-- An argument of the call. -/
inductive Arg (D : Type)
  | s32 (n : BitVec 32)
  | s64 (n : BitVec 64)
  | u32 (n : BitVec 32)
  | u64 (n : BitVec 64)
  | dbl (x : D)
  | cstr (s : List Byte)
  | string (s : List Byte)
  | json (j : Json D)
  | call (r : Option (Json D))

/-- The result of a part: a value, what is left of the format and of the arguments, what was taken; or
failure, and what was destroyed. -/
inductive Gen (D : Type)
  | ok (v : Json D) (f : List Byte) (as : List (Arg D)) (gone : List (Json D))
  | fail (gone : List (Json D))

/-- The letters for a value without `{` and `[`, lines 1176-1246 and 1312-1384. -/
def genLeaf (cvt : Int → D) (c : Byte) (f : List Byte) (as : List (Arg D)) : Option (Gen D) :=
  if c = 106 then -- j
    match as with
    | .json x :: as => some (.ok x f as [x])
    | _ => none
  else if c = 100 then -- d
    match as with
    | .s32 n :: as => some (.ok (.num (cvt n.toInt)) f as [])
    | _ => none
  else if c = 68 then -- D
    match as with
    | .s64 n :: as => some (.ok (.num (cvt n.toInt)) f as [])
    | _ => none
  else if c = 117 then -- u
    match as with
    | .u32 n :: as => some (.ok (.num (cvt n.toNat)) f as [])
    | _ => none
  else if c = 85 then -- U
    match as with
    | .u64 n :: as => some (.ok (.num (cvt n.toNat)) f as [])
    | _ => none
  else if c = 70 then -- F
    match as with
    | .dbl x :: as => some (.ok (.num x) f as [])
    | _ => none
  else if c = 116 then some (.ok .tru f as []) -- t
  else if c = 102 then some (.ok .fls f as []) -- f
  else if c = 110 then some (.ok .null f as []) -- n
  else if c = 115 then -- s
    match as with
    | .cstr s :: as => some (.ok (.str s) f as [])
    | _ => none
  else if c = 83 then -- S
    match as with
    | .string s :: as => some (.ok (.str s) f as [])
    | _ => none
  else if c = 99 then -- c
    match as with
    | .call (some v) :: as => some (.ok v f as [])
    | .call none :: _ => some (.fail [])
    | _ => none
  else some (.fail [])

/-- The letters for a key, lines 1144-1171. -/
def genKey (c : Byte) (f : List Byte) (as : List (Arg D)) : Option (Gen D) :=
  if c = 115 then
    match as with
    | .cstr s :: as => some (.ok (.str s) f as [])
    | _ => none
  else if c = 83 then
    match as with
    | .string s :: as => some (.ok (.str s) f as [])
    | _ => none
  else if c = 99 then
    match as with
    | .call (some v) :: as => some (.ok v f as [])
    | .call none :: _ => some (.fail [])
    | _ => none
  else some (.fail [])

mutual
/-- A value whose first letter is `c`, lines 1177-1257 and 1312-1396. -/
def genVal (cvt : Int → D) : Nat → Byte → List Byte → List (Arg D) → Option (Gen D)
  | 0, _, _, _ => none
  | n + 1, c, f, as =>
    if c = 123 then genObj cvt n [] f as []
    else if c = 91 then genArr cvt n [] f as []
    else genLeaf cvt c f as

/-- mln_json_obj_generate from `again` on, lines 1140-1289: `kvs` is the object so far. -/
def genObj (cvt : Int → D) : Nat → List (List Byte × Json D) → List Byte → List (Arg D) → List (Json D) → Option (Gen D)
  | 0, _, _, _, _ => none
  | _ + 1, _, [], _, gone => some (.fail gone)
  | n + 1, kvs, c :: f, as, gone =>
    if c = 125 then some (.ok (.obj kvs) f as gone)
    else
      match genKey c f as with
      | none => none
      | some (.fail _) => some (.fail gone)
      | some (.ok k f as _) =>
        match f with
        | a :: c :: f =>
          if a = 58 then
            match genVal cvt n c f as with
            | none => none
            | some (.fail g) => some (.fail (gone ++ g))
            | some (.ok v f as g) =>
              match k with
              | .str k =>
                match update kvs k v with
                | none => none
                | some kvs =>
                  match f with
                  | [] => some (.fail (gone ++ g))
                  | d :: f =>
                    if d = 125 then some (.ok (.obj kvs) f as (gone ++ g))
                    else if d = 44 then genObj cvt n kvs f as (gone ++ g)
                    else some (.fail (gone ++ g))
              | _ => some (.fail (gone ++ g))
          else some (.fail gone)
        | _ => some (.fail gone)

/-- mln_json_array_generate from `again` on, lines 1309-1425: `vs` is the array so far. -/
def genArr (cvt : Int → D) : Nat → List (Json D) → List Byte → List (Arg D) → List (Json D) → Option (Gen D)
  | 0, _, _, _, _ => none
  | _ + 1, _, [], _, gone => some (.fail gone)
  | n + 1, vs, c :: f, as, gone =>
    if c = 93 then some (.ok (.arr vs) f as gone)
    else
      match genVal cvt n c f as with
      | none => none
      | some (.fail g) => some (.fail (gone ++ g))
      | some (.ok v f as g) =>
        match f with
        | [] => some (.fail (gone ++ g))
        | d :: f =>
          if d = 93 then some (.ok (.arr (vs ++ [v])) f as (gone ++ g))
          else if d = 44 then genArr cvt n (vs ++ [v]) f as (gone ++ g)
          else some (.fail (gone ++ g))
end

/-- What the caller finds: the result, `*j`, the arguments not read, the values given with `j` that
were taken. -/
structure Made (D : Type) where
  ok : Bool
  j : Json D
  rest : List (Arg D) := []
  gone : List (Json D) := []

/-- mln_json_generate, lines 1105-1122, with the first lines and the ends of the two functions
(1138-1140, 1281-1289; 1306-1308, 1417-1425): an object or array is added to, a failure resets it. -/
def generate (cvt : Int → D) (j : Json D) (fmt : List Byte) (as : List (Arg D)) : Option (Made D) :=
  match fmt with
  | [] => some ⟨false, j, as, []⟩
  | c :: f =>
    let r : Option (Option (Gen D)) := if c = 123 then
        match j with
        | .none => some (genObj cvt (2 * fmt.length) [] f as [])
        | .obj kvs => some (genObj cvt (2 * fmt.length) kvs f as [])
        | _ => none
      else if c = 91 then
        match j with
        | .none => some (genArr cvt (2 * fmt.length) [] f as [])
        | .arr vs => some (genArr cvt (2 * fmt.length) vs f as [])
        | _ => none
      else none
    match r with
    | none => some ⟨false, j, as, []⟩
    | some none => none
    | some (some (.fail gone)) => some ⟨false, .none, [], gone⟩
    | some (some (.ok v _ as gone)) => some ⟨true, v, as, gone⟩

end Verif.Json
