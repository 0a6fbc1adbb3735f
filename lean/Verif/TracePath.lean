import Verif.Conf
/-!
# The script of the traces

mln_trace.c: mln_trace_path (21-43).

Simplifications.
* A configuration is that of the module Conf.  The searches in trees are parameters, since of several entries with one
  name any may be found; the theorems say what is assumed of them.
-/
namespace Verif.TracePath
open Verif.Conf

/-- "trace_mode", mln_trace.c line 33. -/
def traceMode : List (BitVec 8) := [116#8, 114#8, 97#8, 99#8, 101#8, 95#8, 109#8, 111#8, 100#8, 101#8]

/-- cf->search and cd->search as called in mln_trace.c lines 30, 33. -/
structure Search where
  dom : Conf → List (BitVec 8) → Option Dom
  cmd : Dom → List (BitVec 8) → Option (List (BitVec 8) × List Item)

/-- mln_trace_path, mln_trace.c lines 21-43: `g` is what mln_conf gives. -/
def path (S : Search) (g : Option Conf) : Option (List (BitVec 8)) :=
  match g with
  | none => none
  | some C =>
    match S.dom C main with
    | none => none
    | some d =>
      match S.cmd d traceMode with
      | none => none
      | some cc =>
        match itemSearch cc.2 1 with
        | none => none
        | some ci =>
          if cc.2.length ≠ 1 then none
          else match ci with
            | .str s => some s
            | _ => none

end Verif.TracePath
