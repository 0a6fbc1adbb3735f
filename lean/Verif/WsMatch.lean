import Verif.WsHand
import Verif.Regexp
/-!
# Comparing the fields of a WebSocket object with those of a request

mln_websocket.c: mln_websocket_match (229-234) and mln_websocket_match_iterate_handler (236-251).

Simplifications.
* The fields are looked at in the order of insertion instead of that of the buckets; the result is the same.
* The values that mln_websocket_set_field stores are not NULL (it copies them, lines 212-216).
* `room` says whether the array for the matches can be allocated; the growth of the array succeeds.
* `fuel` bounds the recursion of the matcher (Verif/Regexp.lean); `none` is a matcher that ran out of it.
-/
namespace Verif.WsMatch
open Verif.Http Verif.WsHand Verif.Regexp

/-- mln_websocket_match_iterate_handler, lines 236-251: `true` for 0, `false` for -1. -/
def handler (fuel : Nat) (room : Bool) (h : Http) (e : List Http.Byte × List Http.Byte) : Option Bool :=
  match fieldGet h e.1 with
  | none => some false
  | some t =>
    if room = false then some false
    else (regMatch fuel e.2 t).map fun l => decide (0 < l.length)

/-- mln_hash_iterate with this handler. -/
def iterate (fuel : Nat) (room : Bool) (h : Http) : List (List Http.Byte × List Http.Byte) → Option Bool
  | [] => some true
  | e :: es => do
    let b ← handler fuel room h e
    if b then iterate fuel room h es else some false

/-- mln_websocket_match, lines 229-234. -/
def wsMatch (fuel : Nat) (room : Bool) (ws : Ws) : Option Ret :=
  (iterate fuel room ws.http ws.fields).map fun b => if b then .ok else .error

end Verif.WsMatch
