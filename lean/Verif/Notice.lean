import Mathlib.Data.List.Basic
/-!
# The notices at the start and at the end of a program

mln_func.c: mln_notice (lines 44-105), which the constructor (109-112) and the destructor (116-118) of the library call
if it is built with MLN_CONSTRUCTOR.

Simplifications.
* getaddrinfo and socket succeed or fail, as the environment says; connect, send and close have no result that is used.
* The list of addresses is not there, there, or freed (`host_result` still points to it).
* `none` is the use of the list after it was freed, or freeing it again.
-/
namespace Verif.Notice

/-- `host_result`, line 44. -/
inductive Host
  | null
  | live
  | freed
  deriving DecidableEq

/-- "GET /?", line 69. -/
def get : List Nat := [0x47, 0x45, 0x54, 0x20, 0x2f, 0x3f]

/-- `rest`, lines 61-68. -/
def rest : List Nat := [
  0x20, 0x48, 0x54, 0x54, 0x50, 0x2f, 0x31, 0x2e, 0x31, 0x0d,
  0x0a, 0x48, 0x6f, 0x73, 0x74, 0x3a, 0x20, 0x72, 0x65, 0x67,
  0x69, 0x73, 0x74, 0x65, 0x72, 0x2e, 0x6d, 0x65, 0x6c, 0x61,
  0x6e, 0x67, 0x2e, 0x6f, 0x72, 0x67, 0x0d, 0x0a, 0x55, 0x73,
  0x65, 0x72, 0x2d, 0x41, 0x67, 0x65, 0x6e, 0x74, 0x3a, 0x20,
  0x4d, 0x65, 0x6c, 0x6f, 0x6e, 0x0d, 0x0a, 0x0d, 0x0a]

/-- A loop of lines 70-73: bytes are written at `i`, `i + 1`, ... as long as there are some and the buffer has room. -/
def copy : List Nat → Nat → List Nat → List Nat × Nat
  | buf, i, [] => (buf, i)
  | buf, i, b :: bs => if i < buf.length then copy (buf.set i b) (i + 1) bs else (buf, i)

/-- The buffer, lines 59-73: `suffix` is the bytes before the zero. -/
def message (suffix : List Nat) : List Nat :=
  let buf := get ++ List.replicate 506 0
  let r := copy buf 6 suffix
  (copy r.1 r.2 rest).1

/-- What a call meets. -/
structure Env where
  gai : Bool
  socket : Bool

/-- "stop" -/
def stop : List Nat := [0x73, 0x74, 0x6f, 0x70]
def start : List Nat := [0x73, 0x74, 0x61, 0x72, 0x74]

/-- The part of mln_notice from line 85 on, when `host_result` is not NULL: the bytes sent, and `host_result`. -/
def talk (e : Env) (suffix : List Nat) : Host → Option (List Nat × Host)
  | .live =>
    if e.socket = false then some ([], .freed)
    else some ((message suffix).take 511, if suffix = stop then .freed else .live)
  | _ => none

/-- mln_notice: the bytes that are sent, and `host_result`. -/
def notice (e : Env) (suffix : List Nat) (h : Host) : Option (List Nat × Host) :=
  if h = .null then
    if e.gai = false then some ([], .null) else talk e suffix .live
  else talk e suffix h

/-- A program: its start and its end. -/
def program (e1 e2 : Env) : Option (List Nat × List Nat × Host) := do
  let a ← notice e1 start .null
  let b ← notice e2 stop a.2
  some (a.1, b.1, b.2)

end Verif.Notice
