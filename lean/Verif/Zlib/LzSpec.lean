import Verif.Basic

/-!
What the commands of a deflate stream mean (RFC 1951, sections 2 and 3.2.3),
written without any window or buffer: the output so far is one list, and a pair of a length
and a distance says to go back so far in that list and to copy byte after byte, bytes that
have just been written included.
-/

namespace Verif.Zlib

/-- A command of the stream. -/
inductive Cmd where
  /-- a literal byte -/
  | lit (b : Byte)
  /-- copy `len` bytes from `dist` bytes back -/
  | copy (len dist : Nat)
  /-- the content of a stored block -/
  | raw (bs : List Byte)
  deriving DecidableEq, Repr

/-- `n` times: append the byte that is `dist` back from the end. -/
def copyBack (out : List Byte) (dist : Nat) : Nat → List Byte
  | 0 => out
  | n + 1 => copyBack (out ++ [out.getD (out.length - dist) 0]) dist n

/-- The output after the commands, and whether all of them were meaningful: at the first
distance that goes back before the beginning everything stops. -/
def expand (out : List Byte) : List Cmd → List Byte × Bool
  | [] => (out, true)
  | .lit b :: cs => expand (out ++ [b]) cs
  | .raw bs :: cs => expand (out ++ bs) cs
  | .copy len dist :: cs =>
    if dist ≤ out.length then expand (copyBack out dist len) cs else (out, false)

/-- The lengths and distances that deflate can express (RFC 1951, section 3.2.5). -/
def Cmd.Sane : Cmd → Prop
  | .copy len dist => 3 ≤ len ∧ len ≤ 258 ∧ 1 ≤ dist ∧ dist ≤ 32768
  | _ => True

/-- Distances that the window can hold. -/
def Cmd.Within (size : Nat) : Cmd → Prop
  | .copy _ dist => dist ≤ size
  | _ => True

/-- The commands without a mark that says which way of the program they may take. -/
abbrev plain (cs : List (Bool × Cmd)) : List Cmd := cs.map (·.2)

/-- All the commands of a series of calls, each with its output space and its input. -/
def allCmds (calls : List (Nat × List (Bool × Cmd))) : List Cmd :=
  calls.flatMap fun c => plain c.2

end Verif.Zlib
