import Verif.Basic
import Verif.Numconv.Text

/-!
# Escaping in the puddle parser

Model of `tools/parsers/puddle/puddle_util.cpp` lines 11–107.
-/

namespace Verif.Puddle

open Verif.Numconv

/-- Replacing every occurrence of one character (`RegExp::GlobalReplace` with a pattern that is a
single literal character, puddle_util.cpp:28-36). -/
def globalReplace (c : Byte) (by_ : Str) (s : Str) : Str :=
  s.flatMap fun b => if b = c then by_ else [b]

/-- `escapeSpecialChars` (puddle_util.cpp:15-39). -/
def escape (s : Str) : Str :=
  let r := globalReplace 38 b!"&amp;" s
  let r := globalReplace 60 b!"&lt;" r
  let r := globalReplace 62 b!"&gt;" r
  let r := globalReplace 40 b!"&#40;" r
  let r := globalReplace 41 b!"&#41;" r
  let r := globalReplace 124 b!"&#124;" r
  let r := globalReplace 43 b!"&#42;" r
  let r := globalReplace 42 b!"&#43;" r
  globalReplace 63 b!"&#63;" r

/-- Where a text first begins in another one. -/
def search (lit : Str) : Str → Option Nat
  | [] => if lit.isPrefixOf [] then some 0 else none
  | c :: s => if lit.isPrefixOf (c :: s) then some 0 else (search lit s).map (· + 1)

/-- `std::string::find(lit, pos)`. -/
def findFrom (lit r : Str) (pos : Nat) : Option Nat :=
  (search lit (r.drop pos)).map (· + pos)

/-- One of the nine loops of `unescapeSpecialChars` (puddle_util.cpp:50-54): what is found at `pos`
is replaced by one character, and the search goes on at `pos + 1`.  Every round goes one character
on in a text that does not get longer, so its length is fuel enough. -/
def unescapeLoop (lit : Str) (c : Byte) : Nat → Str → Nat → Str
  | 0, r, _ => r
  | fuel + 1, r, pos =>
    match findFrom lit r pos with
    | none => r
    | some p => unescapeLoop lit c fuel (r.take p ++ c :: r.drop (p + lit.length)) (p + 1)

/-- A loop with as many rounds as there are characters. -/
def unescapeOne (lit : Str) (c : Byte) (r : Str) : Str := unescapeLoop lit c (r.length + 1) r 0

/-- `unescapeSpecialChars` (puddle_util.cpp:45-107). -/
def unescape (s : Str) : Str :=
  let r := unescapeOne b!"&#40;" 40 s
  let r := unescapeOne b!"&#41;" 41 r
  let r := unescapeOne b!"&#42;" 42 r
  let r := unescapeOne b!"&#43;" 43 r
  let r := unescapeOne b!"&amp;" 38 r
  let r := unescapeOne b!"&lt;" 60 r
  let r := unescapeOne b!"&gt;" 62 r
  let r := unescapeOne b!"&#63;" 63 r
  unescapeOne b!"&#124;" 124 r

end Verif.Puddle
