import Verif.Basic

/-!
Model of `KLEndEncode` and `KLEndDecode`
(`tools/lemmatizers/lamerlemma/utility_functions.cpp:95-143`), the difference code that stores a lemma
relative to its inflected form.

`char` is signed.  An exception (`std::out_of_range` from `substr`) is `none`.
-/
namespace Verif.LemmaCode
open Verif

/-- utility_functions.cpp:104-107: the number of equal characters of `asRef` from `i` on and `toCode`;
`toCode[0]` of an empty string is NUL. -/
def commonLen : Str → Str → Nat
  | a :: s, b :: t => if a = b then commonLen s t + 1 else 0
  | _, _ => 0

/-- utility_functions.cpp:103-108: the length of the match that begins at a position, given the rest
of the reference string from there on (not empty); 0 stands for no match. -/
def matchLen (rest toCode : Str) : Nat :=
  match toCode with
  | [] => match rest with
    | [] => 0
    | a :: _ => if a = 0 then 1 else 0
  | _ :: _ => commonLen rest toCode

/-- utility_functions.cpp:102-116: the loop over start positions; `rest` is `asRef` from `i` on. -/
def search (toCode : Str) : Str → Nat → Nat → Nat → Nat × Nat
  | [], _, maxi, maxLength => (maxi, maxLength)
  | a :: rest, i, maxi, maxLength =>
    let len := matchLen (a :: rest) toCode
    let maxi' := if len > maxLength then i else maxi
    let maxLength' := if len > maxLength then len else maxLength
    if rest.length + 1 < maxLength' then (maxi', maxLength')
    else search toCode rest (i + 1) maxi' maxLength'

/-- `std::string::substr(pos, len)`. -/
def substr (s : Str) (pos len : Nat) : Option Str :=
  if pos ≤ s.length then some ((s.drop pos).take len) else none

/-- utility_functions.cpp:95-125 -/
def encode (asRef toCode : Str) : Option Str :=
  let (maxi, maxLength) := search toCode asRef 0 0 0
  let k := UInt8.ofNat (65 + maxi)
  let l := UInt8.ofNat (65 + (asRef.length - (maxi + maxLength)))
  (substr toCode maxLength toCode.length).map fun e => k :: l :: e

/-- The value of a signed `char` as `int`. -/
def charInt (b : Byte) : Int := if b.toNat < 128 then b.toNat else (b.toNat : Int) - 256

/-- Conversion of an integer to `size_t`. -/
def toSize (i : Int) : Nat := (i % 2 ^ 64).toNat

/-- utility_functions.cpp:127-143; `asCode[0]` and `asCode[1]` of a shorter code are not reached with
a result, since `substr(2)` throws then. -/
def decode (asRef asCode : Str) : Option Str :=
  match asCode with
  | k :: l :: e =>
    let cutFront := charInt k - 65
    let cutBack := charInt l - 65
    let decodedLen := toSize (asRef.length - cutFront - cutBack)
    (substr asRef (toSize cutFront) decodedLen).map (· ++ e)
  | _ => none

end Verif.LemmaCode
