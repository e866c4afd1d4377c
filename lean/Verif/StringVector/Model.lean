import Verif.MonotonicVector.Model

/-!
Model of `tools/datastructures/lexica/string_vector.hpp` for `ValueT = unsigned char`.

`posBytes` is the size of `PosT` (4 for `MediumStringVector`, 8 for `LongStringVector`).  Positions are
kept in a `MonotonicVector<PosT, unsigned short, 20>`, modelled in `Verif.MonotonicVector`.
Undefined behaviour is `none`.  Iterators are indices; a range is the list of its bytes.
-/
namespace Verif.StringVector
open Verif Binary

/-- string_vector.hpp:46: the instance of `MonotonicVector`. -/
def params (posBytes : Nat) : MonotonicVector.Params := ⟨posBytes, 2, 20⟩

/-- string_vector.hpp:44-47 -/
structure SV where
  chars : Str
  positions : MonotonicVector.MV
  sorted : Bool
deriving DecidableEq, Repr

/-- string_vector.hpp:254-255 -/
def empty : SV := ⟨[], MonotonicVector.empty, true⟩

/-- string_vector.hpp:305-308 -/
def size (pb : Nat) (v : SV) : Nat := MonotonicVector.size (params pb) v.positions

/-- string_vector.hpp:330-336; the difference is computed in `size_t` or `PosT` and converted to
`PosT`. -/
def length (pb : Nat) (v : SV) (i : Nat) : Option Nat :=
  if i + 1 < size pb v then do
    let a ← MonotonicVector.get (params pb) v.positions (i + 1)
    let b ← MonotonicVector.get (params pb) v.positions i
    return (a + 256 ^ pb - b) % 256 ^ pb
  else do
    let b ← MonotonicVector.get (params pb) v.positions i
    if b ≤ v.chars.length then return (v.chars.length - b) % 256 ^ pb else none

/-- string_vector.hpp:315-318, 338-351: the bytes between `begin(i)` and `end(i)`.  Forming the
address of the element one past the end of the array, for a last empty string, is accepted. -/
def at' (pb : Nat) (v : SV) (i : Nat) : Option Str := do
  let pos ← MonotonicVector.get (params pb) v.positions i
  let len ← length pb v i
  if pos + len ≤ v.chars.length then return (v.chars.drop pos).take len else none

/-- string_vector.hpp:325-328 -/
def back (pb : Nat) (v : SV) : Option Str := at' pb v (size pb v - 1)

/-- string_vector.hpp:221-226: `std::lexicographical_compare` with `std::less<unsigned char>`; the
bytes of the other string are converted to `unsigned char`. -/
def less : Str → Str → Bool
  | _, [] => false
  | [], _ :: _ => true
  | a :: s, b :: t => if a < b then true else if b < a then false else less s t

/-- The value of a plain (signed) `char` after integral promotion. -/
def promoteChar (b : Byte) : Int := if b.toNat < 128 then b.toNat else (b.toNat : Int) - 256

/-- `std::equal` of bytes (`unsigned char`) with the characters (`char`) of a `std::string`: both are
promoted to `int` before they are compared, so a byte above 127 never equals a negative `char`. -/
def equalBytes : Str → Str → Bool
  | [], _ => true
  | _ :: _, [] => false
  | a :: s, b :: t => decide ((a.toNat : Int) = promoteChar b) && equalBytes s t

/-- string_vector.hpp:207-214: `operator==` of a range and a `std::string`. -/
def equal (a s : Str) : Bool := a.length == s.length && equalBytes a s

/-- string_vector.hpp:260-262: the flag after pushing `s`. -/
def sortedAfter (pb : Nat) (v : SV) (s : Str) : Option Bool :=
  if v.sorted && size pb v != 0 then (back pb v).map (less · s) else some v.sorted

/-- string_vector.hpp:257-266 -/
def pushBack (pb : Nat) (v : SV) (s : Str) : Option SV := do
  let sorted ← sortedAfter pb v s
  let positions ← MonotonicVector.pushBack (params pb) v.positions (v.chars.length % 256 ^ pb)
  return ⟨v.chars ++ s, positions, sorted⟩

/-- Pushing a sequence of strings. -/
def pushAll (pb : Nat) : SV → List Str → Option SV
  | v, [] => some v
  | v, s :: ss => do
    let v ← pushBack pb v s
    pushAll pb v ss

/-- `std::lower_bound` over indices `first ..< first + len` (the usual halving loop). -/
def lowerBound (lt : Nat → Option Bool) (first len : Nat) : Option Nat :=
  if h : len = 0 then some first
  else
    match lt (first + len / 2) with
    | none => none
    | some true => lowerBound lt (first + len / 2 + 1) (len - len / 2 - 1)
    | some false => lowerBound lt first (len / 2)
termination_by len

/-- `std::find` over indices `i ..< i + n`. -/
def linearFind (eq : Nat → Option Bool) : Nat → Nat → Option Nat
  | i, 0 => some i
  | i, n+1 =>
    match eq i with
    | none => none
    | some true => some i
    | some false => linearFind eq (i + 1) n

/-- string_vector.hpp:353-365 with a `std::string` argument; the result is an index, `size()` for a
string that is not found. -/
def find (pb : Nat) (v : SV) (s : Str) : Option Nat :=
  if v.sorted then lowerBound (fun i => (at' pb v i).map (less · s)) 0 (size pb v)
  else linearFind (fun i => (at' pb v i).map (equal · s)) 0 (size pb v)

/-- string_vector.hpp:140-154 -/
def save (pb : Nat) (v : SV) : Str :=
  putBool v.sorted ++ (MonotonicVector.save (params pb) v.positions ++
    putVector (putInt 1) (v.chars.map (·.toNat)))

/-- string_vector.hpp:156-171 -/
def load (pb : Nat) (f : Str) : Option (SV × Str) := do
  let (b, f) ← getBool f
  let (p, f) ← MonotonicVector.load (params pb) f
  let (c, f) ← getVector (getInt 1) f
  return (⟨c.map UInt8.ofNat, p, b⟩, f)

end Verif.StringVector
