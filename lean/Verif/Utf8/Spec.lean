import Verif.Basic

/-!
UTF-8 as the standard (RFC 3629) defines it, by arithmetic on code points.
-/
namespace Verif.Utf8.Spec
open Verif

/-- A Unicode scalar value: at most 0x10FFFF and not a surrogate. -/
def Scalar (cp : Nat) : Prop := cp ≤ 0x10FFFF ∧ ¬ (0xD800 ≤ cp ∧ cp ≤ 0xDFFF)

/-- The byte with this value. -/
def byte (n : Nat) : Byte := UInt8.ofNat n

/-- The shortest-form encoding of a code point. -/
def encode (cp : Nat) : Str :=
  if cp < 128 then [byte cp]
  else if cp < 2048 then [byte (192 + cp / 64), byte (128 + cp % 64)]
  else if cp < 65536 then
    [byte (224 + cp / 4096), byte (128 + cp / 64 % 64), byte (128 + cp % 64)]
  else
    [byte (240 + cp / 262144), byte (128 + cp / 4096 % 64), byte (128 + cp / 64 % 64),
      byte (128 + cp % 64)]

/-- The encoding of a list of code points. -/
def encodeAll (cps : List Nat) : Str := cps.flatMap encode

/-- Well-formed UTF-8: the encoding of a list of scalar values. -/
def WellFormed (s : Str) : Prop := ∃ cps : List Nat, (∀ cp ∈ cps, Scalar cp) ∧ s = encodeAll cps

end Verif.Utf8.Spec
