import Verif.Basic
import Mathlib.Algebra.Polynomial.Div
import Mathlib.Algebra.Field.ZMod
import Mathlib.Algebra.CharP.Two

/-!
What a CRC-32 is (RFC 1952, ISO 3309): the remainder of a division of polynomials
with coefficients modulo two.
-/

namespace Verif.Zlib

open Polynomial

/-- The polynomial of a CRC-32. -/
noncomputable def generator : (ZMod 2)[X] :=
  X ^ 32 + X ^ 26 + X ^ 23 + X ^ 22 + X ^ 16 + X ^ 12 + X ^ 11 + X ^ 10 + X ^ 8 + X ^ 7 + X ^ 5 +
    X ^ 4 + X ^ 2 + X + 1

/-- The bits of a message in the order in which they are sent: of each byte the lowest
bit is the first. -/
def bitsOf (s : Str) : List Bool :=
  s.flatMap fun b => (List.range 8).map fun i => b.toNat.testBit i

/-- The polynomial of a sequence of bits: the first bit belongs to the highest power. -/
noncomputable def polyOf : List Bool → (ZMod 2)[X]
  | [] => 0
  | b :: bs => (if b then X ^ bs.length else 0) + polyOf bs

/-- The polynomial of a word: the highest bit belongs to the lowest power. -/
noncomputable def toPoly (c : BitVec 32) : (ZMod 2)[X] :=
  ∑ i ∈ Finset.range 32, if c.getLsbD (31 - i) then X ^ i else 0

/-- All powers below `x^32`. -/
noncomputable def allOnes : (ZMod 2)[X] := ∑ i ∈ Finset.range 32, X ^ i

/-- The CRC-32 of a message: the complement of the remainder of the message, followed by
32 zeros and with its first 32 bits complemented. -/
def IsCrc (s : Str) (c : BitVec 32) : Prop :=
  toPoly (~~~ c) =
    (polyOf (bitsOf s) * X ^ 32 + allOnes * X ^ (8 * s.length)) %ₘ generator

end Verif.Zlib
