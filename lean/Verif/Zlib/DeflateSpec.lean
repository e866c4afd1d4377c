import Verif.Basic

/-! The codes of the deflate format (RFC 1951, section 3.2.2). -/

namespace Verif.Zlib

/-- The kinds of codes: for the lengths of the other codes, for literals and lengths, for distances
(`codetype`, inftrees.h lines 47–51). -/
inductive CodeType where
  | codes
  | lens
  | dists
  deriving DecidableEq

/-- The number of symbols of each kind; the last two of the literals and lengths and of the
distances are never used. -/
def CodeType.size : CodeType → Nat
  | .codes => 19
  | .lens => 288
  | .dists => 32

/-- The number of codes of a length; a symbol with the length zero has no code. -/
def blCount (lens : List Nat) (l : Nat) : Nat := if l = 0 then 0 else lens.count l

/-- The first code of each length (step 2 of the algorithm in the RFC). -/
def firstCode (lens : List Nat) : Nat → Nat
  | 0 => 0
  | l + 1 => (firstCode lens l + blCount lens l) * 2

/-- The code of a symbol (step 3): codes of the same length are successive numbers, in the order
of the symbols. -/
def codeOf (lens : List Nat) (sym : Nat) : Nat :=
  firstCode lens (lens.getD sym 0) + (lens.take sym).count (lens.getD sym 0)

/-- The number that the first bits of a stream stand for as a code: the first bit is the highest
one.  The stream is a number, its first bit is the lowest one. -/
def readBits (hold : Nat) : Nat → Nat
  | 0 => 0
  | n + 1 => readBits hold n * 2 + hold / 2 ^ n % 2

/-- The stream begins with the code of the symbol. -/
def BeginsWith (lens : List Nat) (hold sym : Nat) : Prop :=
  sym < lens.length ∧ lens.getD sym 0 ≠ 0 ∧
    readBits hold (lens.getD sym 0) = codeOf lens sym

/-- The sum of Kraft, of `2^15` parts. -/
def kraft (lens : List Nat) : Nat := (lens.map fun l => if l = 0 then 0 else 2 ^ (15 - l)).sum

/-- The numbers of extra bits of the length codes 257 … 285 (RFC 1951, section 3.2.5). -/
def lengthExtra (i : Nat) : Nat := if i < 8 then 0 else if i < 28 then (i - 4) / 4 else 0

/-- The numbers of extra bits of the distance codes 0 … 29. -/
def distExtra (i : Nat) : Nat := (i - 2) / 2

/-- The first number of a code when each takes up where the last one ends. -/
def firstOf (start : Nat) (extra : Nat → Nat) : Nat → Nat
  | 0 => start
  | i + 1 => firstOf start extra i + 2 ^ extra i

/-- What a symbol stands for. -/
inductive Meaning where
  | number (n : Nat)
  | endOfBlock
  | copy (base extra : Nat)
  | invalid
  deriving DecidableEq

/-- What the symbols stand for (RFC 1951, sections 3.2.5 and 3.2.7). -/
def meaning (type : CodeType) (sym : Nat) : Meaning :=
  match type with
  | .codes => .number sym
  | .lens =>
    if sym < 256 then .number sym
    else if sym = 256 then .endOfBlock
    else if sym < 285 then .copy (firstOf 3 lengthExtra (sym - 257)) (lengthExtra (sym - 257))
    else if sym = 285 then .copy 258 0
    else .invalid
  | .dists => if sym < 30 then .copy (firstOf 1 distExtra sym) (distExtra sym) else .invalid

/-- The value of a stream of bytes whose first bits are the lowest ones. -/
def streamOf : List Byte → Nat
  | [] => 0
  | b :: bs => b.toNat + 256 * streamOf bs

/-- The lengths of the fixed codes (RFC 1951, section 3.2.6). -/
def fixedLens : List Nat :=
  List.replicate 144 8 ++ List.replicate 112 9 ++ List.replicate 24 7 ++ List.replicate 8 8

/-- The lengths of the fixed codes of distances. -/
def fixedDists : List Nat := List.replicate 32 5

/-- Which lengths make usable codes: complete ones, no codes at all, or, except for the lengths of
codes, one code of one bit. -/
def Usable (type : CodeType) (lens : List Nat) : Prop :=
  kraft lens = 2 ^ 15 ∨ (∀ l ∈ lens, l = 0) ∨
    (type ≠ .codes ∧ kraft lens = 2 ^ 14 ∧ ∀ l ∈ lens, l ≤ 1)

end Verif.Zlib
