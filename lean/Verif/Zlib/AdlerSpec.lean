import Verif.Basic

/-! What an Adler-32 checksum is (RFC 1950, section 8.2). -/

namespace Verif.Zlib

/-- The sum of the bytes. -/
def sumBytes (s : Str) : Nat := (s.map fun b => b.toNat).sum

/-- The first sum: one and all bytes. -/
def firstSum (s : Str) : Nat := (1 + sumBytes s) % 65521

/-- The second sum: that of the first sums behind each byte. -/
def secondSum (s : Str) : Nat :=
  ((List.range s.length).map fun i => 1 + sumBytes (s.take (i + 1))).sum % 65521

/-- The checksum: the second sum in the high half, the first one in the low half. -/
def IsAdler (s : Str) (v : Nat) : Prop := v = secondSum s * 65536 + firstSum s

end Verif.Zlib
