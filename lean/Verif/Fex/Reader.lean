import Verif.Fex.Model

/-!
Model of `Gzip_Reader::open` (fex/fex/Gzip_Reader.cpp lines 33–67): whether a file is taken for
compressed, and the size and the CRC of its content.  Errors of reading are not modelled.
-/

namespace Verif.Fex

/-- `get_le32` (fex/fex/blargg_endian.h lines 85–91). -/
def getLe32 (p : List Byte) : Nat :=
  ((p.getD 3 0).toNat <<< 24 ||| (p.getD 2 0).toNat <<< 16 ||| (p.getD 1 0).toNat <<< 8) |||
    (p.getD 0 0).toNat

/-- What `open` finds out. -/
inductive Opened where
  /-- `deflated()`, `size_` and `crc32_` -/
  | ok (deflated : Bool) (size crc : Nat)
  | error
  deriving DecidableEq, Repr

/-- `Gzip_Reader::calc_size` (Gzip_Reader.cpp lines 33–53). -/
def calcSize (deflated : Bool) (file : List Byte) : Opened :=
  if deflated then
    if file.length < 8 then .error
    else
      let trailer := file.drop (file.length - 8)
      let n := getLe32 (trailer.drop 4)
      if n > 2147483647 then .error else .ok true n (getLe32 trailer)
  else .ok false file.length 0

/-- `Gzip_Reader::open` (Gzip_Reader.cpp lines 55–67). -/
def openFile (file : List Byte) : Opened :=
  match begin 0 0 true file with
  | none => .error
  | some (s, _) => calcSize (looksGz s) file

end Verif.Fex
