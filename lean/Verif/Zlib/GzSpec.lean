import Verif.Zlib.CrcSpec
import Verif.Zlib.LzSpec
import Verif.Zlib.StreamSpec

/-! The head and the end of a member of a gzip file (RFC 1952, section 2.3). -/

namespace Verif.Zlib

/-- A text that ends with its only zero. -/
def ZeroEnded (s : List Byte) : Prop := ∃ t, 0 ∉ t ∧ s = t ++ [0]

/-- A field that is there if a bit of the flags is set. -/
def Field (flg : Byte) (bit : Nat) (P : List Byte → Prop) (s : List Byte) : Prop :=
  if flg.toNat.testBit bit then P s else s = []

/-- The head of a member: two fixed bytes, the method 8, the flags (the upper three are not in
use), time, extra flags and system in six bytes; then the extra field with its length in two bytes,
the name, the comment, and the lower half of the CRC of all that was before. -/
def GzHeader (hdr : List Byte) : Prop :=
  ∃ (flg : Byte) (six extra name comment crc : List Byte),
    hdr = [0x1f, 0x8b, 8, flg] ++ six ++ extra ++ name ++ comment ++ crc ∧
    flg.toNat < 32 ∧ six.length = 6 ∧
    Field flg 2 (fun s => ∃ data, data.length < 65536 ∧ s = bytesOf 2 data.length ++ data) extra ∧
    Field flg 3 ZeroEnded name ∧
    Field flg 4 ZeroEnded comment ∧
    Field flg 1 (fun s => ∃ c : BitVec 32,
      IsCrc ([0x1f, 0x8b, 8, flg] ++ six ++ extra ++ name ++ comment) c ∧ s = bytesOf 2 c.toNat) crc

/-- The end of a member: the CRC of the content and its length, four bytes each. -/
def GzTrailer (out tail : List Byte) : Prop :=
  ∃ c : BitVec 32, IsCrc out c ∧ tail = bytesOf 4 c.toNat ++ bytesOf 4 out.length

/-- The input is a member with some content, and a rest. -/
def Member (input out rest : List Byte) : Prop :=
  ∃ (hdr mid tail : List Byte) (cs : List Cmd),
    input = hdr ++ mid ∧ GzHeader hdr ∧
    Blocks (streamOf mid) (8 * mid.length) cs
      (.got () (streamOf (tail ++ rest)) (8 * (tail ++ rest).length)) ∧
    expand [] cs = (out, true) ∧
    GzTrailer out tail

end Verif.Zlib
