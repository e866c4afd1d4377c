import Verif.Basic

/-!
Model of `BitWrapper<std::string>` (`tools/lemmatizers/lamerlemma/canonical_huffman.hpp:235-316`).

`value_type` is a signed `char`: right shifts are arithmetic.  The iterator is an index into the
container.  Dereferencing outside the container is undefined behaviour (`none`).  A wrapper is either written to or
read from: `Put` may move the container, and the iterator is then no longer valid.
-/
namespace Verif.BitStream
open Verif

/-- canonical_huffman.hpp:239-246 -/
structure W where
  data : Str
  it : Nat
  cur : BitVec 8
  bitPos : Nat

/-- canonical_huffman.hpp:250-253 -/
def new (data : Str) : W := ⟨data, 0, 0, 0⟩

/-- canonical_huffman.hpp:255-267; `m_mask` is 1. -/
def read (w : W) : Bool × W :=
  if w.bitPos % 8 = 0 then
    match w.data[w.it]? with
    | some b => (b.toBitVec.getLsbD 0, { w with cur := b.toBitVec, it := w.it + 1, bitPos := w.bitPos + 1 })
    | none => (w.cur.getLsbD 0, { w with bitPos := w.bitPos + 1 })
  else
    ((w.cur.sshiftRight 1).getLsbD 0, { w with cur := w.cur.sshiftRight 1, bitPos := w.bitPos + 1 })

/-- canonical_huffman.hpp:269-277 -/
def put (w : W) (bit : Bool) : W :=
  let data := if w.bitPos % 8 = 0 then w.data ++ [0] else w.data
  let data := if bit then
      data.set (data.length - 1)
        (UInt8.ofBitVec ((data.getLastD 0).toBitVec ||| ((1 : BitVec 8) <<< (w.bitPos % 8))))
    else data
  { w with data := data, bitPos := w.bitPos + 1 }

/-- canonical_huffman.hpp:284-289 -/
def tellFromEnd (w : W) : Nat := w.data.length * 8 - w.bitPos

/-- `int((bitPos - 1) / 8)` with the subtraction in `size_t` and the conversion to a 32-bit `int`
(canonical_huffman.hpp:294). -/
def seekOffset (bitPos : Nat) : Int := Int.bmod (((bitPos : Int) - 1) % 2 ^ 64 / 8) (2 ^ 32)

/-- canonical_huffman.hpp:291-297.  Dereferencing an iterator outside the container: `none`. -/
def seek (w : W) (bitPos : Nat) : Option W :=
  if seekOffset bitPos < 0 then none
  else
    match w.data[(seekOffset bitPos).toNat]? with
    | none => none
    | some b => some { w with bitPos := bitPos,
                              cur := b.toBitVec.sshiftRight (((bitPos : Int) - 1) % 2 ^ 64 % 8).toNat,
                              it := (seekOffset bitPos).toNat + 1 }

/-- canonical_huffman.hpp:299-303; the subtraction is in `size_t`. -/
def seekFromEnd (w : W) (fromEnd : Nat) : Option W :=
  seek w (((w.data.length : Int) * 8 - fromEnd) % 2 ^ 64).toNat

/-- canonical_huffman.hpp:305-310 -/
def reset (w : W) : W := { w with it := 0, cur := 0, bitPos := 0 }

/-- Reading `n` bits. -/
def readN : Nat → W → List Bool × W
  | 0, w => ([], w)
  | n+1, w =>
    let (b, w) := read w
    let (bs, w) := readN n w
    (b :: bs, w)

/-- Writing bits one by one. -/
def putAll (w : W) (bs : List Bool) : W := bs.foldl put w

end Verif.BitStream
