import Verif.Zlib.Pieces

/-!
Model of how `inflate` reads a stored block when the input comes in pieces (fex/zlib/inflate.c lines
807–835): the states `STORED` and `COPY` are entered again at each call with what is kept of the bit
buffer and with `state->length`.  There is space for all bytes (the calls that are left for want of space
are in `Window`).
-/

namespace Verif.Zlib

/-- The state `COPY` (inflate.c lines 821–835) with `state->length`, the input of this call and the pieces
for the next ones: what is written, and what it leads to. -/
def copyPieces : Nat → List Byte → List (List Byte) → List Byte × Read Unit
  | length, next, [] =>
    let copy := if length > next.length then next.length else length
    if length - copy = 0 then (next.take copy, .ok () ⟨0, 0, next.drop copy⟩)
    else (next.take copy, .more)
  | length, next, p :: ps =>
    let copy := if length > next.length then next.length else length
    if length - copy = 0 then (next.take copy, .ok () ⟨0, 0, next.drop copy ++ (p :: ps).flatten⟩)
    else (next.take copy ++ (copyPieces (length - copy) p ps).1, (copyPieces (length - copy) p ps).2)

/-- The state `STORED` (inflate.c lines 807–820), entered in each call until there are 32 bits. -/
def storedPieces : Bits → List (List Byte) → List Byte × Read Unit
  | _, [] => ([], .more)
  | b, p :: ps =>
    match need 32 (byteBits ⟨b.hold, b.bits, p⟩) with
    | none =>
      let b := byteBits ⟨b.hold, b.bits, p⟩
      storedPieces (pullAll b.hold b.bits b.next) ps
    | some b =>
      if b.hold % 2 ^ 16 ≠ (b.hold / 2 ^ 16) ^^^ 0xffff then ([], .bad)
      else copyPieces (b.hold % 2 ^ 16) b.next ps

end Verif.Zlib
