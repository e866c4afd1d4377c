import Verif.Zlib.Gzip
import Verif.Zlib.StreamPieces

/-!
Model of how `inflate` reads a gzip file when the input comes in pieces (fex/zlib/inflate.c lines 589–759
and 1077–1112, with the blocks as in StreamPieces.lean).  `next` is what is left of the input of the call,
`ps` are the inputs of the calls that follow; in the midst of a word the bytes that are there stay in the bit
buffer, in the midst of a field its CRC and (for the extra field) its length are kept from call to call.
-/

namespace Verif.Zlib

/-- `NEEDBITS(8 * k)`, `hold`, and `INITBITS`. -/
def wordIn (k : Nat) : Bits → List (List Byte) → Option (Nat × List Byte × List (List Byte))
  | b, [] =>
    match need (8 * k) b with
    | none => none
    | some b => some (b.hold, b.next, [])
  | b, p :: ps =>
    match need (8 * k) b with
    | none =>
      let b := pullAll b.hold b.bits b.next
      wordIn k ⟨b.hold, b.bits, p⟩ ps
    | some b => some (b.hold, b.next, p :: ps)

/-- The states `NAME` and `COMMENT` if the field is there (inflate.c lines 704–717, 725–738): the CRC of the
bytes that are there, also if there is no zero among them. -/
def nameIn (q : Place) (flags : Nat) : U4 → List Byte → List (List Byte) →
    Option (U4 × List Byte × List (List Byte))
  | check, next, [] =>
    match untilZero next with
    | none => none
    | some (s, next) => some (crcIf q flags check s, next, [])
  | check, next, p :: ps =>
    match untilZero next with
    | none =>
      -- lines 704 and 725: the call is left at once
      nameIn q flags (if next.length = 0 then check else crcIf q flags check next) p ps
    | some (s, next) => some (crcIf q flags check s, next, p :: ps)

/-- The state `EXTRA` if the field is there (inflate.c lines 681–699). -/
def extraIn (q : Place) (flags : Nat) : Nat → U4 → List Byte → List (List Byte) →
    Option (U4 × List Byte × List (List Byte))
  | length, check, next, [] =>
    let copy := if length > next.length then next.length else length
    let check := if copy ≠ 0 then crcIf q flags check (next.take copy) else check
    if length - copy ≠ 0 then none else some (check, next.drop copy, [])
  | length, check, next, p :: ps =>
    let copy := if length > next.length then next.length else length
    let check := if copy ≠ 0 then crcIf q flags check (next.take copy) else check
    if length - copy ≠ 0 then extraIn q flags (length - copy) check p ps
    else some (check, next.drop copy, p :: ps)

/-- State `HCRC` (inflate.c lines 743–759). -/
def hcrcIn (flags : Nat) (check : U4) (next : List Byte) (ps : List (List Byte)) : Fed Nat :=
  if flags &&& 0x0200 ≠ 0 then
    match wordIn 2 ⟨0, 0, next⟩ ps with
    | none => .more
    | some (hold, next, ps) =>
      if hold ≠ check.toNat &&& 0xffff then .bad else .ok flags ⟨0, 0, next⟩ ps
  else .ok flags ⟨0, 0, next⟩ ps

/-- State `COMMENT` (inflate.c lines 723–742). -/
def commentIn (q : Place) (flags : Nat) (check : U4) (next : List Byte) (ps : List (List Byte)) :
    Fed Nat :=
  if flags &&& 0x1000 ≠ 0 then
    match nameIn q flags check next ps with
    | none => .more
    | some (check, next, ps) => hcrcIn flags check next ps
  else hcrcIn flags check next ps

/-- State `NAME` (inflate.c lines 702–722). -/
def fileNameIn (q : Place) (flags : Nat) (check : U4) (next : List Byte) (ps : List (List Byte)) :
    Fed Nat :=
  if flags &&& 0x0800 ≠ 0 then
    match nameIn q flags check next ps with
    | none => .more
    | some (check, next, ps) => commentIn q flags check next ps
  else commentIn q flags check next ps

/-- The states `EXLEN` and `EXTRA` (inflate.c lines 668–701). -/
def exlenIn (q : Place) (flags : Nat) (check : U4) (next : List Byte) (ps : List (List Byte)) :
    Fed Nat :=
  if flags &&& 0x0400 ≠ 0 then
    match wordIn 2 ⟨0, 0, next⟩ ps with
    | none => .more
    | some (hold, next, ps) =>
      match extraIn q flags hold (crcIf q flags check (hbuf 2 hold)) next ps with
      | none => .more
      | some (check, next, ps) => fileNameIn q flags check next ps
  else fileNameIn q flags check next ps

/-- The states `TIME` and `OS` (inflate.c lines 652–667). -/
def timeIn (q : Place) (flags : Nat) (check : U4) (next : List Byte) (ps : List (List Byte)) :
    Fed Nat :=
  match wordIn 4 ⟨0, 0, next⟩ ps with
  | none => .more
  | some (hold, next, ps) =>
    let check := crcIf q flags check (hbuf 4 hold)
    match wordIn 2 ⟨0, 0, next⟩ ps with
    | none => .more
    | some (hold, next, ps) => exlenIn q flags (crcIf q flags check (hbuf 2 hold)) next ps

/-- The states `HEAD` and `FLAGS` (inflate.c lines 589–651). -/
def gzHeadIn (q : Place) (next : List Byte) (ps : List (List Byte)) : Fed Nat :=
  match wordIn 2 ⟨0, 0, next⟩ ps with
  | none => .more
  | some (hold, next, ps) =>
    if hold ≠ 0x8b1f then .bad
    else
      let check := crcBuf q (crc32 q.machine 0#32 none) (hbuf 2 hold)
      match wordIn 2 ⟨0, 0, next⟩ ps with
      | none => .more
      | some (flags, next, ps) =>
        if flags &&& 0xff ≠ 8 then .bad
        else if flags &&& 0xe000 ≠ 0 then .bad
        else timeIn q flags (crcIf q flags check (hbuf 2 flags)) next ps

/-- The states `CHECK` and `LENGTH` (inflate.c lines 1077–1110), when the content was written in these
pieces. -/
def gzTailIn (q : Place) (written : List (List Byte)) (next : List Byte) (ps : List (List Byte)) :
    Fed Unit :=
  match wordIn 4 ⟨0, 0, next⟩ ps with
  | none => .more
  | some (hold, next, ps) =>
    if hold ≠ (updateAll q (crc32 q.machine 0#32 none) written).toNat then .bad
    else
      match wordIn 4 ⟨0, 0, next⟩ ps with
      | none => .more
      | some (hold, next, ps) =>
        if hold ≠ (written.map List.length).sum &&& 0xffffffff then .bad
        else .ok () ⟨0, 0, next⟩ ps

/-- `inflate` on a gzip file that comes in pieces, when the content was written in the pieces `written`: from
state `HEAD` to `DONE`. -/
def gunzipIn (q : Place) (old : Nat → Nat → Nat) (space : Nat → Nat → Nat → Nat)
    (written : List (List Byte)) (pieces : List (List Byte)) : Option (Fed Unit) :=
  match gzHeadIn q [] pieces with
  | .more => some .more
  | .bad => some .bad
  | .ok _ b ps =>
    match streamIn old space (b.next :: ps) with
    | none => none
    | some (_, .more) => some .more
    | some (_, .bad) => some .bad
    | some (_, .ok _ b ps) => some (gzTailIn q written b.next ps)

end Verif.Zlib
