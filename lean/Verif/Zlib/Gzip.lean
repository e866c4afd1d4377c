import Verif.Zlib.Crc
import Verif.Zlib.Stream

/-!
Model of the states of `inflate` (fex/zlib/inflate.c) for the head and the end of a gzip file:
HEAD, FLAGS … HCRC (lines 589–759) and CHECK, LENGTH (lines 1077–1112), for a stream that
`inflateInit2` was called for with `MAX_WBITS + 16` (as in `Zlib_Inflater::set_mode`; `wrap` is 2).

The bit buffer is empty before each of these states, so that `NEEDBITS(8 * k)` takes just the next `k`
bytes; `INITBITS` makes it empty again.  The input is given in one piece, `more` is the leaving of
`inflate`.  There is no `gz_header` (`state->head` is null).
-/

namespace Verif.Zlib

/-- `NEEDBITS(8 * k)`, `hold`, and `INITBITS`. -/
def takeWord (k : Nat) (input : List Byte) : Option (Nat × List Byte) :=
  match need (8 * k) ⟨0, 0, input⟩ with
  | none => none
  | some b => some (b.hold, b.next)

/-- `hbuf` in `CRC2` and `CRC4` (inflate.c lines 385–400). -/
def hbuf (k word : Nat) : List Byte := (List.range k).map fun i => UInt8.ofNat (word >>> (8 * i))

/-- What the computation of CRCs depends on: the machine, and the addresses of buffers. -/
structure Place where
  machine : Machine
  address : List Byte → Nat

/-- `crc32` for a buffer. -/
def crcBuf (p : Place) (check : U4) (s : List Byte) : U4 :=
  crc32 p.machine check (some (p.address s, s))

/-- `if (state->flags & 0x0200) CRC…` (inflate.c lines 649, 656, 665, 674, 692, 713, 734). -/
def crcIf (p : Place) (flags : Nat) (check : U4) (s : List Byte) : U4 :=
  if flags &&& 0x0200 ≠ 0 then crcBuf p check s else check

/-- The loop of the states `NAME` and `COMMENT` (inflate.c lines 705–712, 726–733): the bytes up
to the first zero and the others; `none`: there is no zero (lines 717, 738; the bytes are then
consumed, and the loop goes on in the next call). -/
def untilZero : List Byte → Option (List Byte × List Byte)
  | [] => none
  | x :: xs =>
    if x = 0 then some ([x], xs) else (untilZero xs).map fun r => (x :: r.1, r.2)

/-- State `HCRC` (inflate.c lines 743–759). -/
def gzHcrc (flags : Nat) (check : U4) (input : List Byte) : Read Nat :=
  if flags &&& 0x0200 ≠ 0 then
    match takeWord 2 input with
    | none => .more
    | some (hold, input) =>
      if hold ≠ check.toNat &&& 0xffff then .bad else .ok flags ⟨0, 0, input⟩
  else .ok flags ⟨0, 0, input⟩

/-- State `COMMENT` (inflate.c lines 723–742). -/
def gzComment (p : Place) (flags : Nat) (check : U4) (input : List Byte) : Read Nat :=
  if flags &&& 0x1000 ≠ 0 then
    match untilZero input with
    | none => .more
    | some (s, input) => gzHcrc flags (crcIf p flags check s) input
  else gzHcrc flags check input

/-- State `NAME` (inflate.c lines 702–722). -/
def gzName (p : Place) (flags : Nat) (check : U4) (input : List Byte) : Read Nat :=
  if flags &&& 0x0800 ≠ 0 then
    match untilZero input with
    | none => .more
    | some (s, input) => gzComment p flags (crcIf p flags check s) input
  else gzComment p flags check input

/-- The states `EXLEN` and `EXTRA` (inflate.c lines 668–701). -/
def gzExtra (p : Place) (flags : Nat) (check : U4) (input : List Byte) : Read Nat :=
  if flags &&& 0x0400 ≠ 0 then
    match takeWord 2 input with
    | none => .more
    | some (hold, input) =>
      let check := crcIf p flags check (hbuf 2 hold)
      -- `copy`: as much as there is
      if input.length < hold then .more
      else
        gzName p flags (if hold ≠ 0 then crcIf p flags check (input.take hold) else check)
          (input.drop hold)
  else gzName p flags check input

/-- The states `TIME` and `OS` (inflate.c lines 652–667). -/
def gzTime (p : Place) (flags : Nat) (check : U4) (input : List Byte) : Read Nat :=
  match takeWord 4 input with
  | none => .more
  | some (hold, input) =>
    let check := crcIf p flags check (hbuf 4 hold)
    match takeWord 2 input with
    | none => .more
    | some (hold, input) => gzExtra p flags (crcIf p flags check (hbuf 2 hold)) input

/-- The states `HEAD` and `FLAGS` (inflate.c lines 589–651); the flags and what is left. -/
def gzHead (p : Place) (input : List Byte) : Read Nat :=
  match takeWord 2 input with
  | none => .more
  | some (hold, input) =>
    -- the head of a zlib stream is not allowed: lines 603–612
    if hold ≠ 0x8b1f then .bad
    else
      let check := crcBuf p (crc32 p.machine 0#32 none) (hbuf 2 hold)
      match takeWord 2 input with
      | none => .more
      | some (flags, input) =>
        if flags &&& 0xff ≠ 8 then .bad
        else if flags &&& 0xe000 ≠ 0 then .bad
        else gzTime p flags (crcIf p flags check (hbuf 2 flags)) input

/-- `UPDATE` at the end of each call and in state `CHECK` (inflate.c lines 376–381, 1083–1085,
1143–1145): the content comes in pieces; nothing is done for an empty one. -/
def updateAll (p : Place) (check : U4) (pieces : List (List Byte)) : U4 :=
  pieces.foldl (fun check s => if s.length ≠ 0 then crcBuf p check s else check) check

/-- The states `CHECK` and `LENGTH` (inflate.c lines 1077–1110), when the content was written in these
pieces; `state->check` is that of line 757 at first. -/
def gzTail (p : Place) (pieces : List (List Byte)) (input : List Byte) : Read Unit :=
  match takeWord 4 input with
  | none => .more
  | some (hold, input) =>
    if hold ≠ (updateAll p (crc32 p.machine 0#32 none) pieces).toNat then .bad
    else
      match takeWord 4 input with
      | none => .more
      | some (hold, input) =>
        if hold ≠ (pieces.map List.length).sum &&& 0xffffffff then .bad
        else .ok () ⟨0, 0, input⟩

/-- `inflate` on all of a gzip file, when the content was written in these pieces: from state `HEAD` to
`DONE`.  (What is written for the commands of `takeStream`: Window.lean.) -/
def gunzip (p : Place) (old : Nat → Nat → Nat) (pieces : List (List Byte)) (input : List Byte) :
    Read Unit :=
  match gzHead p input with
  | .more => .more
  | .bad => .bad
  | .ok _ b =>
    match (takeStream old b.next).2 with
    | .more => .more
    | .bad => .bad
    | .ok _ b => gzTail p pieces b.next

end Verif.Zlib
