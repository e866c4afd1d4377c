import Verif.Zlib.PiecesStored
import Verif.Zlib.HeadPieces

/-!
Model of how `inflate` reads a raw stream when the input comes in pieces (fex/zlib/inflate.c lines
773–1037): the loop over the states goes on from call to call.  `b.next` is what is left of the input of the
call, `ps` are the inputs of the calls that follow.
-/

namespace Verif.Zlib

/-- What a part of `inflate` leads to over several calls. -/
inductive Fed (α : Type) where
  | ok (a : α) (b : Bits) (ps : List (List Byte))
  | more
  | bad

/-- The commands of a block (`runPieces` with what is left for the next block). -/
def cmdsIn (x : Tables) (space : Nat → Nat → Nat) :
    LenMode → Bits → List (List Byte) → Option (List Cmd × Fed Unit)
  | m, b, [] =>
    match runMode x (space 0) (2 * (b.bits + 8 * b.next.length) + 2) m b with
    | none => none
    | some (cs, .bad) => some (cs, .bad)
    | some (cs, .ended b) => some (cs, .ok () b [])
    | some (cs, .wait _ _) => some (cs, .more)
  | m, b, p :: ps =>
    match runMode x (space (ps.length + 1)) (2 * (b.bits + 8 * b.next.length) + 2) m b with
    | none => none
    | some (cs, .bad) => some (cs, .bad)
    | some (cs, .ended b) => some (cs, .ok () b (p :: ps))
    | some (cs, .wait m b) => (cmdsIn x space m ⟨b.hold, b.bits, p⟩ ps).map fun r => (cs ++ r.1, r.2)

/-- The head of a dynamic block (`headPieces`). -/
def headIn : HeadMode → Bits → List (List Byte) → Option (Fed Tables)
  | m, b, [] =>
    match runHead 400 m b with
    | none => none
    | some .bad => some .bad
    | some (.done x b) => some (.ok x b [])
    | some (.wait _ _) => some .more
  | m, b, p :: ps =>
    match runHead 400 m b with
    | none => none
    | some .bad => some .bad
    | some (.done x b) => some (.ok x b (p :: ps))
    | some (.wait m b) => headIn m ⟨b.hold, b.bits, p⟩ ps

/-- The bytes of a stored block (`copyPieces`). -/
def copyIn : Nat → List Byte → List (List Byte) → List Byte × Fed Unit
  | length, next, [] =>
    let copy := if length > next.length then next.length else length
    if length - copy = 0 then (next.take copy, .ok () ⟨0, 0, next.drop copy⟩ [])
    else (next.take copy, .more)
  | length, next, p :: ps =>
    let copy := if length > next.length then next.length else length
    if length - copy = 0 then (next.take copy, .ok () ⟨0, 0, next.drop copy⟩ (p :: ps))
    else (next.take copy ++ (copyIn (length - copy) p ps).1, (copyIn (length - copy) p ps).2)

/-- A stored block (`storedPieces`). -/
def storedIn : Bits → List (List Byte) → List Byte × Fed Unit
  | b, [] =>
    match need 32 (byteBits b) with
    | none => ([], .more)
    | some b =>
      if b.hold % 2 ^ 16 ≠ (b.hold / 2 ^ 16) ^^^ 0xffff then ([], .bad)
      else copyIn (b.hold % 2 ^ 16) b.next []
  | b, p :: ps =>
    match need 32 (byteBits b) with
    | none =>
      let b := byteBits b
      let b := pullAll b.hold b.bits b.next
      storedIn ⟨b.hold, b.bits, p⟩ ps
    | some b =>
      if b.hold % 2 ^ 16 ≠ (b.hold / 2 ^ 16) ^^^ 0xffff then ([], .bad)
      else copyIn (b.hold % 2 ^ 16) b.next (p :: ps)

/-- `NEEDBITS(3)` in the state `TYPEDO` (inflate.c line 781). -/
def typeIn : Bits → List (List Byte) → Option (Bits × List (List Byte))
  | b, [] =>
    match need 3 b with
    | none => none
    | some b => some (b, [])
  | b, p :: ps =>
    match need 3 b with
    | none =>
      let b := pullAll b.hold b.bits b.next
      typeIn ⟨b.hold, b.bits, p⟩ ps
    | some b => some (b, p :: ps)

/-- A dynamic block: its head and its commands. -/
def dynamicIn (old : Nat → Nat) (space : Nat → Nat → Nat) (b : Bits) (ps : List (List Byte)) :
    Option (List Cmd × Fed Unit) :=
  match headIn (.table old) b ps with
  | none => none
  | some .more => some ([], .more)
  | some .bad => some ([], .bad)
  | some (.ok x b ps) => cmdsIn x space .len b ps

/-- The states from `TYPE` to `DISTEXT` (inflate.c lines 773–1037). -/
def blocksIn (old : Nat → Nat → Nat) (space : Nat → Nat → Nat → Nat) :
    Nat → Bits → List (List Byte) → Option (List Cmd × Fed Unit)
  | 0, _, _ => some ([], .more)
  | fuel + 1, b, ps =>
    match typeIn b ps with
    | none => some ([], .more)
    | some (b, ps) =>
      let last := lowBits b 1
      let b := dropBits b 1
      let kind := lowBits b 2
      let b := dropBits b 2
      let r :=
        if kind = 0 then some ([.raw (storedIn b ps).1], (storedIn b ps).2)
        else if kind = 1 then cmdsIn fixedTables (space fuel) .len b ps
        else if kind = 2 then dynamicIn (old fuel) (space fuel) b ps
        else some ([], .bad)
      r.bind fun r =>
        match r.2 with
        | .more => some (r.1, .more)
        | .bad => some (r.1, .bad)
        | .ok _ b ps =>
          if last ≠ 0 then some (r.1, .ok () (byteBits b) ps)
          else (blocksIn old space fuel b ps).map fun q => (r.1 ++ q.1, q.2)

/-- A raw stream that comes in pieces. -/
def streamIn (old : Nat → Nat → Nat) (space : Nat → Nat → Nat → Nat) (pieces : List (List Byte)) :
    Option (List Cmd × Fed Unit) :=
  blocksIn old space (8 * pieces.flatten.length + 1) ⟨0, 0, []⟩ pieces

end Verif.Zlib
