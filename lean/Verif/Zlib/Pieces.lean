import Verif.Zlib.Fast

/-!
Model of how `inflate` reads the commands of a block when the input comes in pieces
(fex/zlib/inflate.c lines 950–1037): each call has its own input; where it ends (`PULLBYTE`, lines
423–429) the call is left (`inf_leave`), and the state, the mode, `hold` and `bits` are kept for the
next one.

What is kept is in the modes; how the commands are carried out is in `Window`, so the calls that are
left for want of space are not shown.
-/

namespace Verif.Zlib

/-- The modes, with what `state->length`, `offset` and `extra` are (lines 992, 1023–1027). -/
inductive LenMode where
  | len
  | lenext (base extra : Nat)
  | dist (length : Nat)
  | distext (length base extra : Nat)
  deriving DecidableEq

/-- A mode once. -/
inductive Stepped where
  | wait (b : Bits)
  | bad
  | ended (b : Bits)
  | made (c : Cmd) (b : Bits)
  | next (m : LenMode) (b : Bits)

/-- All bytes are pulled, and the call is left. -/
def pullAll (hold bits : Nat) : List Byte → Bits
  | [] => ⟨hold, bits, []⟩
  | x :: xs => pullAll (hold + x.toNat * 2 ^ bits) (bits + 8) xs

/-- The modes `LEN`, `LENEXT`, `DIST`, `DISTEXT` without `inflate_fast` (inflate.c lines 957–1036). -/
def modeStep (x : Tables) : LenMode → Bits → Stepped
  | .len, b =>
    match takeCode .lens x.lencode x.lenbits b with
    | none => .wait (pullAll b.hold b.bits b.next)
    | some (e, b) =>
      match interpret .lens e with
      | .number n => .made (.lit (UInt8.ofNat n)) b
      | .endOfBlock => .ended b
      | .invalid => .bad
      | .copy base extra => .next (.lenext base extra) b
  | .lenext base extra, b =>
    match need extra b with
    | none => .wait (pullAll b.hold b.bits b.next)
    | some b => .next (.dist (base + lowBits b extra)) (dropBits b extra)
  | .dist length, b =>
    match takeCode .dists x.distcode x.distbits b with
    | none => .wait (pullAll b.hold b.bits b.next)
    | some (e, b) =>
      match interpret .dists e with
      | .copy base extra => .next (.distext length base extra) b
      | _ => .bad
  | .distext length base extra, b =>
    match need extra b with
    | none => .wait (pullAll b.hold b.bits b.next)
    | some b => .made (.copy length (base + lowBits b extra)) (dropBits b extra)

/-- How a call ends. -/
inductive Stop where
  | wait (m : LenMode) (b : Bits)
  | bad
  | ended (b : Bits)

/-- The loop of one call; the space is given for each time. -/
def runMode (x : Tables) (space : Nat → Nat) : Nat → LenMode → Bits → Option (List Cmd × Stop)
  | 0, _, _ => none
  | fuel + 1, m, b =>
    if m = .len ∧ 6 ≤ b.next.length ∧ 258 ≤ space fuel then
      match inflateFast x (space fuel) b with
      | none => none
      | some (cs, .ended b) => some (cs, .ended b)
      | some (cs, .wrong) => some (cs, .bad)
      | some (cs, .paused b) => (runMode x space fuel .len b).map fun r => (cs ++ r.1, r.2)
    else
      match modeStep x m b with
      | .wait b => some ([], .wait m b)
      | .bad => some ([], .bad)
      | .ended b => some ([], .ended b)
      | .made c b => (runMode x space fuel .len b).map fun r => (c :: r.1, r.2)
      | .next m b => runMode x space fuel m b

/-- One call for each piece of the input; what is left when the block ends is what is left of its piece and the
pieces behind it. -/
def runPieces (x : Tables) (space : Nat → Nat → Nat) :
    LenMode → Bits → List (List Byte) → Option (List Cmd × Read Unit)
  | _, _, [] => some ([], .more)
  | m, b, p :: ps =>
    match runMode x (space ps.length) (2 * (b.bits + 8 * p.length) + 2) m ⟨b.hold, b.bits, p⟩ with
    | none => none
    | some (cs, .bad) => some (cs, .bad)
    | some (cs, .ended b) => some (cs, .ok () ⟨b.hold, b.bits, b.next ++ ps.flatten⟩)
    | some (cs, .wait m b) => (runPieces x space m b ps).map fun r => (cs ++ r.1, r.2)

end Verif.Zlib
