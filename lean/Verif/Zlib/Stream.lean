import Verif.Zlib.Header
import Verif.Zlib.InfFixed
import Verif.Zlib.LzSpec

/-!
Model of how `inflate` reads the commands of the blocks (fex/zlib/inflate.c, states TYPE to COPY and
LEN to DISTEXT, lines 773-836 and 950-1038).

The input is given in one piece, and the commands are collected instead of being carried out: what
`inflate` writes for them, in how many calls ever, is in `Window`.  (The check of distances in lines
1026-1043 is there.)
-/

namespace Verif.Zlib

/-- The states `LEN`, `LENEXT`, `DIST`, `DISTEXT` (inflate.c lines 957–1036); `none`: the end of
the block. -/
def takeCommand (x : Tables) (b : Bits) : Read (Option Cmd) :=
  match takeCode .lens x.lencode x.lenbits b with
  | none => .more
  | some (e, b) =>
    match interpret .lens e with
    | .number n => .ok (some (.lit (UInt8.ofNat n))) b
    | .endOfBlock => .ok none b
    | .invalid => .bad
    | .copy base extra =>
      -- lines 992–998
      match need extra b with
      | none => .more
      | some b =>
        let length := base + lowBits b extra
        let b := dropBits b extra
        match takeCode .dists x.distcode x.distbits b with
        | none => .more
        | some (e, b) =>
          match interpret .dists e with
          | .copy base extra =>
            -- lines 1028–1033
            match need extra b with
            | none => .more
            | some b => .ok (some (.copy length (base + lowBits b extra))) (dropBits b extra)
          | _ => .bad

/-- The loop over the states until the mode is `TYPE` or `BAD`, and the commands. -/
def takeCommands (x : Tables) : Nat → Bits → List Cmd × Read Unit
  | 0, _ => ([], .more)
  | fuel + 1, b =>
    match takeCommand x b with
    | .more => ([], .more)
    | .bad => ([], .bad)
    | .ok none b => ([], .ok () b)
    | .ok (some c) b => (c :: (takeCommands x fuel b).1, (takeCommands x fuel b).2)

/-- `BYTEBITS` (inflate.c lines 460–464). -/
def byteBits (b : Bits) : Bits := dropBits b (b.bits % 8)

/-- The states `STORED` and `COPY` (inflate.c lines 806–836). -/
def takeStored (b : Bits) : List Cmd × Read Unit :=
  match need 32 (byteBits b) with
  | none => ([], .more)
  | some b =>
    if b.hold % 2 ^ 16 ≠ (b.hold / 2 ^ 16) ^^^ 0xffff then ([], .bad)
    else
      -- `INITBITS`: hold = 0, bits = 0
      if b.next.length < b.hold % 2 ^ 16 then ([.raw b.next], .more)
      else ([.raw (b.next.take (b.hold % 2 ^ 16))], .ok () ⟨0, 0, b.next.drop (b.hold % 2 ^ 16)⟩)

/-- `fixedtables` (inflate.c lines 220–255, with `inffixed.h`). -/
def fixedTables : Tables := ⟨fun i => lenfix[i]?, 9, fun i => distfix[i]?, 5⟩

/-- The state `TABLE` and what follows it. -/
def takeDynamic (old : Nat → Nat) (b : Bits) : List Cmd × Read Unit :=
  match readHeader old b with
  | .more => ([], .more)
  | .bad => ([], .bad)
  | .ok x b => takeCommands x (b.bits + 8 * b.next.length + 1) b

/-- The state `TYPEDO` and what follows it, until `CHECK` or `BAD` (inflate.c lines 773–805).  What is in
`state->lens` before each block is `old`. -/
def takeBlocks (old : Nat → Nat → Nat) : Nat → Bits → List Cmd × Read Unit
  | 0, _ => ([], .more)
  | fuel + 1, b =>
    match need 3 b with
    | none => ([], .more)
    | some b =>
      let last := lowBits b 1
      let b := dropBits b 1
      let kind := lowBits b 2
      let b := dropBits b 2
      let r :=
        if kind = 0 then takeStored b
        else if kind = 1 then takeCommands fixedTables (b.bits + 8 * b.next.length + 1) b
        else if kind = 2 then takeDynamic (old fuel) b
        else ([], .bad)
      match r.2 with
      | .more => (r.1, .more)
      | .bad => (r.1, .bad)
      | .ok _ b =>
        if last ≠ 0 then (r.1, .ok () (byteBits b))
        else (r.1 ++ (takeBlocks old fuel b).1, (takeBlocks old fuel b).2)

/-- `inflate` on all of a raw stream: from state `TYPE` on. -/
def takeStream (old : Nat → Nat → Nat) (input : List Byte) : List Cmd × Read Unit :=
  takeBlocks old (8 * input.length + 1) ⟨0, 0, input⟩

end Verif.Zlib
