import Verif.Zlib.Stream

/-!
Model of the decoding in `inflate_fast` (fex/zlib/inffast.c lines 120–185 and 261–302), which reads
several bytes at a time and gives those back that it did not need, and of the choice between it and the
other states (fex/zlib/inflate.c lines 950–956).  (The copying is in `Window`.)

`none`: a byte behind the input is read or one behind the output is written, `hold` gets more than 32
bits, or there are less bits than are taken.
-/

namespace Verif.Zlib

/-- `hold += (unsigned long)(PUP(in)) << bits; bits += 8` (inffast.c lines 122–123 and others). -/
def fastPull (b : Bits) : Option Bits := if b.bits + 8 > 32 then none else pullByte b

/-- inffast.c lines 121–126 and 152–157. -/
def fill15 (b : Bits) : Option Bits :=
  if b.bits < 15 then (fastPull b).bind fastPull else some b

/-- Whether an entry is taken for a link (inffast.c lines 133, 139, 271 and 164, 261). -/
def fastLink (type : CodeType) (op : Nat) : Bool :=
  match type with
  | .codes => false
  | .lens => op ≠ 0 ∧ op &&& 16 = 0 ∧ op &&& 64 = 0
  | .dists => op &&& 16 = 0 ∧ op &&& 64 = 0

/-- `dolen` and `dodist` (inffast.c lines 127–132, 271–274 and 158–163, 261–264): the entry, `hold` and
`bits`. -/
def fastLook (type : CodeType) (t : Table) : Nat → Nat → Nat → Nat → Option (Entry × Nat × Nat)
  | 0, _, _, _ => none
  | fuel + 1, i, hold, bits =>
    match t i with
    | none => none
    | some e =>
      if bits < e.bits then none
      else if fastLink type e.op then
        fastLook type t fuel (e.val + hold / 2 ^ e.bits % 2 ^ e.op) (hold / 2 ^ e.bits) (bits - e.bits)
      else some (e, hold / 2 ^ e.bits, bits - e.bits)

/-- What is done with an entry that is not a link (inffast.c lines 133–141, 275–284 and 164–166,
265–269). -/
def fastKind (type : CodeType) (e : Entry) : Meaning :=
  match type with
  | .codes => .invalid
  | .lens =>
    if e.op = 0 then .number e.val
    else if e.op &&& 16 ≠ 0 then .copy e.val (e.op &&& 15)
    else if e.op &&& 32 ≠ 0 then .endOfBlock
    else .invalid
  | .dists => if e.op &&& 16 ≠ 0 then .copy e.val (e.op &&& 15) else .invalid

/-- The extra bits are taken. -/
def fastLow (n : Nat) (b : Bits) : Option (Nat × Bits) :=
  if b.bits < n then none else some (lowBits b n, dropBits b n)

/-- The extra bits of a length (inffast.c lines 142–150). -/
def fastLength (n : Nat) (b : Bits) : Option (Nat × Bits) :=
  if n ≠ 0 then (if b.bits < n then fastPull b else some b).bind (fastLow n) else some (0, b)

/-- The extra bits of a distance (inffast.c lines 167–175, 183–184). -/
def fastDist (n : Nat) (b : Bits) : Option (Nat × Bits) :=
  (if b.bits < n then
    (fastPull b).bind fun b => if b.bits < n then fastPull b else some b
  else some b).bind (fastLow n)

/-- `dodist` (inffast.c lines 158–184, 261–269), for a copy of the length `len`. -/
def fastSecond (x : Tables) (len : Nat) (b : Bits) : Option (Read (Option Cmd)) :=
  (fastLook .dists x.distcode 2 (b.hold % 2 ^ x.distbits) b.hold b.bits).bind
    fun (e, hold, bits) =>
      match fastKind .dists e with
      | .copy base extra =>
        (fastDist extra ⟨hold, bits, b.next⟩).map fun (dist, b) => .ok (some (.copy len (base + dist))) b
      | _ => some .bad

/-- `dolen` and what follows it (inffast.c lines 127–284). -/
def fastFirst (x : Tables) (b : Bits) : Option (Read (Option Cmd)) :=
  (fastLook .lens x.lencode 2 (b.hold % 2 ^ x.lenbits) b.hold b.bits).bind fun (e, hold, bits) =>
    match fastKind .lens e with
    | .number n => some (.ok (some (.lit (UInt8.ofNat n))) ⟨hold, bits, b.next⟩)
    | .endOfBlock => some (.ok none ⟨hold, bits, b.next⟩)
    | .invalid => some .bad
    | .copy base extra =>
      (fastLength extra ⟨hold, bits, b.next⟩).bind fun (len, b) =>
        (fill15 b).bind fun b => fastSecond x (base + len) b

/-- The loop once (inffast.c lines 121–284). -/
def fastCommand (x : Tables) (b : Bits) : Option (Read (Option Cmd)) :=
  (fill15 b).bind fun b => fastFirst x b

/-- How the loop is left. -/
inductive Left where
  | ended (b : Bits)
  | wrong
  | paused (b : Bits)

/-- How many bytes a command writes. -/
def Cmd.makes : Cmd → Nat
  | .lit _ => 1
  | .copy len _ => len
  | .raw bs => bs.length

/-- The loop (inffast.c lines 120–285); `left` is `avail_out`. -/
def fastLoop (x : Tables) : Nat → Nat → Bits → Option (List Cmd × Left)
  | 0, _, _ => none
  | fuel + 1, left, b =>
    match fastCommand x b with
    | none => none
    | some .more => none
    | some .bad => some ([], .wrong)
    | some (.ok none b) => some ([], .ended b)
    | some (.ok (some c) b) =>
      if left < c.makes then none
      else if 6 ≤ b.next.length ∧ 258 ≤ left - c.makes then
        (fastLoop x fuel (left - c.makes) b).map fun r => (c :: r.1, r.2)
      else some ([c], .paused b)

/-- Bytes that were not needed are given back (inffast.c lines 288–291); `input` is what there was at
first. -/
def giveBack (input : List Byte) (b : Bits) : Bits :=
  ⟨b.hold % 2 ^ (b.bits % 8), b.bits % 8, input.drop (input.length - b.next.length - b.bits / 8)⟩

/-- `inflate_fast`. -/
def inflateFast (x : Tables) (left : Nat) (b : Bits) : Option (List Cmd × Left) :=
  (fastLoop x (b.bits + 8 * b.next.length + 1) left b).map fun r =>
    match r.2 with
    | .ended b' => (r.1, .ended (giveBack b.next b'))
    | .wrong => (r.1, .wrong)
    | .paused b' => (r.1, .paused (giveBack b.next b'))

/-- State `LEN` and those behind it again and again (inflate.c lines 950–1036): `inflate_fast` is called if
there is input and space enough.  The space is given for each time, as it depends on the calls. -/
def takeMixed (x : Tables) (space : Nat → Nat) : Nat → Bits → Option (List Cmd × Read Unit)
  | 0, _ => none
  | fuel + 1, b =>
    if 6 ≤ b.next.length ∧ 258 ≤ space fuel then
      match inflateFast x (space fuel) b with
      | none => none
      | some (cs, .ended b) => some (cs, .ok () b)
      | some (cs, .wrong) => some (cs, .bad)
      | some (cs, .paused b) => (takeMixed x space fuel b).map fun r => (cs ++ r.1, r.2)
    else
      match takeCommand x b with
      | .more => some ([], .more)
      | .bad => some ([], .bad)
      | .ok none b => some ([], .ok () b)
      | .ok (some c) b => (takeMixed x space fuel b).map fun r => (c :: r.1, r.2)

/-- `takeDynamic` with `inflate_fast`. -/
def takeDynamicFast (old space : Nat → Nat) (b : Bits) : Option (List Cmd × Read Unit) :=
  match readHeader old b with
  | .more => some ([], .more)
  | .bad => some ([], .bad)
  | .ok x b => takeMixed x space (b.bits + 8 * b.next.length + 1) b

/-- `takeBlocks` with `inflate_fast` (inflate.c lines 773–805 and what follows them). -/
def takeBlocksFast (old space : Nat → Nat → Nat) : Nat → Bits → Option (List Cmd × Read Unit)
  | 0, _ => some ([], .more)
  | fuel + 1, b =>
    match need 3 b with
    | none => some ([], .more)
    | some b =>
      let last := lowBits b 1
      let b := dropBits b 1
      let kind := lowBits b 2
      let b := dropBits b 2
      (if kind = 0 then some (takeStored b)
        else if kind = 1 then takeMixed fixedTables (space fuel) (b.bits + 8 * b.next.length + 1) b
        else if kind = 2 then takeDynamicFast (old fuel) (space fuel) b
        else some ([], .bad)).bind fun r =>
      match r.2 with
      | .more => some (r.1, .more)
      | .bad => some (r.1, .bad)
      | .ok _ b =>
        if last ≠ 0 then some (r.1, .ok () (byteBits b))
        else (takeBlocksFast old space fuel b).map fun r' => (r.1 ++ r'.1, r'.2)

/-- `inflate` on all of a raw stream, with `inflate_fast`. -/
def takeStreamFast (old space : Nat → Nat → Nat) (input : List Byte) :
    Option (List Cmd × Read Unit) :=
  takeBlocksFast old space (8 * input.length + 1) ⟨0, 0, input⟩

end Verif.Zlib
