import Verif.Zlib.LzSpec

/-!
Model of how `inflate` writes its output: the circular window that carries the last bytes from
one call to the next, the states `LIT`, `DISTEXT`, `MATCH`, `COPY` of `inflate`
(fex/zlib/inflate.c), and the copying in `inflate_fast` (fex/zlib/inffast.c).

`none` is an access outside an array (or a loop that would run 2^32 times).
Numbers are natural numbers; `unsigned` does not overflow as long as buffers are smaller than
2^32 - 2^16 bytes.  The memory for the window is there from the beginning (with any content),
and allocation does not fail.  The decoding of the commands is in `Inftrees.lean`.
-/

namespace Verif.Zlib

/-- fex/zlib/inflate.h, lines 92-96: `wsize` (0: not in use), `window`, `write`, `whave`. -/
structure Win where
  wsize : Nat
  window : List Byte
  write : Nat
  whave : Nat
  deriving DecidableEq, Repr

/-- `zmemcpy(window + at, bs, n)`. -/
def poke (window : List Byte) (i : Nat) (bs : List Byte) : Option (List Byte) :=
  if i + bs.length ≤ window.length then
    some (window.take i ++ bs ++ window.drop (i + bs.length))
  else none

/-- `updatewindow`, fex/zlib/inflate.c, lines 323-371.  `made` is what the call has written
(`out - strm->avail_out` bytes before `strm->next_out`). -/
def updatewindow (wbits : Nat) (w : Win) (made : List Byte) : Option Win :=
  -- lines 340-345
  let w : Win := if w.wsize = 0 then { w with wsize := 2 ^ wbits, write := 0, whave := 0 } else w
  -- line 348
  let copy := made.length
  if copy ≥ w.wsize then
    -- lines 349-353
    (poke w.window 0 (made.drop (made.length - w.wsize))).map fun window =>
      { w with window := window, write := 0, whave := w.wsize }
  else
    -- lines 355-358
    let dist := w.wsize - w.write
    let dist := if dist > copy then copy else dist
    (poke w.window w.write ((made.drop (made.length - copy)).take dist)).bind fun window =>
      let copy := copy - dist
      if copy ≠ 0 then
        -- lines 359-363
        (poke window 0 (made.drop (made.length - copy))).map fun window =>
          { w with window := window, write := copy, whave := w.wsize }
      else
        -- lines 364-368
        some { w with
          window := window
          write := if w.write + dist = w.wsize then 0 else w.write + dist
          whave := if w.whave < w.wsize then w.whave + dist else w.whave }

/-- `inflateSetDictionary`, fex/zlib/inflate.c, lines 1191-1206 (the copying). -/
def setDictionary (wbits : Nat) (w : Win) (dict : List Byte) : Option Win :=
  (updatewindow wbits w []).bind fun w =>
    if dict.length > w.wsize then
      (poke w.window 0 (dict.drop (dict.length - w.wsize))).map fun window =>
        { w with window := window, whave := w.wsize }
    else
      (poke w.window (w.wsize - dict.length) dict).map fun window =>
        { w with window := window, whave := dict.length }

/-- `*put++ = *from++`, `n` times, with `from` in the window. -/
def fromWindow (window : List Byte) : Nat → Nat → List Byte → Option (List Byte)
  | _, 0, made => some made
  | i, n + 1, made =>
    match window[i]? with
    | none => none
    | some b => fromWindow window (i + 1) n (made ++ [b])

/-- `*put++ = *from++`, `n` times, with `from` in the output of this call. -/
def fromOutput : Nat → Nat → List Byte → Option (List Byte)
  | _, 0, made => some made
  | i, n + 1, made =>
    match made[i]? with
    | none => none
    | some b => fromOutput (i + 1) n (made ++ [b])

/-- The state of `inflate` as far as writing goes (fex/zlib/inflate.h, lines 35-68):
`LEN`, `LIT`, `MATCH` with `length` and `offset`, `COPY` with the bytes of the stored block
that are still to be copied, `BAD`. -/
inductive Mode where
  | len
  | lit (b : Byte)
  | mtch (length offset : Nat)
  | stored (bs : List Byte)
  | bad
  deriving DecidableEq, Repr

/-- The next state, what the call has written, and the space that is left. -/
structure Put where
  mode : Mode
  made : List Byte
  left : Nat
  deriving DecidableEq, Repr

/-- State `MATCH` once, fex/zlib/inflate.c, lines 1047-1069, `left` being positive. -/
def matchOnce (w : Win) (length offset : Nat) (made : List Byte) (left : Nat) : Option Put :=
  let copy := made.length
  if offset > copy then
    -- lines 1049-1058
    let copy := offset - copy
    if copy > w.write then
      let copy := copy - w.write
      if copy > w.wsize then none else
      let src := w.wsize - copy
      let copy := if copy > length then length else copy
      let copy := if copy > left then left else copy
      if copy = 0 then none else
      (fromWindow w.window src copy made).map fun made =>
        ⟨if length - copy = 0 then .len else .mtch (length - copy) offset, made, left - copy⟩
    else
      let src := w.write - copy
      let copy := if copy > length then length else copy
      let copy := if copy > left then left else copy
      if copy = 0 then none else
      (fromWindow w.window src copy made).map fun made =>
        ⟨if length - copy = 0 then .len else .mtch (length - copy) offset, made, left - copy⟩
  else
    -- lines 1059-1062
    let src := made.length - offset
    let copy := length
    let copy := if copy > left then left else copy
    if copy = 0 then none else
    (fromOutput src copy made).map fun made =>
      ⟨if length - copy = 0 then .len else .mtch (length - copy) offset, made, left - copy⟩

/-- The states `LIT`, `MATCH` and `COPY` again and again until there is no space left or the
next command is needed: the loop `for (;;) switch (state->mode)` of fex/zlib/inflate.c,
lines 820-836 and 1046-1076.  `none` also if `fuel` is not enough. -/
def settle (w : Win) : Nat → Put → Option Put
  | 0, _ => none
  | fuel + 1, p =>
    match p.mode with
    | .len => some p
    | .bad => some p
    | .lit b =>
      -- lines 1071-1076
      if p.left = 0 then some p else some ⟨.len, p.made ++ [b], p.left - 1⟩
    | .stored bs =>
      -- lines 820-836
      if bs = [] then some { p with mode := .len }
      else
        let copy := if bs.length > p.left then p.left else bs.length
        if copy = 0 then some p
        else settle w fuel ⟨.stored (bs.drop copy), p.made ++ bs.take copy, p.left - copy⟩
    | .mtch length offset =>
      if p.left = 0 then some p
      else
        match matchOnce w length offset p.made p.left with
        | none => none
        | some p => settle w fuel p

/-- The copying of `inflate_fast`, fex/zlib/inffast.c, lines 186-259; the loops that copy three
bytes at a time are written with one.  The inner `none` is `BAD`. -/
def fastCopy (w : Win) (len dist : Nat) (made : List Byte) : Option (Option (List Byte)) :=
  let op := made.length
  if dist > op then
    let op := dist - op
    if op > w.whave then some none
    else if w.write = 0 then
      -- lines 195-204
      if op > w.wsize then none else
      if op < len then
        (fromWindow w.window (w.wsize - op) op made).bind fun made =>
          if dist > made.length then none
          else (fromOutput (made.length - dist) (len - op) made).map some
      else (fromWindow w.window (w.wsize - op) len made).map some
    else if w.write < op then
      -- lines 205-223
      if op > w.wsize + w.write then none else
      let src := w.wsize + w.write - op
      let op := op - w.write
      if op < len then
        (fromWindow w.window src op made).bind fun made =>
          let len := len - op
          if w.write < len then
            (fromWindow w.window 0 w.write made).bind fun made =>
              if dist > made.length then none
              else (fromOutput (made.length - dist) (len - w.write) made).map some
          else (fromWindow w.window 0 len made).map some
      else (fromWindow w.window src len made).map some
    else
      -- lines 224-233
      let src := w.write - op
      if op < len then
        (fromWindow w.window src op made).bind fun made =>
          if dist > made.length then none
          else (fromOutput (made.length - dist) (len - op) made).map some
      else (fromWindow w.window src len made).map some
  else
    -- lines 246-259
    if len < 3 then none
    else (fromOutput (made.length - dist) len made).map some

/-- A command as it is decoded in state `LEN` (lines 950-1045): through `inflate_fast` if there
is space for 258 bytes and (`fast`) input enough, else through `LIT` or `DISTEXT`.
A stored block comes through state `STORED` (line 819). -/
def begin (w : Win) (fast : Bool) (c : Cmd) (made : List Byte) (left : Nat) : Option Put :=
  match c with
  | .raw bs => some ⟨.stored bs, made, left⟩
  | .lit b =>
    if fast = true ∧ left ≥ 258 then
      -- fex/zlib/inffast.c, line 137
      some ⟨.len, made ++ [b], left - 1⟩
    else some ⟨.lit b, made, left⟩
  | .copy len dist =>
    if fast = true ∧ left ≥ 258 then
      if len > left then none else
      (fastCopy w len dist made).map fun r =>
        match r with
        | none => ⟨.bad, made, left⟩
        | some made => ⟨.len, made, left - len⟩
    else if dist > w.whave + made.length then some ⟨.bad, made, left⟩
    else some ⟨.mtch len dist, made, left⟩

/-- How often the loop can come back for a command. -/
def Mode.steps : Mode → Nat
  | .mtch length _ => length + 2
  | .stored bs => bs.length + 2
  | _ => 2

/-- One call of `inflate`: what was begun is finished as far as there is space, then command
after command is taken from the input.  The commands that were not taken stay in the input. -/
def call (w : Win) (p : Put) : List (Bool × Cmd) → Option (Put × List (Bool × Cmd))
  | [] => (settle w p.mode.steps p).map fun p => (p, [])
  | (fast, c) :: cs =>
    match settle w p.mode.steps p with
    | none => none
    | some p =>
      if p.mode = .len then
        match begin w fast c p.made p.left with
        | none => none
        | some p => call w p cs
      else some (p, (fast, c) :: cs)

/-- `inflate` as seen from outside: the window, the state, and the input not yet used. -/
structure Stream where
  win : Win
  mode : Mode
  rest : List (Bool × Cmd)
  /-- `strm->total_out` -/
  total : Nat
  deriving DecidableEq, Repr

/-- One call with `space` bytes of output buffer and further commands in the input;
at its end lines 1133-1144. -/
def inflateCall (wbits : Nat) (s : Stream) (space : Nat) (cmds : List (Bool × Cmd)) :
    Option (Stream × List Byte) :=
  match call s.win ⟨s.mode, [], space⟩ (s.rest ++ cmds) with
  | none => none
  | some (p, rest) =>
    if s.win.wsize ≠ 0 ∨ (p.mode ≠ .bad ∧ p.made ≠ []) then
      (updatewindow wbits s.win p.made).map fun w =>
        (⟨w, p.mode, rest, s.total + p.made.length⟩, p.made)
    else some (⟨s.win, p.mode, rest, s.total + p.made.length⟩, p.made)

/-- Many calls: the end, and the outputs of all the calls one after the other. -/
def inflateCalls (wbits : Nat) (s : Stream) :
    List (Nat × List (Bool × Cmd)) → Option (Stream × List Byte)
  | [] => some (s, [])
  | (space, cmds) :: more =>
    match inflateCall wbits s space cmds with
    | none => none
    | some (s, made) =>
      (inflateCalls wbits s more).map fun (s', out) => (s', made ++ out)

/-- A stream after `inflateInit2`: no window in use, whatever is in its memory. -/
def freshStream (memory : List Byte) : Stream :=
  ⟨⟨0, memory, 0, 0⟩, .len, [], 0⟩

end Verif.Zlib
