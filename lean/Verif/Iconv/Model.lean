import Verif.Iconv.Tables

/-!
Model of the character set conversions in `tiniconv/` and of `common/encoding_converter.cpp`.

* A codec is a pair of functions `xxx_mb2wc` and `xxx_wc2mb`; its state is a number (`istate`, `ostate`).
* The bytes ahead are a list: its length is `n`.  What `xxx_wc2mb` writes is a list of bytes.
* `RET_TOOSMALL` for the input is `RET_TOOFEW(0)`, as in the code (tiniconv_int.h 24-27).
* `abort()` is a result of its own; so is reading past the bytes ahead.
-/
namespace Verif.Iconv
open Verif

/-- What `xxx_mb2wc` returns: `wc` and the number of bytes; `RET_ILSEQ`; `RET_TOOFEW(n)`. -/
inductive Dec
  | char (wc n : Nat)
  | ilseq
  | few (n : Nat)
  | abort
  deriving DecidableEq

/-- What `xxx_wc2mb` returns: the bytes written; `RET_ILUNI`; `RET_TOOSMALL`. -/
inductive Enc
  | bytes (b : Str)
  | iluni
  | tooSmall
  | abort
  deriving DecidableEq

/-- A row of `tiniconv_charset_map`, tiniconv_desc.c 76-118 (`flushwc` and `reset` are never used by `tiniconv_convert`).
`wctomb` takes the state, the character and `n`. -/
structure Codec where
  mbtowc : Nat → Str → Dec × Nat
  wctomb : Nat → Nat → Nat → Enc × Nat

/-! ## One byte -/

/-- The codec of a character set of one byte. -/
def OneByte.codec (t : OneByte) : Codec where
  mbtowc st s := match s with
    | [] => (.abort, st)
    | c :: _ => match t.mbtowc c.toNat with
      | none => (.ilseq, st)
      | some wc => (.char wc 1, st)
  wctomb st wc _ := match t.wctomb wc with
    | none => (.iluni, st)
    | some b => (.bytes [UInt8.ofNat b], st)

/-! ## UTF-8 -/

/-- `(s[i] ^ 0x80) < 0x40`. -/
def trail (b : Byte) : Bool := decide ((b.toNat ^^^ 0x80) < 0x40)

/-- `(ucs4_t) (s[i] ^ 0x80) << k`. -/
def part (b : Byte) (k : Nat) : Nat := (b.toNat ^^^ 0x80) <<< k

/-- `utf8_mbtowc`, utf8.h 27-97. -/
def utf8Mbtowc : Str → Dec
  | [] => .abort
  | b :: rest =>
    let c := b.toNat
    if c < 0x80 then .char c 1
    else if c < 0xc2 then .ilseq
    else if c < 0xe0 then
      match rest with
      | b1 :: _ =>
        if trail b1 then .char (((c &&& 0x1f) <<< 6) ||| part b1 0) 2 else .ilseq
      | _ => .few 0
    else if c < 0xf0 then
      match rest with
      | b1 :: b2 :: _ =>
        if trail b1 && trail b2 && (decide (c ≥ 0xe1) || decide (b1.toNat ≥ 0xa0)) then
          .char (((c &&& 0x0f) <<< 12) ||| part b1 6 ||| part b2 0) 3
        else .ilseq
      | _ => .few 0
    else if c < 0xf8 then
      match rest with
      | b1 :: b2 :: b3 :: _ =>
        if trail b1 && trail b2 && trail b3 && (decide (c ≥ 0xf1) || decide (b1.toNat ≥ 0x90)) then
          .char (((c &&& 0x07) <<< 18) ||| part b1 12 ||| part b2 6 ||| part b3 0) 4
        else .ilseq
      | _ => .few 0
    else if c < 0xfc then
      match rest with
      | b1 :: b2 :: b3 :: b4 :: _ =>
        if trail b1 && trail b2 && trail b3 && trail b4 && (decide (c ≥ 0xf9) || decide (b1.toNat ≥ 0x88)) then
          .char (((c &&& 0x03) <<< 24) ||| part b1 18 ||| part b2 12 ||| part b3 6 ||| part b4 0) 5
        else .ilseq
      | _ => .few 0
    else if c < 0xfe then
      match rest with
      | b1 :: b2 :: b3 :: b4 :: b5 :: _ =>
        if trail b1 && trail b2 && trail b3 && trail b4 && trail b5 && (decide (c ≥ 0xfd) || decide (b1.toNat ≥ 0x84)) then
          .char (((c &&& 0x01) <<< 30) ||| part b1 24 ||| part b2 18 ||| part b3 12 ||| part b4 6 ||| part b5 0) 6
        else .ilseq
      | _ => .few 0
    else .ilseq

/-- The count in `utf8_wctomb`, utf8.h 102-118. -/
def utf8Count (wc : Nat) : Option Nat :=
  if wc < 0x80 then some 1
  else if wc < 0x800 then some 2
  else if wc < 0x10000 then some 3
  else if wc < 0x200000 then some 4
  else if wc < 0x4000000 then some 5
  else if wc ≤ 0x7fffffff then some 6
  else none

/-- One case of the switch, utf8.h 120-124: the byte `0x80 | (wc & 0x3f)`. -/
def low (wc : Nat) : Byte := UInt8.ofNat (0x80 ||| (wc &&& 0x3f))

/-- The switch with falling through, utf8.h 119-126. -/
def utf8Bytes : Nat → Nat → Str
  | 6, wc => utf8Bytes 5 ((wc >>> 6) ||| 0x4000000) ++ [low wc]
  | 5, wc => utf8Bytes 4 ((wc >>> 6) ||| 0x200000) ++ [low wc]
  | 4, wc => utf8Bytes 3 ((wc >>> 6) ||| 0x10000) ++ [low wc]
  | 3, wc => utf8Bytes 2 ((wc >>> 6) ||| 0x800) ++ [low wc]
  | 2, wc => utf8Bytes 1 ((wc >>> 6) ||| 0xc0) ++ [low wc]
  | 1, wc => [UInt8.ofNat wc]
  | _, _ => []

/-- `utf8_wctomb`, utf8.h 99-128. -/
def utf8Wctomb (wc n : Nat) : Enc :=
  match utf8Count wc with
  | none => .iluni
  | some count => if n < count then .tooSmall else .bytes (utf8Bytes count wc)

/-- UTF-8. -/
def utf8 : Codec where
  mbtowc st s := (utf8Mbtowc s, st)
  wctomb st wc n := (utf8Wctomb wc n, st)

/-! ## UCS-2 -/

/-- The loop of `ucs2_mbtowc`, ucs2.h 33-48. -/
def ucs2Loop (orig : Nat) : Nat → Nat → Str → Dec × Nat
  | state, count, b0 :: b1 :: rest =>
    let wc := if state ≠ 0 then b0.toNat + (b1.toNat <<< 8) else (b0.toNat <<< 8) + b1.toNat
    if wc = 0xfeff then ucs2Loop orig state (count + 2) rest
    else if wc = 0xfffe then ucs2Loop orig (state ^^^ 1) (count + 2) rest
    else if wc ≥ 0xd800 ∧ wc < 0xe000 then (.ilseq, orig)
    else (.char wc (count + 2), state)
  | state, count, _ => (.few count, state)

/-- `ucs2_wctomb`, ucs2.h 55-67. -/
def ucs2Wctomb (wc n : Nat) : Enc :=
  if wc < 0x10000 ∧ wc ≠ 0xfffe ∧ ¬ (wc ≥ 0xd800 ∧ wc < 0xe000) then
    if n ≥ 2 then .bytes [UInt8.ofNat (wc >>> 8), UInt8.ofNat wc] else .tooSmall
  else .iluni

/-- UCS-2; the state is 0 if big-endian, 1 if little-endian. -/
def ucs2 : Codec where
  mbtowc st s := ucs2Loop st st 0 s
  wctomb st wc n := (ucs2Wctomb wc n, st)

/-! ## UTF-7 -/

/-- `direct_tab`, utf7.h 31-34. -/
def directTab : List Nat := [0x00, 0x26, 0x00, 0x00, 0x81, 0xf3, 0xff, 0x87, 0xfe, 0xff, 0xff, 0x07, 0xfe, 0xff, 0xff, 0x07]
/-- `xdirect_tab`, utf7.h 41-44. -/
def xdirectTab : List Nat := [0x00, 0x26, 0x00, 0x00, 0xff, 0xf7, 0xff, 0xff, 0xff, 0xff, 0xff, 0xef, 0xff, 0xff, 0xff, 0x3f]
/-- `xbase64_tab`, utf7.h 50-53. -/
def xbase64Tab : List Nat := [0x00, 0x00, 0x00, 0x00, 0x00, 0xa8, 0xff, 0x03, 0xfe, 0xff, 0xff, 0x07, 0xfe, 0xff, 0xff, 0x07]

/-- The macros `isdirect`, `isxdirect`, `isxbase64`, utf7.h 35, 45, 54. -/
def inTab (t : List Nat) (ch : Nat) : Bool := decide (ch < 128) && decide (((t.getD (ch >>> 3) 0 >>> (ch &&& 7)) &&& 1) ≠ 0)

/-- The value of a base64 character, utf7.h 117-126. -/
def base64Value (b : Byte) : Option Nat :=
  let c := b.toNat
  if c ≥ 65 ∧ c ≤ 90 then some (c - 65)
  else if c ≥ 97 ∧ c ≤ 122 then some (c - 97 + 26)
  else if c ≥ 48 ∧ c ≤ 57 then some (c - 48 + 52)
  else if c = 43 then some 62
  else if c = 47 then some 63
  else none

/-- `base64state & -4`. -/
def dataOf (st : Nat) : Nat := st &&& 0xfffffffc

/-- How the loop of the base64 part ends: at a character that is not base64, with a whole character, or at the end
of the bytes ahead. -/
inductive Base
  | stop (st count : Nat)
  | done (wc kmax st count : Nat)
  | starve (count : Nat)
  | abort

/-- The switch for one value, utf7.h 141-153: the new `base64state`, `wc` and `k`. -/
def baseStep (st wc k i : Nat) : Nat × Nat × Nat :=
  if st &&& 3 = 1 then (i <<< 2, wc, k)
  else if st &&& 3 = 0 then (((i &&& 15) <<< 4) ||| 2, ((wc <<< 8) ||| dataOf st) ||| (i >>> 4), k + 1)
  else if st &&& 3 = 2 then (((i &&& 3) <<< 6) ||| 3, ((wc <<< 8) ||| dataOf st) ||| (i >>> 2), k + 1)
  else (1, ((wc <<< 8) ||| dataOf st) ||| i, k + 1)

/-- The loop `for (;;)`, utf7.h 114-174. -/
def baseLoop : Str → (st wc k kmax count : Nat) → Base
  | [], _, _, _, _, _ => .abort
  | c :: rest, st, wc, k, kmax, count =>
    match base64Value c with
    | none => .stop st count
    | some i =>
      let r := baseStep st wc k i
      if r.2.2 = kmax then
        if kmax = 2 ∧ r.2.1 ≥ 0xd800 ∧ r.2.1 < 0xdc00 then
          if rest = [] then .starve (count + 1) else baseLoop rest r.1 r.2.1 r.2.2 4 (count + 1)
        else .done r.2.1 kmax r.1 (count + 1)
      else if rest = [] then .starve (count + 1) else baseLoop rest r.1 r.2.1 r.2.2 kmax (count + 1)

/-- `utf7_mbtowc` from one of the labels `inactive` and `active` on, utf7.h 78-192.  `orig` is the state before the call,
`start` the first of the bytes ahead. -/
def utf7Go (orig : Nat) (start : Byte) : Nat → Nat → Nat → Str → Dec × Nat
  | 0, _, _, _ => (.abort, orig)
  | f + 1, state, count, rest =>
    if state &&& 3 ≠ 0 then
      match baseLoop rest state 0 0 2 0 with
      | .abort => (.abort, orig)
      | .stop st n =>
        if dataOf st ≠ 0 then (.ilseq, orig)
        else if n ≠ 0 then (.ilseq, orig)
        else match rest with
          | c :: rest' => if c = 45 then utf7Go orig start f 0 (count + 1) rest' else utf7Go orig start f 0 count rest
          | [] => (.abort, orig)
      | .starve _ => if start = 43 then (.few 0, orig) else (.few count, state)
      | .done wc kmax st n =>
        if st &&& 3 = 0 then (.abort, orig)
        else if kmax = 4 then
          let wc1 := wc >>> 16
          let wc2 := wc &&& 0xffff
          if ¬ (wc1 ≥ 0xd800 ∧ wc1 < 0xdc00) then (.abort, orig)
          else if ¬ (wc2 ≥ 0xdc00 ∧ wc2 < 0xe000) then (.ilseq, orig)
          else (.char (0x10000 + ((wc1 - 0xd800) <<< 10) + (wc2 - 0xdc00)) (count + n), st)
        else (.char wc (count + n), st)
    else
      match rest with
      | [] => (.few count, state)
      | c :: rest' =>
        if inTab xdirectTab c.toNat then (.char c.toNat (count + 1), state)
        else if c = 43 then
          match rest' with
          | [] => (.few count, state)
          | d :: _ => if d = 45 then (.char 43 (count + 2), state) else utf7Go orig start f 1 (count + 1) rest'
        else (.ilseq, orig)

/-- `utf7_mbtowc`, utf7.h 68-192. -/
def utf7Mbtowc (st : Nat) (s : Str) : Dec × Nat :=
  match s with
  | [] => (.abort, st)
  | b :: _ => utf7Go st b (2 * s.length + 1) st 0 s

/-- A base64 character, utf7.h 255-266, 307-318, 341-352; `none` is `abort()`. -/
def base64Char (i : Nat) : Option Byte :=
  if i < 26 then some (UInt8.ofNat (i + 65))
  else if i < 52 then some (UInt8.ofNat (i - 26 + 97))
  else if i < 62 then some (UInt8.ofNat (i - 52 + 48))
  else if i = 62 then some 43
  else if i = 63 then some 47
  else none

/-- The loop writing base64 characters, utf7.h 290-322: what is written and the new state. -/
def baseWrite (wc : Nat) : Nat → Nat → Nat → Option (Str × Nat)
  | 0, _, _ => none
  | f + 1, state, k =>
    let r : Nat × Nat × Nat :=
      if state &&& 3 = 0 then (dataOf state >>> 2, 1, k)
      else
        let i := (wc >>> (8 * (k - 1))) &&& 0xff
        if state &&& 3 = 1 then (i >>> 2, ((i &&& 3) <<< 4) ||| 2, k - 1)
        else if state &&& 3 = 2 then (dataOf state ||| (i >>> 4), ((i &&& 15) <<< 2) ||| 3, k - 1)
        else (dataOf state ||| (i >>> 6), (i &&& 63) <<< 2, k - 1)
    match base64Char r.1 with
    | none => none
    | some b =>
      if r.2.1 &&& 3 ≠ 0 ∧ r.2.2 = 0 then some ([b], r.2.1)
      else match baseWrite wc f r.2.1 r.2.2 with
        | none => none
        | some (bs, st) => some (b :: bs, st)

/-- Leaving base64, utf7.h 252-268, 338-354: the pending bits. -/
def basePending (state : Nat) : Option Str :=
  if state &&& 3 ≥ 2 then (base64Char (dataOf state)).map (fun b => [b]) else some []

/-- `utf7_wctomb` from the label `active` on, utf7.h 244-326; `pre` has been written already. -/
def utf7Active (orig : Nat) (pre : Str) (state wc n : Nat) : Enc × Nat :=
  if inTab directTab wc then
    let count := pre.length + (if state &&& 3 ≥ 2 then 1 else 0) + (if inTab xbase64Tab wc then 1 else 0) + 1
    if n < count then (.tooSmall, orig)
    else match basePending state with
      | none => (.abort, orig)
      | some p => (.bytes (pre ++ p ++ (if inTab xbase64Tab wc then [45] else []) ++ [UInt8.ofNat wc]), 0)
  else if wc < 0x10000 then
    if n < pre.length + (if state &&& 3 ≥ 2 then 3 else 2) then (.tooSmall, orig)
    else match baseWrite wc 8 state 2 with
      | none => (.abort, orig)
      | some (bs, st) => (.bytes (pre ++ bs), st)
  else if wc < 0x110000 then
    let wc1 := 0xd800 + ((wc - 0x10000) >>> 10)
    let wc2 := 0xdc00 + ((wc - 0x10000) &&& 0x3ff)
    if n < pre.length + (if state &&& 3 ≥ 3 then 6 else 5) then (.tooSmall, orig)
    else match baseWrite ((wc1 <<< 16) ||| wc2) 8 state 4 with
      | none => (.abort, orig)
      | some (bs, st) => (.bytes (pre ++ bs), st)
  else (.iluni, orig)

/-- `utf7_wctomb`, utf7.h 214-327. -/
def utf7Wctomb (state wc n : Nat) : Enc × Nat :=
  if state &&& 3 ≠ 0 then utf7Active state [] state wc n
  else if inTab directTab wc then (.bytes [UInt8.ofNat wc], state)
  else if wc = 43 then (if n < 2 then (.tooSmall, state) else (.bytes [43, 45], state))
  else utf7Active state [43] 1 wc n

/-- `utf7_reset`, utf7.h 329-360 (with enough room). -/
def utf7Reset (state : Nat) : Option Str :=
  if state &&& 3 ≠ 0 then (basePending state).map (fun p => p ++ [45]) else some []

/-- UTF-7. -/
def utf7 : Codec where
  mbtowc := utf7Mbtowc
  wctomb := utf7Wctomb

/-! ## The conversion -/

/-- What `tiniconv_convert` returns. -/
inductive Code
  | ok | inTooSmall | outTooSmall | inIlseq | outIlseq
  | abort
  deriving DecidableEq

/-- The result of `tiniconv_convert`: the code, the number of bytes consumed, what has been written and the states. -/
structure Result where
  code : Code
  consumed : Nat
  out : Str
  istate : Nat
  ostate : Nat
  deriving DecidableEq

/-- The options, tiniconv.h 126-129 and tiniconv_init, tiniconv.c 39-41: flags and the character written instead of
characters that cannot be converted. -/
structure Options where
  ignoreIn : Bool
  ignoreOut : Bool
  char : Byte

/-- Options from the parameter of `tiniconv_init`. -/
def options (o : Nat) : Options :=
  { ignoreIn := decide (o &&& 1 ≠ 0)
    ignoreOut := decide (o &&& 2 ≠ 0)
    char := if (o >>> 8) &&& 0xff ≠ 0 then UInt8.ofNat ((o >>> 8) &&& 0xff) else 63 }

/-- The loop of `tiniconv_convert`, tiniconv.c 59-125.  The fuel is the number of bytes ahead. -/
def convertLoop (i o : Codec) (op : Options) (size : Nat) : Nat → Str → Nat → Str → Nat → Nat → Result
  | 0, _, consumed, out, is, os => ⟨.ok, consumed, out, is, os⟩
  | f + 1, rest, consumed, out, is, os =>
    if rest = [] ∨ ¬ out.length < size then ⟨.ok, consumed, out, is, os⟩
    else match i.mbtowc is rest with
      | (.abort, is1) => ⟨.abort, consumed, out, is1, os⟩
      | (.ilseq, is1) =>
        if op.ignoreIn then convertLoop i o op size f (rest.drop 1) (consumed + 1) out 0 os
        else ⟨.inIlseq, consumed, out, is1, os⟩
      | (.few 0, is1) => ⟨.inTooSmall, consumed, out, is1, os⟩
      | (.few (n + 1), is1) => convertLoop i o op size f (rest.drop (n + 1)) (consumed + (n + 1)) out is1 os
      | (.char wc n, is1) =>
        match o.wctomb os wc (size - out.length) with
        | (.abort, os1) => ⟨.abort, consumed, out, is, os1⟩
        | (.iluni, os1) =>
          if op.ignoreOut then convertLoop i o op size f (rest.drop n) (consumed + n) (out ++ [op.char]) is1 0
          else ⟨.outIlseq, consumed, out, is, os1⟩
        | (.tooSmall, os1) => ⟨.outTooSmall, consumed, out, is, os1⟩
        | (.bytes b, os1) => convertLoop i o op size f (rest.drop n) (consumed + n) (out ++ b) is1 os1

/-- `tiniconv_convert`, tiniconv.c 46-133, with the states of the context. -/
def convertFrom (i o : Codec) (op : Options) (is os : Nat) (input : Str) (size : Nat) : Result :=
  convertLoop i o op size input.length input 0 [] is os

/-- `tiniconv_init` and `tiniconv_convert`, tiniconv.c 25-133: the states are zero at first. -/
def convert (i o : Codec) (op : Options) (input : Str) (size : Nat) : Result := convertFrom i o op 0 0 input size

end Verif.Iconv
