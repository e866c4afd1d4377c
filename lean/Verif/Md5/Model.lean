import Verif.Server.Handler

/-!
Model of `MD5`, common/md5.cpp and md5.hpp.

* `uint4` and `size_type` are 32 bits wide, `uint1` is a byte.
* What the members `buffer` and `digest` contain before they are written is a parameter.
* Reading behind the end of the input is an outcome of its own (`none`).
-/
set_option linter.unusedVariables false

namespace Verif.Md5
open Verif Verif.Server

abbrev Word := BitVec 32

/-- `F`, md5.cpp 62-64. -/
def F (x y z : Word) : Word := (x &&& y) ||| (~~~x &&& z)
/-- `G`, md5.cpp 66-68. -/
def G (x y z : Word) : Word := (x &&& z) ||| (y &&& ~~~z)
/-- `H`, md5.cpp 70-72. -/
def H (x y z : Word) : Word := x ^^^ y ^^^ z
/-- `I`, md5.cpp 74-76. -/
def I (x y z : Word) : Word := y ^^^ (x ||| ~~~z)

/-- `rotate_left`, md5.cpp 79-81. -/
def rotateLeft (x : Word) (n : Nat) : Word := (x <<< n) ||| (x >>> (32 - n))

/-- The four words `state[0]` to `state[3]`, or the variables `a` to `d`. -/
structure Regs where
  a : Word
  b : Word
  c : Word
  d : Word
deriving DecidableEq

/-- The new value of the first argument of `FF`, `GG`, `HH` and `II`, md5.cpp 85-99. -/
def mixed (f : Word → Word → Word → Word) (a b c d x : Word) (s : Nat) (ac : Word) : Word :=
  rotateLeft (a + f b c d + x + ac) s + b

/-! The calls with the arguments `(a, b, c, d)`, `(d, a, b, c)`, `(c, d, a, b)` and `(b, c, d, a)`. -/
def callA (f : Word → Word → Word → Word) (x : Nat → Word) (k s : Nat) (ac : Word) (r : Regs) : Regs :=
  { r with a := mixed f r.a r.b r.c r.d (x k) s ac }
def callD (f : Word → Word → Word → Word) (x : Nat → Word) (k s : Nat) (ac : Word) (r : Regs) : Regs :=
  { r with d := mixed f r.d r.a r.b r.c (x k) s ac }
def callC (f : Word → Word → Word → Word) (x : Nat → Word) (k s : Nat) (ac : Word) (r : Regs) : Regs :=
  { r with c := mixed f r.c r.d r.a r.b (x k) s ac }
def callB (f : Word → Word → Word → Word) (x : Nat → Word) (k s : Nat) (ac : Word) (r : Regs) : Regs :=
  { r with b := mixed f r.b r.c r.d r.a (x k) s ac }

/-! The shifts, md5.cpp 42-57. -/
abbrev S11 : Nat := 7
abbrev S12 : Nat := 12
abbrev S13 : Nat := 17
abbrev S14 : Nat := 22
abbrev S21 : Nat := 5
abbrev S22 : Nat := 9
abbrev S23 : Nat := 14
abbrev S24 : Nat := 20
abbrev S31 : Nat := 4
abbrev S32 : Nat := 11
abbrev S33 : Nat := 16
abbrev S34 : Nat := 23
abbrev S41 : Nat := 6
abbrev S42 : Nat := 10
abbrev S43 : Nat := 15
abbrev S44 : Nat := 21

/-- Round 1, md5.cpp 168-183. -/
def round1 (x : Nat → Word) (r : Regs) : Regs :=
  let r := callA F x 0 S11 0xd76aa478 r
  let r := callD F x 1 S12 0xe8c7b756 r
  let r := callC F x 2 S13 0x242070db r
  let r := callB F x 3 S14 0xc1bdceee r
  let r := callA F x 4 S11 0xf57c0faf r
  let r := callD F x 5 S12 0x4787c62a r
  let r := callC F x 6 S13 0xa8304613 r
  let r := callB F x 7 S14 0xfd469501 r
  let r := callA F x 8 S11 0x698098d8 r
  let r := callD F x 9 S12 0x8b44f7af r
  let r := callC F x 10 S13 0xffff5bb1 r
  let r := callB F x 11 S14 0x895cd7be r
  let r := callA F x 12 S11 0x6b901122 r
  let r := callD F x 13 S12 0xfd987193 r
  let r := callC F x 14 S13 0xa679438e r
  let r := callB F x 15 S14 0x49b40821 r
  r

/-- Round 2, md5.cpp 186-201. -/
def round2 (x : Nat → Word) (r : Regs) : Regs :=
  let r := callA G x 1 S21 0xf61e2562 r
  let r := callD G x 6 S22 0xc040b340 r
  let r := callC G x 11 S23 0x265e5a51 r
  let r := callB G x 0 S24 0xe9b6c7aa r
  let r := callA G x 5 S21 0xd62f105d r
  let r := callD G x 10 S22 0x2441453 r
  let r := callC G x 15 S23 0xd8a1e681 r
  let r := callB G x 4 S24 0xe7d3fbc8 r
  let r := callA G x 9 S21 0x21e1cde6 r
  let r := callD G x 14 S22 0xc33707d6 r
  let r := callC G x 3 S23 0xf4d50d87 r
  let r := callB G x 8 S24 0x455a14ed r
  let r := callA G x 13 S21 0xa9e3e905 r
  let r := callD G x 2 S22 0xfcefa3f8 r
  let r := callC G x 7 S23 0x676f02d9 r
  let r := callB G x 12 S24 0x8d2a4c8a r
  r

/-- Round 3, md5.cpp 204-219. -/
def round3 (x : Nat → Word) (r : Regs) : Regs :=
  let r := callA H x 5 S31 0xfffa3942 r
  let r := callD H x 8 S32 0x8771f681 r
  let r := callC H x 11 S33 0x6d9d6122 r
  let r := callB H x 14 S34 0xfde5380c r
  let r := callA H x 1 S31 0xa4beea44 r
  let r := callD H x 4 S32 0x4bdecfa9 r
  let r := callC H x 7 S33 0xf6bb4b60 r
  let r := callB H x 10 S34 0xbebfbc70 r
  let r := callA H x 13 S31 0x289b7ec6 r
  let r := callD H x 0 S32 0xeaa127fa r
  let r := callC H x 3 S33 0xd4ef3085 r
  let r := callB H x 6 S34 0x4881d05 r
  let r := callA H x 9 S31 0xd9d4d039 r
  let r := callD H x 12 S32 0xe6db99e5 r
  let r := callC H x 15 S33 0x1fa27cf8 r
  let r := callB H x 2 S34 0xc4ac5665 r
  r

/-- Round 4, md5.cpp 222-237. -/
def round4 (x : Nat → Word) (r : Regs) : Regs :=
  let r := callA I x 0 S41 0xf4292244 r
  let r := callD I x 7 S42 0x432aff97 r
  let r := callC I x 14 S43 0xab9423a7 r
  let r := callB I x 5 S44 0xfc93a039 r
  let r := callA I x 12 S41 0x655b59c3 r
  let r := callD I x 3 S42 0x8f0ccc92 r
  let r := callC I x 10 S43 0xffeff47d r
  let r := callB I x 1 S44 0x85845dd1 r
  let r := callA I x 8 S41 0x6fa87e4f r
  let r := callD I x 15 S42 0xfe2ce6e0 r
  let r := callC I x 6 S43 0xa3014314 r
  let r := callB I x 13 S44 0x4e0811a1 r
  let r := callA I x 4 S41 0xf7537e82 r
  let r := callD I x 11 S42 0xbd3af235 r
  let r := callC I x 2 S43 0x2ad7d2bb r
  let r := callB I x 9 S44 0xeb86d391 r
  r

/-- The word of four bytes, `decode`, md5.cpp 138-143. -/
def decodeWord (block : Str) (i : Nat) : Word :=
  BitVec.ofNat 32 (block.getD (4 * i) 0).toNat ||| (BitVec.ofNat 32 (block.getD (4 * i + 1) 0).toNat <<< 8) |||
    (BitVec.ofNat 32 (block.getD (4 * i + 2) 0).toNat <<< 16) ||| (BitVec.ofNat 32 (block.getD (4 * i + 3) 0).toNat <<< 24)

/-- The bytes of a word, `encode`, md5.cpp 149-157. -/
def encodeWord (w : Word) : Str :=
  [UInt8.ofNat (w &&& 0xff).toNat, UInt8.ofNat ((w >>> 8) &&& 0xff).toNat,
   UInt8.ofNat ((w >>> 16) &&& 0xff).toNat, UInt8.ofNat ((w >>> 24) &&& 0xff).toNat]

/-- `transform`, md5.cpp 162-246. -/
def transform (r : Regs) (block : Str) : Regs :=
  let x := decodeWord block
  let q := round4 x (round3 x (round2 x (round1 x r)))
  ⟨r.a + q.a, r.b + q.b, r.c + q.c, r.d + q.d⟩

/-- The members, md5.hpp. -/
structure Md5 where
  finalized : Bool
  buffer : Str
  lo : Word
  hi : Word
  state : Regs
  digest : Str
deriving DecidableEq

/-- `init`, md5.cpp 121-133. -/
def init (buffer digest : Str) : Md5 :=
  { finalized := false, buffer := buffer, lo := 0, hi := 0, state := ⟨0x67452301, 0xefcdab89, 0x98badcfe, 0x10325476⟩, digest := digest }

/-- `memcpy(&buffer[index], p, n)` for the bytes `p` that are copied. -/
def copyTo (buffer : Str) (index : Nat) (p : Str) : Str := buffer.take index ++ p ++ buffer.drop (index + p.length)

/-- The loop of `update`, md5.cpp 275-276; `i + blocksize` is a number of 32 bits.  The number of steps
before the input is left is at most its length. -/
def chunks (input : Str) (length : Word) : Nat → Word → Regs → Option (Regs × Word)
  | 0, _, _ => none
  | n + 1, i, r =>
    if i + 64 ≤ length then
      if i.toNat + 64 ≤ input.length then chunks input length n (i + 64) (transform r ((input.drop i.toNat).take 64))
      else none
    else some (r, i)

/-- The count of bits, md5.cpp 257-260. -/
def counted (m : Md5) (length : Word) : Md5 :=
  let lo := m.lo + (length <<< 3)
  let hi := if lo < length <<< 3 then m.hi + 1 else m.hi
  { m with lo := lo, hi := hi + (length >>> 29) }

/-- `update`, md5.cpp 252-284; `none`: reads behind the input. -/
def update (m : Md5) (input : Str) (length : Word) : Option Md5 :=
  let index := m.lo.toNat / 8 % 64
  let m := counted m length
  let firstpart := 64 - index
  if length.toNat ≥ firstpart then
    if firstpart ≤ input.length then
      let buffer := copyTo m.buffer index (input.take firstpart)
      match chunks input length (input.length + 1) (BitVec.ofNat 32 firstpart) (transform m.state buffer) with
      | none => none
      | some (r, i) =>
        let n := (length - i).toNat
        if i.toNat + n ≤ input.length then
          some { m with state := r, buffer := copyTo buffer 0 ((input.drop i.toNat).take n) }
        else none
    else none
  else if length.toNat ≤ input.length then
    some { m with buffer := copyTo m.buffer index (input.take length.toNat) }
  else none

/-- `finalize`, md5.cpp 299-331. -/
def finalize (m : Md5) : Option Md5 :=
  if m.finalized then some m else
    let bits := encodeWord m.lo ++ encodeWord m.hi
    let index := m.lo.toNat / 8 % 64
    let padLen := if index < 56 then 56 - index else 120 - index
    match update m (0x80 :: List.replicate 63 0) (BitVec.ofNat 32 padLen) with
    | none => none
    | some m => match update m bits 8 with
      | none => none
      | some m => some { m with
          digest := encodeWord m.state.a ++ encodeWord m.state.b ++ encodeWord m.state.c ++ encodeWord m.state.d
          buffer := List.replicate 64 0, lo := 0, hi := 0, finalized := true }

/-- The digit that `%x` prints. -/
def hexDigit (n : Nat) : Byte := if n < 10 then UInt8.ofNat (48 + n) else UInt8.ofNat (87 + n)

/-- `hexdigest`, md5.cpp 336-347. -/
def hexdigest (m : Md5) : Str :=
  if m.finalized then m.digest.flatMap (fun b => [hexDigit (b.toNat / 16), hexDigit (b.toNat % 16)]) else []

/-- `MD5(text)`, md5.cpp 112-117: the length is converted to 32 bits. -/
def ofText (buffer digest : Str) (text : Str) : Option Md5 :=
  match update (init buffer digest) text (BitVec.ofNat 32 text.length) with
  | none => none
  | some m => finalize m

/-- `md5`, md5.cpp 358-363. -/
def md5 (buffer digest : Str) (text : Str) : Option Str := (ofText buffer digest text).map hexdigest

end Verif.Md5
