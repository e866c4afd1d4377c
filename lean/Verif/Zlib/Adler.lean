import Verif.Basic

/-!
The Adler-32 checksum of zlib: `fex/zlib/adler32.c`.

An `unsigned long` is a number below `2^w`; sums are computed modulo `2^w`.  A buffer and
its length are a list of bytes.
-/

namespace Verif.Zlib

/-- `BASE` (adler32.c line 11). -/
def base : Nat := 65521

/-- `NMAX` (adler32.c line 12). -/
def nmax : Nat := 5552

/-- One of the conditional subtractions (adler32.c lines 25–49). -/
def subIf (a k : Nat) : Nat := if a ≥ base <<< k then a - base <<< k else a

/-- `MOD` (adler32.c lines 23–42 with `NO_DIVIDE`, line 52 without). -/
def modBase (noDivide : Bool) (a : Nat) : Nat :=
  if noDivide then
    [16, 15, 14, 13, 12, 11, 10, 9, 8, 7, 6, 5, 4, 3, 2, 1, 0].foldl subIf a
  else a % base

/-- `MOD4` (adler32.c lines 43–50 with `NO_DIVIDE`, line 53 without). -/
def mod4Base (noDivide : Bool) (a : Nat) : Nat :=
  if noDivide then [4, 3, 2, 1, 0].foldl subIf a else a % base

/-- A sum of `unsigned long` values. -/
def addW (w a b : Nat) : Nat := (a + b) % 2 ^ w

/-- `DO1` (adler32.c line 15); the state is `adler` and `sum2`. -/
def adlerByte (w : Nat) (st : Nat × Nat) (b : Byte) : Nat × Nat :=
  let a := addW w st.1 b.toNat
  (a, addW w st.2 a)

/-- `DO16` (adler32.c line 19) and `buf += 16`. -/
def do16 (w : Nat) (p : (Nat × Nat) × Str) : (Nat × Nat) × Str :=
  ((p.2.take 16).foldl (adlerByte w) p.1, p.2.drop 16)

/-- `n` times `DO16` (adler32.c lines 97–101). -/
def do16s (w : Nat) : Nat → (Nat × Nat) × Str → (Nat × Nat) × Str
  | 0, p => p
  | n + 1, p => do16s w n (do16 w p)

/-- The loop over the large blocks (adler32.c lines 95–104); `fuel` is the length. -/
def largeBlocks (noDivide : Bool) (w : Nat) : Nat → (Nat × Nat) × Str → (Nat × Nat) × Str
  | 0, p => p
  | fuel + 1, p =>
    if p.2.length ≥ nmax then
      let q := do16s w (nmax / 16) p
      largeBlocks noDivide w fuel ((modBase noDivide q.1.1, modBase noDivide q.1.2), q.2)
    else p

/-- The loop over the blocks of 16 bytes (adler32.c lines 108–112). -/
def smallBlocks (w : Nat) : Nat → (Nat × Nat) × Str → (Nat × Nat) × Str
  | 0, p => p
  | fuel + 1, p => if p.2.length ≥ 16 then smallBlocks w fuel (do16 w p) else p

/-- The sums put together (adler32.c line 122). -/
def joinSums (w : Nat) (a b : Nat) : Nat := a ||| (b <<< 16 % 2 ^ w)

/-- `adler32` for a buffer (adler32.c lines 57–123). -/
def adlerBuf (noDivide : Bool) (w : Nat) (adler : Nat) (s : Str) : Nat :=
  let sum2 := (adler >>> 16) &&& 0xffff
  let a := adler &&& 0xffff
  match s with
  | [b] =>
    let a := addW w a b.toNat
    let a := if a ≥ base then a - base else a
    let sum2 := addW w sum2 a
    let sum2 := if sum2 ≥ base then sum2 - base else sum2
    joinSums w a sum2
  | _ =>
    if s.length < 16 then
      let st := s.foldl (adlerByte w) (a, sum2)
      joinSums w (if st.1 ≥ base then st.1 - base else st.1) (mod4Base noDivide st.2)
    else
      let p := largeBlocks noDivide w s.length ((a, sum2), s)
      if p.2.length ≠ 0 then
        let q := smallBlocks w p.2.length p
        let st := q.2.foldl (adlerByte w) q.1
        joinSums w (modBase noDivide st.1) (modBase noDivide st.2)
      else joinSums w p.1.1 p.1.2

/-- `adler32` without a buffer and with a length: `none` when the code reads the buffer
nevertheless (adler32.c lines 69–82). -/
def adlerNull (len : Nat) : Option Nat := if len = 1 then none else some 1

/-- `adler32_combine` (adler32.c lines 126–149); the length is not negative. -/
def adlerCombine (noDivide : Bool) (w : Nat) (adler1 adler2 len2 : Nat) : Nat :=
  let rem := len2 % base
  let sum1 := adler1 &&& 0xffff
  let sum2 := modBase noDivide (rem * sum1 % 2 ^ w)
  let sum1 := (sum1 + ((adler2 &&& 0xffff) + base - 1)) % 2 ^ w
  let sum2 :=
    (sum2 + (((adler1 >>> 16) &&& 0xffff) + ((adler2 >>> 16) &&& 0xffff) + base - rem)) % 2 ^ w
  let sum1 := if sum1 > base then sum1 - base else sum1
  let sum1 := if sum1 > base then sum1 - base else sum1
  let sum2 := if sum2 > base <<< 1 then sum2 - base <<< 1 else sum2
  let sum2 := if sum2 > base then sum2 - base else sum2
  joinSums w sum1 sum2

end Verif.Zlib
