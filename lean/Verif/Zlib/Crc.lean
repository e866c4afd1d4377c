import Verif.Basic

/-!
The CRC-32 of zlib and of 7z: `fex/zlib/crc32.c`, `fex/7z_C/7zCrc.c`.

Simplified: `unsigned long` values that the code keeps below `2^32` are 32 bit
words; a buffer and its length are a list of bytes; tables are lists and all
indices are below 256.  `first` and `crc_table_empty` of `make_crc_table` (a
guard against two threads) are left out: the tables have been made.
-/

namespace Verif.Zlib

/-- `u4`: an `unsigned int` of 32 bits (crc32.c lines 34–52). -/
abbrev U4 := BitVec 32

/-- A byte as a word. -/
def word (b : Byte) : U4 := BitVec.ofNat 32 b.toNat

/-- `f` applied `n` times: the `for` loops with a constant number of rounds. -/
def iter {α : Type} (n : Nat) (f : α → α) (a : α) : α :=
  match n with
  | 0 => a
  | n + 1 => iter n f (f a)

/-- The terms of the polynomial except `x^32` (crc32.c line 113). -/
def terms : List Nat := [0, 1, 2, 4, 5, 7, 8, 10, 11, 12, 16, 22, 23, 26]

/-- The exclusive-or pattern of the polynomial (crc32.c lines 122–124). -/
def poly : U4 := terms.foldl (fun a n => a ||| (1#32 <<< (31 - n))) 0#32

/-- One round of the inner loop (crc32.c line 130). -/
def bitStep (c : U4) : U4 :=
  if c &&& 1#32 = 1#32 then poly ^^^ (c >>> 1) else c >>> 1

/-- The first table (crc32.c lines 127–132). -/
def table0 : List U4 :=
  (List.range 256).map fun n => iter 8 bitStep (BitVec.ofNat 32 n)

/-- An entry of a table. -/
def entry (t : List U4) (i : Nat) : U4 := t.getD i 0#32

/-- Line 141 of crc32.c: a further byte of zeros. -/
def zeroByte (c : U4) : U4 := entry table0 (c &&& 0xff#32).toNat ^^^ (c >>> 8)

/-- `REV` (crc32.c lines 56–57). -/
def rev (w : U4) : U4 :=
  (w >>> 24) + ((w >>> 8) &&& 0xff00#32) + ((w &&& 0xff00#32) <<< 8) + ((w &&& 0xff#32) <<< 24)

/-- `crc_table[k]`, as `make_crc_table` fills it (crc32.c lines 126–146). -/
def crcTable (k : Nat) : List U4 :=
  if k = 0 then table0
  else if k < 4 then (List.range 256).map fun n => iter k zeroByte (entry table0 n)
  else (List.range 256).map fun n => rev (iter (k - 4) zeroByte (entry table0 n))

/-- `DO1` (crc32.c line 215), also in `crc32_little` (lines 273, 290). -/
def do1 (c : U4) (b : Byte) : U4 :=
  entry (crcTable 0) ((c ^^^ word b) &&& 0xff#32).toNat ^^^ (c >>> 8)

/-- The loops of `crc32` without `BYFOUR` (crc32.c lines 243–249). -/
def plainLoop (c : U4) : Str → U4
  | b0 :: b1 :: b2 :: b3 :: b4 :: b5 :: b6 :: b7 :: s =>
    plainLoop
      (do1 (do1 (do1 (do1 (do1 (do1 (do1 (do1 c b0) b1) b2) b3) b4) b5) b6) b7) s
  | s => s.foldl do1 c

/-- `crc32` without `BYFOUR` (crc32.c lines 242–250). -/
def crc32Plain (crc : U4) (s : Str) : U4 :=
  plainLoop (crc ^^^ 0xffffffff#32) s ^^^ 0xffffffff#32

/-- The bytes up to an address that is divisible by four, each handled with `f`
(crc32.c lines 272–275, 312–315). -/
def alignHead (f : U4 → Byte → U4) (addr : Nat) (c : U4) : Str → U4 × Str
  | [] => (c, [])
  | b :: s => if addr &&& 3 ≠ 0 then alignHead f (addr + 1) (f c b) s else (c, b :: s)

/-- Words are handled with `f` as long as four bytes are left
(crc32.c lines 282–285, 323–326). -/
def wordLoop (f : U4 → Byte → Byte → Byte → Byte → U4) (c : U4) : Str → U4 × Str
  | b0 :: b1 :: b2 :: b3 :: s => wordLoop f (f c b0 b1 b2 b3) s
  | s => (c, s)

/-- `n` words are handled with `f`. -/
def words (f : U4 → Byte → Byte → Byte → Byte → U4) : Nat → U4 → Str → U4 × Str
  | n + 1, c, b0 :: b1 :: b2 :: b3 :: s => words f n (f c b0 b1 b2 b3) s
  | _, c, s => (c, s)

/-- Eight words are handled at once as long as 32 bytes are left
(crc32.c lines 278–281, 319–322).  `fuel` is the length of the buffer. -/
def wordLoop32 (f : U4 → Byte → Byte → Byte → Byte → U4) : Nat → U4 → Str → U4 × Str
  | 0, c, s => (c, s)
  | fuel + 1, c, s =>
    if 32 ≤ s.length then
      let r := words f 8 c s
      wordLoop32 f fuel r.1 r.2
    else (c, s)

/-- A word of the memory of a machine with the low byte first. -/
def loadLittle (b0 b1 b2 b3 : Byte) : U4 :=
  word b0 ||| (word b1 <<< 8) ||| (word b2 <<< 16) ||| (word b3 <<< 24)

/-- A word of the memory of a machine with the high byte first. -/
def loadBig (b0 b1 b2 b3 : Byte) : U4 :=
  (word b0 <<< 24) ||| (word b1 <<< 16) ||| (word b2 <<< 8) ||| word b3

/-- `DOLIT4` (crc32.c lines 256–258). -/
def doLit4 (c : U4) (b0 b1 b2 b3 : Byte) : U4 :=
  let c := c ^^^ loadLittle b0 b1 b2 b3
  entry (crcTable 3) (c &&& 0xff#32).toNat ^^^ entry (crcTable 2) ((c >>> 8) &&& 0xff#32).toNat ^^^
    entry (crcTable 1) ((c >>> 16) &&& 0xff#32).toNat ^^^ entry (crcTable 0) (c >>> 24).toNat

/-- The three loops over a buffer at an address: bytes up to a word boundary, words,
the bytes that are left. -/
def byFour (f : U4 → Byte → U4) (g : U4 → Byte → Byte → Byte → Byte → U4)
    (addr : Nat) (c : U4) (s : Str) : U4 :=
  let r := alignHead f addr c s
  let r := wordLoop32 g r.2.length r.1 r.2
  let r := wordLoop g r.1 r.2
  r.2.foldl f r.1

/-- `crc32_little` (crc32.c lines 262–293). -/
def crc32Little (crc : U4) (addr : Nat) (s : Str) : U4 := ~~~ (byFour do1 doLit4 addr (~~~ crc) s)

/-- Lines 313 and 331 of crc32.c. -/
def bigByte (c : U4) (b : Byte) : U4 :=
  entry (crcTable 4) ((c >>> 24) ^^^ word b).toNat ^^^ (c <<< 8)

/-- `DOBIG4` (crc32.c lines 296–298). -/
def doBig4 (c : U4) (b0 b1 b2 b3 : Byte) : U4 :=
  let c := c ^^^ loadBig b0 b1 b2 b3
  entry (crcTable 4) (c &&& 0xff#32).toNat ^^^ entry (crcTable 5) ((c >>> 8) &&& 0xff#32).toNat ^^^
    entry (crcTable 6) ((c >>> 16) &&& 0xff#32).toNat ^^^ entry (crcTable 7) (c >>> 24).toNat

/-- `crc32_big` (crc32.c lines 302–335). -/
def crc32Big (crc : U4) (addr : Nat) (s : Str) : U4 :=
  rev (~~~ (byFour bigByte doBig4 addr (~~~ (rev crc)) s))

/-- How a machine computes: the last case is that of a build without `BYFOUR`. -/
inductive Machine where
  | little
  | big
  | plain

/-- `crc32` (crc32.c lines 219–251); no buffer is `Z_NULL`.  Of an initial value with
more than 32 bits only the lowest are used. -/
def crc32 (m : Machine) (crc : U4) (buf : Option (Nat × Str)) : U4 :=
  match buf with
  | none => 0#32
  | some (addr, s) =>
    match m with
    | .little => crc32Little crc addr s
    | .big => crc32Big crc addr s
    | .plain => crc32Plain crc s

/-- The loop of `gf2_matrix_times` (crc32.c lines 349–354); `none` when it reads past
the end of the matrix. -/
def gf2Loop (sum : Nat) (vec : Nat) : List Nat → Option Nat
  | [] => if vec = 0 then some sum else none
  | m :: mat =>
    if vec = 0 then some sum
    else gf2Loop (if vec &&& 1 = 1 then sum ^^^ m else sum) (vec >>> 1) mat

/-- `gf2_matrix_times` (crc32.c lines 342–356). -/
def gf2Times (mat : List Nat) (vec : Nat) : Option Nat := gf2Loop 0 vec mat

/-- `gf2_matrix_square` (crc32.c lines 359–367). -/
def gf2Square (mat : List Nat) : Option (List Nat) := mat.mapM (gf2Times mat)

/-- The operator for one zero bit (crc32.c lines 384–389). -/
def oneBit : List Nat := 0xedb88320 :: (List.range 31).map fun n => 1 <<< n

/-- The loop of `crc32_combine` (crc32.c lines 399–418): it is unrolled twice there so
that the matrices exchange their roles.  The answer is `none` when there is no more
fuel, and `some none` when a matrix is read out of bounds. -/
def combineLoop : Nat → List Nat → Nat → Int → Option (Option Nat)
  | 0, _, _, _ => none
  | fuel + 1, mat, crc1, len2 =>
    match gf2Square mat with
    | none => some none
    | some mat =>
      match if len2 % 2 = 1 then gf2Times mat crc1 else some crc1 with
      | none => some none
      | some crc1 => if len2 / 2 = 0 then some (some crc1) else combineLoop fuel mat crc1 (len2 / 2)

/-- `crc32_combine` (crc32.c lines 370–423). -/
def crc32Combine (fuel : Nat) (crc1 crc2 : Nat) (len2 : Int) : Option (Option Nat) :=
  if len2 = 0 then some (some crc1)
  else
    match (gf2Square oneBit).bind gf2Square with
    | none => some none
    | some mat => (combineLoop fuel mat crc1 len2).map fun r => r.map fun c => c ^^^ crc2

/-! ### 7zCrc.c -/

/-- `CrcGenerateTable` (7zCrc.c lines 8–22). -/
def sevenTable : List U4 :=
  (List.range 256).map fun i =>
    iter 8 (fun r => (r >>> 1) ^^^ (0xEDB88320#32 &&& ~~~ ((r &&& 1#32) - 1#32))) (BitVec.ofNat 32 i)

/-- `CRC_UPDATE_BYTE` (7zCrc.h line 22). -/
def sevenByte (c : U4) (b : Byte) : U4 :=
  entry sevenTable ((c ^^^ word b) &&& 0xff#32).toNat ^^^ (c >>> 8)

/-- `CrcUpdate` (7zCrc.c lines 24–30). -/
def sevenUpdate (v : U4) (s : Str) : U4 := s.foldl sevenByte v

/-- `CrcCalc` (7zCrc.c lines 32–35). -/
def sevenCalc (s : Str) : U4 := sevenUpdate 0xFFFFFFFF#32 s ^^^ 0xFFFFFFFF#32

end Verif.Zlib
