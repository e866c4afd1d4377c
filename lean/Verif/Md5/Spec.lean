import Verif.Basic
import Mathlib.Analysis.Complex.Trigonometric
import Mathlib.Algebra.Order.Archimedean.Real.Basic
import Mathlib.Algebra.Order.Floor.Semiring

/-!
MD5 as RFC 1321 defines it, apart from the model.  The constants are those of section 3.4: the integer
parts of 2³² |sin i|.
-/
namespace Verif.Md5.Spec
open Verif

abbrev Word := BitVec 32

/-- `T[i]`, section 3.4. -/
noncomputable def T (i : Nat) : Word := BitVec.ofNat 32 ⌊(2 : ℝ) ^ 32 * |Real.sin i|⌋₊

/-- The functions `F`, `G`, `H` and `I` of the four rounds. -/
def func (i : Nat) (x y z : Word) : Word :=
  match i / 16 with
  | 0 => (x &&& y) ||| (~~~x &&& z)
  | 1 => (x &&& z) ||| (y &&& ~~~z)
  | 2 => x ^^^ y ^^^ z
  | _ => y ^^^ (x ||| ~~~z)

/-- Which word of the block is used in step `i`. -/
def source (i : Nat) : Nat :=
  match i / 16 with
  | 0 => i
  | 1 => (5 * i + 1) % 16
  | 2 => (3 * i + 5) % 16
  | _ => 7 * i % 16

/-- By how many bits is rotated in step `i`. -/
def amount (i : Nat) : Nat :=
  ([[7, 12, 17, 22], [5, 9, 14, 20], [4, 11, 16, 23], [6, 10, 15, 21]].getD (i / 16) []).getD (i % 4) 0

/-- Four words `(a, b, c, d)`. -/
abbrev Four := Word × Word × Word × Word

/-- Step `i` (from 0 to 63): `a = b + ((a + f(b, c, d) + X[k] + T[i + 1]) <<< s)`, after which the roles
of the words are shifted. -/
noncomputable def step (X : Nat → Word) (r : Four) (i : Nat) : Four :=
  match r with
  | (a, b, c, d) => (d, b + (a + func i b c d + X (source i) + T (i + 1)).rotateLeft (amount i), b, c)

/-- The 64 steps for a block. -/
noncomputable def block (r : Four) (X : Nat → Word) : Four :=
  let q := (List.range 64).foldl (step X) r
  (r.1 + q.1, r.2.1 + q.2.1, r.2.2.1 + q.2.2.1, r.2.2.2 + q.2.2.2)

/-- A number in `n` bytes, the least significant byte first. -/
def littleEndian : Nat → Nat → Str
  | 0, _ => []
  | n + 1, x => UInt8.ofNat x :: littleEndian n (x / 256)

/-- The number that bytes mean, the least significant byte first. -/
def value : Str → Nat
  | [] => 0
  | b :: l => b.toNat + 256 * value l

/-- Padding, sections 3.1 and 3.2: a bit 1, as many bits 0 as needed, and the length in bits. -/
def padded (m : Str) : Str :=
  m ++ [0x80] ++ List.replicate ((119 - m.length % 64) % 64) 0 ++ littleEndian 8 (8 * m.length % 2 ^ 64)

/-- The `j`-th word of the `i`-th block. -/
def wordAt (m : Str) (i j : Nat) : Word := BitVec.ofNat 32 (value ((m.drop (64 * i + 4 * j)).take 4))

/-- The first `n` blocks of a message, one after another, from the words of section 3.3. -/
noncomputable def blocks (m : Str) (n : Nat) : Four :=
  (List.range n).foldl (fun r i => block r (wordAt m i))
    (BitVec.ofNat 32 (value [0x01, 0x23, 0x45, 0x67]), BitVec.ofNat 32 (value [0x89, 0xab, 0xcd, 0xef]),
     BitVec.ofNat 32 (value [0xfe, 0xdc, 0xba, 0x98]), BitVec.ofNat 32 (value [0x76, 0x54, 0x32, 0x10]))

/-- The digest of a message, section 3.5. -/
noncomputable def digest (m : Str) : Str :=
  let p := padded m
  match blocks p (p.length / 64) with
  | (a, b, c, d) => littleEndian 4 a.toNat ++ littleEndian 4 b.toNat ++ littleEndian 4 c.toNat ++ littleEndian 4 d.toNat

/-- The value of a hexadecimal digit. -/
def Digit (b : Byte) (n : Nat) : Prop := (48 ≤ b.toNat ∧ b.toNat ≤ 57 ∧ n = b.toNat - 48) ∨ (97 ≤ b.toNat ∧ b.toNat ≤ 102 ∧ n = b.toNat - 87)

/-- Two digits for each byte. -/
inductive Hex : Str → Str → Prop
  | nil : Hex [] []
  | cons {b h l : Byte} {bs s : Str} {x y : Nat} : Digit h x → Digit l y → b.toNat = 16 * x + y → Hex bs s → Hex (b :: bs) (h :: l :: s)

end Verif.Md5.Spec
