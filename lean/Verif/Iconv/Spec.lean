import Verif.Basic
import Verif.Numconv.Text

/-!
What texts in various encodings are, without reference to the model: UTF-8 in the original form with up to six bytes
(RFC 2279), UCS-2 with byte order marks, UTF-7 (RFC 2152), and character sets of one byte given by a table.
Characters are numbers.
-/
namespace Verif.Iconv.Spec
open Verif

/-! ## UTF-8 -/

/-- A byte. -/
def byte (n : Nat) : Byte := UInt8.ofNat n

/-- The bytes of a character, RFC 2279. -/
def utf8 (c : Nat) : Str :=
  if c < 0x80 then [byte c]
  else if c < 0x800 then [byte (0xc0 + c / 2 ^ 6), byte (0x80 + c % 64)]
  else if c < 0x10000 then [byte (0xe0 + c / 2 ^ 12), byte (0x80 + c / 2 ^ 6 % 64), byte (0x80 + c % 64)]
  else if c < 0x200000 then
    [byte (0xf0 + c / 2 ^ 18), byte (0x80 + c / 2 ^ 12 % 64), byte (0x80 + c / 2 ^ 6 % 64), byte (0x80 + c % 64)]
  else if c < 0x4000000 then
    [byte (0xf8 + c / 2 ^ 24), byte (0x80 + c / 2 ^ 18 % 64), byte (0x80 + c / 2 ^ 12 % 64), byte (0x80 + c / 2 ^ 6 % 64),
      byte (0x80 + c % 64)]
  else
    [byte (0xfc + c / 2 ^ 30), byte (0x80 + c / 2 ^ 24 % 64), byte (0x80 + c / 2 ^ 18 % 64), byte (0x80 + c / 2 ^ 12 % 64),
      byte (0x80 + c / 2 ^ 6 % 64), byte (0x80 + c % 64)]

/-- The characters that can be written in UTF-8 according to RFC 2279. -/
def Utf8Char (c : Nat) : Prop := c < 2 ^ 31

/-! ## UCS-2 -/

/-- A character that can be in UCS-2 text: not beyond 16 bits, not a surrogate and no byte order mark. -/
def Ucs2Char (c : Nat) : Prop := c < 0x10000 ∧ ¬ (0xd800 ≤ c ∧ c ≤ 0xdfff) ∧ c ≠ 0xfeff ∧ c ≠ 0xfffe

/-- Two bytes, the less significant one first if `little`. -/
def two (little : Bool) (c : Nat) : Str := if little then [byte (c % 256), byte (c / 256)] else [byte (c / 256), byte (c % 256)]

/-- Text in UCS-2; a byte order mark may be anywhere, and read backwards it changes the order. -/
inductive Ucs2 : Bool → List Nat → Str → Prop
  | nil (little) : Ucs2 little [] []
  | char {little c cs bs} : Ucs2Char c → Ucs2 little cs bs → Ucs2 little (c :: cs) (two little c ++ bs)
  | mark {little cs bs} : Ucs2 little cs bs → Ucs2 little cs (two little 0xfeff ++ bs)
  | turn {little cs bs} : Ucs2 (!little) cs bs → Ucs2 little cs (two (!little) 0xfeff ++ bs)

/-! ## UTF-7 -/

/-- A number as so many bits. -/
def bits : Nat → Nat → List Bool
  | 0, _ => []
  | w + 1, n => decide (n / 2 ^ w % 2 = 1) :: bits w n

/-- A character in UTF-16. -/
def utf16 (c : Nat) : List Nat := if c < 0x10000 then [c] else [0xd800 + (c - 0x10000) / 0x400, 0xdc00 + (c - 0x10000) % 0x400]

/-- The alphabet of base64. -/
def alphabet : Str := b!"ABCDEFGHIJKLMNOPQRSTUVWXYZabcdefghijklmnopqrstuvwxyz0123456789+/"

/-- A text in base64 stands for some bits: six bits each, and less than six zeros at the end. -/
def Base64 (text : Str) (bs : List Bool) : Prop :=
  ∃ ds : List Nat, (∀ d ∈ ds, d < 64) ∧ text = ds.map (fun d => alphabet.getD d 0) ∧
    ∃ z, z < 6 ∧ ds.flatMap (bits 6) = bs ++ List.replicate z false

/-- A character outside the surrogates. -/
def Scalar (c : Nat) : Prop := c < 0x110000 ∧ ¬ (0xd800 ≤ c ∧ c ≤ 0xdfff)

/-- Characters standing for themselves that every encoder may write: set D of RFC 2152 and white space. -/
def direct : Str := b!"ABCDEFGHIJKLMNOPQRSTUVWXYZabcdefghijklmnopqrstuvwxyz0123456789'(),-./:? " ++ [9, 10, 13]

/-- Further characters standing for themselves: set O of RFC 2152. -/
def optional : Str := b!"!\"#$%&*;<=>@[]^_`{|}"

/-- Text in UTF-7. -/
inductive Utf7 : List Nat → Str → Prop
  | nil : Utf7 [] []
  | plain {b cs bs} : b ∈ direct ++ optional → Utf7 cs bs → Utf7 (b.toNat :: cs) (b :: bs)
  /-- `+-` -/
  | plus {cs bs} : Utf7 cs bs → Utf7 (43 :: cs) (43 :: 45 :: bs)
  /-- `+`, base64, `-` -/
  | closed {us t cs bs} : us ≠ [] → (∀ u ∈ us, Scalar u) → Base64 t ((us.flatMap utf16).flatMap (bits 16)) → Utf7 cs bs →
      Utf7 (us ++ cs) (43 :: t ++ 45 :: bs)
  /-- `+`, base64 and something that is neither base64 nor `-` -/
  | broken {us t cs bs} : us ≠ [] → (∀ u ∈ us, Scalar u) → Base64 t ((us.flatMap utf16).flatMap (bits 16)) → Utf7 cs bs →
      (∀ b, bs.head? = some b → b ∉ alphabet ∧ b ≠ 45) → Utf7 (us ++ cs) (43 :: t ++ bs)

/-! ## All of them -/

/-- A kind of encoding; a character set of one byte is given by what the bytes stand for. -/
inductive Kind
  | table (f : Nat → Option Nat)
  | utf8
  | ucs2
  | utf7

/-- Text in an encoding. -/
def Text : Kind → List Nat → Str → Prop
  | .table f, cs, bs => bs.map (fun b => f b.toNat) = cs.map some
  | .utf8, cs, bs => (∀ c ∈ cs, Utf8Char c) ∧ bs = cs.flatMap utf8
  | .ucs2, cs, bs => Ucs2 false cs bs
  | .utf7, cs, bs => Utf7 cs bs

/-- The characters an encoding has. -/
def Has : Kind → Nat → Prop
  | .table f, c => ∃ b, b < 256 ∧ f b = some c
  | .utf8, c => Utf8Char c
  | .ucs2, c => Ucs2Char c
  | .utf7, c => Scalar c

/-- What a program writing one character after another has written: in UTF-7 the end may be missing, up to a digit
and `-`. -/
def Output : Kind → List Nat → Str → Prop
  | .ucs2, cs, w => w = cs.flatMap (two false)
  | .utf7, cs, w => ∃ e, (e = [] ∨ e = [45] ∨ ∃ d ∈ alphabet, e = [d, 45]) ∧ Utf7 cs (w ++ e)
  | k, cs, w => Text k cs w

end Verif.Iconv.Spec
