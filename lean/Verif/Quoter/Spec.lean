import Verif.Basic

/-!
What a user of the quoters expects, stated without the model's helpers.
-/
namespace Verif.Quoter.Spec
open Verif

/-- A separator of the column formats: space, tab, newline, carriage return. -/
def isSeparator (b : Byte) : Prop := b = 32 ∨ b = 9 ∨ b = 10 ∨ b = 13

/-- What a character following a backslash stands for, for additional specials `q`. -/
inductive Escape (q : Str) : Byte → Byte → Prop
  | newline : Escape q 110 10
  | tab : Escape q 116 9
  | ret : Escape q 114 13
  | underscore : Escape q 95 95
  | star : Escape q 42 42
  | backslash : Escape q 92 92
  | extra {b} : b ∈ q → b ≠ 110 → b ≠ 116 → b ≠ 114 → Escape q b b

/-- `Reads q quoted plain`: the quoted text denotes the plain text (the quoting
grammar: `_` is a blank, backslash introduces an escape, the rest is literal). -/
inductive Reads (q : Str) : Str → Str → Prop
  | nil : Reads q [] []
  | blank {s r} : Reads q s r → Reads q (95 :: s) (32 :: r)
  | esc {c d s r} : Escape q c d → Reads q s r → Reads q (92 :: c :: s) (d :: r)
  | lit {b s r} : b ≠ 95 → b ≠ 92 → Reads q s r → Reads q (b :: s) (b :: r)

/-- The number of backslashes immediately before position `pos`. -/
def backslashesBefore (s : Str) : Nat → Nat
  | 0 => 0
  | p + 1 => if s[p]? = some 92 then backslashesBefore s p + 1 else 0

/-- A character is escaped when an odd number of backslashes precedes it. -/
def Escaped (s : Str) (pos : Nat) : Prop := backslashesBefore s pos % 2 = 1

end Verif.Quoter.Spec
