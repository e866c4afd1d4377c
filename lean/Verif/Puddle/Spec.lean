import Verif.Basic
import Verif.Numconv.Text

/-! # What is claimed of the puddle parser -/

namespace Verif.Puddle.Spec

open Verif.Numconv

/-- The characters that mean something in the patterns of puddle, apart from the ampersand. -/
def marks : Str := b!"<>()|+*?"

/-- The reference to a character as it is in HTML. -/
def reference (c : Byte) : Str :=
  match c with
  | 38 => b!"&amp;"
  | 60 => b!"&lt;"
  | 62 => b!"&gt;"
  | 40 => b!"&#40;"
  | 41 => b!"&#41;"
  | 42 => b!"&#42;"
  | 43 => b!"&#43;"
  | 63 => b!"&#63;"
  | 124 => b!"&#124;"
  | c => [c]

/-- A text with plus and asterisk exchanged. -/
def exchanged (s : Str) : Str := s.map fun c => if c = 43 then 42 else if c = 42 then 43 else c

/-- The number of tokens of the first elements of a rule. -/
def upTo (sizes : List Nat) (e : Nat) : Nat := (sizes.take e).sum

/-- The token `p` has been matched by the element `e` (both counted from 0). -/
def Belongs (sizes : List Nat) (p e : Nat) : Prop := upTo sizes e ≤ p ∧ p < upTo sizes (e + 1)

/-- A name of an attribute: it has no blanks and no brackets. -/
def Plain (n : Str) : Prop := n ≠ [] ∧ ∀ c ∈ n, c ∉ b!" \t\n\r[]" ∧ c ≠ 11 ∧ c ≠ 12

/-- How an attribute of a part of speech is written: an optional one is in brackets. -/
def written (a : Str × Bool) : Str := if a.2 then 91 :: (a.1 ++ [93]) else a.1

/-- A choice of values: each attribute has one, but an optional one can be left out. -/
inductive Choice (values : Str → List Str) : List (Str × Bool) → List (Str × Str) → Prop
  | nil : Choice values [] []
  | take {n o v as c} : v ∈ values n → Choice values as c → Choice values ((n, o) :: as) ((n, v) :: c)
  | leave {n as c} : Choice values as c → Choice values ((n, true) :: as) c

/-- A choice for which it is clear what has been left out: the next value is none of such an
attribute. -/
inductive Clear (values : Str → List Str) : List (Str × Bool) → List (Str × Str) → Prop
  | nil : Clear values [] []
  | take {n o v as c} : v ∈ values n → Clear values as c → Clear values ((n, o) :: as) ((n, v) :: c)
  | leave {n as c} : (∀ p, c.head? = some p → p.2 ∉ values n) → Clear values as c →
      Clear values ((n, true) :: as) c

/-- The part of speech and the values, with colons between them. -/
def label (p : Str) (c : List (Str × Str)) : Str := p ++ c.flatMap fun q => 58 :: q.2

/-- The entries in the order of their names. -/
def Ordered (c : List (Str × Str)) : Prop := c.Pairwise fun p q => p.1 < q.1

/-- A word of a label: it has neither colons nor blanks. -/
def Word (w : Str) : Prop := (58 : Byte) ∉ w ∧ ∀ c ∈ w, c ≠ 32 ∧ ¬ (9 ≤ c ∧ c ≤ 13)

/-- A part of speech with attributes that have different names, none of them `pos`. -/
def Sound (p : Str) (as : List (Str × Bool)) : Prop :=
  p ≠ [] ∧ (as.map Prod.fst).Nodup ∧ b!"pos" ∉ as.map Prod.fst ∧ ∀ a ∈ as, Plain a.1

end Verif.Puddle.Spec
