import Verif.PsiFormat.Model

/-!
Which rows of the PSI format can be read back, and as what.
-/
namespace Verif.PsiFormat
open Verif
variable {D : Type}

/-- What should be read: everything as it was, only that empty text is shown by a sign. -/
def Row.seen (r : Row D) : Seen D :=
  { ordinal := r.ordinal, source := r.source, target := r.target, text := if r.text = [] then emptySign else r.text,
    tags := r.tags, annotText := r.annotText, category := r.category, score := r.score, av := r.av,
    parts := match r.parts with
      | none => .default
      | some l => .list l }

/-- Does not begin with a vertical tab or a form feed. -/
def Head (s : Str) : Prop := ∀ b, s.head? = some b → b ≠ 11 ∧ b ≠ 12

/-- A number that fits into an `int`. -/
def Small (n : Nat) : Prop := n ≤ 2147483647

/-- A tag without white space, `_`, `*`, `\`, `#`, comma. -/
def PlainTag (t : Str) : Prop :=
  t ≠ [] ∧ ∀ b ∈ t, b ≠ 9 ∧ b ≠ 10 ∧ b ≠ 13 ∧ b ≠ 32 ∧ b ≠ 35 ∧ b ≠ 42 ∧ b ≠ 44 ∧ b ≠ 92 ∧ b ≠ 95 ∧ b ≠ 11 ∧ b ≠ 12

/-- A score that is read as it is printed, printed with digits, letters, `+`, `-` and `.`. -/
def PlainScore (num : Num D) (d : D) : Prop :=
  (∀ rest, num.read (num.print d ++ 62 :: rest) = some (d, 62 :: rest)) ∧ num.print d ≠ [] ∧
  ∀ b ∈ num.print d, b = 43 ∨ b = 45 ∨ b = 46 ∨ (48 ≤ b ∧ b ≤ 57) ∨ (97 ≤ b ∧ b ≤ 122)

/-- An edge of a partition: numbers begin with 1, a role has no `$`, `(`, `<`, `]` and comma, and edges that are not written have none. -/
def PlainSub (s : Sub) : Prop :=
  (∀ n, s.number = some n → 1 ≤ n ∧ Small n) ∧ (s.number = none → s.role = []) ∧
  ∀ b ∈ s.role, b ≠ 36 ∧ b ≠ 40 ∧ b ≠ 44 ∧ b ≠ 60 ∧ b ≠ 93

/-- No edge with a number after one without. -/
def Ordered : List Sub → Prop
  | [] => True
  | [_] => True
  | a :: b :: l => (a.number = none → b.number = none) ∧ Ordered (b :: l)

/-- A partition of an edge with the given tags and score: there is something to write; edges with numbers come first; different tags and
a different score can be read. -/
def PlainPart (num : Num D) (tags : List Str) (score : D) (p : Part D) : Prop :=
  p.subs ≠ [] ∧ p.subs ≠ [⟨none, []⟩] ∧ (∀ s ∈ p.subs, PlainSub s) ∧ Ordered p.subs ∧
  (p.tags ≠ tags → p.tags ≠ [] ∧ ∀ t ∈ p.tags, PlainTag t ∧ (∀ b ∈ t, b ≠ 41 ∧ b ≠ 93)) ∧
  (p.score ≠ score → PlainScore num p.score)

/-- A row that can be read back. -/
structure Row.Plain (num : Num D) (r : Row D) : Prop where
  ordinal : Small r.ordinal
  source : ∀ n, r.source = .loose n ∨ r.source = .char n → Small n
  target : ∀ n, r.target = .loose n ∨ r.target = .char n ∨ r.target = .length n → Small n
  text : Head r.text
  tags : r.tags ≠ [] ∧ ∀ t ∈ r.tags, PlainTag t
  annotText : Head r.annotText
  category : r.category ≠ [] ∧ Head r.category ∧ ∀ b ∈ r.category, b ≠ 44 ∧ b ≠ 60 ∧ b ≠ 91
  score : r.score ≠ num.zero → PlainScore num r.score
  av : ∀ p ∈ r.av, p.1 ≠ [] ∧ p.2 ≠ [] ∧ ∀ b ∈ p.1 ++ p.2, b ≠ 44 ∧ b ≠ 61 ∧ b ≠ 91
  parts : ∀ l, r.parts = some l → l ≠ [] ∧ ∀ p ∈ l, PlainPart num r.tags r.score p

end Verif.PsiFormat
