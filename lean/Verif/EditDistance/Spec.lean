/-!
The Levenshtein distance as the least number of single-symbol edits.
-/
namespace Verif.EditDistance.Spec

variable {α : Type}

/-- One single-symbol edit at any place of the string. -/
inductive Edit : List α → List α → Prop
  | insert (p s : List α) (x : α) : Edit (p ++ s) (p ++ x :: s)
  | delete (p s : List α) (x : α) : Edit (p ++ x :: s) (p ++ s)
  | replace (p s : List α) (x y : α) : Edit (p ++ x :: s) (p ++ y :: s)

/-- `EditSeq n a b`: `n` edits turn `a` into `b`. -/
inductive EditSeq : Nat → List α → List α → Prop
  | refl (a : List α) : EditSeq 0 a a
  | step {n : Nat} {a b c : List α} : EditSeq n a b → Edit b c → EditSeq (n + 1) a c

/-- `d` is the edit distance of `a` and `b`: `d` edits suffice and fewer do not. -/
def IsDistance (a b : List α) (d : Nat) : Prop :=
  EditSeq d a b ∧ ∀ n, EditSeq n a b → d ≤ n

end Verif.EditDistance.Spec
