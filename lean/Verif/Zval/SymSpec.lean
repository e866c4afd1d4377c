import Verif.Zval.Symbols
import Verif.Zval.Spec

/-! # What tables of symbols and vectors are for -/

namespace Verif.Zval

/-- The call `i` asks for the symbol with the text `s`. -/
def Asks (cs : List SymCall) (i : Nat) (s : Str) : Prop :=
  cs[i]? = some (.get s) ∨ cs[i]? = some (.getRaw s)

/-- The text does not begin and does not end with a space, and is not empty. -/
def Trim (s : Str) : Prop :=
  s ≠ [] ∧ s.head? ≠ some B.space ∧ s.getLast? ≠ some B.space

/-- The answers of a list; `none` is a call with a position that is not in the list. -/
def listAnswers {α : Type} : List α → List (VecCall α) → Option (List (Option α))
  | _, [] => some []
  | l, .add x :: cs => (listAnswers (l ++ [x]) cs).map (none :: ·)
  | l, .pop :: cs => l.getLast?.bind fun x => (listAnswers l.dropLast cs).map (some x :: ·)
  | l, .elementAt i :: cs => l[i]?.bind fun x => (listAnswers l cs).map (some x :: ·)
  | l, .insert x i :: cs =>
    if i < l.length then (listAnswers (l.insertIdx i x) cs).map (none :: ·) else none
  | l, .change i x :: cs =>
    if i < l.length then (listAnswers (l.set i x) cs).map (none :: ·) else none
  | l, .remove i :: cs => l[i]?.bind fun x => (listAnswers (l.eraseIdx i) cs).map (some x :: ·)

end Verif.Zval
