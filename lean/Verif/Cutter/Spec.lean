import Verif.Utf8.Boundary

/-! The contract of an underlying cutter; `Utf8.Boundary` is a character boundary. -/
namespace Verif.Cutter
open Verif Utf8

/-- What the underlying cutter has to guarantee: it advances, to a boundary inside the text. -/
def GoodCutter (doCut : Nat → Option Nat) (text : Str) : Prop :=
  ∀ p, Boundary text p → p < text.length →
    ∀ q, doCut p = some q → p < q ∧ Boundary text q

end Verif.Cutter
