import Verif.Lattice.FixModel
import Verif.Lattice.Spec

/-!
What can be read in a lattice.
-/
namespace Verif.Lattice.Spec
open Verif Verif.Lattice

/-- `Reads s u w v`: a path of symbol edges leads from `u` to `v`, and their annotations spell `w`. -/
inductive Reads (s : State) : Vertex → Str → Vertex → Prop
  | nil {u} : Reads s u [] u
  | cons {e it w v} : Present s e → SubTags symbolTag (s.tags e) → s.item e = .ok it → Reads s (s.tgt e) w v →
      Reads s (s.src e) (it.text ++ w) v

/-- Everything that could be read can still be read. -/
def KeepsReadings (s s' : State) : Prop := ∀ u w v, Reads s u w v → Reads s' u w v

/-- The call annotates a single symbol of the text with just the tag "symbol" only if the annotation has no
text of its own (as `addSymbols` does) or if there is a symbol edge already. -/
def Orderly (s : State) (c : Call) : Prop :=
  ∀ a, Annotates s c a → a.tags = symbolTag → SymbolSpan s a.src a.tgt →
    a.item.text = [] ∨ Present s (.impl a.src.toNat)

/-- `SymbolsAt s i cs j`: the characters `cs` stand in the text from position `i` to position `j`, a character
boundary, and each has its symbol edge. -/
inductive SymbolsAt (s : State) : Nat → List Nat → Nat → Prop
  | nil {i} : Utf8.Spec.WellFormed (s.text.take i) → i ≤ s.text.length → SymbolsAt s i [] i
  | cons {i c cs j} : Utf8.Spec.WellFormed (s.text.take i) → Utf8.Spec.Scalar c →
      Utf8.Spec.encode c <+: s.text.drop i → Present s (.impl i) →
      SymbolsAt s (i + (Utf8.Spec.encode c).length) cs j → SymbolsAt s i (c :: cs) j

end Verif.Lattice.Spec
