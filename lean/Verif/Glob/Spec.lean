/-!
What a segment glob means, on characters (code points): `*` (42) any run of characters, `?` (63)
exactly one character, anything else itself.
-/
namespace Verif.Glob.Spec

/-- The glob (first argument) matches the name (second argument). -/
inductive Matches : List Nat → List Nat → Prop
  | nil : Matches [] []
  | star {g run s} : Matches g s → Matches (42 :: g) (run ++ s)
  | quest {g c s} : Matches g s → Matches (63 :: g) (c :: s)
  | lit {c g s} : c ≠ 42 → c ≠ 63 → Matches g s → Matches (c :: g) (c :: s)

/-- The glob has no `?` right after a `*`. -/
def NoStarQuest (g : List Nat) : Prop := ∀ p q, g ≠ p ++ 42 :: 63 :: q

end Verif.Glob.Spec
