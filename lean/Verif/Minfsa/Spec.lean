import Verif.Minfsa.Model

/-!
# What the lines of an automaton mean

The lines are the transitions and the final states; the words are those that lead from the start to
a final state.
-/

namespace Verif.Minfsa

/-- The words of a state. -/
inductive Accepts (ls : List Line) : Nat → List Nat → Prop
  | stop {q : Nat} (h : .final q ∈ ls) : Accepts ls q []
  | step {p q a : Nat} {w : List Nat} (h : .arc p q a ∈ ls) (hw : Accepts ls q w) : Accepts ls p (a :: w)

/-- A word leads from a state to another one. -/
inductive Leads (ls : List Line) : Nat → List Nat → Nat → Prop
  | stay (q : Nat) : Leads ls q [] q
  | step {p q r a : Nat} {w : List Nat} (h : .arc p q a ∈ ls) (hw : Leads ls q w r) : Leads ls p (a :: w) r

/-- A state has one transition at most for each symbol. -/
def Deterministic (ls : List Line) : Prop :=
  ∀ p a q q', .arc p q a ∈ ls → .arc p q' a ∈ ls → q = q'

/-- The state is the start or some line names it. -/
def IsState (start : Nat) (ls : List Line) (p : Nat) : Prop :=
  p = start ∨ (∃ q a, .arc p q a ∈ ls) ∨ (∃ q a, .arc q p a ∈ ls) ∨ .final p ∈ ls

/-- The automaton has these words. -/
def HasWords (ls : List Line) (start : Nat) (ws : List (List Nat)) : Prop :=
  ∀ w, Accepts ls start w ↔ w ∈ ws

end Verif.Minfsa
