import Verif.Dag.Model

/-! # What automata are -/

namespace Verif.Dag

/-- A way from a state to a state along the symbols of a word. -/
inductive Path (d : Dag) : Nat → List Nat → Nat → Prop
  | nil (p : Nat) : Path d p [] p
  | cons {p q r a w : Nat} {u : List Nat} (h : (⟨a, q, w⟩ : Arc) ∈ d.row p) (t : Path d q u r) :
      Path d p (a :: u) r

/-- A word leads from the state to a final one. -/
def Accepts (d : Dag) (p : Nat) (w : List Nat) : Prop := ∃ q, Path d p w q ∧ q ∈ d.ends

/-- The state is an initial one. -/
def Initial (d : Dag) (p : Nat) : Prop := p < d.rows.length ∧ d.starts.testBit p = true

/-- The words of an automaton. -/
def Words (d : Dag) (w : List Nat) : Prop := ∃ p, Initial d p ∧ Accepts d p w

/-- All arcs lead to states, only states are final or initial. -/
structure Valid (d : Dag) : Prop where
  arcs : ∀ p, ∀ x ∈ d.row p, x.q < d.rows.length
  ends : ∀ p ∈ d.ends, p < d.rows.length
  starts : d.starts < 2 ^ d.rows.length

/-- The arcs of each state are sorted. -/
def Sorted (d : Dag) : Prop := ∀ p, (d.row p).Pairwise fun x y => x.a ≤ y.a

/-- No state has two arcs with the same symbol, and there is one initial state. -/
structure Deterministic (d : Dag) : Prop where
  arcs : ∀ p, (d.row p).Pairwise fun x y => x.a ≠ y.a
  start : ∃ p, Initial d p ∧ ∀ q, Initial d q → q = p

/-- Every state can be reached from an initial one. -/
def Accessible (d : Dag) : Prop := ∀ p, p < d.rows.length → ∃ s w, Initial d s ∧ Path d s w p

/-- The automata differ only in the numbers of the states and in the weights. -/
def SameButNumbers (d e : Dag) : Prop :=
  ∃ f : Nat → Nat, (∀ p, p < d.rows.length → f p < e.rows.length) ∧
    (∀ p q, p < d.rows.length → q < d.rows.length → f p = f q → p = q) ∧
    (∀ q, q < e.rows.length → ∃ p, p < d.rows.length ∧ f p = q) ∧
    (∀ p, p < d.rows.length → (Initial d p ↔ Initial e (f p))) ∧
    (∀ p, p < d.rows.length → (p ∈ d.ends ↔ f p ∈ e.ends)) ∧
    ∀ p q a, p < d.rows.length → q < d.rows.length →
      ((∃ w, (⟨a, q, w⟩ : Arc) ∈ d.row p) ↔ ∃ w, (⟨a, f q, w⟩ : Arc) ∈ e.row (f p))

end Verif.Dag
