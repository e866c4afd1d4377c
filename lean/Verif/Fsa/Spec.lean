import Verif.Fsa.Model
import Mathlib.Data.List.Forall2

/-!
What an automaton accepts.
-/
namespace Verif.Fsa.Spec
open Verif Verif.Fsa

/-- `Path a p w q`: there is a path from `p` to `q` whose arcs are labelled `w` (an epsilon transition
is an arc labelled `EPS`). -/
inductive Path (a : Fsa) : Nat → List Sym → Nat → Prop
  | nil {p} : Path a p [] p
  | cons {p x q w r} : (x, q) ∈ a.arcs p → Path a q w r → Path a p (x :: w) r

/-- The word labels a path from a start state to an end state. -/
def Raw (a : Fsa) (w : List Sym) : Prop := ∃ p ∈ a.starts, ∃ q ∈ a.ends, Path a p w q

/-- The word is accepted: it is what remains of the labels of a path from a start state to an end
state when the epsilon transitions are left out. -/
def Lang (a : Fsa) (w : List Sym) : Prop := ∃ r, Raw a r ∧ r.filter (fun x => decide (x ≠ EPS)) = w

/-- All arcs lead to states of the automaton, start and end states are states of the automaton, and
arcs and sets are in order.  All automata built by the interface are like that, see `built_wf`. -/
structure Wf (a : Fsa) : Prop where
  dest : ∀ p x q, (x, q) ∈ a.arcs p → q < a.size
  start : ∀ p ∈ a.starts, p < a.size
  end_ : ∀ p ∈ a.ends, p < a.size
  arcsSorted : ∀ p, (a.arcs p).Pairwise (fun x y => arcLt natLt y x = false)
  startsSorted : a.starts.Pairwise (· < ·)
  endsSorted : a.ends.Pairwise (· < ·)

/-- The automata that can be built by calling the interface with states that exist. -/
inductive Built : Fsa → Prop
  | empty : Built .empty
  | addState {a} (b) : Built a → Built (a.addState b).2
  | addArc {a p x q} : Built a → p < a.size → q < a.size → Built (a.addArc p (x, q))
  | setStart {a p} : Built a → p < a.size → Built (a.setStart p)
  | unsetStart {a p} : Built a → Built (a.unsetStart p)
  | setEnd {a p} : Built a → p < a.size → Built (a.setEnd p)
  | unsetEnd {a p} : Built a → Built (a.unsetEnd p)

/-- The words that lead from `p` to an end state. -/
def Right (a : Fsa) (p : Nat) (w : List Sym) : Prop := ∃ q ∈ a.ends, Path a p w q

/-- One start state, and no two arcs of a state have the same symbol. -/
def Deterministic (a : Fsa) : Prop :=
  (∃ s, a.starts = [s]) ∧ ∀ p, (a.arcs p).Pairwise (fun x y => x.1 ≠ y.1)

/-- There are no epsilon transitions. -/
def EpsFree (a : Fsa) : Prop := ∀ p x q, (x, q) ∈ a.arcs p → x ≠ EPS

/-- Every state can be reached from a start state. -/
def AllReachable (a : Fsa) : Prop := ∀ n, n < a.size → ∃ p ∈ a.starts, ∃ w, Path a p w n

/-- From every state an end state can be reached. -/
def AllUseful (a : Fsa) : Prop := ∀ n, n < a.size → ∃ w, Right a n w

/-- Words made of a word of `L` and a word of `M`. -/
def Concat (L M : List Sym → Prop) (w : List Sym) : Prop := ∃ u v, L u ∧ M v ∧ u ++ v = w

/-- Words made of one or more words of `L`. -/
def Plus (L : List Sym → Prop) (w : List Sym) : Prop :=
  ∃ us : List (List Sym), us ≠ [] ∧ (∀ u ∈ us, L u) ∧ us.flatten = w

/-- Words made of any number of words of `L`. -/
def Star (L : List Sym → Prop) (w : List Sym) : Prop :=
  ∃ us : List (List Sym), (∀ u ∈ us, L u) ∧ us.flatten = w

/-- The symbol `x` of an automaton stands for the symbol `y` of a word: it is the same, or, if that is
allowed, `ANY`. -/
def StandsFor (any : Bool) (x y : Sym) : Prop := x = y ∨ (any = true ∧ x = ANY)

/-- The words accepted when, if allowed, the symbol `ANY` stands for any symbol. -/
def AnyLang (any : Bool) (a : Fsa) (w : List Sym) : Prop :=
  ∃ r, Lang a r ∧ List.Forall₂ (StandsFor any) r w

/-- A state from which an end state can be reached by an epsilon transition is an end state. -/
def EndsClosed (a : Fsa) : Prop := ∀ p q, (EPS, q) ∈ a.arcs p → q ∈ a.ends → p ∈ a.ends

/-- Not both an arc with symbol `x` in `a` and an arc with symbol `y` in `b`. -/
def NotBoth (a : Fsa) (x : Sym) (b : Fsa) (y : Sym) : Prop :=
  ∀ p q p' q', (x, q) ∈ a.arcs p → (y, q') ∈ b.arcs p' → False

end Verif.Fsa.Spec
