import Verif.Chart.Model
import Mathlib.Logic.Relation

/-!
What a chart parser should find.
-/

namespace Verif.Chart

/-- The constituents derivable with unary rules `un a b` (from an `a` make a `b`) and binary rules `bin a b c` (from an `a`
and a `b` make a `c`), starting with the constituents `init u v c` (a `c` from `u` to `v`).  `adj v w`: what ends at `v`
stands directly before what starts at `w`. -/
inductive Derives {C : Type} (un : C → C → Prop) (bin : C → C → C → Prop) (adj : Nat → Nat → Prop)
    (init : Nat → Nat → C → Prop) : Nat → Nat → C → Prop
  | init {u v c} : init u v c → Derives un bin adj init u v c
  | unary {u v a b} : Derives un bin adj init u v a → un a b → Derives un bin adj init u v b
  | binary {u v w x a b c} : Derives un bin adj init u v a → Derives un bin adj init w x b → adj v w → bin a b c →
      Derives un bin adj init u x c

variable {C I : Type}

/-- The unary rules of a grammar. -/
def Grammar.Un (g : Grammar C) (a b : C) : Prop := ∃ s, (b, s) ∈ g.unary a

/-- The binary rules of a grammar. -/
def Grammar.Bin (g : Grammar C) (a b c : C) : Prop := ∃ s, (c, s) ∈ g.binary a b

/-- The constituents the parser starts with: edges of its input layers with a category some rule can use. -/
def Usable (p : Params C I) (e : Edge C I) : Prop := e.visible = true ∧ p.grammar.useful e.cat = true

/-- The constituents the parser starts with. -/
def Start (p : Params C I) (edges : List (Edge C I)) (u v : Nat) (c : C) : Prop :=
  ∃ e ∈ edges, Usable p e ∧ e.src = u ∧ e.tgt = v ∧ e.cat = c

/-- Between the two vertices there are only blank tokens, maybe none. -/
def OnlyBlanks (p : Params C I) : Nat → Nat → Prop :=
  Relation.ReflTransGen (fun v w => p.blankInto w = some v ∨ p.blankFrom v = some w)

/-- There is nothing between the two vertices, and no blank token starts or ends there; or there is one blank token with no
blank token before it. -/
def OneBlank (p : Params C I) (v w : Nat) : Prop :=
  (v = w ∧ p.blankInto v = none ∧ p.blankFrom v = none) ∨
    (p.blankFrom v = some w ∧ p.blankInto w = some v ∧ p.blankInto v = none)

/-- What is to be found in the chart after parsing: the constituents the parser has started with and those it has added. -/
def Found (p : Params C I) (edges : List (Edge C I)) (st : State C I) (u v : Nat) (c : C) : Prop :=
  ∃ e ∈ st.edges, ((e ∈ edges ∧ Usable p e) ∨ e ∈ st.edges.drop edges.length) ∧ e.src = u ∧ e.tgt = v ∧ e.cat = c

/-- What the lattice guarantees about the edges the parser starts with and the blank tokens: they end after their start. -/
structure Forward (p : Params C I) (edges : List (Edge C I)) : Prop where
  edges : ∀ e ∈ edges, e.src < e.tgt
  into : ∀ v w, p.blankInto w = some v → v < w
  «from» : ∀ v w, p.blankFrom v = some w → v < w

/-- No constituent can be taken for another one: different categories have different annotation items, and an edge that
already has the item of a derivable constituent is that constituent. -/
structure Clean (p : Params C I) (D : Nat → Nat → C → Prop) (edges : List (Edge C I)) : Prop where
  inj : ∀ a b, p.toItem a = p.toItem b → a = b
  edges : ∀ e ∈ edges, ∀ c, D e.src e.tgt c → e.item = p.toItem c → Usable p e ∧ e.cat = c

/-- Blank tokens as in a tokenised text: the one into a vertex is the one from its start, no two follow each other, and
no constituent starts with a blank or ends with one. -/
structure Tokenised (p : Params C I) (edges : List (Edge C I)) : Prop where
  same : ∀ v w, p.blankFrom v = some w ↔ p.blankInto w = some v
  single : ∀ v w, p.blankFrom v = some w → p.blankFrom w = none
  source : ∀ e ∈ edges, Usable p e → p.blankFrom e.src = none
  target : ∀ e ∈ edges, Usable p e → p.blankInto e.tgt = none

end Verif.Chart
