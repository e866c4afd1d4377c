import Verif.Lattice.WalkModel
import Verif.Lattice.Spec

/-! What the properties C98 and C99 speak of, apart from the model. -/
namespace Verif.Lattice.Spec
open Verif Verif.Lattice

/-- A position of the text between two characters. -/
def Position (s : State) (v : Vertex) : Prop :=
  0 ≤ v ∧ v ≤ s.text.length ∧ Utf8.Spec.WellFormed (s.text.take v.toNat)

/-- An edge begins or ends at the vertex. -/
def Used (s : State) (v : Vertex) : Prop := ∃ e, Present s e ∧ (s.src e = v ∨ s.tgt e = v)

/-- A loose vertex that has been added. -/
def LooseVertex (s : State) (v : Vertex) : Prop := v < 0 ∧ -(s.nLoose : Int) ≤ v

/-- A vertex of the graph: a loose vertex, or an end of an edge other than an implicit one. -/
def GraphVertex (s : State) (v : Vertex) : Prop :=
  LooseVertex s v ∨ ∃ e, Present s e ∧ Explicit e ∧ (s.src e = v ∨ s.tgt e = v)

/-- The edges begin and end between characters (or at loose vertices). -/
def Aligned (s : State) : Prop := ∀ e, Present s e → Boundary s (s.src e) ∧ Boundary s (s.tgt e)

/-- `a` stands before `b`. -/
def Before (l : List Vertex) (a b : Vertex) : Prop := [a, b].Sublist l

/-- A topological order of the graph. -/
structure Topological (s : State) (order : List Vertex) : Prop where
  nodup : order.Nodup
  mem : ∀ v, v ∈ order ↔ GraphVertex s v
  forward : ∀ e, Present s e → Explicit e → Before order (s.src e) (s.tgt e)

/-- There is a way of edges from the text position `p` to `v` that has only loose vertices in between. -/
inductive LeadsTo (s : State) : Vertex → Vertex → Prop
  | edge {e} : Present s e → 0 ≤ s.src e → LeadsTo s (s.src e) (s.tgt e)
  | step {p e} : LeadsTo s p (s.src e) → s.src e < 0 → Present s e → LeadsTo s p (s.tgt e)

/-- The place of a vertex in the text: a text position is at its own place, a loose vertex at the last position that
leads to it, or before the text if there is none. -/
def Place (s : State) (v : Vertex) (p : Int) : Prop :=
  if 0 ≤ v then p = v
  else (LeadsTo s p v ∧ ∀ q, LeadsTo s q v → q ≤ p) ∨ (p = -1 ∧ ∀ q, ¬LeadsTo s q v)

/-- The vertices that calls of `hasNext` and `next` in turn return, and the iterator after them. -/
inductive Walk (s : State) : VIter → List Vertex → VIter → Prop
  | nil (it) : Walk s it [] it
  | cons {it it1 it2 it3 v l} : it.hasNext s = .ok (true, it1) → it1.next s = .ok (v, it2) → Walk s it2 l it3 →
      Walk s it (v :: l) it3

/-- The end of an edge that the edges are sorted by. -/
def endOf (s : State) (byTarget : Bool) (e : Edge) : Vertex := if byTarget then s.tgt e else s.src e

/-- The edge is among the edges that the lattice returns at its end. -/
def Offered (s : State) (byTarget : Bool) (mask : Tags.Mask) (e : Edge) : Prop :=
  if byTarget then ∃ l, (inEdges s (s.tgt e) mask).1 = .ok l ∧ e ∈ l else e ∈ (outEdges s (s.src e) mask).1

end Verif.Lattice.Spec
