import Verif.Lattice.KinModel
import Verif.Lattice.CutSpec
import Verif.Tags.Spec

/-!
What the descent of edges and the paths that skip edges ought to be.
-/
namespace Verif.Lattice.Spec
open Verif Verif.Lattice Verif.Tags Verif.Tags.Spec

/-- The edge has been made in several ways: of the edges `gs[0]`, of the edges `gs[1]` and so on, in
the order in which that was told to the lattice. -/
def MadeOf (s : State) (e : Edge) (gs : List (List Edge)) : Prop :=
  List.Forall₂ (fun (p : Partition) g => (sequenceEdges s p.seq).1 = .ok g) (s.parts e) gs

/-- `p` is the first of the edges that `e` is made of. -/
def FirstParent (s : State) (e : Edge) (p : Option Edge) : Prop :=
  ∃ gs, MadeOf s e gs ∧ p = gs.flatten.head?

/-- `Origin s name n e r`: going up from `e` by first parents, `r` is the first edge with the tag; it is
reached after `n` edges without the tag.  `r` is `none` if the last of them has no parent. -/
inductive Origin (s : State) (name : Str) : Nat → Edge → Option Edge → Prop
  | none {e} : FirstParent s e none → Origin s name 0 e none
  | here {e p} : FirstParent s e (some p) → Has s.mgr (s.tags p) name → Origin s name 0 e (some p)
  | up {n e p r} : FirstParent s e (some p) → ¬ Has s.mgr (s.tags p) name → Origin s name n p r →
      Origin s name (n + 1) e r

/-- Every edge has been made of edges that are older. -/
def Founded (s : State) : Prop :=
  ∀ k, k < s.edges.length → ∃ gs, MadeOf s (.expl k) gs ∧ ∀ j, .expl j ∈ gs.flatten → j < k

/-- The name is one of the 64 that tags can have, or can become one. -/
def Room (s : State) (name : Str) : Prop :=
  (∃ i, i < 64 ∧ s.mgr.names[i]? = some name) ∨ s.mgr.names.length < 64

/-- The edge by which a path that skips goes on: the last edge that matches or, if there is none, an
edge to be skipped. -/
def SkipStep (s : State) (p : Edge → Prop) (mask : Mask) (v : Vertex) (e : Edge) : Prop :=
  (outEdges s v mask).1.getLast? = some e ∨
    ((outEdges s v mask).1 = [] ∧ e ∈ s.allOutEdges v ∧ p e)

/-- A path as it is documented: it ends where no edge matches and none can be skipped. -/
inductive SkipPath (s : State) (p : Edge → Prop) (mask : Mask) : Vertex → List Edge → Vertex → Prop
  | stop {v} : (∀ e, ¬ SkipStep s p mask v e) → SkipPath s p mask v [] v
  | go {v e es w} : SkipStep s p mask v e → SkipPath s p mask (s.tgt e) es w →
      SkipPath s p mask v (e :: es) w

/-- A token of category "B". -/
def Blank (s : State) (e : Edge) : Prop :=
  Has s.mgr (s.tags e) tokenName ∧ ∃ i, s.item e = .ok i ∧ i.category = [66]

end Verif.Lattice.Spec
