import Verif.Lattice.CutModel
import Verif.Lattice.Spec
import Mathlib.Data.List.Forall2

/-!
What running a cutter on a lattice ought to do.
-/
namespace Verif.Lattice.Spec
open Verif Verif.Lattice

/-- `Cuts c text x pos l`: the cutter, in state `x` and at position `pos`, cuts the rest of the text
into the items `l`, given with the lengths of their texts. -/
inductive Cuts {σ : Type} (c : CutFn σ) (text : Str) : σ → Nat → List (Item × Nat) → Prop
  | last {x pos} : (c.cut x text pos).2.1 = none ∨ (c.cut x text pos).2.1 = some text.length →
      Cuts c text x pos [((c.cut x text pos).1, text.length - pos)]
  | more {x pos p l} : (c.cut x text pos).2.1 = some p → pos < p → p < text.length →
      Cuts c text (c.cut x text pos).2.2 p l →
      Cuts c text x pos (((c.cut x text pos).1, p - pos) :: l)

/-- The path from a vertex: always the last of the edges that match the mask. -/
inductive Path (s : State) (mask : Tags.Mask) : Vertex → List Edge → Vertex → Prop
  | stop {v} : (outEdges s v mask).1 = [] → Path s mask v [] v
  | go {v e es w} : (outEdges s v mask).1.getLast? = some e → Path s mask (s.tgt e) es w →
      Path s mask v (e :: es) w

/-- The text of a list of edges. -/
def textOf (s : State) (es : List Edge) : Str := es.flatMap s.edgeText

/-- The item can be put on the edges `g`: they make up its text, and it is not an item that one of
them has been given already. -/
structure Fits (s : State) (p : Item × Nat) (g : List Edge) : Prop where
  some_ : g ≠ []
  length : (textOf s g).length = p.2
  new : ∀ e, g = [e] → s.item e ≠ .ok p.1
  ordinary : ∀ u v, Chain s u g v → Ordinary s ⟨u, v, p.1⟩

/-- The edge `e` is the item `p`, made of the edges `g`. -/
structure Token (s : State) (tags : Tags.TagSet) (p : Item × Nat) (g : List Edge) (e : Edge) : Prop where
  present : Present s e
  item : s.item e = .ok p.1
  length : (s.edgeText e).length = p.2
  tags : SubTags tags (s.tags e)
  chain : Chain s (s.src e) g (s.tgt e)
  part : ∃ q ∈ s.parts e, (sequenceEdges s q.seq).1 = .ok g

end Verif.Lattice.Spec
