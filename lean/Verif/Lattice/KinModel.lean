import Verif.Lattice.CutModel

/-!
Model of the descent of edges and of paths that skip blanks: `getChildren`, `getParent`,
`getEdgeOrigin`, `getEdgeLemma`, common/lattice.cpp 680-760, `isBlank`, 772-780,
`getPathSkippingBlanks`, 807-812, and `getPathWithSkipping`, common/lattice.hpp 889-929.

* `none` = the loop has not ended after `fuel` rounds.
* The predicate of `getPathWithSkipping` is any function of the lattice and an edge that leaves the
  lattice as it is.
-/
set_option linter.unusedVariables false

namespace Verif.Lattice
open Verif Verif.Tags

/-! ### Children -/

/-- The loop over one partition, lattice.cpp 703-709: how often the parent is used.  `n` is at
least the number of the edges of the partition. -/
def useLoop (parent : Edge) : Nat → State → Iter → Except Exn Nat × State
  | 0, s, _ => (.ok 0, s)
  | n + 1, s, it =>
    if it.hasNext then
      match it.next s with
      | (.error x, _, s) => (.error x, s)
      | (.ok e, it, s) => match useLoop parent n s it with
        | (.error x, s) => (.error x, s)
        | (.ok k, s) => (.ok (if e = parent then k + 1 else k), s)
    else (.ok 0, s)

/-- The loop over the partitions, lattice.cpp 702-710. -/
def usesIn (parent : Edge) : List Partition → State → Except Exn Nat × State
  | [], s => (.ok 0, s)
  | p :: ps, s => match useLoop parent (Iter.start p.seq).left s (Iter.start p.seq) with
    | (.error x, s) => (.error x, s)
    | (.ok k, s) => match usesIn parent ps s with
      | (.error x, s) => (.error x, s)
      | (.ok k', s) => (.ok (k + k'), s)

/-- The loop over the edges, lattice.cpp 694-712. -/
def childLoop (parent : Edge) (target : Vertex) : List Edge → State → Except Exn (List Edge) × State
  | [], s => (.ok [], s)
  | c :: cs, s =>
    if s.tgt c = target then
      match usesIn parent (s.parts c) s with
      | (.error x, s) => (.error x, s)
      | (.ok k, s) => match childLoop parent target cs s with
        | (.error x, s) => (.error x, s)
        | (.ok l, s) => (.ok (List.replicate k c ++ l), s)
    else childLoop parent target cs s

/-- `getChildren`, lattice.cpp 680-715. -/
def getChildren (s : State) (parent : Edge) (mask : Mask) : Except Exn (List Edge) × State :=
  match outEdges s (s.src parent) mask with
  | (cs, s) => childLoop parent (s.tgt parent) cs s

/-! ### Parents -/

/-- The loop over one partition, lattice.cpp 730-735. -/
def parentLoop (mask : Mask) : Nat → State → Iter → Except Exn (Option Edge) × State
  | 0, s, _ => (.ok none, s)
  | n + 1, s, it =>
    if it.hasNext then
      match it.next s with
      | (.error x, _, s) => (.error x, s)
      | (.ok e, it, s) =>
        if «matches» (s.tags e) mask then (.ok (some e), s) else parentLoop mask n s it
    else (.ok none, s)

/-- The loop over the partitions, lattice.cpp 727-738. -/
def parentIn (mask : Mask) : List Partition → State → Except Exn (Option Edge) × State
  | [], s => (.ok none, s)
  | p :: ps, s => match parentLoop mask (Iter.start p.seq).left s (Iter.start p.seq) with
    | (.error x, s) => (.error x, s)
    | (.ok (some e), s) => (.ok (some e), s)
    | (.ok none, s) => parentIn mask ps s

/-- `getParent`, lattice.cpp 721-738. -/
def getParent (s : State) (child : Edge) (mask : Mask) : Except Exn (Option Edge) × State :=
  parentIn mask (s.parts child) s

/-- The loop of `getEdgeOrigin`, lattice.cpp 746-752; `isThere` registers the name. -/
def originLoop (name : Str) : Nat → State → Option Edge → Option (Except Exn (Option Edge) × State)
  | 0, _, _ => none
  | _ + 1, s, none => some (.ok none, s)
  | n + 1, s, some p => match isThere s.mgr name (s.tags p) with
    | none => some (.error .undefined, s)
    | some (m, true) => some (.ok (some p), { s with mgr := m })
    | some (m, false) => match getParent { s with mgr := m } p (Mask.ofBool true) with
      | (.error x, s) => some (.error x, s)
      | (.ok q, s) => originLoop name n s q

/-- `getEdgeOrigin`, lattice.cpp 741-754. -/
def getEdgeOrigin (fuel : Nat) (s : State) (name : Str) (e : Edge) :
    Option (Except Exn (Option Edge) × State) :=
  match getParent s e (Mask.ofBool true) with
  | (.error x, s) => some (.error x, s)
  | (.ok p, s) => originLoop name fuel s p

/-! ### Paths -/

/-- `tokenMask_`: "token" is the third tag of a manager, lattice.cpp 19. -/
def tokenMask : Mask := Mask.ofTags (bit 2)

/-- `isBlank`, lattice.cpp 772-780. -/
def isBlank (s : State) (e : Edge) : Bool :=
  «matches» (s.tags e) tokenMask && match s.item e with
    | .error _ => false
    | .ok i => i.category == [66]

/-- The loop over the other edges, lattice.hpp 911-916: after an edge that satisfies the predicate
the iterator is moved once more, which throws behind the last edge. -/
def skipScan (p : Edge → Bool) : Edge → List Edge → Except Exn Edge
  | best, [] => .ok best
  | best, c :: rest =>
    if p c then match rest with
      | [] => .error .noEdge
      | d :: rest => skipScan p d rest
    else skipScan p best rest

/-- The loop of `getPathWithSkipping`, lattice.hpp 899-926. -/
def skipLoop (p : State → Edge → Bool) (mask : Mask) :
    Nat → State → Builder → Vertex → Option (Except Exn (Builder × Vertex) × State)
  | 0, _, _, _ => none
  | n + 1, s, b, v =>
    match outEdges s v mask with
    | (e :: es, s) =>
      let best := (e :: es).getLast (by simp)
      skipLoop p mask n s (Builder.addEdge s b ⟨best, none⟩) (s.tgt best)
    | ([], s) => match s.allOutEdges v with
      | [] => some (.ok (b, v), s)
      | e :: es => match skipScan (p s) e es with
        | .error x => some (.error x, s)
        | .ok best => skipLoop p mask n s (Builder.addEdge s b ⟨best, none⟩) (s.tgt best)

/-- `getPathWithSkipping`, lattice.hpp 889-929. -/
def getPathWithSkipping (p : State → Edge → Bool) (fuel : Nat) (s : State) (v : Vertex) (mask : Mask) :
    Option (Except Exn (Sequence × Vertex) × State) :=
  (skipLoop p mask fuel s Builder.new v).map (fun r => (r.1.map (fun q => (q.1.build, q.2)), r.2))

/-- `getPathSkippingBlanks`, lattice.cpp 807-812. -/
def getPathSkippingBlanks (fuel : Nat) (s : State) (v : Vertex) (mask : Mask) :
    Option (Except Exn (Sequence × Vertex) × State) :=
  getPathWithSkipping isBlank fuel s v mask

end Verif.Lattice
