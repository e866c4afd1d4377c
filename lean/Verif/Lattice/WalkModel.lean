import Verif.Lattice.CutModel

/-!
Model of the iterators over the vertices and the edges of a lattice, `VertexIterator`, `SortedEdgesIterator`,
`EdgesSortedBySourceIterator`, `EdgesSortedByTargetIterator`, common/lattice.cpp 1288-1386 and 1433-1493.

* `boost::topological_sort` may return any topological order of the graph; the order is a parameter.  That it throws
  `not_a_dag` if there is none is not modelled.
* `std::stable_sort` is the merge sort of the library.
* An iterator that has thrown an exception is not used any more.
-/
set_option linter.unusedVariables false

namespace Verif.Lattice
open Verif Verif.Tags

/-- `VertexIterator`, lattice.hpp 277-294; `rest` is what is left of `iterContainer_`, `none` without loose vertices. -/
structure VIter where
  vd : Nat
  rest : Option (List Vertex)
  skip : Bool

/-- `shouldBeSkipped_`, lattice.cpp 1365-1370. -/
def skipped (s : State) (skip : Bool) (vd : Nat) : Except Exn Bool :=
  if skip && !decide ((vd : Vertex) ∈ s.verts) && !bitAt s.implicit vd then
    if vd = 0 then .ok true
    else match s.priorVertex vd with
      | .error x => .error x
      | .ok p => .ok (!bitAt s.implicit p)
  else .ok false

/-- `nextRealVertex_`, lattice.cpp 1358-1363. -/
def nextReal (s : State) (vd : Nat) : Nat := if vd < s.text.length then vd + s.symLen vd else vd + 1

/-- The loop of `hasNext` and `next`, lattice.cpp 1332-1338, 1346-1354: the first position from `vd` on that is not
skipped, or one behind the text. -/
def seekVertex (s : State) (skip : Bool) : Nat → Nat → Except Exn Nat
  | 0, vd => .ok vd
  | n + 1, vd =>
    if vd ≤ s.text.length then
      match skipped s skip vd with
      | .error x => .error x
      | .ok true => seekVertex s skip n (nextReal s vd)
      | .ok false => .ok vd
    else .ok vd

/-- `hasNext`, lattice.cpp 1328-1340. -/
def VIter.hasNext (s : State) (it : VIter) : Except Exn (Bool × VIter) :=
  match it.rest with
  | some l => .ok (!l.isEmpty, it)
  | none => match seekVertex s it.skip (s.text.length + 1) it.vd with
    | .error x => .error x
    | .ok vd => .ok (decide (vd ≤ s.text.length), { it with vd := vd })

/-- The part of `next` for the positions of the text, lattice.cpp 1346-1355. -/
def VIter.nextText (s : State) (it : VIter) : Except Exn (Vertex × VIter) :=
  match seekVertex s it.skip (s.text.length + 1) it.vd with
  | .error x => .error x
  | .ok vd => if vd ≤ s.text.length then .ok (vd, { it with vd := nextReal s vd }) else .error .noVertex

/-- `next`, lattice.cpp 1342-1355. -/
def VIter.next (s : State) (it : VIter) : Except Exn (Vertex × VIter) :=
  match it.rest with
  | some (v :: l) => .ok (v, { it with rest := some l })
  | some [] => it.nextText s
  | none => it.nextText s

/-- `f_`, lattice.cpp 1372-1386; the recursion goes along edges of a graph without cycles, so the number of vertices is
enough. -/
def place (s : State) : Nat → Vertex → Int
  | 0, v => if 0 ≤ v then v else -1
  | n + 1, v => if 0 ≤ v then v else
      (s.graphIn v).foldl (fun m k => if place s n (s.entry k).src > m then place s n (s.entry k).src else m) (-1)

/-- The positions of the text added to the container, lattice.cpp 1310-1322. -/
def missing (s : State) (skip : Bool) : Nat → Nat → Except Exn (List Nat)
  | 0, _ => .ok []
  | n + 1, vd =>
    if vd < s.text.length then
      if (vd : Vertex) ∈ s.verts then missing s skip n (vd + s.symLen vd)
      else match skipped s skip vd with
        | .error x => .error x
        | .ok b => (missing s skip n (vd + s.symLen vd)).map (fun l => if b then l else vd :: l)
    else .ok (if (vd : Vertex) ∈ s.verts then [] else [vd])

/-- The constructor, lattice.cpp 1296-1326; `order` is the result of `boost::topological_sort`. -/
def VIter.start (s : State) (order : List Vertex) (skip : Bool) : Except Exn VIter :=
  if s.nLoose = 0 then .ok ⟨0, none, skip⟩
  else match missing s skip (s.text.length + 1) 0 with
    | .error x => .error x
    | .ok l =>
      let container := order.map (fun v => (v, place s s.verts.length v)) ++ l.map (fun (vd : Nat) => ((vd : Vertex), (vd : Int)))
      .ok ⟨0, some ((container.mergeSort (fun a b => decide (a.2 ≤ b.2))).map (·.1)), skip⟩

/-- `while (vi.hasNext()) … vi.next()`: all vertices; `none` when the fuel runs out. -/
def VIter.all (s : State) : Nat → VIter → Option (Except Exn (List Vertex))
  | 0, _ => none
  | n + 1, it => match it.hasNext s with
    | .error x => some (.error x)
    | .ok (false, _) => some (.ok [])
    | .ok (true, it) => match it.next s with
      | .error x => some (.error x)
      | .ok (v, it) => (VIter.all s n it).map (fun r => r.map (fun l => v :: l))

/-- `SortedEdgesIterator`, lattice.hpp 349-376: by source or by target; `edges` is what is left of `ei_`. -/
structure SIter where
  vertices : VIter
  edges : List Edge
  byTarget : Bool
  mask : Mask

/-- `getEdgesIterator_`, lattice.cpp 1473-1477, 1489-1493. -/
def SIter.edgesAt (s : State) (it : SIter) (v : Vertex) : Except Exn (List Edge) × State :=
  if it.byTarget then inEdges s v it.mask
  else match outEdges s v it.mask with
    | (es, s) => (.ok es, s)

/-- The loop of `hasNext` and `next`, lattice.cpp 1444-1447, 1453-1456; `none` when the fuel runs out. -/
def SIter.seek : Nat → State → SIter → Option (Except Exn (Bool × SIter) × State)
  | 0, _, _ => none
  | n + 1, s, it =>
    match it.vertices.hasNext s with
    | .error x => some (.error x, s)
    | .ok (false, vi) => some (.ok (false, { it with vertices := vi }), s)
    | .ok (true, vi) => match vi.next s with
      | .error x => some (.error x, s)
      | .ok (v, vi) => match it.edgesAt s v with
        | (.error x, s) => some (.error x, s)
        | (.ok (e :: es), s) => some (.ok (true, { it with vertices := vi, edges := e :: es }), s)
        | (.ok [], s) => SIter.seek n s { it with vertices := vi, edges := [] }

/-- `hasNext`, lattice.cpp 1442-1449. -/
def SIter.hasNext (fuel : Nat) (s : State) (it : SIter) : Option (Except Exn (Bool × SIter) × State) :=
  match it.edges with
  | _ :: _ => some (.ok (true, it), s)
  | [] => SIter.seek fuel s it

/-- `next`, lattice.cpp 1451-1458. -/
def SIter.next (fuel : Nat) (s : State) (it : SIter) : Option (Except Exn (Edge × SIter) × State) :=
  match it.edges with
  | e :: es => some (.ok (e, { it with edges := es }), s)
  | [] => match SIter.seek fuel s it with
    | none => none
    | some (.error x, s) => some (.error x, s)
    | some (.ok (_, it), s) => match it.edges with
      | e :: es => some (.ok (e, { it with edges := es }), s)
      | [] => some (.error .noEdge, s)

/-- The constructors, lattice.cpp 1433-1440, 1463-1471, 1479-1487: the edges at the first vertex are looked up. -/
def SIter.start (s : State) (order : List Vertex) (byTarget : Bool) (mask : Mask) : Except Exn SIter × State :=
  match VIter.start s order true with
  | .error x => (.error x, s)
  | .ok vi =>
    let it : SIter := ⟨vi, [], byTarget, mask⟩
    match it.edgesAt s 0 with
    | (.error x, s) => (.error x, s)
    | (.ok es, s) => match vi.hasNext s with
      | .error x => (.error x, s)
      | .ok (false, vi) => (.ok { it with vertices := vi, edges := es }, s)
      | .ok (true, vi) => match vi.next s with
        | .error x => (.error x, s)
        | .ok (v, vi) => match it.edgesAt s v with
          | (.error x, s) => (.error x, s)
          | (.ok es, s) => (.ok { it with vertices := vi, edges := es }, s)

/-- `while (ei.hasNext()) … ei.next()`: all edges; `none` when the fuel runs out. -/
def SIter.all (fuel : Nat) : Nat → State → SIter → Option (Except Exn (List Edge) × State)
  | 0, _, _ => none
  | n + 1, s, it => match it.hasNext fuel s with
    | none => none
    | some (.error x, s) => some (.error x, s)
    | some (.ok (false, _), s) => some (.ok [], s)
    | some (.ok (true, it), s) => match it.next fuel s with
      | none => none
      | some (.error x, s) => some (.error x, s)
      | some (.ok (e, it), s) => (SIter.all fuel n s it).map (fun r => (r.1.map (fun l => e :: l), r.2))

end Verif.Lattice
