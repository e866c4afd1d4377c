import Verif.Lattice.Model

/-!
Model of running a cutter (a tokenizer or a segmenter) on a lattice, `Lattice::runCutter`,
common/lattice.cpp 763-770 and 1228-1290.

* A cutter is any state machine that is given the text and a position and returns an item and the
  next position (`none` = `std::string::npos`), cutter.hpp 20-40.  Exceptions thrown by the cutter
  itself are not modelled.
* The vertices are walked without loose vertices only; `WalkModel` has the whole iterator.
-/
set_option linter.unusedVariables false

namespace Verif.Lattice
open Verif Verif.Tags

/-- `Cutter`, cutter.hpp 20-40: the state after `reset()`, `cutOff` and `layerTags()`. -/
structure CutFn (σ : Type) where
  start : σ
  cut : σ → Str → Nat → Item × Option Nat × σ
  layerTags : List Str

/-- `EdgeSequence::Iterator`, lattice.cpp 1012-1020. -/
structure Iter where
  seq : Sequence
  ei : Nat
  si : Nat

/-- The constructor, lattice.cpp 1012-1020. -/
def Iter.start (q : Sequence) : Iter := ⟨q, 0, q.begin_⟩

/-- `hasNext`, lattice.cpp 1022-1028. -/
def Iter.hasNext (it : Iter) : Bool :=
  if it.seq.links = [] then decide (it.si < it.seq.end_) else decide (it.ei < it.seq.links.length)

/-- `firstOutEdge`, lattice.cpp 497-510. -/
def firstOut (s : State) (v : Vertex) (mask : Mask) : Except Exn Edge × State :=
  match outEdges s v mask with
  | ([], s) => (.error .noEdge, s)
  | (e :: _, s) => (.ok e, s)

/-- `firstInEdge`, lattice.cpp 512-524. -/
def firstIn (s : State) (v : Vertex) (mask : Mask) : Except Exn Edge × State :=
  match inEdges s v mask with
  | (.error x, s) => (.error x, s)
  | (.ok [], s) => (.error .noEdge, s)
  | (.ok (e :: _), s) => (.ok e, s)

/-- `next`, lattice.cpp 1030-1054. -/
def Iter.next (s : State) (it : Iter) : Except Exn Edge × Iter × State :=
  if it.seq.links = [] then
    if it.si < it.seq.end_ then
      let r := firstOut s it.si symbolMask
      (r.1, { it with si := it.si + s.symLen it.si }, r.2)
    else (.error .noEdge, it, s)
  else match it.seq.links[it.ei]? with
    | none => (.error .noEdge, it, s)
    | some u => (.ok u.edge, { it with ei := it.ei + 1 }, s)

/-- `EdgeSequence::firstEdge`, lattice.cpp 1056-1065. -/
def Sequence.firstEdge (s : State) (q : Sequence) : Except Exn Edge × State :=
  match q.links.head? with
  | none => firstOut s q.begin_ symbolMask
  | some u => (.ok u.edge, s)

/-- `EdgeSequence::lastEdge`, lattice.cpp 1067-1076. -/
def Sequence.lastEdge (s : State) (q : Sequence) : Except Exn Edge × State :=
  match q.links.getLast? with
  | none => firstIn s q.end_ symbolMask
  | some u => (.ok u.edge, s)

/-- `EdgeSequence::empty`, lattice.cpp 1111-1113. -/
def Sequence.isEmpty (q : Sequence) : Bool := q.links.isEmpty && decide (q.end_ ≤ q.begin_)

/-- An upper bound for the number of edges that an iterator still yields. -/
def Iter.left (it : Iter) : Nat :=
  if it.seq.links = [] then it.seq.end_ - it.si else it.seq.links.length - it.ei

/-- The loop of `cutSequenceByTextLength_`, lattice.cpp 1279-1283. -/
def cutLoop (length : Int) : Nat → State → Iter → Builder → Nat → Except Exn Builder × Iter × State
  | 0, s, it, b, _ => (.ok b, it, s)
  | n + 1, s, it, b, gathered =>
    if it.hasNext && decide ((gathered : Int) < length) then
      match it.next s with
      | (.error x, it, s) => (.error x, it, s)
      | (.ok e, it, s) => cutLoop length n s it (b.addEdge s ⟨e, none⟩)
          (gathered + (s.edgeText e).length)
    else (.ok b, it, s)

/-- `cutSequenceByTextLength_`, lattice.cpp 1271-1286. -/
def cutSequence (s : State) (it : Iter) (length : Int) : Except Exn Sequence × Iter × State :=
  match cutLoop length it.left s it Builder.new 0 with
  | (.error x, it, s) => (.error x, it, s)
  | (.ok b, it, s) => (.ok b.build, it, s)

/-- `addEdge` for one item, lattice.cpp 1262-1266, with `firstSequenceVertex_` and
`lastSequenceVertex_`, 1228-1235. -/
def addPiece (s : State) (q : Sequence) (item : Item) (tags : TagSet) : Except Exn Edge × State :=
  match q.firstEdge s with
  | (.error x, s) => (.error x, s)
  | (.ok a, s) => match q.lastEdge s with
    | (.error x, s) => (.error x, s)
    | (.ok b, s) => addEdge s { src := s.src a, tgt := s.tgt b, item := item, tags := tags, seq := q }

/-- The loop of `runCutterOnEdge_`, lattice.cpp 1253-1268; `none` when the fuel runs out. -/
def pieceLoop {σ : Type} (c : CutFn σ) (text : Str) (tags : TagSet) :
    Nat → State → Iter → σ → Nat → Option (Except Exn Unit × State)
  | 0, _, _, _, _ => none
  | n + 1, s, it, x, pos =>
    match c.cut x text pos with
    | (item, pos', x') =>
      match cutSequence s it ((pos'.getD text.length : Nat) - (pos : Int)) with
      | (.error e, _, s) => some (.error e, s)
      | (.ok q, it, s) => match addPiece s q item tags with
        | (.error e, s) => some (.error e, s)
        | (.ok _, s) => match pos' with
          | none => some (.ok (), s)
          | some p => if p < text.length then pieceLoop c text tags n s it x' p
              else some (.ok (), s)

/-- `getSequenceText`, lattice.cpp 647-663. -/
def sequenceText (s : State) (q : Sequence) : Except Exn Str × State :=
  match sequenceEdges s q with
  | (.error x, s) => (.error x, s)
  | (.ok es, s) => (.ok (es.flatMap s.edgeText), s)

/-- `runCutterOnEdge_` from `getSequenceTextAsStringFrag` on, lattice.cpp 1246-1268. -/
def runOnSequence {σ : Type} (c : CutFn σ) (fuel : Nat) (s : State) (q : Sequence) :
    Option (Except Exn Unit × State) :=
  match sequenceText s q with
  | (.error x, s) => some (.error x, s)
  | (.ok text, s) => match createTagCollection s.mgr c.layerTags with
    | none => some (.error .undefined, s)
    | some (m, tags) => pieceLoop c text tags fuel { s with mgr := m } (Iter.start q) c.start 0

/-- `runCutterOnEdge_`, lattice.cpp 1237-1269; `v` is the source of the edge. -/
def runCutterAt {σ : Type} (c : CutFn σ) (fuel : Nat) (s : State) (v : Vertex) (mask : Mask) :
    Option (Except Exn Unit × State) :=
  match getPath fuel s v mask with
  | none => none
  | some (q, _, s) => if q.isEmpty then some (.ok (), s) else runOnSequence c fuel s q

/-- The cutter run on several edges one after another, lattice.cpp 766-769. -/
def runOnEdges {σ : Type} (c : CutFn σ) (fuel : Nat) (mask : Mask) :
    List Edge → State → Option (Except Exn Unit × State)
  | [], s => some (.ok (), s)
  | e :: es, s => match runCutterAt c fuel s (s.src e) mask with
    | none => none
    | some (.error x, s) => some (.error x, s)
    | some (.ok _, s) => runOnEdges c fuel mask es s

/-- The vertices from `vd` on, lattice.cpp 1327-1360 (no loose vertices), and at each the edges of the
super mask, 1427-1475.  Simplified: the edges of a vertex are those listed when the vertex is
reached. -/
def runFrom {σ : Type} (c : CutFn σ) (fuel : Nat) (mask super : Mask) :
    Nat → Nat → State → Option (Except Exn Unit × State)
  | 0, _, s => some (.ok (), s)
  | n + 1, vd, s =>
    if vd ≤ s.text.length then
      match outEdges s vd super with
      | (es, s) => match runOnEdges c fuel mask es s with
        | none => none
        | some (.error x, s) => some (.error x, s)
        | some (.ok _, s) =>
          runFrom c fuel mask super n (if vd < s.text.length then vd + s.symLen vd else vd + 1) s
    else some (.ok (), s)

/-- `runCutter`, lattice.cpp 763-770. -/
def runCutter {σ : Type} (c : CutFn σ) (fuel : Nat) (s : State) (mask super : Mask) :
    Option (Except Exn Unit × State) :=
  runFrom c fuel mask super (s.text.length + 1) 0 s

end Verif.Lattice
