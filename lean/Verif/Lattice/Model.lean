import Verif.Tags.Model
import Verif.Utf8.Model

/-!
Model of the annotation lattice, `common/lattice.{hpp,cpp}`.

* A vertex is an `Int`: a position in the text, or `-1, -2, …` for loose vertices.
* The boost graph is the list of its edges in the order of their creation (edges are never removed
  and parallel edges are allowed, so `boost::add_edge` always succeeds); the edge descriptor of an
  explicit edge is its position in this list.  `boost::out_edges` / `in_edges` list the edges with
  the given source / target in the order of creation.
* The per-vertex lists of edges of an indexed mask are kept as one list per mask; the list of a
  vertex consists of the edges with this source (target).
* The entries of `vvcHash_` are one list of pairs key–edge, in the order of `push_back`.
* Scores are doubles that are only compared; they are rationals here (no NaN).
* The attributes of an annotation item are a list of values; items are compared as a whole
  (annotation_item.cpp 3-7).
* An operation returns its result or the exception and the state afterwards, also when it throws.
  `Exn.undefined` stands for undefined behaviour (access outside a bitset or to an edge or vertex
  that does not exist).
-/
set_option linter.unusedVariables false

namespace Verif.Lattice
open Verif Verif.Tags Verif.Utf8

/-- `VertexDescriptor`, lattice.hpp. -/
scoped notation "Vertex" => Int

/-- `AnnotationItem`, annotation_item.hpp 14-106. -/
structure Item where
  category : Str
  text : Str
  attrs : List Str
  deriving DecidableEq, Inhabited

/-- `EdgeDescriptor`: an implicit symbol edge at a text position or an edge of the graph.  The C++
`operator==` compares the same way. -/
inductive Edge
  | impl (i : Nat)
  | expl (k : Nat)
  deriving DecidableEq

/-- `EdgeUsage`; `none` is `NULL_ZVALUE`. -/
structure Usage where
  edge : Edge
  role : Option Str
  deriving DecidableEq

/-- `EdgeSequence`: a list of edges, or (if empty) the symbol edges between two text positions. -/
structure Sequence where
  links : List Usage
  begin_ : Nat
  end_ : Nat
  deriving DecidableEq, Inhabited

/-- `EdgeSequence::EdgeSequence()`, lattice.cpp 1009. -/
def Sequence.empty : Sequence := ⟨[], 0, 0⟩

/-- `Score` (double). -/
abbrev Score := Rat

/-- `-std::numeric_limits<Score>::max()`. -/
def lowestScore : Score := -(((2 : Rat) ^ 53 - 1) * (2 : Rat) ^ 971)

/-- `Partition`. -/
structure Partition where
  tags : TagSet
  seq : Sequence
  score : Score
  ruleId : Int
  treeChoice : Int
  deriving DecidableEq

/-- `EdgeEntry` together with the endpoints, which boost stores. -/
structure Entry where
  src : Vertex
  tgt : Vertex
  item : Item
  tags : TagSet
  score : Score
  parts : List Partition
  deriving DecidableEq

instance : Inhabited Entry := ⟨⟨0, 0, default, 0, 0, []⟩⟩

/-- The key of `vvcHash_`. -/
structure Key where
  src : Vertex
  tgt : Vertex
  item : Item
  deriving DecidableEq

/-- The lists of one indexed mask. -/
structure MaskIndex where
  mask : Mask
  outs : List Nat
  ins : List Nat

/-- The data members of `Lattice`. -/
structure State where
  text : Str
  implicit : List Bool
  hidden : List Bool
  visible : List Bool
  verts : List Vertex
  nLoose : Nat
  edges : List Entry
  vvc : List (Key × Edge)
  counter : Vertex → Vertex → Nat
  masks : List MaskIndex
  mgr : Manager

/-- The exceptions of exceptions.hpp that are relevant here, those of the UTF-8 library, and
undefined behaviour. -/
inductive Exn
  | loopEdge | reversedEdge | selfReference | noEdge | noVertex | wrongVertex | utf8 | undefined
  deriving DecidableEq

/-- `symbolTag_`: "symbol" is the first tag of a manager. -/
def symbolTag : TagSet := bit 0
/-- `discardedTag_`: the second tag. -/
def discardedTag : TagSet := bit 1
/-- `symbolMask_`. -/
def symbolMask : Mask := Mask.ofTags symbolTag
/-- "discarded". -/
def discardedName : Str := [100, 105, 115, 99, 97, 114, 100, 101, 100]
/-- "token". -/
def tokenName : Str := [116, 111, 107, 101, 110]

/-- The constructor, lattice.cpp 14-23. -/
def initial : State where
  text := []
  implicit := [false]
  hidden := [false]
  visible := [false]
  verts := []
  nLoose := 0
  edges := []
  vvc := []
  counter := fun _ _ => 0
  masks := []
  mgr := ⟨[[115, 121, 109, 98, 111, 108], discardedName, tokenName], 0⟩

/-- `dynamic_bitset::resize`. -/
def resize (l : List Bool) (n : Nat) : List Bool := l.take n ++ List.replicate (n - l.length) false

/-- `appendString`, lattice.cpp 38-46, with `resizeImplicitEdgesStructures_`, 945-949. -/
def appendString (s : State) (t : Str) : State :=
  let text := s.text ++ t
  { s with
    text := text
    implicit := resize s.implicit (text.length + 1)
    hidden := resize s.hidden (text.length + 1)
    visible := resize s.visible (text.length + 1) }

/-- `isLooseVertex`, lattice.cpp 814-816. -/
def isLoose (v : Vertex) : Bool := decide (v < 0)

/-- A vertex that exists. -/
def State.validVertex (s : State) (v : Vertex) : Bool :=
  decide (-(s.nLoose : Int) ≤ v) && decide (v ≤ s.text.length)

/-- `addLooseVertex`, lattice.cpp 73-86. -/
def addLooseVertex (s : State) : Vertex × State :=
  let v : Vertex := -((s.nLoose : Int) + 1)
  (v, { s with nLoose := s.nLoose + 1, verts := s.verts ++ [v] })

/-- A bit of a bitset. -/
def bitAt (l : List Bool) (i : Nat) : Bool := l.getD i false

/-- `symbolLength_`, lattice.cpp 965-967 (the byte after the text is the terminating NUL). -/
def State.symLen (s : State) (i : Nat) : Nat := symbolLength (s.text.getD i 0)

/-- The backward scan of the checked `utf8::prior`, checked.h 172-176; `none` = exception.  The
bytes before the iterator are given in reverse order. -/
def priorLead : Str → Str → Option Str
  | [], _ => none
  | b :: before, acc =>
    if isTrail b then (if before = [] then none else priorLead before (b :: acc))
    else some (b :: acc)

/-- The number of bytes `priorVertex_` goes back: `utf8::prior` (checked.h 164-178) reads the
character between the lead byte found and the original position. -/
def priorLength (before : Str) : Option Nat :=
  match priorLead before.reverse [] with
  | none => none
  | some l => match validateNext l with
    | .error _ => none
    | .ok (cp, _) => some (append cp).length

/-- `priorVertex_`, lattice.cpp 951-963. -/
def State.priorVertex (s : State) (v : Vertex) : Except Exn Nat :=
  if v ≤ 0 then .error .noVertex
  else match priorLength (s.text.take v.toNat) with
    | none => .error .utf8
    | some n => .ok (v.toNat - n)

/-- The entry of an explicit edge. -/
def State.entry (s : State) (k : Nat) : Entry := s.edges.getD k default

/-- `getEdgeSource`, lattice.cpp 572-574, 977-982. -/
def State.src (s : State) : Edge → Vertex
  | .impl i => i
  | .expl k => (s.entry k).src

/-- `getEdgeTarget`, lattice.cpp 576-578, 984-989. -/
def State.tgt (s : State) : Edge → Vertex
  | .impl i => (i + s.symLen i : Nat)
  | .expl k => (s.entry k).tgt

/-- `getEdgeLayerTags`, lattice.cpp 565-570. -/
def State.tags (s : State) : Edge → TagSet
  | .impl _ => symbolTag
  | .expl k => (s.entry k).tags

/-- `getEdgeScore`, lattice.cpp 630-635. -/
def State.score (s : State) : Edge → Score
  | .impl _ => 0
  | .expl k => (s.entry k).score

/-- `getEdgePartitions`, lattice.cpp 621-628. -/
def State.parts (s : State) : Edge → List Partition
  | .impl _ => []
  | .expl k => (s.entry k).parts

/-- `getEdgeAnnotationItem`, lattice.cpp 550-563: the item of an implicit edge is computed from the
character at its position. -/
def State.item (s : State) : Edge → Except Exn Item
  | .expl k => .ok (s.entry k).item
  | .impl i => match validateNext (s.text.drop i) with
    | .error _ => .error .utf8
    | .ok (cp, _) => .ok ⟨39 :: append cp, (s.text.drop i).take (s.symLen i), []⟩

/-- `getEdgeText`, lattice.cpp 641-646, with `getEdgeLength`, 596-605. -/
def State.edgeText (s : State) (e : Edge) : Str :=
  if isLoose (s.src e) || isLoose (s.tgt e) then [64]
  else (s.text.drop (s.src e).toNat).take (s.tgt e - s.src e).toNat

/-- `isEdgeHidden`, lattice.cpp 607-611. -/
def State.isHidden (s : State) : Edge → Bool
  | .impl i => bitAt s.hidden i && !bitAt s.visible i
  | .expl _ => false

/-- `boost::out_edges`. -/
def State.graphOut (s : State) (v : Vertex) : List Nat :=
  (List.range s.edges.length).filter (fun k => decide ((s.entry k).src = v))

/-- `boost::in_edges`. -/
def State.graphIn (s : State) (v : Vertex) : List Nat :=
  (List.range s.edges.length).filter (fun k => decide ((s.entry k).tgt = v))

/-- The implicit edge starting at a vertex, as used in lattice.cpp 383-401, 456-466. -/
def State.implicitOut (s : State) (v : Vertex) : List Edge :=
  if 0 ≤ v ∧ bitAt s.implicit v.toNat = true then [.impl v.toNat] else []

/-- The implicit edge ending at a vertex, as used in lattice.cpp 417-444, 478-495: an exception
other than `NoVertexException` is passed on. -/
def State.implicitIn (s : State) (v : Vertex) : Except Exn (List Edge) :=
  if v < 0 then .ok []
  else match s.priorVertex v with
    | .ok p => .ok (if bitAt s.implicit p then [.impl p] else [])
    | .error .noVertex => .ok []
    | .error e => .error e

/-- `allOutEdges`, lattice.cpp 447-466 (an `InOutEdgesIterator` yields the implicit edge first). -/
def State.allOutEdges (s : State) (v : Vertex) : List Edge :=
  s.implicitOut v ++ (s.graphOut v).map .expl

/-- `allInEdges`, lattice.cpp 468-495. -/
def State.allInEdges (s : State) (v : Vertex) : Except Exn (List Edge) :=
  match s.implicitIn v with
  | .error e => .error e
  | .ok l => .ok (l ++ (s.graphIn v).map .expl)

/-- `indexedTagMasks_.find`. -/
def State.findMask (s : State) (mask : Mask) : Option MaskIndex :=
  s.masks.find? (fun mi => mi.mask.eq mask)

/-- The explicit edges whose tags match. -/
def State.matching (s : State) (mask : Mask) : List Nat :=
  (List.range s.edges.length).filter (fun k => «matches» (s.entry k).tags mask)

/-- `addTagMaskIndex_`, lattice.cpp 916-943. -/
def addTagMaskIndex (s : State) (mask : Mask) : State :=
  match s.findMask mask with
  | some _ => s
  | none => { s with masks := s.masks ++ [⟨mask, s.matching mask, s.matching mask⟩] }

/-- The out-list of a vertex for an indexed mask. -/
def State.indexOut (s : State) (v : Vertex) (mask : Mask) : List Nat :=
  match s.findMask mask with
  | none => []
  | some mi => mi.outs.filter (fun k => decide ((s.entry k).src = v))

/-- The in-list of a vertex for an indexed mask. -/
def State.indexIn (s : State) (v : Vertex) (mask : Mask) : List Nat :=
  match s.findMask mask with
  | none => []
  | some mi => mi.ins.filter (fun k => decide ((s.entry k).tgt = v))

/-- `outEdges`, lattice.cpp 371-402. -/
def outEdges (s : State) (v : Vertex) (mask : Mask) : List Edge × State :=
  if mask.any then (s.allOutEdges v, s)
  else
    let s := addTagMaskIndex s mask
    ((if canBeAppliedToImplicitSymbol mask then s.implicitOut v else []) ++
      (s.indexOut v mask).map .expl, s)

/-- `inEdges`, lattice.cpp 404-445. -/
def inEdges (s : State) (v : Vertex) (mask : Mask) : Except Exn (List Edge) × State :=
  if mask.any then (s.allInEdges v, s)
  else
    let s := addTagMaskIndex s mask
    match s.implicitIn v with
    | .error e => (.error e, s)
    | .ok l => (.ok ((if canBeAppliedToImplicitSymbol mask then l else []) ++
        (s.indexIn v mask).map .expl), s)

/-- The plane tags of a list of edges, `EdgeSequence::gatherPlaneTags`, lattice.cpp 1083-1109. -/
def gatherPlaneTags (s : State) (seq : Sequence) : TagSet :=
  seq.links.foldl (fun t u => createUnion t (onlyPlaneTags s.mgr (s.tags u.edge))) 0

/-- The loop looking for an edge in a sequence of symbol edges, lattice.cpp 185-193 with
`EdgeSequence::Iterator::nextUsage`, 1034-1054 (the mask is already indexed). -/
def findInRange (s : State) (e : Edge) (end_ : Nat) : Nat → Nat → Except Exn Bool
  | 0, _ => .ok false
  | n + 1, si =>
    if si < end_ then
      match (outEdges s si symbolMask).1 with
      | [] => .error .noEdge
      | d :: _ => if d = e then .ok true else findInRange s e end_ n (si + s.symLen si)
    else .ok false

/-- Whether the sequence contains the edge, lattice.cpp 185-193. -/
def sequenceContains (s : State) (seq : Sequence) (e : Edge) : Except Exn Bool × State :=
  if seq.links = [] then
    if seq.begin_ < seq.end_ then
      let s := addTagMaskIndex s symbolMask
      (findInRange s e seq.end_ (seq.end_ - seq.begin_) seq.begin_, s)
    else (.ok false, s)
  else (.ok (seq.links.any (fun u => decide (u.edge = e))), s)

/-- The arguments of `addEdge`. -/
structure Args where
  src : Vertex
  tgt : Vertex
  item : Item
  tags : TagSet
  seq : Sequence := Sequence.empty
  score : Score := 0
  ruleId : Int := -1
  treeChoice : Int := -1

/-- The key of the arguments. -/
def Args.key (a : Args) : Key := ⟨a.src, a.tgt, a.item⟩

/-- The entry of `vvcHash_` for a key. -/
def State.vvcEntry (s : State) (key : Key) : List Edge :=
  (s.vvc.filter (fun p => decide (p.1 = key))).map (·.2)

/-- The first edge of the entry in the same plane, lattice.cpp 168-176. -/
def State.isoplanar (s : State) (key : Key) (tags : TagSet) : Option Edge :=
  (s.vvcEntry key).find? (fun e => areInTheSamePlane s.mgr tags (s.tags e))

/-- Merging into an explicit edge, lattice.cpp 194-208. -/
def mergeInto (s : State) (k : Nat) (a : Args) : State :=
  let old := s.entry k
  let tags := if a.tags ≠ old.tags then createUnion old.tags a.tags else a.tags
  { s with edges := s.edges.set k { old with
      tags := tags
      score := if a.score > old.score then a.score else old.score
      parts := old.parts ++ [⟨tags, a.seq, a.score, a.ruleId, a.treeChoice⟩] } }

/-- `edgeCounterHash_[vpair]` incremented, lattice.cpp 218-224. -/
def bumpCounter (s : State) (u v : Vertex) : State :=
  { s with counter := fun x y => if x = u ∧ y = v then s.counter x y + 1 else s.counter x y }

/-- The second half of `updateVisible`: from `firstInEdge` on, lattice.cpp 230-234. -/
def updateVisibleIn (s : State) (to : Vertex) : Except Exn Unit × State :=
  match inEdges s to symbolMask with
  | (.error e, s) => (.error e, s)
  | (.ok [], s) => (.ok (), s)
  | (.ok (e :: _), s) =>
    if isLoose (s.src e) then (.error .undefined, s)
    else (.ok (), { s with visible := s.visible.set (s.src e).toNat true })

/-- "updating hidden edges", lattice.cpp 226-235; a `NoEdgeException` is swallowed. -/
def updateVisible (s : State) (from_ to : Vertex) : Except Exn Unit × State :=
  match outEdges s from_ symbolMask with
  | ([], s) => (.ok (), s)
  | (_ :: _, s) =>
    if isLoose from_ then (.error .undefined, s)
    else updateVisibleIn { s with visible := s.visible.set from_.toNat true } to

/-- `vertices_` after making sure that a vertex is there, lattice.cpp 256-290. -/
def insertVertex (vs : List Vertex) (v : Vertex) : List Vertex := if v ∈ vs then vs else vs ++ [v]

/-- `hiddenImplicitOutEdges_[vd] = true` for `from ≤ vd < to`, lattice.cpp 315-319. -/
def hideRange (l : List Bool) (from_ to : Vertex) : List Bool :=
  l.mapIdx (fun i b => b || (decide (from_ ≤ i) && decide ((i : Int) < to)))

/-- The real addition of the edge, lattice.cpp 250-324. -/
def addExplicit (s : State) (a : Args) : Edge × State :=
  let k := s.edges.length
  (.expl k, { s with
    verts := insertVertex (insertVertex s.verts a.src) a.tgt
    edges := s.edges ++ [⟨a.src, a.tgt, a.item, a.tags, a.score,
      [⟨a.tags, a.seq, a.score, a.ruleId, a.treeChoice⟩]⟩]
    masks := s.masks.map (fun mi =>
      if «matches» a.tags mi.mask then ⟨mi.mask, mi.outs ++ [k], mi.ins ++ [k]⟩ else mi)
    hidden := if isLoose a.src || isLoose a.tgt then s.hidden else hideRange s.hidden a.src a.tgt
    vvc := s.vvc ++ [(a.key, .expl k)] })

/-- The condition for an implicit edge, lattice.cpp 238-244. -/
def implicitCondition (s : State) (a : Args) : Bool :=
  !isLoose a.src && !isLoose a.tgt && decide (a.tags = symbolTag) &&
    decide (a.src + s.symLen a.src.toNat = a.tgt) && !bitAt s.implicit a.src.toNat

/-- Setting the implicit edge, lattice.cpp 245-248. -/
def addImplicit (s : State) (a : Args) : Edge × State :=
  (.impl a.src.toNat, { s with
    implicit := s.implicit.set a.src.toNat true
    vvc := s.vvc ++ [(a.key, .impl a.src.toNat)] })

/-- The rest of `addNew` after the update of the visible edges. -/
def addNewRest (s : State) (a : Args) : Edge × State :=
  if implicitCondition s a then addImplicit s a else addExplicit s a

/-- Lattice.cpp 216-326 (`needToAddEdge`). -/
def addNew (s : State) (a : Args) : Except Exn Edge × State :=
  let s := bumpCounter s a.src a.tgt
  if a.tags = symbolTag then
    match updateVisible s a.src a.tgt with
    | (.error e, s) => (.error e, s)
    | (.ok _, s) => (.ok (addNewRest s a).1, (addNewRest s a).2)
  else (.ok (addNewRest s a).1, (addNewRest s a).2)

/-- The tags after merging with an implicit edge, lattice.cpp 196-198. -/
def mergedWithImplicit (tags : TagSet) : TagSet :=
  if tags ≠ symbolTag then createUnion symbolTag tags else tags

/-- Merging with an isoplanar edge, lattice.cpp 183-213. -/
def mergeWith (s : State) (e : Edge) (a : Args) : Except Exn Edge × State :=
  match sequenceContains s a.seq e with
  | (.error x, s) => (.error x, s)
  | (.ok true, s) => (.error .selfReference, s)
  | (.ok false, s) => match e with
    | .expl k => (.ok (.expl k), mergeInto s k a)
    | .impl _ => addNew { s with implicit := s.implicit.set a.src.toNat false }
        { a with tags := mergedWithImplicit a.tags }

/-- Inheriting plane tags, lattice.cpp 135-137. -/
def inheritTags (s : State) (a : Args) : Args :=
  { a with tags := if onlyPlaneTags s.mgr a.tags = 0 then
      createUnion a.tags (gatherPlaneTags s a.seq) else a.tags }

/-- Whether a sequence refers to existing edges and text positions. -/
def State.validSequence (s : State) (seq : Sequence) : Bool :=
  seq.links.all (fun u => match u.edge with
    | .expl k => decide (k < s.edges.length)
    | .impl i => decide (i < s.text.length)) && decide (seq.end_ ≤ s.text.length)

/-- `addEdge` after inheriting the plane tags, lattice.cpp 139-337. -/
def addEdgeCore (s : State) (a : Args) : Except Exn Edge × State :=
  if a.src = a.tgt then (.error .loopEdge, s)
  else if 0 ≤ a.src ∧ 0 ≤ a.tgt ∧ a.src > a.tgt then (.error .reversedEdge, s)
  else match s.isoplanar a.key a.tags with
    | none => addNew s a
    | some e => mergeWith s e a

/-- `addEdge`, lattice.cpp 125-339. -/
def addEdge (s : State) (a : Args) : Except Exn Edge × State :=
  if s.validVertex a.src && s.validVertex a.tgt && s.validSequence a.seq then
    addEdgeCore s (inheritTags s a)
  else (.error .undefined, s)

/-- Whether a descriptor can be looked up. -/
def State.validEdge (s : State) : Edge → Bool
  | .expl k => decide (k < s.edges.length)
  | .impl i => decide (i < s.text.length)

/-- `addPartitionToEdge`, lattice.cpp 341-361. -/
def addPartitionToEdge (s : State) (e : Edge) (tags : TagSet) (seq : Sequence) (score : Score)
    (ruleId treeChoice : Int) : Except Exn Edge × State :=
  if s.validEdge e then
    match s.item e with
    | .error x => (.error x, s)
    | .ok item => addEdge s ⟨s.src e, s.tgt e, item,
        createUnion tags (onlyPlaneTags s.mgr (s.tags e)), seq, score, ruleId, treeChoice⟩
  else (.error .undefined, s)

/-- `discard`, lattice.cpp 363-365. -/
def discard (s : State) (e : Edge) : Except Exn Edge × State :=
  addPartitionToEdge s e discardedTag Sequence.empty lowestScore (-1) (-1)

/-- `isDiscarded`, lattice.cpp 367-369 (the name is already known to the manager). -/
def State.isDiscarded (s : State) (e : Edge) : Bool :=
  match isThere s.mgr discardedName (s.tags e) with
  | none => false
  | some (_, b) => b

/-- `countEdges`, lattice.cpp 907-909. -/
def State.countEdges (s : State) (u v : Vertex) : Nat := s.counter u v

/-- The loop of `addSymbols`, lattice.cpp 54-64, from position `vd` on; `rest` is the text between
the iterator and the end. -/
def addSymbolsLoop (s : State) (vd : Nat) (rest : Str) : Except Exn Unit × State :=
  if rest = [] then (.ok (), s)
  else match h : validateNext rest with
    | .error _ => (.error .utf8, s)
    | .ok (cp, rest') =>
      match addEdge s { src := vd, tgt := (vd + (append cp).length : Nat),
                        item := ⟨39 :: append cp, [], []⟩, tags := symbolTag } with
      | (.error e, s') => (.error e, s')
      | (.ok _, s') => addSymbolsLoop s' (vd + (append cp).length) rest'
termination_by rest.length
decreasing_by exact validateNext_lt h

/-- `addSymbols`, lattice.cpp 48-65. -/
def addSymbols (s : State) (startV endV : Vertex) : Except Exn Unit × State :=
  if isLoose startV || isLoose endV then (.error .wrongVertex, s)
  else if startV ≤ endV ∧ endV ≤ s.text.length then
    addSymbolsLoop s startV.toNat ((s.text.drop startV.toNat).take (endV.toNat - startV.toNat))
  else (.error .undefined, s)

/-- `getLastVertex`, lattice.cpp 106-116.  Simplified: if edges leave the end of the text (towards
loose vertices) the order of the vertex iterator decides; the result is then `none`. -/
def State.getLastVertex (s : State) : Option Vertex :=
  if s.allOutEdges s.text.length = [] then some s.text.length else none

/-- `appendStringWithSymbols`, lattice.cpp 67-71. -/
def appendStringWithSymbols (s : State) (t : Str) : Except Exn Unit × State :=
  match s.getLastVertex with
  | none => (.error .undefined, s)
  | some joinPoint =>
    let s := appendString s t
    match s.getLastVertex with
    | none => (.error .undefined, s)
    | some last => addSymbols s joinPoint last

/-- `EdgeSequence::Builder`, lattice.hpp. -/
structure Builder where
  links : List Usage
  begin_ : Nat
  end_ : Nat

/-- A new builder. -/
def Builder.new : Builder := ⟨[], 0, 0⟩

/-- `Builder::addEdge`, lattice.cpp 1142-1161 (`getEdgeBeginIndex`, `getEdgeEndIndex` of an
implicit edge). -/
def Builder.addEdge (s : State) (b : Builder) (u : Usage) : Builder :=
  let be :=
    if b.begin_ ≤ b.end_ ∧ s.isHidden u.edge = true then
      if b.links = [] then ((s.src u.edge).toNat, (s.tgt u.edge).toNat)
      else if s.src u.edge = b.end_ then (b.begin_, (s.tgt u.edge).toNat)
      else (b.begin_, 0)
    else (1, 0)
  ⟨b.links ++ [u], be.1, be.2⟩

/-- `Builder::build`, lattice.cpp 1163-1169. -/
def Builder.build (b : Builder) : Sequence :=
  if b.begin_ < b.end_ then ⟨[], b.begin_, b.end_⟩ else ⟨b.links, 0, 0⟩

/-- Adding several edges to a new builder and building. -/
def buildSequence (s : State) (l : List Usage) : Sequence :=
  (l.foldl (Builder.addEdge s) Builder.new).build

/-- Iterating over symbol edges, `EdgeSequence::Iterator`, lattice.cpp 1012-1054 (the mask is
already indexed). -/
def rangeEdges (s : State) (end_ : Nat) : Nat → Nat → Except Exn (List Edge)
  | 0, _ => .ok []
  | n + 1, si =>
    if si < end_ then
      match (outEdges s si symbolMask).1 with
      | [] => .error .noEdge
      | d :: _ => match rangeEdges s end_ n (si + s.symLen si) with
        | .error e => .error e
        | .ok l => .ok (d :: l)
    else .ok []

/-- The edges listed by an iterator over the whole sequence, lattice.cpp 1012-1054. -/
def sequenceEdges (s : State) (seq : Sequence) : Except Exn (List Edge) × State :=
  if seq.links = [] then
    if seq.begin_ < seq.end_ then
      let s := addTagMaskIndex s symbolMask
      (rangeEdges s seq.end_ (seq.end_ - seq.begin_) seq.begin_, s)
    else (.ok [], s)
  else (.ok (seq.links.map (·.edge)), s)

/-- The result of the loop of `getPath`: the builder, the last vertex and the state; `none` when
the fuel runs out. -/
def getPathLoop (mask : Mask) : Nat → State → Builder → Vertex → Option (Builder × Vertex × State)
  | 0, _, _, _ => none
  | n + 1, s, b, v =>
    match outEdges s v mask with
    | ([], s) => some (b, v, s)
    | (e :: es, s) =>
      let best := (e :: es).getLast (by simp)
      getPathLoop mask n s (Builder.addEdge s b ⟨best, none⟩) (s.tgt best)

/-- `getPath`, lattice.cpp 783-805: the sequence, the last vertex and the state, if the loop ends
within `fuel` rounds. -/
def getPath (fuel : Nat) (s : State) (v : Vertex) (mask : Mask) : Option (Sequence × Vertex × State) :=
  (getPathLoop mask fuel s Builder.new v).map (fun r => (r.1.build, r.2.1, r.2.2))

end Verif.Lattice
