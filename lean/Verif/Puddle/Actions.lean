import Verif.Basic
import Verif.Numconv.Text

/-!
# Actions of the puddle parser on the edges of the tokens

Model of `tools/parsers/puddle/unify_action.cpp`, `delete_action.cpp` and, in
`lattice_wrapper.cpp`, of the lines 987–1075.

What is at the vertices of a lattice is looked up with `getVertex` and `getTopEdges`; here it is
given: for each index of an action, nothing if its element has matched no token, and otherwise for
each token the list of the top edges there.  It is looked up once, before anything is discarded, while
the code does so again in each step.  Matching regular expressions is given by functions.
-/

namespace Verif.Puddle

open Verif.Numconv

/-- What the indices of an action refer to. -/
abbrev Groups (ε : Type) := List (Option (List (List ε)))

/-- The tokens that the loops come to (unify_action.cpp:73-98, 154-182, 252-276). -/
def Groups.places {ε : Type} (gs : Groups ε) : List (List ε) := gs.flatMap fun g => g.getD []

/-- The values of an attribute at a token (unify_action.cpp:282-300). -/
def valuesAt {ε : Type} (gone : ε → Bool) (read : ε → Option Str) (edges : List ε) : List Str :=
  edges.filterMap fun e => if gone e then none else read e

/-- What a token does to `refValues` (unify_action.cpp:301-315). -/
def refStep (refs values : List Str) : List Str :=
  if values ≠ [] then
    if refs = [] then values else refs.filter fun v => values.contains v
  else refs

/-- `isUnifyingPossible` (unify_action.cpp:237-338) with `nullAgreement`, for which it does not matter
whether tokens have no values.  Each attribute is what its pattern reads from an edge. -/
def unifiable {ε : Type} (gone : ε → Bool) (reads : List (ε → Option Str)) (places : List (List ε)) : Bool :=
  reads.all fun read => (places.foldl (fun refs p => refStep refs (valuesAt gone read p)) []) ≠ []

/-- `generateInterpretationsVector` (unify_action.cpp:65-129), for one edge. -/
def interpretation {ε : Type} (gone : ε → Bool) (reads : List (ε → Option Str)) (e : ε) : List Str :=
  if gone e then [] else reads.map fun read => (read e).getD []

/-- `boost::algorithm::join`. -/
def joined (sep : Str) : List Str → Str
  | [] => []
  | [s] => s
  | s :: ss => s ++ sep ++ joined sep ss

/-- `generateUnifiedInterpretationStrings` (unify_action.cpp:131-143); the order of the strings is not
modelled. -/
def unifiedStrings {ε : Type} (gone : ε → Bool) (reads : List (ε → Option Str)) (places : List (List ε)) : List Str :=
  (places.flatMap fun p => p.map fun e => joined b!":([^:]+:)*" (interpretation gone reads e)).eraseDups

/-- The loop over the tokens for one string (unify_action.cpp:152-227), with the sequences so far;
`none` if the string is not there at some token. -/
def keepLoop {ε : Type} (fits : ε → Bool) : List (List ε) → List (List ε) → Option (List (List ε))
  | [], seqs => some seqs
  | p :: ps, seqs =>
    let found := p.filter fits
    if found = [] then none
    else keepLoop fits ps
      (if seqs ≠ [] then seqs.flatMap fun l => found.map fun e => l ++ [e] else found.map fun e => [e])

/-- `generateUnifiedEdgesList` (unify_action.cpp:145-235); `fits s e` if the expression `s` is found in
the morphology of `e`. -/
def edgesToKeep {ε : Type} (gone : ε → Bool) (fits : Str → ε → Bool) (strings : List Str)
    (places : List (List ε)) : List (List ε) :=
  strings.flatMap fun s => (keepLoop (fun e => !gone e && fits s e) places []).getD []

/-- `unifiedMorphoStrings` (unify_action.cpp:344-364): what is at `i` after all sequences have been
read. -/
def morphosAt {ε : Type} (morph : ε → Str) (keep : List (List ε)) (i : Nat) : List Str :=
  keep.filterMap fun l => l[i]?.map morph

/-- The edges that `discardUnunifiedEdges` (unify_action.cpp:366-401) discards, from the index `i`. -/
def discardLoop {ε : Type} (morph : ε → Str) (keep : List (List ε)) : Nat → Groups ε → List ε
  | _, [] => []
  | i, none :: gs => discardLoop morph keep (i + 1) gs
  | i, some ps :: gs =>
    ps.flatten.filter (fun e => !(morphosAt morph keep i).contains (morph e)) ++
      discardLoop morph keep (i + 1) gs

/-- `discardUnunifiedEdges` (unify_action.cpp:340-403): the edges that are discarded; `none` if a
sequence is longer than the vector with an entry for each index. -/
def discardUnunified {ε : Type} (morph : ε → Str) (keep : List (List ε)) (gs : Groups ε) : Option (List ε) :=
  if keep.all fun l => l.length ≤ gs.length then some (discardLoop morph keep 0 gs) else none

/-- An edge in a sequence, as far as `sequenceContainsEdge` looks at it: where it begins, and its
annotation item. -/
abbrev Placed (α : Type) := Nat × α

/-- `sequenceContainsEdge` (lattice_wrapper.cpp:1029-1047). -/
def sequenceContains {α : Type} [DecidableEq α] (e : Placed α) : List (Placed α) → Bool
  | [] => false
  | d :: ds => if d.1 = e.1 then e.2 = d.2 else sequenceContains e ds

/-- `getPartitionsContainingEdges` (lattice_wrapper.cpp:1049-1075). -/
def partitionsContaining {α : Type} [DecidableEq α] (partitions : List (List (Placed α)))
    (edges : List (Placed α)) : List (List (Placed α)) :=
  if edges = [] then partitions else partitions.filter fun p => edges.all fun e => sequenceContains e p

/-- The partitions after `UnifyAction::apply` (unify_action.cpp:16-47), which always returns `true`. -/
def unifiedPartitions {α : Type} [DecidableEq α] (partitions : List (List (Placed α)))
    (keep : List (List (Placed α))) : List (List (Placed α)) :=
  let new := keep.flatMap fun l => partitionsContaining partitions l
  if new ≠ [] then new else partitions

/-- A `DeleteCondition` (puddle_types.hpp:34-41): its pattern is given by what it matches. -/
inductive DeleteCondition
  | base (negation : Bool) (pattern : Str → Bool)
  | morphology (pattern : Str → Bool)

/-- The loop over the conditions in `foundEdgesToDelete` (delete_action.cpp:110-142): what
`conditionsSatisfied` is after it.  Where a condition is not satisfied the loop is left before this is
noted. -/
def satisfiedLoop (base morph : Str) : List DeleteCondition → Bool
  | [] => true
  | .base neg pat :: cs => if pat base = neg then true else satisfiedLoop base morph cs
  | .morphology pat :: cs => if pat morph = false then true else satisfiedLoop base morph cs

/-- `foundEdgesToDelete` (delete_action.cpp:93-151). -/
def foundToDelete {ε : Type} (gone : ε → Bool) (base morph : ε → Str) (conds : List DeleteCondition)
    (places : List (List ε)) : Bool :=
  places.any fun p => p.any fun e => !gone e && satisfiedLoop (base e) (morph e) conds

/-- `DeleteAction::test` (delete_action.cpp:41-84). -/
def deleteTest {ε : Type} (gone : ε → Bool) (base morph : ε → Str) (conds : List DeleteCondition)
    (places : List (List ε)) : Bool :=
  if places = [] then true
  else
    let _found := foundToDelete gone base morph conds places
    true

/-- Whether one condition in `deleteEdges` leads to discarding (lattice_wrapper.cpp:1003-1022). -/
def DeleteCondition.discards (base morph : Str) : DeleteCondition → Bool
  | .base neg pat => if neg then pat base else !pat base
  | .morphology pat => pat morph

/-- `deleteEdges` (lattice_wrapper.cpp:987-1027): the edges that are discarded. -/
def deleteEdges {ε : Type} (gone : ε → Bool) (base morph : ε → Str) (conds : List DeleteCondition)
    (places : List (List ε)) : List ε :=
  places.flatten.filter fun e => !gone e && conds.any fun c => c.discards (base e) (morph e)

end Verif.Puddle
