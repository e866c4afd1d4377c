import Verif.Dag.Hash

/-!
# Walking through two automata at once

`tools/translators/bonsai/rules/CompressedDAG.cpp` (`intersect`, `multihash`) and
`tools/translators/bonsai/rules/RuleSet.cpp` (`prune_by_intersector`, `partial`, `nextksb`,
`build_intersector`).

Simplifications: as in `Verif/Dag/Model.lean` and `Verif/Dag/Hash.lean`. In `multihash` the list of
words of a state is read before it grows (in the code an arc of a pair of states to itself would
invalidate the iterators; automata without cycles have no such arcs), and the automaton `ndag` that
`multihash` builds and throws away is left out.
-/

namespace Verif.Dag

/-- An arc of the product: symbol, weight and the pair of states. -/
structure PairArc where
  a : Nat
  w : Nat
  t : Nat × Nat
deriving Repr, DecidableEq

/-- `rules/CompressedDAG.cpp`, 519-553 and 600-621: the two rows are read in parallel; the fuel is the number of
arcs of both. -/
def meet : Nat → List Arc → List Arc → List PairArc
  | fuel + 1, x :: r, y :: s =>
    if x.a = y.a then ⟨x.a, x.w, (x.q, y.q)⟩ :: meet fuel r s
    else if x.a < y.a then meet fuel r (y :: s)
    else meet fuel (x :: r) s
  | _, _, _ => []

/-- The common arcs of the states of a pair. -/
def common (d o : Dag) (p : Nat × Nat) : List PairArc :=
  meet ((d.row p.1).length + (o.row p.2).length) (d.row p.1) (o.row p.2)

/-- `rules/CompressedDAG.cpp`, 574-579: the new automaton, the pairs of its states (the state of a
pair is its place in the list) and the queue (its back is the head of the list). -/
structure Pairs where
  dag : Dag
  mapper : List (Nat × Nat)
  queue : List (Nat × Nat)

/-- `rules/CompressedDAG.cpp`, 605-611, and `rules/RuleSet.cpp`, 433-438: an arc of the product. -/
def Pairs.addArc (s : Nat) (b : Pairs) (x : PairArc) : Pairs :=
  match b.mapper.idxOf? x.t with
  | some i => { b with dag := b.dag.newArc s i x.a x.w }
  | none =>
    { dag := (b.dag.newState false).newArc s b.dag.rows.length x.a x.w
      mapper := b.mapper ++ [x.t]
      queue := x.t :: b.queue }

/-- `rules/CompressedDAG.cpp`, 588-622, and `rules/RuleSet.cpp`, 415-441: the loop over the queue. -/
def walkPairs (next : Nat × Nat → List PairArc) (final : Nat × Nat → Bool) :
    Nat → Pairs → Option Pairs
  | _, ⟨dag, mapper, []⟩ => some ⟨dag, mapper, []⟩
  | 0, _ => none
  | fuel + 1, ⟨dag, mapper, p :: queue⟩ =>
    let s := mapper.idxOf p
    walkPairs next final fuel
      ((next p).foldl (Pairs.addArc s) ⟨if final p then dag.setEnd s else dag, mapper, queue⟩)

/-- `rules/CompressedDAG.cpp`, 581-584: the pair of the states 0 alone. -/
def Pairs.start : Pairs := { dag := Dag.newState {} true, mapper := [(0, 0)], queue := [(0, 0)] }

/-- `rules/CompressedDAG.cpp`, 573-625: `CompressedDAG::intersect`. -/
def Dag.intersect (d o : Dag) : Option Dag :=
  (walkPairs (common d o) (fun p => d.isEnd p.1 && o.isEnd p.2)
    (d.rows.length * o.rows.length + 2) Pairs.start).map Pairs.dag

/-! ## Hashing all words of an automaton -/

/-- `rules/CompressedDAG.cpp`, 486-497: the pairs, the queue (its back is the head of the list), the
words of the states with their indices, and the final states. -/
structure Hashing where
  mapper : List (Nat × Nat)
  queue : List (Nat × Nat)
  sl : List (List (List Nat × Nat))
  ends : List Nat

/-- `rules/CompressedDAG.cpp`, 524-542: the body of the loop over the common arcs. -/
def Hashing.addArc (d : Dag) (s : Nat) (b : Hashing) (x : PairArc) : Hashing :=
  let b1 := match b.mapper.idxOf? x.t with
    | some _ => b
    | none => { b with mapper := b.mapper ++ [x.t], queue := b.queue ++ [x.t], sl := b.sl ++ [[]] }
  let new := (b1.sl[s]?.getD []).map fun wi =>
    (wi.1 ++ [x.a], wi.2 + x.w + if d.isEnd x.t.1 then 1 else 0)
  { b1 with sl := b1.sl.modify (b1.mapper.idxOf x.t) (· ++ new) }

/-- `rules/CompressedDAG.cpp`, 506-554: the loop over the queue. -/
def hashPairs (d o : Dag) : Nat → Hashing → Option Hashing
  | _, ⟨mapper, [], sl, ends⟩ => some ⟨mapper, [], sl, ends⟩
  | 0, _ => none
  | fuel + 1, ⟨mapper, p :: queue, sl, ends⟩ =>
    let s := mapper.idxOf p
    hashPairs d o fuel ((common d o p).foldl (Hashing.addArc d s)
      ⟨mapper, queue, sl, if d.isEnd p.1 && o.isEnd p.2 then ends ++ [s] else ends⟩)

/-- `rules/CompressedDAG.cpp`, 556-559: the words of the final states, in the order of their
numbers. -/
def Hashing.language (b : Hashing) : List (List Nat × Nat) :=
  ((List.range b.mapper.length).filter fun s => b.ends.contains s).flatMap fun s => b.sl[s]?.getD []

/-- `rules/CompressedDAG.cpp`, 485-562: `CompressedDAG::multihash`. -/
def Dag.multihash (d o : Dag) : Option (List (List Nat × Nat)) :=
  (hashPairs d o (d.rows.length * o.rows.length + 2)
    { mapper := [(0, 0)], queue := [(0, 0)], sl := [[([], 0)]], ends := [] }).map Hashing.language

/-! ## Rules of limited length -/

/-- `rules/RuleSet.cpp`, 426-429: `intmap` (later arcs replace earlier ones). -/
def intmap (row : List Arc) (a : Nat) : Option Nat := (row.reverse.find? fun x => x.a == a).map Arc.q

/-- `rules/RuleSet.cpp`, 431-440: the arcs of a pair; `nts` are the nonterminal symbols. -/
def allowed (nts : Nat → Bool) (int d : Dag) (p : Nat × Nat) : List PairArc :=
  (d.row p.2).filterMap fun x =>
    (intmap (int.row p.1) (if nts x.a then 1 else 0)).map fun q => ⟨x.a, 0, (q, x.q)⟩

/-- `rules/RuleSet.cpp`, 401-444: `RuleSet::prune_by_intersector`. -/
def Dag.prune (int : Dag) (nts : Nat → Bool) (d : Dag) : Option Dag :=
  d.minimize.bind fun d1 =>
    (walkPairs (allowed nts int d1) (fun p => int.isEnd p.1 && d1.isEnd p.2)
      (int.rows.length * d1.rows.length + 2) Pairs.start).bind fun b => b.dag.minimize

/-- `rules/RuleSet.cpp`, 477-487: the loop of `RuleSet::partial`; `i` states have been added after
the state 1, `a` is the rest of the positions. -/
def partialLoop : Nat → Nat → Nat → List Int → Dag → Dag
  | 0, _, _, _, d => d
  | n + 1, i, q, a, d =>
    let p := d.rows.length
    let d1 := ((d.newState false).setEnd p).newArc q p 0 0
    match a with
    | [] => partialLoop n (i + 1) p [] d1
    | v :: rest =>
      if v = (i : Int) + 1 then partialLoop n (i + 1) p rest (d1.newArc q p 1 0)
      else partialLoop n (i + 1) p (v :: rest) d1

/-- `rules/RuleSet.cpp`, 470-490: `RuleSet::partial`. -/
def partialDag (n : Nat) (a : List Int) : Dag :=
  partialLoop n 0 1 a (((Dag.newState {} true).newState false).newArc 0 1 1 0)

/-- `a`, `h` and `m`. -/
structure Subset where
  a : List Int := []
  h : Int := 0
  m : Int := 0
deriving Repr, DecidableEq

/-- `rules/RuleSet.cpp`, 519-520: the last loop of `nextksb`: `m + 1`, … from the place on. -/
def fill (m : Int) : Nat → Nat → Int → List Int → List Int
  | 0, _, _, a => a
  | n + 1, i, j, a => fill m n (i + 1) (j + 1) (a.set i (m + j))

/-- `rules/RuleSet.cpp`, 492-523: `RuleSet::nextksb`; `none` if an element outside of the vector is
read, `some none` for `false`. -/
def nextksb (s : Subset) (k n : Nat) : Option (Option Subset) :=
  if k = 0 then some none
  else
    let first : Bool := s.a.length ≠ k
    let a := if first then List.replicate k 0 else s.a
    if a.head? = some ((n : Int) - k + 1) then some none
    else if first then some (some ⟨fill 0 k 0 1 a, k, 0⟩)
    else
      let h := (if s.m < (n : Int) - s.h then 0 else s.h) + 1
      if h ≤ k then
        match a[k - h.toNat]? with
        | none => none
        | some m => some (some ⟨fill m h.toNat (k - h.toNat) 1 a, h, m⟩)
      else none

/-- `rules/RuleSet.cpp`, 456-459: the loop over the subsets. -/
def addSubsets (k n : Nat) : Nat → Subset → Dag → Option Dag
  | 0, _, _ => none
  | fuel + 1, s, d =>
    match nextksb s k n with
    | none => none
    | some none => some d
    | some (some s1) => addSubsets k n fuel s1 (d.ndUnion (partialDag n s1.a))

/-- `rules/RuleSet.cpp`, 446-468: `RuleSet::build_intersector`; `k` is `max_nt` and `n` is
`max_length`. -/
def buildIntersector (k n : Nat) : Option Dag :=
  (addSubsets k n ((n + 2) ^ k + 2) {} (({} : Dag).ndUnion (partialDag n []))).bind Dag.minimize

end Verif.Dag
