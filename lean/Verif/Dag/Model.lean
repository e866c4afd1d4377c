/-!
# The automata of the translator bonsai (`tools/translators/bonsai/rules/SimpleDAG.{hpp,cpp}`)

An automaton is a vector of states, each with the list of its arcs sorted by their
symbols, a set of final states and a set of initial states.

Simplifications: symbols, states and weights are natural numbers, so nothing
overflows; a `boost::dynamic_bitset` is the number whose binary digits are its bits
(the order of `std::map<BSet, …>` is then the order of the numbers); a `std::map` is a
list sorted by the keys; `std::sort` of a vector to which one arc was added puts it
behind the arcs with the same symbol (the order of arcs with the same symbol is not
determined by the standard; no theorem depends on it); pointers to arcs are the arcs.
-/

namespace Verif.Dag

/-- `rules/RuleTypes.hpp`, 19: `Arc`. -/
structure Arc where
  a : Nat
  q : Nat
  w : Nat
deriving Repr, DecidableEq

/-- `rules/SimpleDAG.hpp`, 36-40: `states`, `end_states`, `starts`. -/
structure Dag where
  rows : List (List Arc) := []
  ends : List Nat := []
  starts : Nat := 0
deriving Repr, DecidableEq

/-- `rules/SimpleDAG.cpp`, 142-148: `SimpleDAG::row`. -/
def Dag.row (d : Dag) (i : Nat) : List Arc := d.rows[i]?.getD []

/-- `rules/SimpleDAG.cpp`, 180-182: `SimpleDAG::is_end_state`. -/
def Dag.isEnd (d : Dag) (p : Nat) : Bool := d.ends.contains p

/-- `rules/SimpleDAG.cpp`, 176-178: `SimpleDAG::set_end_state`. -/
def Dag.setEnd (d : Dag) (p : Nat) : Dag := if d.isEnd p then d else { d with ends := p :: d.ends }

/-- `starts[p] = 1`. -/
def Dag.setStart (d : Dag) (p : Nat) : Dag := { d with starts := d.starts ||| 2 ^ p }

/-- `rules/SimpleDAG.cpp`, 184-192: `SimpleDAG::new_state`; the number of the new state is the
number of the states before. -/
def Dag.newState (d : Dag) (start : Bool) : Dag :=
  let d1 := { d with rows := d.rows ++ [[]] }
  if start then d1.setStart d.rows.length else d1

/-- `rules/SimpleDAG.cpp`, 205: the arc is put into the sorted row. -/
def insertArc (x : Arc) : List Arc → List Arc
  | [] => [x]
  | y :: l => if x.a < y.a then x :: y :: l else y :: insertArc x l

/-- `rules/SimpleDAG.cpp`, 198-206: `SimpleDAG::new_arc`. -/
def Dag.newArc (d : Dag) (start stop a w : Nat) : Dag :=
  { d with rows := d.rows.set start (insertArc ⟨a, stop, w⟩ (d.row start)) }

/-! ## Searching -/

/-- `rules/SimpleDAG.cpp`, 150-157: `SimpleDAG::linsearch`. -/
def linsearch (v : Nat) : List Arc → Option Arc
  | [] => none
  | x :: l => if x.a = v then some x else linsearch v l

/-- `rules/SimpleDAG.cpp`, 159-172: `SimpleDAG::binsearch`; `lo` is `L` and `n` is the number of
arcs from `L` to `R`. -/
def binsearch (row : List Arc) (v : Nat) : Nat → Nat → Nat → Option Arc
  | 0, _, _ => none
  | fuel + 1, lo, n =>
    if n = 0 then none
    else
      let m := lo + (n - 1) / 2
      match row[m]? with
      | none => none
      | some x =>
        if x.a < v then binsearch row v fuel (m + 1) (n - 1 - (n - 1) / 2)
        else if x.a > v then binsearch row v fuel lo ((n - 1) / 2)
        else some x

/-- `rules/SimpleDAG.cpp`, 128-140: the search in a row (`SimpleDAG::find`). -/
def search (row : List Arc) (v : Nat) : Option Arc :=
  if row.length > 10 then binsearch row v (row.length + 1) 0 row.length
  else if row.length > 0 then linsearch v row
  else none

/-- `rules/SimpleDAG.cpp`, 118-126: `SimpleDAG::delta`; `-1` is `none`. -/
def Dag.delta (d : Dag) (q a : Nat) : Option Nat :=
  if d.rows.isEmpty then none else (search (d.row q) a).map Arc.q

/-- `rules/SimpleDAG.cpp`, 19-31: the loop of `SimpleDAG::in` and `SimpleDAG::prefix` (87-99). -/
def Dag.walk (d : Dag) : Nat → List Nat → Option Nat
  | q, [] => some q
  | q, a :: w => (d.delta q a).bind fun p => d.walk p w

/-- `rules/SimpleDAG.cpp`, 19-31: `SimpleDAG::in`. -/
def Dag.isIn (d : Dag) (w : List Nat) : Bool :=
  match d.walk 0 w with
  | none => false
  | some q => d.isEnd q

/-- `rules/SimpleDAG.cpp`, 87-99: `SimpleDAG::prefix`. -/
def Dag.isPrefix (d : Dag) (w : List Nat) : Bool := (d.walk 0 w).isSome

/-! ## Reversing -/

/-- `rules/SimpleDAG.cpp`, 241-249: the states of the reversed automaton. -/
def Dag.reverseStates (d : Dag) : Dag :=
  (List.range d.rows.length).foldl (fun nd i =>
    let nd1 := nd.newState false
    let nd2 := if d.isEnd i then nd1.setStart i else nd1
    if d.starts.testBit i then nd2.setEnd i else nd2) {}

/-- `rules/SimpleDAG.cpp`, 237-260: `SimpleDAG::reverse`. -/
def Dag.reverse (d : Dag) : Dag :=
  (List.range d.rows.length).foldl (fun nd i =>
    (d.row i).foldl (fun nd x => nd.newArc x.q i x.a x.w) nd) d.reverseStates

/-! ## Determinization -/

/-- `rules/SimpleDAG.cpp`, 284-296 and 320-329: the elements of a bit set. -/
def bits (n S : Nat) : List Nat := (List.range n).filter fun i => S.testBit i

/-- `rules/SimpleDAG.cpp`, 288-292: `narcs[a][q] = 1`. -/
def addTarget (a q : Nat) : List (Nat × Nat) → List (Nat × Nat)
  | [] => [(a, 2 ^ q)]
  | (b, S) :: l =>
    if a < b then (a, 2 ^ q) :: (b, S) :: l
    else if a = b then (b, S ||| 2 ^ q) :: l
    else (b, S) :: addTarget a q l

/-- `rules/SimpleDAG.cpp`, 281-296: the arcs of a set of states. -/
def Dag.narcs (d : Dag) (S : Nat) : List (Nat × Nat) :=
  (bits d.rows.length S).foldl (fun l s => (d.row s).foldl (fun l x => addTarget x.a x.q l) l) []

/-- `rules/SimpleDAG.cpp`, 298-303: the new sets go to the queue (whose back is the head of the
list). -/
def pushNew : List (Nat × Nat) → List Nat × List Nat → List Nat × List Nat
  | [], qs => qs
  | (_, T) :: l, (queue, seen) =>
    if seen.contains T then pushNew l (queue, seen) else pushNew l (T :: queue, T :: seen)

/-- `newfsa[S] = arcs`. -/
def putArcs (S : Nat) (arcs : List (Nat × Nat)) :
    List (Nat × List (Nat × Nat)) → List (Nat × List (Nat × Nat))
  | [] => [(S, arcs)]
  | (T, b) :: l =>
    if S < T then (S, arcs) :: (T, b) :: l
    else if S = T then (S, arcs) :: l
    else (T, b) :: putArcs S arcs l

/-- `rules/SimpleDAG.cpp`, 277-306: the loop over the queue. -/
def Dag.explore (d : Dag) : Nat → List Nat → List Nat → List (Nat × List (Nat × Nat)) →
    Option (List (Nat × List (Nat × Nat)))
  | _, [], _, fsa => some fsa
  | 0, _ :: _, _, _ => none
  | fuel + 1, S :: queue, seen, fsa =>
    let arcs := d.narcs S
    let qs := pushNew arcs (queue, seen)
    d.explore fuel qs.1 qs.2 (putArcs S arcs fsa)

/-- The automaton that is built and the sets of its states (`mapper`, 266): the state of a set is
its place in the list, as new states are numbered one after the other. -/
structure Build where
  dag : Dag
  mapper : List Nat

/-- `rules/SimpleDAG.cpp`, 310-317 and 332-339: the state of a set. -/
def Build.state (b : Build) (S : Nat) : Nat × Build :=
  match b.mapper.idxOf? S with
  | some i => (i, b)
  | none => (b.dag.rows.length, { dag := b.dag.newState false, mapper := b.mapper ++ [S] })

/-- `rules/SimpleDAG.cpp`, 331-341: an arc of the new automaton. -/
def Build.addArc (s : Nat) (b : Build) (x : Nat × Nat) : Build :=
  let r := b.state x.2
  { r.2 with dag := r.2.dag.newArc s r.1 x.1 0 }

/-- `rules/SimpleDAG.cpp`, 309-342: the body of the loop over the sets. -/
def Dag.addSet (d : Dag) (b : Build) (e : Nat × List (Nat × Nat)) : Build :=
  let r := b.state e.1
  let b1 := (bits d.rows.length e.1).foldl
    (fun b s => if d.isEnd s then { b with dag := b.dag.setEnd r.1 } else b) r.2
  e.2.foldl (Build.addArc r.1) b1

/-- `rules/SimpleDAG.cpp`, 262-348: `SimpleDAG::determinize`.  There are `2 ^ n` sets, each of
which is in the queue once at most, and the first set once more. -/
def Dag.determinize (d : Dag) : Option Dag :=
  (d.explore (2 ^ d.rows.length + 1) [d.starts] [] []).map fun fsa =>
    (fsa.foldl d.addSet { dag := Dag.newState {} true, mapper := [d.starts] }).dag

/-- `rules/SimpleDAG.cpp`, 350-355: `SimpleDAG::minimize`. -/
def Dag.minimize (d : Dag) : Option Dag :=
  d.reverse.determinize.bind fun e => e.reverse.determinize

/-! ## Union -/

/-- The automaton and the states of the other one (`mapper`, 365). -/
structure Join where
  dag : Dag
  mapper : List (Nat × Nat)

/-- `rules/SimpleDAG.cpp`, 367-377 and 390-393: the state of a state of the other automaton. -/
def Join.state (j : Join) (p : Nat) (start : Bool) : Nat × Join :=
  match j.mapper.lookup p with
  | some s => (s, j)
  | none =>
    (j.dag.rows.length, { dag := j.dag.newState start, mapper := (p, j.dag.rows.length) :: j.mapper })

/-- `rules/SimpleDAG.cpp`, 388-395: an arc is copied. -/
def Join.addArc (s : Nat) (j : Join) (x : Arc) : Join :=
  let r := j.state x.q false
  { r.2 with dag := r.2.dag.newArc s r.1 x.a x.w }

/-- `rules/SimpleDAG.cpp`, 366-396: the body of the loop. -/
def Dag.joinState (o : Dag) (j : Join) (i : Nat) : Join :=
  let r := j.state i (o.starts.testBit i)
  let j1 := if o.isEnd i then { r.2 with dag := r.2.dag.setEnd r.1 } else r.2
  let j2 := if o.starts.testBit i then { j1 with dag := j1.dag.setStart r.1 } else j1
  (o.row i).foldl (Join.addArc r.1) j2

/-- `rules/SimpleDAG.cpp`, 362-397: `SimpleDAG::nd_union` with another automaton. -/
def Dag.ndUnion (d o : Dag) : Dag :=
  ((List.range o.rows.length).foldl o.joinState { dag := d, mapper := [] }).dag

/-- `rules/SimpleDAG.cpp`, 357-360: `SimpleDAG::det_union`. -/
def Dag.detUnion (d o : Dag) : Option Dag := (d.ndUnion o).minimize

end Verif.Dag
