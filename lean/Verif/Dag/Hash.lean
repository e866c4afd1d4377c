import Verif.Dag.Model

/-!
# Numbering the words of an automaton

`tools/translators/bonsai/rules/CompressedDAG.cpp` and
`tools/translators/bonsai/utils/binaries/CompressedDAGBuilder.hpp`.

Simplifications: the automaton read from the two files is the vector of rows (the renumbering of the
states by how often they are used, the layout of the files and the loading of parts of them are not
modelled); indices are natural numbers and do not overflow.
-/

namespace Verif.Dag

/-- `arcIt->w = …` for the arc number `k` of the state `s`. -/
def Dag.setWeight (d : Dag) (s k w : Nat) : Dag :=
  { d with rows := d.rows.modify s fun r => r.modify k fun x => { x with w := w } }

/-- `tn[s] = v`. -/
def put (tn : Nat → Nat) (s v : Nat) : Nat → Nat := fun p => if p = s then v else tn p

/-- The automaton and `tn`. -/
abbrev Numbering := Dag × (Nat → Nat)

/-- `CompressedDAGBuilder.hpp`, 83-87: the body of the loop over the arcs. -/
def numberArc (rec : Nat → Numbering → Option Numbering) (s : Nat) (st : Numbering) (k : Nat) :
    Option Numbering :=
  match (st.1.row s)[k]? with
  | none => none
  | some x =>
    match rec x.q (st.1.setWeight s k (st.2 s), st.2) with
    | none => none
    | some st1 => some (st1.1, put st1.2 s (st1.2 s + st1.2 x.q))

/-- The loop over the arcs from the arc `k` on; `n` arcs are left. -/
def numberArcs (rec : Nat → Numbering → Option Numbering) (s : Nat) :
    Nat → Nat → Numbering → Option Numbering
  | 0, _, st => some st
  | n + 1, k, st => (numberArc rec s st k).bind fun st1 => numberArcs rec s n (k + 1) st1

/-- `CompressedDAGBuilder.hpp`, 79-94: `rec_compute_word_numbers`; the fuel bounds the depth of the
recursion. -/
def numbers : Nat → Nat → Numbering → Option Numbering
  | 0, _, _ => none
  | fuel + 1, s, st =>
    if st.2 s = 0 then
      match numberArcs (numbers fuel) s (st.1.row s).length 0 st with
      | none => none
      | some st1 => some (if st1.1.isEnd s then (st1.1, put st1.2 s (st1.2 s + 1)) else st1)
    else some st

/-- `CompressedDAGBuilder.hpp`, 97-113: the weights of an automaton are computed, from the numbers 0. -/
def Dag.withWeights (d : Dag) : Option Dag :=
  (numbers (d.rows.length + 1) 0 (d, fun _ => 0)).map Prod.fst

/-- `rules/CompressedDAG.cpp`, 142-163: the loop of `CompressedDAG::hash`. -/
def Dag.hashFrom (d : Dag) : Nat → Nat → List Nat → Option Nat
  | q, index, [] => if d.isEnd q then some index else none
  | q, index, a :: w =>
    match search (d.row q) a with
    | none => none
    | some x => d.hashFrom x.q (index + x.w + if d.isEnd x.q then 1 else 0) w

/-- `rules/CompressedDAG.cpp`, 142-163: `CompressedDAG::hash` (`-1` is `none`); the same as
`SimpleDAG::hash` (`rules/SimpleDAG.cpp`, 33-52). -/
def Dag.hash (d : Dag) (w : List Nat) : Option Nat := d.hashFrom 0 0 w

/-- `rules/CompressedDAG.cpp`, 283-290: `linsearch_num`. -/
def linsearchNum (v : Nat) : List Arc → Option Arc
  | [] => none
  | [x] => if x.w < v then some x else none
  | x :: y :: l => if x.w < v ∧ y.w ≥ v then some x else linsearchNum v (y :: l)

/-- `rules/CompressedDAG.cpp`, 292-306: `binsearch_num`; `lo` is `L` and `n` is the number of arcs
from `L` to `R`. -/
def binsearchNum (row : List Arc) (v : Nat) : Nat → Nat → Nat → Option Arc
  | 0, _, _ => none
  | fuel + 1, lo, n =>
    if n = 0 then none
    else
      let m := lo + (n - 1) / 2
      match row[m]? with
      | none => none
      | some x =>
        if x.w < v ∧ (m + 1 = row.length ∨ (row[m + 1]?.map Arc.w).getD 0 ≥ v) then some x
        else if x.w < v then binsearchNum row v fuel (m + 1) (n - 1 - (n - 1) / 2)
        else binsearchNum row v fuel lo ((n - 1) / 2)

/-- `rules/CompressedDAG.cpp`, 214-225: `CompressedDAG::find_num`. -/
def searchNum (row : List Arc) (v : Nat) : Option Arc :=
  if row.length > 10 then binsearchNum row v (row.length + 1) 0 row.length
  else if row.length > 0 then linsearchNum v row
  else none

/-- `rules/CompressedDAG.cpp`, 165-186: the loop of `CompressedDAG::unhash`; `none` if the fuel does
not suffice. -/
def Dag.unhashFrom (d : Dag) : Nat → Nat → Nat → List Nat → Option (List Nat)
  | _, _, 0, w => some w
  | 0, _, _ + 1, _ => none
  | fuel + 1, q, index + 1, w =>
    match searchNum (d.row q) (index + 1) with
    | none => some []
    | some x =>
      d.unhashFrom fuel x.q (index + 1 - x.w - if d.isEnd x.q then 1 else 0) (w ++ [x.a])

/-- `rules/CompressedDAG.cpp`, 165-186: `CompressedDAG::unhash`. -/
def Dag.unhash (d : Dag) (index : Nat) : Option (List Nat) :=
  d.unhashFrom (d.rows.length + 1) 0 index []

end Verif.Dag
