import Verif.Fsa.Dfsa

/-!
Model of `HashFSA` (tools/datastructures/psi_query/fsa_hash_fsa.hpp): an automaton used to number the words it accepts.

Simplified: numbers of words are natural numbers (`Weight` is `unsigned`, `index` in `hash` is an `int`: exact below
2^31 words); state numbers are natural numbers; weights are kept beside the automaton.
-/
namespace Verif.Fsa
open Verif

/-- What the constructor computes: `tempCounts` and the weights of the arcs of each state. -/
structure Numbers where
  count : Nat → Nat
  weights : Nat → List Nat

/-- Nothing counted; arcs are made with weight 0 (fsa_types.hpp 45). -/
def Numbers.init (a : Fsa) : Numbers := ⟨fun _ => 0, fun p => (a.arcs p).map (fun _ => 0)⟩

/-- `setWeight` of arc `i` of state `p`. -/
def Numbers.setWeight (n : Numbers) (p i w : Nat) : Numbers :=
  { n with weights := fun x => if x = p then (n.weights p).set i w else n.weights x }

/-- `tc[p] += k`. -/
def Numbers.add (n : Numbers) (p k : Nat) : Numbers :=
  { n with count := fun x => if x = p then n.count p + k else n.count x }

/-- One round of the loop over the arcs (fsa_hash_fsa.hpp 191-195); `rec` is the recursive call, `i` the number of the
arc. -/
def hashArc (rec : Nat → Numbers → Option Numbers) (p i q : Nat) (n : Numbers) : Option Numbers :=
  match rec q (n.setWeight p i (n.count p)) with
  | none => none
  | some n => some (n.add p (n.count q))

/-- The loop over the arcs of `p` from the arc numbered `i` on (fsa_hash_fsa.hpp 191-195). -/
def hashArcs (rec : Nat → Numbers → Option Numbers) (p : Nat) : Nat → List (Sym × Nat) → Numbers → Option Numbers
  | _, [], n => some n
  | i, (_, q) :: l, n =>
    match hashArc rec p i q n with
    | none => none
    | some n => hashArcs rec p (i + 1) l n

/-- `rec_compute_word_numbers` (fsa_hash_fsa.hpp 187-201) with a recursion of at most `fuel` calls inside one another;
`none`: not finished. -/
def wordNumbers (a : Fsa) : Nat → Nat → Numbers → Option Numbers
  | 0, _, _ => none
  | fuel + 1, p, n =>
    if n.count p = 0 then
      match hashArcs (wordNumbers a fuel) p 0 (a.arcs p) n with
      | none => none
      | some n => some (if a.isEnd p then n.add p 1 else n)
    else some n

/-- The constructor (fsa_hash_fsa.hpp 256-263). -/
def hashNumbers (a : Fsa) (fuel : Nat) : Option Numbers := wordNumbers a fuel 0 (Numbers.init a)

/-- `size()` (fsa_hash_fsa.hpp 262, 272-274). -/
def Numbers.size (n : Numbers) : Nat := n.count 0

/-- `HashFSA::find` (fsa_hash_fsa.hpp 203-211): the number of the first arc whose symbol is not less (the target -1 is
less than any state); the number of arcs if there is none. -/
def hashFind (a : Fsa) (p : Nat) (x : Sym) : Nat := (a.arcs p).findIdx (fun y => decide (x ≤ y.1))

/-- The loop of `hash` (fsa_hash_fsa.hpp 302-316).  The result is a `size_t`: -1 becomes the largest of them. -/
def hashLoop (a : Fsa) (n : Numbers) (index : Nat) (p : Nat) : List Sym → Nat
  | [] => if a.isEnd p then (if index = 0 then 2 ^ 64 - 1 else index - 1) else n.size
  | x :: w =>
    match (a.arcs p)[hashFind a p x]? with
    | none => n.size
    | some (_, q) =>
      hashLoop a n (index + (n.weights p).getD (hashFind a p x) 0 + (if a.isEnd q then 1 else 0)) q w

/-- `hash` (fsa_hash_fsa.hpp 296-322). -/
def hash (a : Fsa) (n : Numbers) (w : List Sym) : Nat := hashLoop a n 0 0 w

/-- `binsearch_num` (fsa_hash_fsa.hpp 238-253) from `l` on and before `r` (`R + 1` in the code): the number of an arc. -/
def binsearch (ws : List Nat) (v l r : Nat) : Nat :=
  if l < r then
    let m := l + (r - 1 - l) / 2
    if ws.getD m 0 < v ∧ (m = ws.length - 1 ∨ ws.getD (m + 1) 0 ≥ v) then m
    else if ws.getD m 0 < v then binsearch ws v (m + 1) r
    else binsearch ws v l m
  else ws.length - 1
termination_by r - l

/-- `find_num` (fsa_hash_fsa.hpp 213-224); `none`: an iterator without value.  The distance is taken from the end to the
beginning, so it is 0 or, as a `size_t`, huge: the linear search (l. 226-236) is never used. -/
def findNum (ws : List Nat) (v : Nat) : Option Nat := if ws = [] then none else some (binsearch ws v 0 ws.length)

/-- The loop of `unhash` (fsa_hash_fsa.hpp 337-350) for at most `fuel` rounds; `none`: not finished, or undefined. -/
def unhashLoop (a : Fsa) (n : Numbers) : Nat → Nat → Nat → Option (List Sym)
  | 0, _, _ => none
  | fuel + 1, p, index =>
    if index = 0 then some []
    else
      match findNum (n.weights p) index with
      | none => none
      | some i =>
        match (a.arcs p)[i]? with
        | none => none
        | some (x, q) =>
          (unhashLoop a n fuel q (index - (n.weights p).getD i 0 - (if a.isEnd q then 1 else 0))).map (x :: ·)

/-- `unhash` (fsa_hash_fsa.hpp 330-352); `none` also for the failing assertion. -/
def unhash (a : Fsa) (n : Numbers) (fuel index : Nat) : Option (List Sym) :=
  if index < n.size then unhashLoop a n fuel 0 (index + 1) else none

end Verif.Fsa
