import Verif.Basic

/-!
Model of the automata in `tools/datastructures/psi_query`: `NDFSA` (fsa_ndfsa.hpp,
fsa_ndfsa_impl.hpp) and the algorithms of fsa_algorithms.hpp, for `Arc<Symbol, State>` with
`Symbol = unsigned char`.

Simplified: states are natural numbers (the code has `int`, `unsigned` or `size_t`; overflow is not
modelled); a `std::set` is the sorted list of its elements, a `std::map` a list of pairs with
distinct keys; loops of the code that need not end are given fuel, and `none` is running out of it.
-/
namespace Verif.Fsa
open Verif

/-- `fsa::Symbol`, fsa_types.hpp 8. -/
abbrev Sym := Byte

/-- `EPS`, fsa_types.hpp 11. -/
def EPS : Sym := 255
/-- `ANY`, fsa_types.hpp 12. -/
def ANY : Sym := 254

/-! ### Ordered containers -/

/-- `std::set::insert`. -/
def insertSet (lt : α → α → Bool) (x : α) : List α → List α
  | [] => [x]
  | y :: ys => if lt x y then x :: y :: ys else if lt y x then y :: insertSet lt x ys else y :: ys

/-- Inserting several elements one after another. -/
def insertAll (lt : α → α → Bool) (xs : List α) (l : List α) : List α :=
  xs.foldl (fun l x => insertSet lt x l) l

/-- Insertion into a sorted vector before the first element that is not less (duplicates are
kept). -/
def insertSorted (lt : α → α → Bool) (x : α) : List α → List α
  | [] => [x]
  | y :: ys => if lt y x then y :: insertSorted lt x ys else x :: y :: ys

/-- `<` of state numbers. -/
def natLt (a b : Nat) : Bool := decide (a < b)

/-- `std::pair::operator<`. -/
def pairLt (ltA : α → α → Bool) (ltB : β → β → Bool) (x y : α × β) : Bool :=
  ltA x.1 y.1 || (!ltA y.1 x.1 && ltB x.2 y.2)

/-- `operator<` of `std::set` (lexicographical comparison). -/
def listLt (lt : α → α → Bool) : List α → List α → Bool
  | _, [] => false
  | [], _ :: _ => true
  | x :: xs, y :: ys => lt x y || (!lt y x && listLt lt xs ys)

/-- `<` of symbols. -/
def symLt (a b : Sym) : Bool := decide (a < b)

/-- `ArcSorter`, fsa_types.hpp 55-62; an arc is a pair of its symbol and its target. -/
def arcLt (lt : σ → σ → Bool) (x y : Sym × σ) : Bool :=
  symLt x.1 y.1 || (decide (x.1 = y.1) && lt x.2 y.2)

/-! ### Non-deterministic automata -/

/-- An `NDFSA`, fsa_ndfsa.hpp 16-37. -/
structure Fsa where
  /-- `m_states`: the arcs of each state, sorted. -/
  states : List (List (Sym × Nat))
  /-- `m_startStates`. -/
  starts : List Nat
  /-- `m_endStates`. -/
  ends : List Nat
  deriving DecidableEq, Repr

/-- The constructor, fsa_ndfsa_impl.hpp 7. -/
def Fsa.empty : Fsa := ⟨[], [], []⟩

/-- `size`, fsa_ndfsa_impl.hpp 188-191. -/
def Fsa.size (a : Fsa) : Nat := a.states.length

/-- `getArcs`, fsa_ndfsa_impl.hpp 179-186 (undefined for a state that does not exist: here no
arcs). -/
def Fsa.arcs (a : Fsa) (p : Nat) : List (Sym × Nat) := a.states.getD p []

/-- `addState`, fsa_ndfsa_impl.hpp 114-121: the number of the new state and the automaton. -/
def Fsa.addState (a : Fsa) (isStart : Bool) : Nat × Fsa :=
  (a.size, { a with states := a.states ++ [[]]
                    starts := if isStart then insertSet natLt a.size a.starts else a.starts })

/-- `deleteLastState`, fsa_ndfsa_impl.hpp 123-130. -/
def Fsa.deleteLastState (a : Fsa) : Fsa :=
  { states := a.states.dropLast
    starts := a.starts.filter (· ≠ a.size - 1)
    ends := a.ends.filter (· ≠ a.size - 1) }

/-- `isStartState`, fsa_ndfsa_impl.hpp 137-140. -/
def Fsa.isStart (a : Fsa) (p : Nat) : Bool := decide (p ∈ a.starts)
/-- `isEndState`, fsa_ndfsa_impl.hpp 157-160. -/
def Fsa.isEnd (a : Fsa) (p : Nat) : Bool := decide (p ∈ a.ends)

/-- `setStartState`, fsa_ndfsa_impl.hpp 142-145. -/
def Fsa.setStart (a : Fsa) (p : Nat) : Fsa := { a with starts := insertSet natLt p a.starts }
/-- `unsetStartState`, fsa_ndfsa_impl.hpp 147-150. -/
def Fsa.unsetStart (a : Fsa) (p : Nat) : Fsa := { a with starts := a.starts.filter (· ≠ p) }
/-- `setEndState`, fsa_ndfsa_impl.hpp 162-165. -/
def Fsa.setEnd (a : Fsa) (p : Nat) : Fsa := { a with ends := insertSet natLt p a.ends }
/-- `unsetEndState`, fsa_ndfsa_impl.hpp 167-170. -/
def Fsa.unsetEnd (a : Fsa) (p : Nat) : Fsa := { a with ends := a.ends.filter (· ≠ p) }

/-- `addArc`, fsa_ndfsa_impl.hpp 172-177: `push_back` and `std::sort`.  As the arcs are sorted before,
this is insertion at the right place. -/
def Fsa.addArc (a : Fsa) (p : Nat) (arc : Sym × Nat) : Fsa :=
  { a with states := a.states.set p (insertSorted (arcLt natLt) arc (a.arcs p)) }

/-- The end of `find`: the arc is only found if its symbol is the right one. -/
def checkFound (x : Sym) : List (Sym × Nat) → List (Sym × Nat)
  | [] => []
  | arc :: rest => if x = arc.1 then arc :: rest else []

/-- `find`, fsa_ndfsa_impl.hpp 82-93: the arcs from the found one on (`[]` is the end).
`std::lower_bound` on a sorted range yields the first element that is not less. -/
def Fsa.find (a : Fsa) (p : Nat) (x : Sym) : List (Sym × Nat) :=
  checkFound x ((a.arcs p).dropWhile (fun arc => arcLt natLt arc (x, 0)))

/-- `deltaPrime`, fsa_ndfsa_impl.hpp 54-68. -/
def Fsa.deltaPrime (a : Fsa) (p : Nat) (x : Sym) : List Nat :=
  if a.size < p then []
  else insertAll natLt (((a.find p x).takeWhile (fun arc => decide (arc.1 = x))).map (·.2)) []

/-- `delta`, fsa_ndfsa_impl.hpp 70-80. -/
def Fsa.delta (a : Fsa) (ps : List Nat) (x : Sym) : List Nat :=
  ps.foldl (fun d p => insertAll natLt (a.deltaPrime p x) d) []

/-- The loop of `in`. -/
def Fsa.inLoop (a : Fsa) : List Nat → List Sym → Bool
  | current, [] => current.any a.isEnd
  | current, x :: w =>
    let next := a.delta current x
    if next = [] then false else a.inLoop next w

/-- `in`, fsa_ndfsa_impl.hpp 95-112. -/
def Fsa.accepts (a : Fsa) (w : List Sym) : Bool := a.inLoop a.starts w

/-- The inner loop of `epsClosure`: the closure and the queue (last element first). -/
def closureStep (cq : List Nat × List Nat) (arc : Sym × Nat) : List Nat × List Nat :=
  if arc.1 = EPS ∧ ¬ arc.2 ∈ cq.1 then (insertSet natLt arc.2 cq.1, arc.2 :: cq.2) else cq

/-- The loop of `epsClosure`. -/
def Fsa.closureLoop (a : Fsa) : Nat → List Nat × List Nat → Option (List Nat)
  | 0, _ => none
  | n + 1, (c, q) => match q with
    | [] => some c
    | s :: q => a.closureLoop n ((a.arcs s).foldl closureStep (c, q))

/-- `epsClosure`, fsa_ndfsa_impl.hpp 217-238.  There are at most as many rounds as states; the fuel
never runs out (`closure_some`). -/
def Fsa.epsClosure (a : Fsa) (p : Nat) : List Nat :=
  (a.closureLoop (a.size + 2) ([p], [p])).getD []

/-- The constructor from a sequence of symbols, fsa_ndfsa_impl.hpp 18-46. -/
def ofWordLoop (a : Fsa) (q : Nat) : List Sym → Fsa
  | [] => a.setEnd q
  | x :: w =>
    let (q', a) := a.addState false
    ofWordLoop (a.addArc q (x, q')) q' w
/-- See `ofWordLoop`. -/
def ofWord (w : List Sym) : Fsa :=
  let (q0, a) := Fsa.empty.addState true
  ofWordLoop a q0 w

/-! ### Traversal -/

/-- A wrapper object, fsa_algorithms.hpp 127-168: `startFn`, `finalFn`, `arcFn`. -/
structure Wrapper (σ : Type) where
  starts : List σ
  final : σ → Bool
  arcs : σ → List (Sym × σ)

/-- The variables of `traverse`. -/
structure Trav (σ : Type) where
  fsa : Fsa
  /-- `mapper`. -/
  map : List (σ × Nat)
  /-- `queue`, last element first. -/
  queue : List σ

/-- `mapper.find`. -/
def look [DecidableEq σ] (m : List (σ × Nat)) (s : σ) : Option Nat :=
  (m.find? (fun p => decide (p.1 = s))).map (·.2)

/-- The loop over the start states, fsa_algorithms.hpp 85-89. -/
def travStart (t : Trav σ) (s : σ) : Trav σ :=
  let (n, fsa) := t.fsa.addState true
  ⟨fsa, (s, n) :: t.map, s :: t.queue⟩

/-- `if (!mapper.count(s)) { … }`: a new state for `s` if there is none; `push` tells whether `s` is
put into the queue then. -/
def travNew [DecidableEq σ] (t : Trav σ) (s : σ) (push : Bool) : Trav σ :=
  match look t.map s with
  | some _ => t
  | none =>
    let (n, fsa) := t.fsa.addState false
    ⟨fsa, (s, n) :: t.map, if push then s :: t.queue else t.queue⟩

/-- The body of the loop over the arcs of `s`, fsa_algorithms.hpp 103-112. -/
def travArc [DecidableEq σ] (s : σ) (t : Trav σ) (arc : Sym × σ) : Trav σ :=
  let t := travNew t arc.2 true
  { t with fsa := t.fsa.addArc ((look t.map s).getD 0) (arc.1, (look t.map arc.2).getD 0) }

/-- The body of the main loop, after `s` has been taken from the queue, fsa_algorithms.hpp 95-112. -/
def travState [DecidableEq σ] (w : Wrapper σ) (t : Trav σ) (s : σ) : Trav σ :=
  let t := travNew t s false
  let t := if w.final s then { t with fsa := t.fsa.setEnd ((look t.map s).getD 0) } else t
  (w.arcs s).foldl (travArc s) t

/-- The main loop, fsa_algorithms.hpp 91-113. -/
def travLoop [DecidableEq σ] (w : Wrapper σ) : Nat → Trav σ → Option Fsa
  | 0, _ => none
  | n + 1, t => match t.queue with
    | [] => some t.fsa
    | s :: q => travLoop w n (travState w { t with queue := q } s)

/-- `traverse`, fsa_algorithms.hpp 74-114. -/
def traverse [DecidableEq σ] (fuel : Nat) (w : Wrapper σ) (fsa : Fsa) : Option Fsa :=
  travLoop w fuel (w.starts.foldl travStart ⟨fsa, [], []⟩)

/-- `Reverser`, fsa_algorithms.hpp 127-168. -/
def reverser (a : Fsa) : Wrapper Nat where
  starts := a.ends
  final := a.isStart
  arcs := fun p => insertAll (arcLt natLt)
    ((List.range a.size).flatMap (fun q =>
      ((a.arcs q).filter (fun arc => decide (arc.2 = p))).map (fun arc => (arc.1, q)))) []

/-- `Copier`, fsa_algorithms.hpp 180-207. -/
def copier (a : Fsa) : Wrapper Nat where
  starts := a.starts
  final := a.isEnd
  arcs := fun p => insertAll (arcLt natLt) (a.arcs p) []

/-- The arcs that `Intersector::arcFn` makes of two arcs, fsa_algorithms.hpp 253-279. -/
def crossArcs (allowAny : Bool) (x y : Sym × Nat) : List (Sym × (Nat × Nat)) :=
  (if x.1 = y.1 then [(x.1, (x.2, y.2))] else []) ++
  (if allowAny then
    if x.1 = ANY then [(y.1, (x.2, y.2))]
    else if y.1 = ANY then [(x.1, (x.2, y.2))] else []
  else [])

/-- `Intersector`, fsa_algorithms.hpp 219-291.  `startFn` takes the start states of the first
automaton twice (l. 230-231). -/
def intersector (a b : Fsa) (allowAny : Bool) : Wrapper (Nat × Nat) where
  starts := insertAll (pairLt natLt natLt) (a.starts.flatMap (fun p => a.starts.map (fun q => (p, q)))) []
  final := fun p => a.isEnd p.1 && b.isEnd p.2
  arcs := fun p => insertAll (arcLt (pairLt natLt natLt))
    ((a.epsClosure p.1).flatMap (fun p1 => (b.epsClosure p.2).flatMap (fun p2 =>
      (a.arcs p1).flatMap (fun x => (b.arcs p2).flatMap (fun y => crossArcs allowAny x y))))) []

/-- `EpsRemover`, fsa_algorithms.hpp 303-336. -/
def epsRemover (a : Fsa) : Wrapper Nat where
  starts := a.starts
  final := fun p => (a.epsClosure p).any a.isEnd
  arcs := fun p => insertAll (arcLt natLt)
    ((a.epsClosure p).flatMap (fun q => (a.arcs q).filter (fun arc => decide (arc.1 ≠ EPS)))) []

/-- `arcsMap[symbol]` with the target inserted, fsa_algorithms.hpp 375-380. -/
def mapInsert (arc : Sym × Nat) : List (Sym × List Nat) → List (Sym × List Nat)
  | [] => [(arc.1, [arc.2])]
  | (x, d) :: m =>
    if symLt arc.1 x then (arc.1, [arc.2]) :: (x, d) :: m
    else if symLt x arc.1 then (x, d) :: mapInsert arc m
    else (x, insertSet natLt arc.2 d) :: m

/-- `Determinizer`, fsa_algorithms.hpp 348-393. -/
def determinizer (a : Fsa) : Wrapper (List Nat) where
  starts := [a.starts]
  final := fun p => p.any a.isEnd
  arcs := fun p => insertAll (arcLt (listLt natLt))
    ((p.flatMap a.arcs).foldl (fun m arc => mapInsert arc m) []) []

/-- `reverse`, fsa_algorithms.hpp 404-410.  The fuel is more than the number of states. -/
def reverse (a : Fsa) : Option Fsa := traverse (a.size + 1) (reverser a) .empty
/-- `reachable`, fsa_algorithms.hpp 421-427. -/
def reachable (a : Fsa) : Option Fsa := traverse (a.size + 1) (copier a) .empty
/-- `prune`, fsa_algorithms.hpp 438-443. -/
def prune (a : Fsa) : Option Fsa := do
  let a ← reverse a
  let a ← reachable a
  reverse a
/-- `epsRemove`, fsa_algorithms.hpp 454-460. -/
def epsRemove (a : Fsa) : Option Fsa := traverse (a.size + 1) (epsRemover a) .empty
/-- `determinize`, fsa_algorithms.hpp 469-475.  The fuel is more than the number of sets of states. -/
def determinize (a : Fsa) : Option Fsa := traverse (2 ^ a.size + 1) (determinizer a) .empty
/-- `minimize`, fsa_algorithms.hpp 487-494. -/
def minimize (a : Fsa) : Option Fsa := do
  let a ← epsRemove a
  let a ← reverse a
  let a ← determinize a
  let a ← reverse a
  determinize a
/-- `unify`, fsa_algorithms.hpp 506-510. -/
def unify (dst src : Fsa) : Option Fsa := traverse (src.size + 1) (copier src) dst
/-- `intersect`, fsa_algorithms.hpp 522-528. -/
def intersect (dst src : Fsa) (allowAny : Bool) : Option Fsa :=
  traverse (dst.size * (dst.size + src.size) + 1) (intersector dst src allowAny) .empty

/-- The inner loop of `concatenate`, fsa_algorithms.hpp 552-556. -/
def concatArc (firstStart : List Nat) (p : Nat) (a : Fsa) (q : Nat) : Fsa :=
  if q ∈ firstStart then a else (a.addArc p (EPS, q)).unsetStart q

/-- `concatenate`, fsa_algorithms.hpp 540-559. -/
def concatenate (dst src : Fsa) : Option Fsa := do
  let a ← traverse (src.size + 1) (copier src) dst
  pure (dst.ends.foldl
    (fun a' p => (a.starts.foldl (concatArc dst.starts p) a').unsetEnd p) a)

/-- `kleene_option`, fsa_algorithms.hpp 572-592. -/
def kleeneOption (a : Fsa) : Fsa :=
  let start := a.starts
  let end_ := a.ends
  let (ns, a) := a.addState false
  let a := a.setStart ns
  let (ne, a) := a.addState false
  let a := a.setEnd ne
  let a := start.foldl (fun a p => (a.unsetStart p).addArc ns (EPS, p)) a
  end_.foldl (fun a p => (a.unsetEnd p).addArc p (EPS, ne)) a

/-- `kleene_plus`, fsa_algorithms.hpp 605-613. -/
def kleenePlus (a : Fsa) : Fsa :=
  a.ends.foldl (fun a' p => a.starts.foldl (fun a' q => a'.addArc p (EPS, q)) a') a

/-- `kleene_star`, fsa_algorithms.hpp 625-629. -/
def kleeneStar (a : Fsa) : Fsa := kleenePlus (kleeneOption a)

end Verif.Fsa
