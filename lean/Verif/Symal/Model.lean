import Verif.Server.Handler

/-!
Model of the symmetrization of word alignments, tools/translators/bonsai/utils/binaries/symal.cpp.

* Positions are counted from 1, as in the program; `a j` and `b i` are 0 for a word that is not aligned.
* A `std::set` of pairs is a sorted list; an iterator is the element it stands at, so that what is
  inserted behind it is visited and what is inserted before it is not.
* Reading the file (`getals`) is left out; the assertions it makes are hypotheses.
-/
set_option linter.unusedVariables false

namespace Verif.Symal
open Verif Verif.Server

/-- What `getals` reads, symal.cpp 70-121: the lengths of the sentences, the direct and the inverse
alignment. -/
structure Input where
  m : Nat
  n : Nat
  a : Nat → Nat
  b : Nat → Nat

/-- A point: the position in the target sentence and the one in the source sentence. -/
abbrev Point := Nat × Nat

/-- `sout << j-1 << "-" << i-1 << " "`. -/
def shown (i j : Nat) : Str := decimal (j - 1) ++ [45] ++ decimal (i - 1) ++ [32]

/-- "fix the last space", symal.cpp 138-143 and in the other functions. -/
def fixed (s : Str) : Str := if s.length = 0 then [10] else s.take (s.length - 1) ++ [10] ++ s.drop s.length

/-- The values of a loop from 1 to `n`. -/
def upTo (n : Nat) : List Nat := (List.range n).map (· + 1)

/-- `prunionalignment`, symal.cpp 124-149. -/
def printUnion (x : Input) : Str :=
  fixed ((upTo x.m).flatMap (fun j => if x.a j ≠ 0 then shown (x.a j) j else []) ++
    (upTo x.n).flatMap (fun i => if x.b i ≠ 0 ∧ x.a (x.b i) ≠ i then shown i (x.b i) else []))

/-- `printersect`, symal.cpp 153-173. -/
def printIntersect (x : Input) : Str :=
  fixed ((upTo x.m).flatMap (fun j => if x.a j ≠ 0 ∧ x.b (x.a j) = j then shown (x.a j) j else []))

/-- `printtgttosrc`, symal.cpp 177-197. -/
def printTgtToSrc (x : Input) : Str :=
  fixed ((upTo x.n).flatMap (fun i => if x.b i ≠ 0 then shown i (x.b i) else []))

/-- `printsrctotgt`, symal.cpp 201-221. -/
def printSrcToTgt (x : Input) : Str :=
  fixed ((upTo x.m).flatMap (fun j => if x.a j ≠ 0 then shown (x.a j) j else []))

/-- `operator<` of pairs. -/
def less (p q : Point) : Bool := decide (p.1 < q.1) || (decide (p.1 = q.1) && decide (p.2 < q.2))

/-- `set::insert`. -/
def insertPoint (p : Point) : List Point → List Point
  | [] => [p]
  | q :: l => if less p q then p :: q :: l else if less q p then q :: insertPoint p l else q :: l

/-- `++k`. -/
def after (k : Point) (l : List Point) : Option Point := l.find? (fun q => less k q)

/-- The variables `currentpoints`, `ea`, `fa` and `A`. -/
structure State where
  points : List Point
  ea : Nat → Bool
  fa : Nat → Bool
  A : Nat → Nat → Int

def setAt (f : Nat → Bool) (i : Nat) : Nat → Bool := fun x => if x = i then true else f x

def setMatrix (A : Nat → Nat → Int) (i j : Nat) (v : Int) : Nat → Nat → Int :=
  fun x y => if x = i ∧ y = j then v else A x y

/-- After the resets, symal.cpp 258-264. -/
def start : State := ⟨[], fun _ => false, fun _ => false, fun _ _ => 0⟩

/-- A point of the direct alignment, symal.cpp 273-284, with the union. -/
def fillDirect (x : Input) (q : State × List Point) (j : Nat) : State × List Point :=
  if x.a j ≠ 0 then
    let u := insertPoint (x.a j, j) q.2
    if x.b (x.a j) = j then
      (⟨insertPoint (x.a j, j) q.1.points, setAt q.1.ea (x.a j), setAt q.1.fa j, setMatrix q.1.A (x.a j) j 2⟩, u)
    else ({ q.1 with A := setMatrix q.1.A (x.a j) j (-1) }, u)
  else q

/-- A point of the inverse alignment, symal.cpp 286-290. -/
def fillInverse (x : Input) (q : State × List Point) (i : Nat) : State × List Point :=
  if x.b i ≠ 0 ∧ x.a (x.b i) ≠ i then ({ q.1 with A := setMatrix q.1.A i (x.b i) 1 }, insertPoint (i, x.b i) q.2)
  else q

/-- "fill in the alignments", symal.cpp 272-290. -/
def fill (x : Input) : State × List Point := (upTo x.n).foldl (fillInverse x) ((upTo x.m).foldl (fillDirect x) (start, []))

/-- `neighbors`, symal.cpp 238-249. -/
def neighbors (diagonal : Bool) : List (Int × Int) :=
  [(-1, 0), (0, -1), (1, 0), (0, 1)] ++ (if diagonal then [(-1, -1), (-1, 1), (1, -1), (1, 1)] else [])

/-- Adding a point, symal.cpp 313-316, 335-339 and 355-359. -/
def add (s : State) (p : Point) : State :=
  ⟨insertPoint p s.points, setAt s.ea p.1, setAt s.fa p.2, setMatrix s.A p.1 p.2 2⟩

/-- A neighbour, symal.cpp 302-320. -/
def tryNeighbor (x : Input) (k : Point) (q : State × Bool) (o : Int × Int) : State × Bool :=
  let p1 : Int := k.1 + o.1
  let p2 : Int := k.2 + o.2
  if 0 < p1 ∧ p1 ≤ x.n ∧ 0 < p2 ∧ p2 ≤ x.m then
    let p : Point := (p1.toNat, p2.toNat)
    if x.b p.1 = p.2 ∨ x.a p.2 = p.1 then
      if (q.1.ea p.1 && q.1.fa p.2) = false then (add q.1 p, true) else q
    else q
  else q

/-- The loop over the current points, symal.cpp 298-322; `none`: not done after so many points. -/
def scan (x : Input) (ns : List (Int × Int)) : Nat → State × Bool → Option Point → Option (State × Bool)
  | _, q, none => some q
  | 0, _, some _ => none
  | f + 1, q, some k =>
    let q := ns.foldl (tryNeighbor x k) q
    scan x ns f q (after k q.1.points)

/-- `while (added)`, symal.cpp 293-323; `none`: not done after so many rounds. -/
def grow (x : Input) (ns : List (Int × Int)) : Nat → State → Option State
  | 0, _ => none
  | f + 1, s => match scan x ns f (s, false) s.points.head? with
    | none => none
    | some (s, added) => if added then grow x ns f s else some s

/-- A point of the union in one of the loops for `final`, symal.cpp 327-344 and 347-364. -/
def tryFinal (both : Bool) (kind : Int) (s : State) (k : Point) : State :=
  if s.A k.1 k.2 = kind then
    if (both = true ∧ s.ea k.1 = false ∧ s.fa k.2 = false) ∨ (both = false ∧ (s.ea k.1 && s.fa k.2) = false) then add s k else s
  else s

/-- Both loops, symal.cpp 325-365. -/
def finals (both : Bool) (u : List Point) (s : State) : State := u.foldl (tryFinal both (-1)) (u.foldl (tryFinal both 1) s)

/-- The points that are printed, symal.cpp 272-365. -/
def growPoints (x : Input) (diagonal final both : Bool) (fuel : Nat) : Option (List Point) :=
  match grow x (neighbors diagonal) fuel (fill x).1 with
  | none => none
  | some s => some (if final then finals both (fill x).2 s else s).points

/-- `printgrow`, symal.cpp 229-384. -/
def printGrow (x : Input) (diagonal final both : Bool) (fuel : Nat) : Option Str :=
  match growPoints x diagonal final both fuel with
  | none => none
  | some l => some (fixed (l.flatMap (fun k => shown k.1 k.2)))

end Verif.Symal
