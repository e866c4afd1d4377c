import Verif.Basic

/-!
Names that stand for processors: framework/aliaser.cpp.
-/
namespace Verif.Pipeline

/-- The maps of `Aliaser` (framework/aliaser.hpp 33-34); a `std::map` is a function, a `std::set` a list without
repetition.  `none` is a name that is no alias. -/
structure Aliaser where
  dests : Str → Option (List Str) := fun _ => none
  sources : Str → List Str := fun _ => []

/-- `std::set::insert`. -/
def insertSet (x : Str) (s : List Str) : List Str := if x ∈ s then s else s ++ [x]

/-- `Aliaser::addAlias` (aliaser.cpp 8-26). -/
def Aliaser.addAlias (A : Aliaser) (alias destination : Str) : Aliaser where
  dests n := if n = alias then some (insertSet destination ((A.dests alias).getD [])) else A.dests n
  sources n := if n = destination then insertSet alias (A.sources n) else A.sources n

/-- `Aliaser::isAlias` (aliaser.cpp 33-35). -/
def Aliaser.isAlias (A : Aliaser) (n : Str) : Bool := (A.dests n).isSome

/-- `Aliaser::addVoidAlias` (aliaser.cpp 28-31, 63-68). -/
def Aliaser.addVoidAlias (A : Aliaser) (alias : Str) : Aliaser where
  dests n := if n = alias ∧ A.isAlias alias = false then some [] else A.dests n
  sources := A.sources

/-- The loop of `findDestinations_` (aliaser.cpp 78-80); `f` is the call for one name. -/
def loopDests (f : Str → List Str → List Str) : List Str → List Str → List Str
  | [], acc => acc
  | d :: ds, acc => loopDests f ds (f d acc)

/-- `Aliaser::findDestinations_` (aliaser.cpp 70-85); the number is `depthLimit`. -/
def Aliaser.findDests (A : Aliaser) : Nat → Str → List Str → List Str
  | 0, a, acc => match A.dests a with
    | none => insertSet a acc
    | some _ => acc
  | k + 1, a, acc => match A.dests a with
    | none => insertSet a acc
    | some ds => loopDests (A.findDests k) ds acc

/-- `Aliaser::getAllDestinations` (aliaser.cpp 47-53); the limit is 5 (aliaser.cpp 107). -/
def Aliaser.destinations (A : Aliaser) (alias : Str) : List Str := A.findDests 5 alias []

/-- The loop of `findAliases_` (aliaser.cpp 98-104); `f` is the call for one name. -/
def loopAliases (f : Str → List Str → Option (List Str)) : List Str → List Str → Option (List Str)
  | [], acc => some acc
  | d :: ds, acc => match f d acc with
    | none => none
    | some acc => loopAliases f ds acc

/-- `Aliaser::findAliases_` (aliaser.cpp 87-105).  When the limit is 0 there is only a warning and the limit becomes
`2^64 - 1`, so it is left out; the number is a bound on the depth of the recursion, `none` is deeper. -/
def Aliaser.findAliases (A : Aliaser) : Nat → Str → List Str → Option (List Str)
  | 0, _, _ => none
  | n + 1, x, acc => loopAliases (A.findAliases n) (A.sources x) (if A.isAlias x then insertSet x acc else acc)

/-- `Aliaser::getAllAliases` (aliaser.cpp 55-61). -/
def Aliaser.aliases (A : Aliaser) (n : Nat) (destination : Str) : Option (List Str) := A.findAliases n destination []

/-- The calls that fill an `Aliaser`. -/
inductive AliasOp
  | add (alias destination : Str)
  | void (alias : Str)

/-- One call. -/
def Aliaser.step (A : Aliaser) : AliasOp → Aliaser
  | .add a d => A.addAlias a d
  | .void a => A.addVoidAlias a

/-- An `Aliaser` after the calls. -/
def Aliaser.after (ops : List AliasOp) : Aliaser := ops.foldl Aliaser.step {}

end Verif.Pipeline
