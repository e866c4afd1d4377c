import Verif.Basic

/-!
Model of `common/limit_checker.{hpp,cpp}`.  `int` values are `Int`; the only arithmetic is
comparison, so the width does not matter except for the constant "no limit" `intMax`.
-/
namespace Verif.Limit

/-- `std::numeric_limits<int>::max()`. -/
def intMax : Int := 2147483647

/-- `LimitChecker` (limit_checker.hpp 33-81); a spec is `(argument, limit)`. -/
structure Checker where
  ready : Bool
  absoluteLimit : Int
  specs : List (Int × Int)

/-- limit_checker.cpp 11-14. -/
def init : Checker := ⟨true, intMax, []⟩

/-- limit_checker.cpp 17-20. -/
def initWith (absolute : Int) : Checker := ⟨true, absolute, []⟩

/-- `setAbsoluteLimit`, limit_checker.cpp 23-25. -/
def setAbsoluteLimit (c : Checker) (l : Int) : Checker := { c with absoluteLimit := l }

/-- `addLimitSpec`, limit_checker.cpp 28-34. -/
def addLimitSpec (c : Checker) (argument limit : Int) : Checker :=
  let ready := match c.specs.getLast? with
    | some last => if argument < last.1 then false else c.ready
    | none => c.ready
  { c with ready := ready, specs := c.specs ++ [(argument, limit)] }

/-- `addUnlimitedSpec`, limit_checker.cpp 37-39. -/
def addUnlimitedSpec (c : Checker) (argument : Int) : Checker := addLimitSpec c argument intMax

/-- One insertion of a stable sort by `argument`. -/
def insertSpec (x : Int × Int) : List (Int × Int) → List (Int × Int)
  | [] => [x]
  | y :: ys => if x.1 ≤ y.1 then x :: y :: ys else y :: insertSpec x ys

/-- `std::list::sort` with `operator<` on `argument` (limit_checker.hpp 73-75), a stable sort;
modelled by stable insertion sort (any two stable sorts give the same list). -/
def sortSpecs : List (Int × Int) → List (Int × Int)
  | [] => []
  | x :: xs => insertSpec x (sortSpecs xs)

/-- The `BOOST_FOREACH` of `isAllowed`, limit_checker.cpp 47-52: the limit of the first spec
whose argument is not below the given one. -/
def findSpec (argument : Int) : List (Int × Int) → Option Int
  | [] => none
  | s :: ss => if s.1 ≥ argument then some s.2 else findSpec argument ss

/-- `isAllowed`, limit_checker.cpp 42-55; it may sort the specs, so it returns the new state. -/
def isAllowed (c : Checker) (argument value : Int) : Bool × Checker :=
  let c' := if c.ready then c else { c with specs := sortSpecs c.specs, ready := true }
  match findSpec argument c'.specs with
  | some limit => (decide (value ≤ limit), c')
  | none => (decide (value ≤ c'.absoluteLimit), c')

/-- The public operations. -/
inductive Op
  | setAbsolute (l : Int)
  | add (argument limit : Int)
  | addUnlimited (argument : Int)
  | query (argument value : Int)

/-- Effect of one operation on the object. -/
def step (c : Checker) : Op → Checker
  | .setAbsolute l => setAbsoluteLimit c l
  | .add a l => addLimitSpec c a l
  | .addUnlimited a => addUnlimitedSpec c a
  | .query a v => (isAllowed c a v).2

/-- Effect of a history of operations. -/
def run (c : Checker) (ops : List Op) : Checker := ops.foldl step c

end Verif.Limit
