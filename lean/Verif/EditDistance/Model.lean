import Verif.Basic

/-!
Model of `common/edit_distance.hpp`.

Distances are `Nat` (the C++ uses `unsigned int`; no value exceeds the sum of the lengths).
-/
namespace Verif.EditDistance

variable {α : Type} [DecidableEq α]

/-- The inner loop of `levenshteinDistance`, edit_distance.hpp 18-21: from the cell already
computed in the current column (`left = col[j]`), the rest of the previous column
(`prevCol[j]`, `prevCol[j+1]`, …) and the rest of `s2`, the cells `col[j+1]`, …. -/
def fillCol (c : α) : Nat → List Nat → List α → List Nat
  | left, diag :: up :: prev, b :: s2 =>
    let v := min (min (1 + left) (1 + up)) (diag + if c = b then 0 else 1)
    v :: fillCol c v (up :: prev) s2
  | _, _, _ => []

/-- The outer loop, edit_distance.hpp 16-23, starting with index `i` and column `prevCol`. -/
def columns (s2 : List α) : Nat → List Nat → List α → List Nat
  | _, prevCol, [] => prevCol
  | i, prevCol, c :: s1 => columns s2 (i + 1) ((i + 1) :: fillCol c (i + 1) prevCol s2) s1

/-- `levenshteinDistance`, edit_distance.hpp 8-26; the result is `prevCol[len2]`. -/
def levenshteinDistance (s1 s2 : List α) : Nat :=
  (columns s2 0 (List.range (s2.length + 1)) s1).getD s2.length 0

/-- The loop of `findTheMostSimilarString`, edit_distance.hpp 34-40, with the current
`mostSimilarElement` and `shortestDistance`. -/
def mostSimilarLoop (s : List α) : List α × Nat → List (List α) → List α × Nat
  | best, [] => best
  | best, e :: es =>
    let d := levenshteinDistance e s
    mostSimilarLoop s (if d < best.2 then (e, d) else best) es

/-- `findTheMostSimilarString`, edit_distance.hpp 28-42: starts with the empty string and the
distance 99. -/
def findTheMostSimilarString (s : List α) (container : List (List α)) : List α :=
  (mostSimilarLoop s ([], 99) container).1

end Verif.EditDistance
