import Verif.Basic

/-!
Model of `FileFetcher::addParam` and `FileFetcher::replaceParams_`
(`common/file_fetcher.cpp` 8-13, 30-59).
-/
set_option linter.unusedVariables false

namespace Verif.FileSpec
open Verif

/-- The two exceptions of `replaceParams_` (file_fetcher.cpp 37-45). -/
inductive Error
  | singlePercent
  | unknownParam (name : Str)
  deriving DecidableEq, Repr

/-- `params_`, a `std::map`; the newest binding is first. -/
abbrev Params := List (Str × Str)

/-- `addParam`, file_fetcher.cpp 8-13: a later definition replaces an earlier one. -/
def addParam (ps : Params) (name value : Str) : Params := (name, value) :: ps

/-- `params_.find`. -/
def lookup (ps : Params) (name : Str) : Option Str := (ps.find? (fun p => p.1 == name)).map (·.2)

/-- `std::string::find(c, pos)`: index of the first `c` at or after `pos`. -/
def find (s : Str) (c : Byte) (pos : Nat) : Option Nat :=
  ((s.drop pos).findIdx? (· == c)).map (· + pos)

theorem find_bounds {s : Str} {c : Byte} {pos p : Nat} (h : find s c pos = some p) :
    pos ≤ p ∧ p < s.length := by
  simp only [find, Option.map_eq_some_iff] at h
  obtain ⟨i, hi, rfl⟩ := h
  obtain ⟨hlt, _⟩ := List.findIdx?_eq_some_iff_getElem.1 hi
  simp at hlt
  omega

/-- The `while` loop of `replaceParams_`, file_fetcher.cpp 34-56, with `finalFileSpec` and
`percentPos`. -/
def loop (ps : Params) (s : Str) (pos : Nat) : Except Error Str :=
  match h : find s B.percent pos with
  | none => .ok s
  | some p =>
    match h' : find s B.percent (p + 1) with
    | none => .error .singlePercent
    | some q =>
      let name := (s.drop (p + 1)).take (q - p - 1)
      match lookup ps name with
      | none => .error (.unknownParam name)
      | some value => loop ps (s.take p ++ value ++ s.drop (q + 1)) (p + value.length)
termination_by s.length - pos
decreasing_by
  have := find_bounds h
  have := find_bounds h'
  simp
  omega

/-- `replaceParams_`, file_fetcher.cpp 30-59. -/
def replaceParams (ps : Params) (spec : Str) : Except Error Str := loop ps spec 0

end Verif.FileSpec
