/-!
What the documentation of `LimitChecker` promises (limit_checker.hpp 8-31): for an argument the
limit is that of the smallest declared bound not below the argument, else the absolute limit.
-/
namespace Verif.Limit.Spec

/-- `(b, l)` governs `argument` among the declarations `ds` (in declaration order): it is declared,
its bound is not below the argument, every other bound not below the argument is at least as
large, and of equal bounds it is the one declared first. -/
def Governs (ds : List (Int × Int)) (argument b l : Int) : Prop :=
  ∃ pre post, ds = pre ++ (b, l) :: post ∧ argument ≤ b ∧
    (∀ d ∈ ds, argument ≤ d.1 → b ≤ d.1) ∧ (∀ d ∈ pre, d.1 ≠ b)

/-- The answer expected. -/
def Allowed (ds : List (Int × Int)) (absolute argument value : Int) : Prop :=
  (∃ b l, Governs ds argument b l ∧ value ≤ l) ∨
  ((∀ d ∈ ds, d.1 < argument) ∧ value ≤ absolute)

end Verif.Limit.Spec
