import Verif.Basic

/-!
What expanding a file specification means: a text without `%` is copied, `%NAME%` is replaced by
the value of NAME, and then the rest (of the original specification) is expanded.
-/
namespace Verif.FileSpec.Spec
open Verif

/-- `Expands val spec out`: `spec` expands to `out` for the parameter values `val`. -/
inductive Expands (val : Str → Option Str) : Str → Str → Prop
  | plain {t : Str} : (37 : Byte) ∉ t → Expands val t t
  | param {t name value rest out : Str} : (37 : Byte) ∉ t → (37 : Byte) ∉ name →
      val name = some value → Expands val rest out →
      Expands val (t ++ 37 :: (name ++ 37 :: rest)) (t ++ (value ++ out))

/-- `UnknownName val spec name`: the first parameter of `spec` without a value is `name`. -/
inductive UnknownName (val : Str → Option Str) : Str → Str → Prop
  | here {t name rest : Str} : (37 : Byte) ∉ t → (37 : Byte) ∉ name → val name = none →
      UnknownName val (t ++ 37 :: (name ++ 37 :: rest)) name
  | later {t name value rest bad : Str} : (37 : Byte) ∉ t → (37 : Byte) ∉ name →
      val name = some value → UnknownName val rest bad →
      UnknownName val (t ++ 37 :: (name ++ 37 :: rest)) bad

/-- `Unbalanced val spec`: a last `%` is left over after the known parameters. -/
inductive Unbalanced (val : Str → Option Str) : Str → Prop
  | here {t rest : Str} : (37 : Byte) ∉ t → (37 : Byte) ∉ rest → Unbalanced val (t ++ 37 :: rest)
  | later {t name value rest : Str} : (37 : Byte) ∉ t → (37 : Byte) ∉ name →
      val name = some value → Unbalanced val rest →
      Unbalanced val (t ++ 37 :: (name ++ 37 :: rest))

end Verif.FileSpec.Spec
