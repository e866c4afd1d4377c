import Verif.StringFrag.Model

/-! Which plain string a fragment stands for. -/
namespace Verif.StringFrag
open Verif

/-- `Reach f s`: `f` results from fragment operations mirrored by plain string operations that
give `s`.  `append` is restricted to the cases in which the code is right: the receiver is stored,
or empty, or was appended to before (`contents ≠ []`), or the argument continues it in the same
text. -/
inductive Reach : Frag → Str → Prop
  | store (s) : Reach (store s) s
  | ofText (src b l) : b + l ≤ src.length → src.length < npos →
      Reach (ofText src b l) ((src.drop b).take l)
  | ofFrag {f s} (b l) : Reach f s → f.stored = false → b + l ≤ s.length →
      Reach (ofFrag f b l) ((s.drop b).take l)
  | copy {f s} : Reach f s → Reach (copy f) s
  | append {f g h s t} : Reach f s → Reach g t → append f g = some h →
      (f.stored = true ∨ s = [] ∨ f.contents ≠ [] ∨
        (g.stored = false ∧ g.src = f.src ∧ f.begin_ + f.len = g.begin_)) →
      Reach h (s ++ t)
  | grow {f s} (more) : Reach f s → f.stored = false → (f.src ++ more).length < npos →
      Reach { f with src := f.src ++ more } s

end Verif.StringFrag
