import Verif.PathGlob.Model

/-!
What a path glob means.  Only the file-system tree type is taken from the model.
-/
namespace Verif.PathGlob.Spec
open Verif

/-- `Member name node es`: the directory entries `es` contain `node` under `name`. -/
inductive Member (name : Str) (node : Node) : Entries → Prop
  | here {rest} : Member name node (.cons name node rest)
  | there {n o rest} : Member name node rest → Member name node (.cons n o rest)

/-- `At root p node`: `node` is found following the path `p` from `root`. -/
inductive At : Node → List Str → Node → Prop
  | here {n} : At n [] n
  | there {es name child p node} : Member name child es → At child p node →
      At (.dir es) (name :: p) node

/-- `Matches m segs p`: the segments match the path, `**` standing for any number of whole
directories (as the last segment: for any path below, i.e. at least one name), other segments for
one name each. -/
inductive Matches (m : Str → Str → Bool) : List Str → List Str → Prop
  | nil : Matches m [] []
  | dirs {segs ds p} : segs ≠ [] → Matches m segs p → Matches m ([42, 42] :: segs) (ds ++ p)
  | final {p} : p ≠ [] → Matches m [[42, 42]] p
  | seg {g segs name p} : g ≠ [42, 42] → m g name = true → Matches m segs p →
      Matches m (g :: segs) (name :: p)

/-- No directory below contains two entries with the same name. -/
inductive Distinct : Node → Prop
  | file : Distinct .file
  | other : Distinct .other
  | dir {es} : (∀ name a b, Member name a es → Member name b es → a = b) →
      (∀ name a, Member name a es → Distinct a) → Distinct (.dir es)

end Verif.PathGlob.Spec
