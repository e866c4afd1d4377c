import Verif.Tags.Model

/-!
What layer tags mean to a user: which names a collection contains, how a manager and the
collections made with it come about, and the meaning of a written mask.
-/
namespace Verif.Tags.Spec
open Verif Verif.Tags

/-- `Has m tags name`: the collection `tags` contains the tag called `name`. -/
def Has (m : Manager) (tags : TagSet) (name : Str) : Prop :=
  ∃ i : Nat, m.names[i]? = some name ∧ tags.getLsbD i = true

/-- `Later m m'`: the manager `m` has become `m'` by API calls (those that change it). -/
inductive Later : Manager → Manager → Prop
  | refl {m} : Later m m
  | create {m m1 m2 names t} : Later m m1 → createTagCollection m1 names = some (m2, t) → Later m m2
  | isThere {m m1 m2 name t b} : Later m m1 → isThere m1 name t = some (m2, b) → Later m m2

/-- Managers reachable from a new one. -/
def Reachable (m : Manager) : Prop := Later initial m

/-- `Made m t`: the collection `t` was made with the manager, which is now `m`. -/
inductive Made : Manager → TagSet → Prop
  | empty {m} : Reachable m → Made m 0
  | create {m m' names t} : Reachable m → createTagCollection m names = some (m', t) → Made m' t
  | later {m m' t} : Made m t → Later m m' → Made m' t
  | union {m a b} : Made m a → Made m b → Made m (createUnion a b)
  | inter {m a b} : Made m a → Made m b → Made m (createIntersection a b)

/-- A plane tag: the name starts with `!`. -/
def PlaneName (name : Str) : Prop := ∃ rest, name = 33 :: rest

/-- Joining with a separator. -/
def join (sep : Byte) : List Str → Str
  | [] => []
  | [s] => s
  | s :: t :: ss => s ++ sep :: join sep (t :: ss)

/-- A name that can be written in a mask: nonempty and without `,` and `;`. -/
def PlainName (name : Str) : Prop := name ≠ [] ∧ ∀ b ∈ name, b ≠ 44 ∧ b ≠ 59

end Verif.Tags.Spec
