import Verif.Zval.Tree
import Mathlib.Logic.Relation

/-! # What the functions of syntactic trees are for -/

namespace Verif.Zval

/-- The trees as one thinks of them: every tree has a list of subtrees and may have a
label. -/
structure Forest where
  kids : Nat → List Nat
  label : Nat → Option Nat

/-- The heap shows the forest: the subtrees of every tree are those of the list, in
its order, and every subtree knows its tree and its place in it. -/
structure Shows (h : Heap) (F : Forest) : Prop where
  count : ∀ t, (h t).count = (F.kids t).length
  subtree : ∀ t i, i < (F.kids t).length → h.subtree t i = (F.kids t)[i]?
  place : ∀ c t i, (F.kids t)[i]? = some c ↔ (h c).parent = some t ∧ (h c).number = some i
  root : ∀ c, (h c).parent = none ↔ (h c).number = none
  label : ∀ c, (h c).label = F.label c

/-- The tree is a subtree of no tree. -/
def Forest.Root (F : Forest) (c : Nat) : Prop := ∀ t, c ∉ F.kids t

/-- The subtrees of `t` become `l`, the label of `c` becomes `a`. -/
def Forest.set (F : Forest) (t : Nat) (l : List Nat) (c : Nat) (a : Option Nat) : Forest :=
  { kids := fun q => if q = t then l else F.kids q,
    label := fun q => if q = c then a else F.label q }

/-- The subtrees of `t` become `l`. -/
def Forest.setKids (F : Forest) (t : Nat) (l : List Nat) : Forest :=
  { F with kids := fun q => if q = t then l else F.kids q }

/-- What the calls do to a forest; a call that is not listed is not allowed. -/
inductive Edit : Forest → TreeCall → Forest → Prop
  | add {F : Forest} {t c : Nat} {a : Option Nat} (h : F.Root c) :
      Edit F (.add t c a) (F.set t (F.kids t ++ [c]) c a)
  | insertLeft {F : Forest} {t c : Nat} (h : F.Root c) :
      Edit F (.insertLeft t c) (F.set t (c :: F.kids t) c none)
  | insertAfter {F : Forest} {p t c : Nat} {l r : List Nat} (h : F.Root c)
      (k : F.kids p = l ++ t :: r) :
      Edit F (.insertBeside t c true) (F.set p (l ++ t :: c :: r) c none)
  | insertBefore {F : Forest} {p t c : Nat} {l r : List Nat} (h : F.Root c)
      (k : F.kids p = l ++ t :: r) :
      Edit F (.insertBeside t c false) (F.set p (l ++ c :: t :: r) c none)
  | delete {F : Forest} {t c : Nat} {l r : List Nat} (k : F.kids t = l ++ c :: r) :
      Edit F (.delete t c) (F.setKids t (l ++ r))
  | detach {F : Forest} {p t : Nat} {l r : List Nat} (k : F.kids p = l ++ t :: r) :
      Edit F (.detach t) (F.setKids p (l ++ r))
  | detachRoot {F : Forest} {t : Nat} (h : F.Root t) : Edit F (.detach t) F
  | replaceWith {F : Forest} {p t c : Nat} {l r l' r' : List Nat} (hne : c ≠ t)
      (k : F.kids t = l ++ c :: r)
      (k' : (F.setKids t (l ++ r)).kids p = l' ++ t :: r') :
      Edit F (.replaceWith t c) ((F.setKids t (l ++ r)).setKids p (l' ++ c :: r'))
  | setAttr {F : Forest} {t a : Nat} {v : Option Z} : Edit F (.setAttr t a v) F
  | refer {F : Forest} {t c s : Nat} : Edit F (.refer t c s) F

/-- A sequence of calls. -/
inductive Edits : Forest → List TreeCall → Forest → Prop
  | nil {F : Forest} : Edits F [] F
  | cons {F G H : Forest} {c : TreeCall} {cs : List TreeCall} (h : Edit F c G) (t : Edits G cs H) :
      Edits F (c :: cs) H

/-- New trees. -/
def Forest.new : Forest := { kids := fun _ => [], label := fun _ => none }

/-- `c` is an immediate subtree of `t`. -/
def Forest.Child (F : Forest) (c t : Nat) : Prop := c ∈ F.kids t

/-- No tree is inside itself. -/
def Forest.Acyclic (F : Forest) : Prop := ∀ t, ¬ Relation.TransGen F.Child t t

/-- `c` is `t`, or is somewhere inside it. -/
def Forest.Within (F : Forest) (c t : Nat) : Prop := Relation.ReflTransGen F.Child c t

/-- The call does not put a tree into itself or into a tree inside it. -/
def Sensible (F : Forest) : TreeCall → Prop
  | .add t c _ => ¬ F.Within t c
  | .insertLeft t c => ¬ F.Within t c
  | .insertBeside t c _ => ∀ p, t ∈ F.kids p → ¬ F.Within p c
  | _ => True

/-- The subtree fits a description. -/
def Fits (h : Heap) (cat label : Option Nat) (c : Nat) : Prop :=
  (∀ x, cat = some x → (h c).category = some x) ∧ (∀ x, label = some x → (h c).label = some x)

/-- Who has an equivalent is the equivalent of its equivalent. -/
def Equivalents (h : Heap) : Prop := ∀ t u, (h t).equiv = some u → (h u).equiv = some t ∧ t ≠ u

/-- `c` comes before `d` in the list. -/
def Before (l : List Nat) (c d : Nat) : Prop := [c, d].Sublist l

/-- The order says that `a` comes before `b`: both are named and `<` is between them. -/
def Below (order : List Item) (a b : Z) : Prop :=
  ∃ l m r, order = l ++ .ref a :: (m ++ .ref b :: r) ∧ Item.less ∈ m

/-- The order does not distinguish `a` and `b`: only `=` and references are between them. -/
def Level (order : List Item) (a b : Z) : Prop :=
  ∃ l m r, (order = l ++ .ref a :: (m ++ .ref b :: r) ∨ order = l ++ .ref b :: (m ++ .ref a :: r)) ∧
    Item.less ∉ m

/-- The reference of a subtree. -/
def refOf (h : Heap) (t c : Nat) : Option Z := (h t).env.fetch (.tree c)

/-- The order names the reference of the subtree. -/
def Named (h : Heap) (order : List Item) (t c : Nat) : Prop :=
  ∃ a, refOf h t c = some a ∧ Item.ref a ∈ order

end Verif.Zval
