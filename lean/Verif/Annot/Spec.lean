import Verif.Annot.Model

/-! What annotation items are to do, without vectors of values, bitsets and numbers of attributes. -/
namespace Verif.Annot
open Verif

/-- An item as its user sees it: each attribute has a value or none. -/
structure AItem where
  cat : Str
  text : Str
  val : Str → Option ZVal

/-- The attributes ever used, in the order of their first use, and the items. -/
structure AState where
  used : List Str
  items : List AItem

/-- The attribute `a` of an item now has the value `v`. -/
def AItem.put (x : AItem) (a : Str) (v : ZVal) : AItem :=
  { x with val := fun b => if b = a then some v else x.val b }

/-- The attributes of `y` are added, or replace those of `x`. -/
def AItem.over (x y : AItem) : AItem := { x with val := fun b => (y.val b).or (x.val b) }

/-- What an operation does; it is not allowed only if an item does not exist. -/
def AState.step (s : AState) : Op → Option AState
  | .new cat text => some { s with items := s.items ++ [⟨cat, text, fun _ => none⟩] }
  | .copy k => (s.items[k]?).map fun x => { s with items := s.items ++ [x] }
  | .copyAs k cat => (s.items[k]?).map fun x => { s with items := s.items ++ [{ x with cat := cat }] }
  | .setCat k cat => (s.items[k]?).map fun x => { s with items := s.items.set k { x with cat := cat } }
  | .set k a v => (s.items[k]?).map fun x =>
      ⟨if a ∈ s.used then s.used else s.used ++ [a], s.items.set k (x.put a v)⟩
  | .add t k => (s.items[t]?).bind fun x => (s.items[k]?).map fun y =>
      { s with items := s.items.set t (x.over y) }

/-- What a program does. -/
def AState.run (s : AState) : List Op → Option AState
  | [] => some s
  | op :: ops => (s.step op).bind (AState.run · ops)

/-- The pairs of attributes and values of an item, attributes in the order given. -/
def AItem.pairs (x : AItem) (attrs : List Str) : List (Str × ZVal) :=
  attrs.filterMap fun a => (x.val a).map fun v => (a, v)

/-! ### Numbers and strings -/

/-- The number digits stand for. -/
def decimalValue : Str → Nat
  | [] => 0
  | d :: ds => (d.toNat - 48) * 10 ^ ds.length + decimalValue ds

/-- A string of at least one decimal digit. -/
def Digits (ds : Str) : Prop := ds ≠ [] ∧ ∀ d ∈ ds, 48 ≤ d.toNat ∧ d.toNat ≤ 57

/-- White space. -/
def Space (c : Byte) : Prop := c.toNat = 32 ∨ (9 ≤ c.toNat ∧ c.toNat ≤ 13)

/-- A string is read as the number `i`: white space, a sign, digits, and nothing else. -/
def Numeral (s : Str) (i : Int) : Prop :=
  -2147483648 ≤ i ∧ i ≤ 2147483647 ∧
  ∃ ws sg ds, s = ws ++ sg ++ ds ∧ (∀ c ∈ ws, Space c) ∧ Digits ds ∧
    ((sg = [] ∧ i = decimalValue ds) ∨ (sg = [43] ∧ i = decimalValue ds) ∨ (sg = [45] ∧ i = -(decimalValue ds : Int)))

/-- A string is how the number `i` is written: a minus sign if needed, digits, no needless zeros. -/
def Written (s : Str) (i : Int) : Prop :=
  ∃ ds, Digits ds ∧ (ds.head? = some 48 → ds = [48]) ∧
    ((0 ≤ i ∧ s = ds ∧ i = decimalValue ds) ∨ (i < 0 ∧ s = 45 :: ds ∧ i = -(decimalValue ds : Int)))

/-- A number of 31 bits. -/
def Small (i : Int) : Prop := -1073741824 ≤ i ∧ i ≤ 1073741823

/-- The words that stand for special values but are not how these are written. -/
def aliases : List Str := [Server.ascii "any", Server.ascii "false", Server.ascii "empty"]

end Verif.Annot
