import Verif.Unumsunt.Model
import Verif.Annot.Spec
import Mathlib.Data.List.Forall2

/-! What rules of the tagset converter mean, for items as their user sees them. -/
namespace Verif.Unumsunt
open Verif Verif.Annot
open Verif.Server (ascii)

/-- How the value of an attribute reads. -/
def shows (x : AItem) (a : Str) : Str := toString ((x.val a).getD .null)

/-- A condition holds. -/
def Holds (x : AItem) (c : Str × Str) : Prop := if c.1 = ascii "CAT" then x.cat = c.2 else shows x c.1 = c.2

instance (x : AItem) (c : Str × Str) : Decidable (Holds x c) := by unfold Holds; infer_instance

/-- A rule is for an item: its text (up to a plus sign) is one of the words, if there are any, and all conditions hold. -/
def Fits (r : Rule) (x : AItem) : Prop :=
  (r.words = [] ∨ x.text.takeWhile (· ≠ 43) ∈ r.words) ∧ ∀ c ∈ r.conditions, Holds x c

instance (r : Rule) (x : AItem) : Decidable (Fits r x) := by unfold Fits; infer_instance

/-- The value a command gives to an attribute: that of another attribute, one of the special values, or what it says. -/
def meaning (x : AItem) (value : Str) : ZVal :=
  if value.head? = some 36 then (x.val value.tail).getD .null
  else if value = ascii "0" then .any
  else if value = ascii "-1" then .null
  else ofString value

/-- What the command `arg = value` does. -/
def obey (x : AItem) (c : Str × Str) : AItem :=
  if c.1 = ascii "CAT" then { x with cat := if c.2.head? = some 36 then shows x c.2.tail else c.2 }
  else x.put c.1 (meaning x c.2)

/-- What commands do one after another. -/
def obeyAll (x : AItem) (cs : List (Str × Str)) : AItem := cs.foldl obey x

/-- A command without alternatives. -/
def Plain (c : Str × Str) : Prop := 124 ∉ c.2

/-- The alternatives of a value: put together with bars they are the value. -/
def Alternatives (v : Str) (vs : List Str) : Prop := vs ≠ [] ∧ (∀ w ∈ vs, 124 ∉ w) ∧ [124].intercalate vs = v

/-- There is room for the attributes of a manager and of commands. -/
def Room (m : List Str) (attrs : List Str) : Prop := ∃ U : List Str, U.length ≤ 128 ∧ (∀ a ∈ m, a ∈ U) ∧ ∀ a ∈ attrs, a ∈ U

/-- The name or value a map gives, or the same. -/
def mapped (l : List (Str × Str)) (k : Str) : Str := (l.lookup k).getD k

/-- The value of a map for a value, or the same; it is looked up as it is printed. -/
def mappedValue (l : List (Str × Str)) (v : ZVal) : ZVal :=
  match l.lookup (zvalueToString v) with
  | some w => ofString w
  | none => v

/-- What a rule without alternatives makes of an item. -/
def use (r : Rule) (x : AItem) : Option AItem :=
  if Fits r x then (if r.isSkip then none else some (obeyAll x r.commands)) else some x

/-- What rules without alternatives make of an item. -/
def useAll : List Rule → AItem → Option AItem
  | [], x => some x
  | r :: rs, x => (use r x).bind (useAll rs)

/-- The item converted with maps: each attribute has the value of the last attribute (in the order `m`) that is renamed so. -/
def converted (maps : Maps) (m : List Str) (x : AItem) : AItem :=
  ⟨mapped maps.cats x.cat, x.text, fun b =>
    (((x.pairs m).filter fun av => mapped maps.attrs av.1 = b).getLast?).map fun av => mappedValue maps.vals av.2⟩

/-- What can be seen of a slot of the vector of items. -/
def Seen (m : List Str) : Option Item → Option AItem → Prop
  | none, none => True
  | some it, some x => it.cat = x.cat ∧ it.text = x.text ∧ (∀ a, getValue m it a = some ((x.val a).getD .null)) ∧
      getValuesAsZvalues m it = some (x.pairs m) ∧ ∀ a v, x.val a = some v → a ∈ m
  | _, _ => False

/-- The attributes commands give values to. -/
def targets (cs : List (Str × Str)) : List Str := (cs.map (·.1)).filter (· ≠ ascii "CAT")

/-! ### Rule files -/

/-- What is written before `>>`: an attribute (or `CAT`) and its value, or words. -/
inductive Cond
  | eq (a v : Str)
  | words (ws : List Str)

/-- What is written behind `>>`. -/
inductive Cmd
  | set (a v : Str)
  | skip

/-- White space. -/
def Pad (s : Str) : Prop := ∀ c ∈ s, Space c

/-- A name or a value: without `,`, `=` and `>`, and without white space at the ends. -/
def Token (t : Str) : Prop :=
  t ≠ [] ∧ (∀ c ∈ t, c ≠ 44 ∧ c ≠ 61 ∧ c ≠ 62) ∧ (∀ c, t.head? = some c → ¬ Space c) ∧ ∀ c, t.getLast? = some c → ¬ Space c

/-- An assignment as it is written. -/
def WritesEq (s a v : Str) : Prop :=
  ∃ p q p' q', s = p ++ a ++ q ++ 61 :: p' ++ v ++ q' ∧ Pad p ∧ Pad q ∧ Pad p' ∧ Pad q' ∧ Token a ∧ Token v

/-- Words, separated by white space. -/
inductive WritesWords : Str → List Str → Prop
  | nil {p} : Pad p → WritesWords p []
  | cons {p w s ws} : Pad p → w ≠ [] → (∀ c ∈ w, ¬ Space c ∧ c ≠ 44 ∧ c ≠ 61 ∧ c ≠ 62) → (s = [] ∨ ∃ c s', s = c :: s' ∧ Space c) →
      WritesWords s ws → WritesWords (p ++ w ++ s) (w :: ws)

/-- A condition as it is written. -/
def WritesCond (s : Str) : Cond → Prop
  | .eq a v => WritesEq s a v
  | .words ws => ws ≠ [] ∧ WritesWords s ws

/-- A command as it is written. -/
def WritesCmd (s : Str) : Cmd → Prop
  | .set a v => WritesEq s a v
  | .skip => ∃ p q, Pad p ∧ Pad q ∧ s = p ++ ascii "SKIP" ++ q

/-- A rule as it is written: conditions, `>>` and commands. -/
def WritesRule (line : Str) (conds : List Cond) (cmds : List Cmd) : Prop :=
  ∃ cs ds, conds ≠ [] ∧ cmds ≠ [] ∧ List.Forall₂ WritesCond cs conds ∧ List.Forall₂ WritesCmd ds cmds ∧
    line = [44].intercalate cs ++ [62, 62] ++ [44].intercalate ds

/-- The assignments among conditions. -/
def eqs (conds : List Cond) : List (Str × Str) :=
  conds.filterMap fun c => match c with | .eq a v => some (a, v) | .words _ => none

/-- A word is among conditions. -/
def HasWord (conds : List Cond) (w : Str) : Prop := ∃ ws, Cond.words ws ∈ conds ∧ w ∈ ws

/-- The number of commands with alternatives. -/
def branching (cs : List (Str × Str)) : Nat := (cs.filter fun c => decide (124 ∈ c.2)).length

/-- A rule says what is written. -/
def Says (r : Rule) (conds : List Cond) (cmds : List (Str × Str)) (skip : Bool) : Prop :=
  r.conditions = eqs conds ∧ (∀ w, w ∈ r.words ↔ HasWord conds w) ∧ r.commands = cmds ∧ r.isSkip = skip

/-- A line of a file with a rule: white space may be around it, and it does not begin as other lines do. -/
def WritesLine (line : Str) (conds : List Cond) (cmds : List (Str × Str)) : Prop :=
  ∃ p q l, line = p ++ l ++ q ∧ Pad p ∧ Pad q ∧ (∀ c, l.head? = some c → ¬ Space c ∧ c ≠ 35 ∧ c ≠ 64) ∧
    (∀ c, l.getLast? = some c → ¬ Space c) ∧ WritesRule l conds (cmds.map fun c => .set c.1 c.2)

end Verif.Unumsunt
