import Verif.Zval.Model

/-!
# Syntactic trees (`common/zvalue.hpp`, `common/zvalue.cpp`)

A `zsyntree` is an environment with some fields.  The trees are on a heap, the
numbers are their addresses; a tree keeps its subtrees under the keys
`0, …, last_subtree`, the references under the keys `%Name` (which give the subtree)
and under the subtrees (which give the `%Name`), and the attributes under their
symbols.

Simplifications: an environment is a list of pairs of which `fetch` finds the
first with the key (that the table behaves so is `C138_map`; which of several pairs
with one key is found is not determined, see `C139_false`); `last_subtree` is kept
as the number of the subtrees, `last_subtree + 1`; the fields `is_variant`,
`segment_beg`, `segment_len` and `origin` are left out, as no function here reads
them.  A symbol is its address (see `C141_interned`).  The outcome `none` is a
failed assertion or a use of `NULL` as a tree.
-/

namespace Verif.Zval

/-- `common/zvalue.hpp`, 24-106: the values that are not `NULL`. -/
inductive Z where
  | int (n : Nat)
  | sym (s : Nat)
  | tree (t : Nat)
deriving Repr, DecidableEq

/-- `common/zvalue.hpp`, 780-868: the pairs of an environment; a second component
`none` is `NULL`. -/
abbrev Env := List (Z × Option Z)

/-- `common/zvalue.hpp`, 829-838: `zenvironment::fetch`. -/
def Env.fetch (e : Env) (k : Z) : Option Z := (e.find? fun p => p.1 = k).bind Prod.snd

/-- `common/zvalue.hpp`, 840-846: `zenvironment::defined`. -/
def Env.defined (e : Env) (k : Z) : Bool := (e.find? fun p => p.1 = k).isSome

/-- `common/zvalue.hpp`, 848-857: `zenvironment::change`. -/
def Env.change : Env → Z → Option Z → Env
  | [], k, d => [(k, d)]
  | p :: e, k, d => if p.1 = k then (k, d) :: e else p :: Env.change e k d

/-- `common/zvalue.hpp`, 860-863: `zenvironment::insert`. -/
def Env.insert (e : Env) (k : Z) (d : Option Z) : Env := e ++ [(k, d)]

/-- `common/zvalue.cpp`, 435-448: `zenvironment::deleteAllKeyValue`. -/
def Env.deleteAllKeyValue (e : Env) (k : Z) (d : Option Z) : Env :=
  e.filter fun p => !(decide (p.1 = k) && decide (p.2 = d))

/-- `common/zvalue.hpp`, 905-938: the fields of a `zsyntree`. -/
structure Node where
  env : Env := []
  category : Option Nat := none
  label : Option Nat := none
  equiv : Option Nat := none
  parent : Option Nat := none
  number : Option Nat := none
  count : Nat := 0
deriving Repr, DecidableEq

/-- The trees by their addresses. -/
abbrev Heap := Nat → Node

/-- The tree at an address is changed. -/
def Heap.upd (h : Heap) (t : Nat) (f : Node → Node) : Heap := fun q => if q = t then f (h q) else h q

/-- `common/zvalue.hpp`, 1132-1134: `zsyntree::getSubtree`. -/
def Heap.subtree (h : Heap) (t i : Nat) : Option Nat :=
  match (h t).env.fetch (.int i) with
  | some (.tree c) => some c
  | _ => none

/-- `change(INTEGER_TO_ZVALUE(i), c)`. -/
def Heap.setKid (h : Heap) (t i c : Nat) : Heap :=
  h.upd t fun n => { n with env := n.env.change (.int i) (some (.tree c)) }

/-- `c->number_in_parent_tree = i`. -/
def Heap.setNumber (h : Heap) (c i : Nat) : Heap := h.upd c fun n => { n with number := some i }

/-- `common/zvalue.cpp`, 745-751: the loop with `i` from `n + k` down to `n + 1`. -/
def Heap.shiftUp (h : Heap) (t n : Nat) : Nat → Option Heap
  | 0 => some h
  | k + 1 =>
    (h.subtree t (n + k)).bind fun c => ((h.setKid t (n + k + 1) c).setNumber c (n + k + 1)).shiftUp t n k

/-- `common/zvalue.cpp`, 735-758: `zsyntree::insertAsNthSubtree`. -/
def Heap.insertAsNth (h : Heap) (t c n : Nat) : Option Heap :=
  if (h c).parent ≠ none ∨ (h c).number ≠ none then none
  else
    let h1 := h.upd c fun x => { x with label := none }
    let old := (h1 t).count
    let h2 := h1.upd t fun x => { x with count := old + 1 }
    (h2.shiftUp t n (old - n)).map fun h3 =>
      (h3.setKid t (min n old) c).upd c fun x => { x with parent := some t, number := some n }

/-- `common/zvalue.cpp`, 729-733 and 760-763: `zsyntree::addSubtree`. -/
def Heap.addSubtree (h : Heap) (t c : Nat) (label : Option Nat) : Option Heap :=
  (h.insertAsNth t c (h t).count).map fun h1 => h1.upd c fun x => { x with label := label }

/-- `common/zvalue.hpp`, 1081-1084: `zsyntree::insertLeft`. -/
def Heap.insertLeft (h : Heap) (t c : Nat) : Option Heap := h.insertAsNth t c 0

/-- `common/zvalue.cpp`, 765-772: `zsyntree::insertBeside`. -/
def Heap.insertBeside (h : Heap) (t c : Nat) (after : Bool) : Option Heap :=
  (h t).parent.bind fun p => (h t).number.bind fun n =>
    if after then h.insertAsNth p c (n + 1) else h.insertAsNth p c n

/-- `common/zvalue.cpp`, 716-721: the loop with `k` values of `i` from `n` on. -/
def Heap.shiftDown (h : Heap) (t : Nat) : Nat → Nat → Option Heap
  | _, 0 => some h
  | n, k + 1 =>
    (h.subtree t n).bind fun c => ((h.setKid t (n - 1) c).setNumber c (n - 1)).shiftDown t (n + 1) k

/-- `common/zvalue.cpp`, 711-714: the references of a subtree are deleted. -/
def Heap.dropRefs (h : Heap) (t c : Nat) : Heap :=
  h.upd t fun x =>
    let r := x.env.fetch (.tree c)
    let e := match r with
      | none => x.env
      | some k => x.env.deleteAllKeyValue k (some (.tree c))
    { x with env := e.deleteAllKeyValue (.tree c) r }

/-- `common/zvalue.cpp`, 706-727: `zsyntree::deleteSubtree`.  With no reference the key of
the first deletion is `NULL`, which no pair has. -/
def Heap.deleteSubtree (h : Heap) (t c : Nat) : Option Heap :=
  if (h c).parent ≠ some t then none
  else
    (h c).number.bind fun n =>
      if h.subtree t n ≠ some c then none
      else
        let h1 := h.dropRefs t c
        (h1.shiftDown t (n + 1) ((h1 t).count - (n + 1))).map fun h2 =>
          (h2.upd t fun x => { x with count := x.count - 1 }).upd c fun x =>
            { x with parent := none, number := none }

/-- `common/zvalue.hpp`, 1122-1124: `zsyntree::detachFromParent`. -/
def Heap.detach (h : Heap) (t : Nat) : Option Heap :=
  match (h t).parent with
  | none => some h
  | some p => h.deleteSubtree p t

/-- `common/zvalue.cpp`, 774-792: `zsyntree::replaceWith`. -/
def Heap.replaceWith (h : Heap) (t c : Nat) : Option Heap :=
  if (h c).parent ≠ some t ∨ (h t).parent = none ∨ (h t).number = none then none
  else
    (h.deleteSubtree t c).bind fun h1 => (h1 t).parent.bind fun p => (h1 t).number.map fun n =>
      ((h1.setKid p n c).upd c fun x => { x with parent := some p, number := some n }).upd t fun x =>
        { x with parent := none, number := none }

/-- `common/zvalue.cpp`, 545-548: `zsyntree::setAttr`. -/
def Heap.setAttr (h : Heap) (t a : Nat) (v : Option Z) : Heap :=
  h.upd t fun n => { n with env := n.env.change (.sym a) v }

/-- `tools/translators/transferer/transferer.cpp`, 864-865: the tree `t` gets the reference `s` to
its subtree `c`. -/
def Heap.refer (h : Heap) (t c s : Nat) : Heap :=
  h.upd t fun n =>
    { n with env := (n.env.insert (.sym s) (some (.tree c))).insert (.tree c) (some (.sym s)) }

/-- A call of a function that changes the trees. -/
inductive TreeCall where
  | add (t c : Nat) (label : Option Nat)
  | insertLeft (t c : Nat)
  | insertBeside (t c : Nat) (after : Bool)
  | delete (t c : Nat)
  | detach (t : Nat)
  | replaceWith (t c : Nat)
  | setAttr (t a : Nat) (v : Option Z)
  | refer (t c s : Nat)

/-- One call. -/
def Heap.call (h : Heap) : TreeCall → Option Heap
  | .add t c label => h.addSubtree t c label
  | .insertLeft t c => h.insertLeft t c
  | .insertBeside t c after => h.insertBeside t c after
  | .delete t c => h.deleteSubtree t c
  | .detach t => h.detach t
  | .replaceWith t c => h.replaceWith t c
  | .setAttr t a v => some (h.setAttr t a v)
  | .refer t c s => some (h.refer t c s)

/-- A sequence of calls. -/
def Heap.calls : Heap → List TreeCall → Option Heap
  | h, [] => some h
  | h, c :: cs => (h.call c).bind fun h1 => h1.calls cs

/-- `common/zvalue.cpp`, 531-542: new trees. -/
def Heap.new : Heap := fun _ => {}

/-! ## Finding a subtree -/

/-- `common/zvalue.cpp`, 667-677 and 689-699: the body of the two loops. -/
def Heap.fits (h : Heap) (cat label : Option Nat) (c : Nat) : Bool :=
  if cat ≠ none ∧ cat ≠ (h c).category then false
  else if label ≠ none ∧ label ≠ (h c).label then false
  else true

/-- `common/zvalue.cpp`, 663-679: the loop from the left, with `k` numbers from `i` on. -/
def Heap.findLeft (h : Heap) (t : Nat) (cat label : Option Nat) : Nat → Nat → Option (Option Nat)
  | _, 0 => some none
  | i, k + 1 =>
    (h.subtree t i).bind fun c =>
      if h.fits cat label c then some (some c) else h.findLeft t cat label (i + 1) k

/-- `common/zvalue.cpp`, 685-702: the loop from the right, with the numbers below `k`. -/
def Heap.findRight (h : Heap) (t : Nat) (cat label : Option Nat) : Nat → Option (Option Nat)
  | 0 => some none
  | k + 1 =>
    (h.subtree t k).bind fun c =>
      if h.fits cat label c then some (some c) else h.findRight t cat label k

/-- `common/zvalue.cpp`, 651-704: `zsyntree::find`; the inner `none` is `NULL`. -/
def Heap.find (h : Heap) (t : Nat) (cat label : Option Nat) (fromLeft : Bool) :
    Option (Option Nat) :=
  if (h t).count = 0 then some none
  else if fromLeft then
    if cat = none ∧ label = none then (h.subtree t 0).map some
    else h.findLeft t cat label 0 (h t).count
  else
    if cat = none ∧ label = none then (h.subtree t ((h t).count - 1)).map some
    else h.findRight t cat label (h t).count

/-! ## Inheriting an attribute -/

/-- `common/zvalue.cpp`, 566-586: the loop; `hash` is the symbol `#`. -/
def Heap.inheritLoop (hash : Nat) (t a : Nat) : Heap → Bool → Nat → Nat → Option (Bool × Heap)
  | h, set, _, 0 => some (set, h)
  | h, set, i, k + 1 =>
    (h.subtree t i).bind fun c =>
      if (h c).env.defined (.sym a) then
        let h1 := h.setAttr t a ((h c).env.fetch (.sym a))
        if (h1 c).label = some hash then some (true, h1)
        else Heap.inheritLoop hash t a h1 true (i + 1) k
      else Heap.inheritLoop hash t a h set (i + 1) k

/-- `common/zvalue.cpp`, 556-590: `zsyntree::inherit`; a `value` of `none` is
`DEFAULT_ZVALUE`. -/
def Heap.inherit (hash : Nat) (h : Heap) (t a : Nat) (value : Option (Option Z)) : Option Heap :=
  (Heap.inheritLoop hash t a h false 0 (h t).count).map fun r =>
    if r.1 then r.2
    else
      match value with
      | none => r.2
      | some v => r.2.setAttr t a v

/-! ## Sorting the subtrees -/

/-- An element of an order: `<`, `=` or a reference. -/
inductive Item where
  | less
  | equal
  | ref (s : Z)
deriving Repr, DecidableEq

/-- `tools/translators/transferer/trules.cpp`, 253-270: the numbers of the references. -/
def orderRanks : Nat → List Item → List (Z × Nat)
  | _, [] => []
  | w, .less :: is => orderRanks (w + 1) is
  | w, .equal :: is => orderRanks w is
  | w, .ref s :: is => (s, w) :: orderRanks w is

/-- The number of a reference (`a_srefs_hash->get`). -/
def rankOf (ranks : List (Z × Nat)) (s : Z) : Option Nat :=
  (ranks.find? fun p => p.1 = s).map Prod.snd

/-- `common/zvalue.cpp`, 601-604 and 612-615: the number of the subtree `i`; the outer
`none` is a subtree that is missing. -/
def Heap.rankAt (h : Heap) (ranks : List (Z × Nat)) (t i : Nat) : Option (Option Nat) :=
  (h.subtree t i).map fun c => ((h t).env.fetch (.tree c)).bind (rankOf ranks)

/-- `common/zvalue.cpp`, 610-626: the last of the subtrees from `i + 1` to `i + k` with a
smaller number; `i` if there is none. -/
def Heap.lastSmaller (h : Heap) (ranks : List (Z × Nat)) (t i q : Nat) : Nat → Option Nat
  | 0 => some i
  | k + 1 =>
    (h.rankAt ranks t (i + k + 1)).bind fun r =>
      match r with
      | some w => if w < q then some (i + k + 1) else h.lastSmaller ranks t i q k
      | none => h.lastSmaller ranks t i q k

/-- `common/zvalue.cpp`, 628-643: the subtree `i` goes behind the subtree `k`. -/
def Heap.rotate (h : Heap) (t i k : Nat) : Option Heap :=
  (h.subtree t i).bind fun temp =>
    (h.shiftDown t (i + 1) (k - i)).map fun h1 => (h1.setKid t k temp).setNumber temp k

/-- `common/zvalue.cpp`, 599-646: the loop with `i` from `n - 1` down to 0. -/
def Heap.sortLoop (ranks : List (Z × Nat)) (t : Nat) : Heap → Nat → Option Heap
  | h, 0 => some h
  | h, i + 1 =>
    (h.rankAt ranks t i).bind fun r =>
      match r with
      | none => Heap.sortLoop ranks t h i
      | some q =>
        (h.lastSmaller ranks t i q ((h t).count - 1 - i)).bind fun k =>
          if k ≠ i then (h.rotate t i k).bind fun h1 => Heap.sortLoop ranks t h1 i
          else Heap.sortLoop ranks t h i

/-- `common/zvalue.cpp`, 592-649: `zsyntree::sortByOrder`. -/
def Heap.sortByOrder (ranks : List (Z × Nat)) (h : Heap) (t : Nat) : Option Heap :=
  h.sortLoop ranks t ((h t).count - 1)

/-! ## Equivalent trees -/

/-- `common/zvalue.hpp`, 1031-1048: `zsyntree::setEquivTree(NULL)`. -/
def Heap.clearEquiv (h : Heap) (t : Nat) : Heap :=
  let h1 := match (h t).equiv with
    | none => h
    | some u => h.upd u fun x => { x with equiv := none }
  h1.upd t fun x => { x with equiv := none }

/-- `common/zvalue.hpp`, 1031-1048: `zsyntree::setEquivTree` with a tree. -/
def Heap.setEquiv (h : Heap) (t u : Nat) : Option Heap :=
  if u = t then none
  else
    let h1 := match (h t).equiv with
      | none => h
      | some v => h.upd v fun x => { x with equiv := none }
    let h2 := h1.upd t fun x => { x with equiv := some u }
    let h3 := if (h2 u).equiv ≠ none then h2.clearEquiv u else h2
    if (h3 u).equiv ≠ none then none
    else some (h3.upd u fun x => { x with equiv := some t })

end Verif.Zval
