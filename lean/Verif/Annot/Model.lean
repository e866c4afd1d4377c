import Verif.Server.Handler

/-!
Model of annotation items and their manager, `common/annotation_item.{hpp,cpp}`,
`common/annotation_item_manager.{hpp,cpp}`, and of the printing of values, `common/zvalue.cpp`.

* `none` stands for an assertion that fails or an access outside a bitset.
* The bimap `m_` is the list of its attributes; the number of an attribute is its place.  An
  insertion of an attribute that is there does nothing.
* Strings are interned (zvalue.cpp 480-494, with the hash table of symbols taken for granted), so
  two symbols are the same pointer just when their strings are the same.  Pointers, numbers and the
  two special values are different.
-/
namespace Verif.Annot
open Verif

/-- `zvalue` (zvalue.hpp 13-38) as far as items hold them. -/
inductive ZVal
  | null
  | any
  | int (i : Int)
  | sym (s : Str)
  deriving DecidableEq

/-- What `ZVALUE_TO_INTEGER(INTEGER_TO_ZVALUE(i))` gives (zvalue.hpp 33-34): `(i << 1) | 1` is
computed with 32 bits (as the machine does on overflow), and later shifted to the right by one as a
wider number. -/
def shifted (i : Int) : Int := (Int.bmod (2 * i + 1) (2 ^ 32)).fdiv 2

/-- `INTEGER_TO_ZVALUE` (zvalue.hpp 34). -/
def intToZ (i : Int) : ZVal := .int (shifted i)

/-- The loop of `itoa` (zvalue.cpp 363-366): the digits, the last one first; more rounds than the
number are never needed. -/
def itoaLoop : Nat → Nat → Str
  | 0, _ => []
  | fuel + 1, i => if i = 0 then [] else UInt8.ofNat (48 + i % 10) :: itoaLoop fuel (i / 10)

/-- `itoa` (zvalue.cpp 356-373). -/
def itoa (i : Int) : Str :=
  let digits := if i.natAbs = 0 then [48] else itoaLoop i.natAbs i.natAbs
  if i < 0 then 45 :: digits.reverse else digits.reverse

/-- `zvalue_to_string` (zvalue.cpp 962-987). -/
def zvalueToString : ZVal → Str
  | .null => Server.ascii "NULL_ZVALUE"
  | .int i => itoa i
  | .sym s => s
  | .any => Server.ascii "UNKNOWN_ZVALUE"

/-- `c_str()`: the string up to the first zero byte. -/
def cStr (s : Str) : Str := s.takeWhile (· != 0)

/-- `isspace` in the classic locale. -/
def isSpace (c : Byte) : Bool := c == 32 || (9 ≤ c && c ≤ 13)

def isDigit (c : Byte) : Bool := 48 ≤ c && c ≤ 57

/-- Digits read one by one, as `std::num_get` does; `none` if something else is found or nothing. -/
def readDigits : Str → Nat → Bool → Option Nat
  | [], v, seen => if seen then some v else none
  | c :: cs, v, _ => if isDigit c then readDigits cs (10 * v + (c.toNat - 48)) true else none

/-- A number fits in an `int`. -/
def fits (i : Int) : Bool := decide (-(2 ^ 31) ≤ i) && decide (i < 2 ^ 31)

/-- `valSs >> intVal && valSs.eof()` (annotation_item_manager.cpp 48-50): white space is skipped, a
sign may follow, then digits up to the end of the string; out of range it fails. -/
def readInt (s : Str) : Option Int :=
  match s.dropWhile isSpace with
  | [] => none
  | c :: cs =>
    let n : Option Int :=
      if c = 45 then (readDigits cs 0 false).map (fun v : Nat => -(v : Int))
      else if c = 43 then (readDigits cs 0 false).map (fun v : Nat => (v : Int))
      else (readDigits (c :: cs) 0 false).map (fun v : Nat => (v : Int))
    n.bind fun i => if fits i then some i else none

/-- `stringToZvalue` (annotation_item_manager.cpp 168-170). -/
def stringToZ (s : Str) : ZVal := .sym (cStr s)

/-- `from_string` (annotation_item_manager.cpp 229-237). -/
def fromString (s : Str) : ZVal :=
  if s = Server.ascii "any" ∨ s = Server.ascii "nil" then .any
  else if s = Server.ascii "fail" ∨ s = Server.ascii "false" ∨ s = Server.ascii "empty" then .null
  else stringToZ s

/-- `setValue` with a string (annotation_item_manager.cpp 43-55): the value that is set. -/
def ofString (s : Str) : ZVal :=
  match readInt s with
  | some i => intToZ i
  | none => fromString s

/-- `to_string` (annotation_item_manager.cpp 205-213). -/
def toString : ZVal → Str
  | .any => Server.ascii "nil"
  | .null => Server.ascii "fail"
  | z => zvalueToString z

/-- The number of bits of `attributes_` (annotation_item.hpp 107). -/
def maxAttrs : Nat := 128

/-- `AnnotationItem` (annotation_item.hpp 84-107). -/
structure Item where
  cat : Str
  text : Str
  values : List ZVal
  attributes : List Bool
  deriving DecidableEq

/-- `AnnotationItem(category, text)` (annotation_item.hpp 18-38). -/
def Item.new (cat text : Str) : Item := ⟨cat, text, [], List.replicate maxAttrs false⟩

/-- The number of an attribute, `m_.left.at(attribute)`. -/
def number : List Str → Str → Option Nat
  | [], _ => none
  | b :: m, a => if a = b then some 0 else (number m a).map (· + 1)

/-- `m_.insert(StringBimapItem(attribute, m_.size()))` (annotation_item_manager.cpp 73). -/
def enter (m : List Str) (a : Str) : List Str :=
  match number m a with
  | some _ => m
  | none => m ++ [a]

/-- `values_.resize(size)` (annotation_item.cpp 39-41). -/
def grow (vs : List ZVal) (size : Nat) : List ZVal :=
  if vs.length < size then vs ++ List.replicate (size - vs.length) .null else vs

/-- `resize_` (annotation_item.cpp 38-44). -/
def resize (it : Item) (size : Nat) : Option Item :=
  if size ≤ it.attributes.length then some { it with values := grow it.values size } else none

/-- `setValue` with a value (annotation_item_manager.cpp 68-80). -/
def setValue (m : List Str) (it : Item) (a : Str) (v : ZVal) : Option (List Str × Item) := do
  let m' := enter m a
  let ix ← number m' a
  let it' ← if it.values.length ≤ ix then resize it (ix + 1) else some it
  if ix < it'.attributes.length then
    return (m', { it' with values := it'.values.set ix v, attributes := it'.attributes.set ix true })
  else none

/-- `getValue` (annotation_item_manager.cpp 83-97). -/
def getValue (m : List Str) (it : Item) (a : Str) : Option ZVal :=
  match number m a with
  | none => some .null
  | some ix =>
    match it.attributes[ix]? with
    | none => none
    | some false => some .null
    | some true => it.values[ix]?

/-- `getValueAsString` (annotation_item_manager.cpp 100-105). -/
def getValueAsString (m : List Str) (it : Item) (a : Str) : Option Str :=
  (getValue m it a).map toString

/-- The loop of `getValuesAsZvalues` (annotation_item_manager.cpp 108-126), from attribute `i` on. -/
def valuesFrom (it : Item) : Nat → List Str → Option (List (Str × ZVal))
  | _, [] => some []
  | i, a :: m =>
    match it.attributes[i]? with
    | none => none
    | some false => valuesFrom it (i + 1) m
    | some true =>
      match it.values[i]? with
      | none => none
      | some v => (valuesFrom it (i + 1) m).map ((a, v) :: ·)

/-- `getValuesAsZvalues` (annotation_item_manager.cpp 108-126). -/
def getValuesAsZvalues (m : List Str) (it : Item) : Option (List (Str × ZVal)) := valuesFrom it 0 m

/-- `getValues` (annotation_item_manager.cpp 128-146). -/
def getValues (m : List Str) (it : Item) : Option (List (Str × Str)) :=
  (getValuesAsZvalues m it).map (·.map fun av => (av.1, toString av.2))

/-- The loop of `addValues` (annotation_item_manager.cpp 161-164). -/
def setAll (m : List Str) (it : Item) : List (Str × ZVal) → Option (List Str × Item)
  | [] => some (m, it)
  | (a, v) :: avs =>
    match setValue m it a v with
    | none => none
    | some (m', it') => setAll m' it' avs

/-- `addValues` (annotation_item_manager.cpp 154-165). -/
def addValues (m : List Str) (target source : Item) : Option (List Str × Item) :=
  match getValuesAsZvalues m source with
  | none => none
  | some avs => setAll m target avs

/-- The values beyond the shorter vector all print as the empty string
(annotation_item.cpp 63-69). -/
def blank (vs : List ZVal) : Bool := vs.all fun v => decide (zvalueToString v = [])

/-- `areAttributesTheSame_` (annotation_item.cpp 46-73). -/
def sameValues : List ZVal → List ZVal → Bool
  | [], ws => blank ws
  | vs, [] => blank vs
  | v :: vs, w :: ws => decide (v = w) && sameValues vs ws

/-- `operator==` (annotation_item.cpp 3-7). -/
def Item.eq (x y : Item) : Bool :=
  decide (x.cat = y.cat) && decide (x.text = y.text) && sameValues x.values y.values

/-- The string `getHash` hashes (annotation_item.cpp 25-36). -/
def Item.hashed (x : Item) : Str := x.cat ++ x.text ++ x.values.flatMap zvalueToString

/-! ### A program that works with items of one manager -/

/-- What a program can do with the items it holds (by their numbers). -/
inductive Op
  /-- a new item -/
  | new (cat text : Str)
  /-- a copy of an item, `AnnotationItem(item)`, hpp 64-69 -/
  | copy (k : Nat)
  /-- a copy with another category, hpp 40-45 -/
  | copyAs (k : Nat) (cat : Str)
  /-- `setCategory` -/
  | setCat (k : Nat) (cat : Str)
  /-- `setValue` with a value (or a number, or a string by `ofString`) -/
  | set (k : Nat) (a : Str) (v : ZVal)
  /-- `addValues` -/
  | add (target source : Nat)

/-- The attributes of the manager and the items. -/
structure State where
  m : List Str
  items : List Item
  deriving DecidableEq

def State.empty : State := ⟨[], []⟩

/-- One operation; `none` also if an item does not exist. -/
def step (s : State) : Op → Option State
  | .new cat text => some { s with items := s.items ++ [Item.new cat text] }
  | .copy k => do
    let it ← s.items[k]?
    return { s with items := s.items ++ [it] }
  | .copyAs k cat => do
    let it ← s.items[k]?
    return { s with items := s.items ++ [{ it with cat := cat }] }
  | .setCat k cat => do
    let it ← s.items[k]?
    return { s with items := s.items.set k { it with cat := cat } }
  | .set k a v => do
    let it ← s.items[k]?
    let (m, it') ← setValue s.m it a v
    return ⟨m, s.items.set k it'⟩
  | .add t k => do
    let it ← s.items[t]?
    let src ← s.items[k]?
    let (m, it') ← addValues s.m it src
    return ⟨m, s.items.set t it'⟩

/-- The operations one after another. -/
def run (s : State) : List Op → Option State
  | [] => some s
  | op :: ops => (step s op).bind (run · ops)

end Verif.Annot
