import Verif.Basic

/-!
Model of layer tags: `common/layer_tag_collection.{hpp,cpp}`, `common/layer_tag_mask.{hpp,cpp}`,
`common/layer_tag_manager.{hpp,cpp}`.

The bimap name ↔ index is a list of names (index = position, since a new name gets the current size
as its index).  `none` is a failed assertion / exception (`bitset` of 64 tags exhausted, or index
unknown to the manager).
-/
namespace Verif.Tags
open Verif

/-- `LayerTagCollection`: `std::bitset<64>`, layer_tag_collection.hpp 82. -/
abbrev TagSet := BitVec 64

/-- `createUnion`, layer_tag_collection.cpp 39-47. -/
def createUnion (a b : TagSet) : TagSet := a ||| b

/-- `createIntersection`, layer_tag_collection.cpp 49-57. -/
def createIntersection (a b : TagSet) : TagSet := a &&& b

/-- `isSubset`, layer_tag_collection.cpp 59-66. -/
def isSubset (a b : TagSet) : Bool := a &&& b == a

/-- `LayerTagMask`, layer_tag_mask.hpp 68-71 (the hash is left out). -/
structure Mask where
  alts : List TagSet
  any : Bool
  none_ : Bool
  deriving DecidableEq

/-- Constructor from alternatives, layer_tag_mask.hpp 50-56. -/
def Mask.ofAlts (alts : List TagSet) : Mask := ⟨alts, false, false⟩

/-- Constructor from one collection, layer_tag_mask.hpp 42-48. -/
def Mask.ofTags (tags : TagSet) : Mask := ⟨[tags], false, false⟩

/-- Constructor from a flag, layer_tag_mask.hpp 62-67. -/
def Mask.ofBool (v : Bool) : Mask := ⟨[], v, !v⟩

/-- `matches`, layer_tag_mask.cpp 102-118. -/
def «matches» (tags : TagSet) (mask : Mask) : Bool :=
  if mask.none_ then false
  else if mask.any then true
  else mask.alts.any (fun alt => isSubset alt tags)

/-- `LayerTagMask::isNone`, layer_tag_mask.cpp 5-19: the answer and the modified mask. -/
def Mask.isNone (m : Mask) : Bool × Mask :=
  if m.none_ then (true, m)
  else if m.any then (false, m)
  else if m.alts.any (fun alt => alt != 0) then (false, m)
  else (true, { m with none_ := true })

/-- `operator==` on masks, layer_tag_mask.cpp 61-84. -/
def Mask.eq (a b : Mask) : Bool :=
  if a.any && b.any then true
  else if a.none_ && b.none_ then true
  else if a.any != b.any then false
  else if a.none_ != b.none_ then false
  else a.alts == b.alts

/-- `LayerTagManager`: the bimap `m_` and `planeTags_`, layer_tag_manager.hpp 254-259. -/
structure Manager where
  names : List Str
  planeTags : TagSet

/-- A tag name starting with `!` (line 20: `tagName[0] == '!'`). -/
def isPlaneName (name : Str) : Bool := name.head? == some 33

/-- `m_.insert(StringBimapItem(tagName, m_.size()))`. -/
def Manager.insert (m : Manager) (name : Str) : Manager :=
  if name ∈ m.names then m else { m with names := m.names ++ [name] }

/-- The bit `i`. -/
def bit (i : Nat) : TagSet := BitVec.ofNat 64 (2 ^ i)

/-- One round of `createTagCollection`, layer_tag_manager.cpp 28-39 (same as
`createSingletonTagCollection`, 8-23). -/
def createOne (m : Manager) (result : TagSet) (name : Str) : Option (Manager × TagSet) :=
  let m := m.insert name
  let i := m.names.idxOf name
  if 64 ≤ i then none
  else some ({ m with planeTags := if isPlaneName name then m.planeTags ||| bit i else m.planeTags },
    result ||| bit i)

/-- The loop of `createTagCollection`, layer_tag_manager.cpp 27-40. -/
def createLoop (m : Manager) (result : TagSet) : List Str → Option (Manager × TagSet)
  | [] => some (m, result)
  | name :: names => match createOne m result name with
    | none => none
    | some (m', result') => createLoop m' result' names

/-- `createTagCollection`, layer_tag_manager.cpp 25-42. -/
def createTagCollection (m : Manager) (names : List Str) : Option (Manager × TagSet) :=
  createLoop m 0 names

/-- The constructor, layer_tag_manager.cpp 7: registers "symbol" as the first tag. -/
def initial : Manager := ⟨[[115, 121, 109, 98, 111, 108]], 0⟩

/-- `symbolTag_`. -/
def symbolTag : TagSet := bit 0

/-- The names of the bits from `i` on, layer_tag_manager.cpp 65-73. -/
def namesFrom (m : Manager) (tags : TagSet) (i : Nat) : Option (List Str) :=
  if _h : i < 64 then
    if tags.getLsbD i then
      match m.names[i]?, namesFrom m tags (i + 1) with
      | some name, some rest => some (name :: rest)
      | _, _ => none
    else namesFrom m tags (i + 1)
  else some []
termination_by 64 - i

/-- `getTagNames`, layer_tag_manager.cpp 63-76; `std::list::sort` is a stable merge sort. -/
def getTagNames (m : Manager) (tags : TagSet) : Option (List Str) :=
  (namesFrom m tags 0).map (fun l => l.mergeSort (fun a b => decide (a ≤ b)))

/-- `onlyPlaneTags`, layer_tag_manager.cpp 123-125. -/
def onlyPlaneTags (m : Manager) (tags : TagSet) : TagSet := createIntersection m.planeTags tags

/-- `areInTheSamePlane`, layer_tag_manager.cpp 127-131. -/
def areInTheSamePlane (m : Manager) (a b : TagSet) : Bool := onlyPlaneTags m a == onlyPlaneTags m b

/-- `isThere`, layer_tag_manager.cpp 133-137; registers the name. -/
def isThere (m : Manager) (name : Str) (tags : TagSet) : Option (Manager × Bool) :=
  let m := m.insert name
  let i := m.names.idxOf name
  if 64 ≤ i then none else some (m, tags.getLsbD i)

/-- `canBeAppliedToImplicitSymbol`, layer_tag_manager.cpp 139-149. -/
def canBeAppliedToImplicitSymbol (mask : Mask) : Bool :=
  if mask.any then true else mask.alts.any (fun alt => alt == symbolTag)

/-- `+(qi::char_ - ',' - ';')`, layer_tag_manager.hpp 31: the longest run of other characters
(possibly empty: then the parser fails) and the rest. -/
def token : Str → Str × Str
  | [] => ([], [])
  | b :: s => if b = B.comma ∨ b = B.semicolon then ([], b :: s) else
    let (t, rest) := token s
    (b :: t, rest)

theorem token_length (s : Str) : (token s).2.length ≤ s.length := by
  induction s with
  | nil => simp [token]
  | cons b s ih => simp only [token]; split <;> simp <;> omega

/-- `conjunction`, layer_tag_manager.hpp 30-31, after its first token: `(',' token)*`.  A `,` not
followed by a token is not consumed. -/
def conjRest : Str → List Str × Str
  | b :: s =>
    if b = B.comma ∧ (token s).1 ≠ [] then
      let r := conjRest (token s).2
      ((token s).1 :: r.1, r.2)
    else ([], b :: s)
  | [] => ([], [])
termination_by s => s.length
decreasing_by have := token_length s; simp; omega

/-- `conjunction`, layer_tag_manager.hpp 30-31; `none` if it does not match. -/
def conjunction (s : Str) : Option (List Str × Str) :=
  if (token s).1 = [] then none
  else
    let r := conjRest (token s).2
    some ((token s).1 :: r.1, r.2)

theorem conjRest_length (s : Str) : (conjRest s).2.length ≤ s.length := by
  fun_induction conjRest s with
  | case1 b s h r ih =>
    have := token_length s
    show (conjRest (token s).2).2.length ≤ s.length + 1
    omega
  | case2 b s h => simp
  | case3 => simp

theorem conjunction_length {s : Str} {c : List Str} {r : Str} (h : conjunction s = some (c, r)) :
    r.length ≤ s.length := by
  simp only [conjunction] at h
  split at h
  · simp at h
  · simp at h
    have h1 := conjRest_length (token s).2
    have h2 := token_length s
    rw [← h.2]; omega

/-- `start`, layer_tag_manager.hpp 27-28, after the first conjunction: `(';' conjunction)*`. -/
def altRest : Str → List (List Str)
  | b :: s =>
    if b = B.semicolon then
      match _h : conjunction s with
      | none => []
      | some (c, r) => c :: altRest r
    else []
  | [] => []
termination_by s => s.length
decreasing_by have := conjunction_length _h; simp; omega

/-- `splitMaskSpecification`, layer_tag_manager.cpp 158-167: what could not be parsed at the end is
ignored; no conjunction at all gives the empty list. -/
def splitMaskSpecification (s : Str) : List (List Str) :=
  match conjunction s with
  | none => []
  | some (c, r) => c :: altRest r

/-- The loop of `getAlternativeMaskFromTagNames`, layer_tag_manager.cpp 111-118. -/
def createAll (m : Manager) : List (List Str) → Option (Manager × List TagSet)
  | [] => some (m, [])
  | c :: cs => match createTagCollection m c with
    | none => none
    | some (m', t) => match createAll m' cs with
      | none => none
      | some (m'', ts) => some (m'', t :: ts)

/-- `getAlternativeMaskFromTagNames`, layer_tag_manager.cpp 111-118. -/
def getAlternativeMaskFromTagNames (m : Manager) (names : List (List Str)) :
    Option (Manager × Mask) :=
  (createAll m names).map (fun r => (r.1, Mask.ofAlts r.2))

/-- `getMask(specification)`, layer_tag_manager.cpp 82-89. -/
def getMask (m : Manager) (spec : Str) : Option (Manager × Mask) :=
  if splitMaskSpecification spec = [] then
    (createTagCollection m [spec]).map (fun r => (r.1, Mask.ofTags r.2))
  else getAlternativeMaskFromTagNames m (splitMaskSpecification spec)

/-- `multiplyMaskListByLangCode`, layer_tag_manager.cpp 91-107. -/
def multiplyMaskListByLangCode (l : List (List Str)) (lang : Str) : List (List Str) :=
  l.map (fun c => c ++ [33 :: lang])

/-- `splitCollectionSpecification`, layer_tag_manager.cpp 151-156: `boost::split` on commas keeps
empty fields. -/
def splitCollectionSpecification : Str → List Str
  | [] => [[]]
  | b :: s =>
    if b = B.comma then [] :: splitCollectionSpecification s
    else match splitCollectionSpecification s with
      | [] => [[b]]
      | f :: fs => (b :: f) :: fs

end Verif.Tags
