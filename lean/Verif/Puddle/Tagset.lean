import Verif.Basic
import Verif.Numconv.Text
import Verif.Unumsunt.Model

/-!
# Tagsets of the puddle parser

Model of `tools/parsers/puddle/tagset.cpp` lines 99–180, 440–500 and 600–728, and of
`getMorphologyString` in `puddle_util.cpp` lines 109–125.

The two maps of a tagset are lists of their entries; they are only looked into.  The reading of the
lines of a tagset file with regular expressions is not modelled, nor is the buffer of
`getAttributes`, which returns what has been computed before from the same tagset.
-/

namespace Verif.Puddle

open Verif.Numconv

/-- A `Morphology`, a `std::map` of strings: its entries, in the order of the names. -/
abbrev Morph := List (Str × Str)

/-- `std::map::insert`: an entry that is there stays. -/
def minsert (k v : Str) : Morph → Morph
  | [] => [(k, v)]
  | (k', v') :: m =>
    if k < k' then (k, v) :: (k', v') :: m
    else if k = k' then (k', v') :: m
    else (k', v') :: minsert k v m

/-- `morphology["pos"]`. -/
def mget (k : Str) (m : Morph) : Str := (m.lookup k).getD []

/-- The loop of `getMorphologyString` (puddle_util.cpp:113-123). -/
def morphLoop : Morph → Str → Str
  | [], s => s
  | (a, v) :: m, s =>
    if a = b!"pos" then morphLoop m s
    else morphLoop m ((if s ≠ [] then s ++ b!":" else s) ++ v)

/-- `util::getMorphologyString` (puddle_util.cpp:109-125). -/
def morphString (m : Morph) : Str := morphLoop m (mget b!"pos" m)

/-- A tagset: the values of the attributes, and the attributes of the parts of speech, where optional
ones are in brackets (tagset.hpp). -/
structure Tagset where
  attrs : List (Str × List Str)
  parts : List (Str × List Str)

/-- `attributes[attribute]`, which is empty if there is none. -/
def Tagset.values (t : Tagset) (a : Str) : List Str := (t.attrs.lookup a).getD []

/-- `boost::split` at blanks, where two blanks give an empty word (tagset.cpp:613, 637), trimmed. -/
def blankSplit (s : Str) : List Str :=
  (s.splitOnP fun c => c == 32 || c == 9 || c == 10).map Unumsunt.trim

/-- `parseAttribute` (tagset.cpp:603-626); `none` if it throws. -/
def Tagset.parseAttribute (t : Tagset) (a values : Str) : Option Tagset :=
  if (t.attrs.lookup a).isSome then none
  else some { t with attrs := t.attrs ++ [(a, blankSplit values)] }

/-- `parsePartOfSpeech` (tagset.cpp:628-650); `none` if it throws. -/
def Tagset.parsePart (t : Tagset) (p attributes : Str) : Option Tagset :=
  if (t.parts.lookup p).isSome then none
  else some { t with parts := t.parts ++ [(p, if attributes ≠ [] then blankSplit attributes else [])] }

/-- White space of regular expressions. -/
def reSpace (c : Byte) : Bool := c == 32 || c == 9 || c == 10 || c == 12 || c == 13

/-- The match of `\[([^\s\[\]]+)\]` (tagset.cpp:675, 690). -/
def optionalName : Str → Option Str
  | 91 :: r =>
    if r.getLast? = some 93 ∧ r.dropLast ≠ [] ∧ ∀ c ∈ r.dropLast, reSpace c = false ∧ c ≠ 91 ∧ c ≠ 93
    then some r.dropLast else none
  | _ => none

/-- One attribute in `generateProperMorphologyLabels` (tagset.cpp:685-716). -/
def labelStep (t : Tagset) (ms : List Morph) (a : Str) : List Morph :=
  let name := (optionalName a).getD a
  let tmp := ms.flatMap fun m => (t.values name).map fun v => minsert name v m
  if (optionalName a).isSome then ms ++ tmp else tmp

/-- `generateProperMorphologyLabels` (tagset.cpp:674-724): the proper labels. -/
def Tagset.labels (t : Tagset) : List Str :=
  t.parts.flatMap fun (p, as) => (as.foldl (labelStep t) [[(b!"pos", p)]]).map morphString

/-- `checkMorphology` (tagset.cpp:152-158). -/
def Tagset.checkMorphology (t : Tagset) (s : Str) : Bool := t.labels.contains s

/-- An attribute without its brackets (tagset.cpp:138-139, 475-476). -/
def bareName (a : Str) : Str :=
  if a.head? = some 91 ∧ a.getLast? = some 93 then (a.drop 1).take (a.length - 2) else a

/-- `checkAttributeValue` (tagset.cpp:135-150). -/
def Tagset.checkValue (t : Tagset) (a v : Str) : Bool := (t.values (bareName a)).contains v

/-- The loop over the attributes that are left, for one value (tagset.cpp:472-486): the attribute
with it, and those left after it. -/
def findAttr (t : Tagset) (v : Str) : List Str → Option Str × List Str
  | [] => (none, [])
  | a :: as =>
    if t.checkValue (bareName a) v then (some (bareName a), as) else findAttr t v as

/-- The values after the part of speech (tagset.cpp:464-487). -/
def attrLoop (t : Tagset) : List Str → List Str → Morph → Morph
  | _, [], r => r
  | as, v :: vs, r =>
    match findAttr t v as with
    | (none, rest) => attrLoop t rest vs r
    | (some a, rest) => attrLoop t rest vs (minsert a v r)

/-- The loop of `getAttributes` (tagset.cpp:456-488) over the values, until there is a part of speech.
If there are attributes for one that is not known, the end of a map is read: `none`. -/
def posLoop (t : Tagset) : List Str → Morph → Option Morph
  | [], r => some r
  | v :: vs, r =>
    let r := if (t.parts.lookup v).isSome then minsert b!"pos" v r else r
    if v = [] then posLoop t vs r
    else if vs = [] then some r
    else match t.parts.lookup v with
      | none => none
      | some as => some (attrLoop t as vs r)

/-- `Tagset::getAttributes` (tagset.cpp:436-496). -/
def Tagset.getAttributes (t : Tagset) (s : Str) : Option Morph :=
  if t.parts = [] then some []
  else posLoop t ((s.splitOnP (· == 58)).map Unumsunt.trim) []

end Verif.Puddle
