import Verif.Quoter.Model
import Verif.KeyValue.Model
import Verif.Annot.Model

/-!
Model of the lexica: `tools/datastructures/lexica/lexicon_base.cpp`, `tools/lexica/mapper/mapper.cpp`,
`tools/lexica/bilexicon/bilexicon.cpp`, `getLemmaFromLexeme` of `common/string_helpers.cpp`, the table of
`tools/normalizers/simplenorm/simplenorm_normalizer.cpp` and the text put together by `tools/tokenizers/detok/detok.cpp`.

* A file is the list of its bytes; that it can be opened is assumed.
* The store of the lexicon is the model `Verif.KeyValue`; annotation items are those of `Verif.Annot`.
* Of the lattice only what is asked for with `addEdge` is modelled: the items, in their order.
* The separators are those of `common/config.hpp.in` 24-31.
-/
namespace Verif.Lexicon
open Verif

/-! ### Strings -/

/-- The loop of `std::getline` over a file: the lines; there is none after a final newline. -/
def getlines : Str → List Str
  | [] => []
  | c :: s =>
    if c = 10 then [] :: getlines s
    else match getlines s with
      | [] => [[c]]
      | l :: ls => (c :: l) :: ls

/-- `boost::split` with `is_any_of` and without compression: there is always at least one piece. -/
def split (f : Byte → Bool) : Str → List Str
  | [] => [[]]
  | c :: s =>
    if f c then [] :: split f s
    else match split f s with
      | [] => [[c]]
      | w :: ws => (c :: w) :: ws

/-- `boost::join`. -/
def join (sep : Str) : List Str → Str
  | [] => []
  | [w] => w
  | w :: ws => w ++ sep ++ join sep ws

/-- `LEXICON_TEXT_FIELD_SEPARATORS`: a tab or a space. -/
def isSep (c : Byte) : Bool := c == 9 || c == 32

/-! ### LexiconBase -/

/-- What `readPlainText` may throw: a wrong escape sequence, or too few fields. -/
inductive Exn
  | quoter | fields
  deriving DecidableEq

/-- `removeComment_`, lexicon_base.cpp 99-104. -/
def removeComment (s : Str) : Str := s.takeWhile (· != 35)

/-- `find_first_not_of(LEXICON_TEXT_FIELD_SEPARATORS)`; `none` is `npos`. -/
def firstNotSep : Str → Option Nat
  | [] => none
  | c :: s => if isSep c then (firstNotSep s).map (· + 1) else some 0

/-- `isEmptyLine_`, lexicon_base.cpp 106-108: a position is converted to `bool`. -/
def isEmptyLine (s : Str) : Bool :=
  match firstNotSep s with
  | none => true
  | some p => decide (p ≠ 0)

/-- `unescape` of all fields, lexicon_base.cpp 36-38. -/
def unescapeAll : List Str → Except Exn (List Str)
  | [] => .ok []
  | f :: fs => match Quoter.unescape [] f with
    | none => .error .quoter
    | some g => match unescapeAll fs with
      | .error x => .error x
      | .ok gs => .ok (g :: gs)

/-- The key and the other fields of a line, lexicon_base.cpp 30-43. -/
def fieldsOf (line : Str) : Except Exn (Str × List Str) :=
  match unescapeAll ((split isSep line).filter (fun f => !f.isEmpty)) with
  | .error x => .error x
  | .ok (k :: f :: fs) => .ok (k, f :: fs)
  | .ok _ => .error .fields

/-- The loop over the lines, lexicon_base.cpp 24-62, with `storeBuilder.add` after it (64-65): the pairs that are added.
`prev` is `none` as long as `firstEntry`, otherwise `prevKey` and `stringSoFar`. -/
def readLoop : List Str → Option (Str × Str) → Except Exn (List (Str × Str))
  | [], none => .ok []
  | [], some p => .ok [p]
  | l :: ls, prev =>
    let line := removeComment l
    if isEmptyLine line then readLoop ls prev
    else match fieldsOf line with
      | .error x => .error x
      | .ok (k, fs) =>
        let record := join [9] fs
        match prev with
        | none => readLoop ls (some (k, record))
        | some (pk, sofar) =>
          if k = pk then readLoop ls (some (pk, sofar ++ [59] ++ record))
          else match readLoop ls (some (k, record)) with
            | .error x => .error x
            | .ok adds => .ok ((pk, sofar) :: adds)

/-- `readPlainText`, lexicon_base.cpp 11-68, up to `build`: the keys and values given to the builder. -/
def readPlainText (file : Str) : Except Exn (List (Str × Str)) := readLoop (getlines file) none

/-- The store, lexicon_base.cpp 67; `h` is the hash of the cmph library, `fp` the fingerprint; `none` is undefined
behaviour. -/
def buildStore (h fp : Str → Nat) (adds : List (Str × Str)) : Option KeyValue.Store :=
  (KeyValue.Builder.empty.addAll adds).bind (KeyValue.build h fp)

/-- `getRecords`, lexicon_base.cpp 88-97; `none` is undefined behaviour. -/
def getRecords (h fp : Str → Nat) (s : KeyValue.Store) (text : Str) : Option (List Str) :=
  match KeyValue.get h fp s text with
  | none => none
  | some none => some []
  | some (some v) => some (split (· == 59) v)

/-! ### Mapper -/

/-- The options of the mapper, mapper.cpp 30-64, mapper.hpp; for each of text, category and attributes what to take. -/
structure Options where
  considerText : Bool := false
  considerCategory : Bool := false
  considerAttributes : Bool := false
  cloneText : Bool := false
  cloneCategory : Bool := false
  cloneAttributes : Bool := false
  addAttributes : Bool := false
  setText : Option Str := none
  setCategory : Option Str := none
  setAttributes : Option Str := none
  unknownCloneText : Bool := false
  unknownCloneCategory : Bool := false
  unknownCloneAttributes : Bool := false
  unknownSetText : Option Str := none
  unknownSetCategory : Option Str := none
  unknownSetAttributes : Option Str := none
  deriving DecidableEq

/-- The checks of the constructor, mapper.cpp 30-82, without those of the tags and the lexicon files. -/
def Options.accepted (o : Options) : Bool :=
  (o.considerText || o.considerCategory || o.considerAttributes) &&
  !(o.cloneText && o.setText.isSome) && !(o.cloneCategory && o.setCategory.isSome) &&
  !(o.cloneAttributes && o.setAttributes.isSome) && !(o.unknownCloneText && o.unknownSetText.isSome) &&
  !(o.unknownCloneCategory && o.unknownSetCategory.isSome) && !(o.unknownCloneAttributes && o.unknownSetAttributes.isSome)

/-- An attribute in a field: before and after the first "=", or the value "1", mapper.cpp 403-411. -/
def parseAttribute (s : Str) : Str × Str :=
  match s.dropWhile (· != 61) with
  | [] => (s, [49])
  | _ :: v => (s.takeWhile (· != 61), v)

/-- `parseEntry_`, mapper.cpp 385-414: text, category and attributes. -/
def parseEntry (record : Str) : Option Str × Option Str × List (Str × Str) :=
  match split (· == 9) record with
  | [] => (none, none, [])
  | [t] => (some t, none, [])
  | [t, c] => (some t, some c, [])
  | t :: c :: a :: _ => (some t, some c, (split (· == 44) a).map parseAttribute)

/-- `setAttributesParsed_`, mapper.cpp 84-92 (and `unknownSetAttributesParsed_`, 94-102): the attributes of a record whose
third field they are. -/
def parseSet (s : Str) : List (Str × Str) :=
  (parseEntry (Server.ascii "dummyLemma" ++ [9] ++ Server.ascii "dummyCategory" ++ [9] ++ s)).2.2

/-- `manager.setValue(ai, kv.first, kv.second)` for all pairs of strings; `none` is undefined behaviour. -/
def setStrings (m : List Str) (it : Annot.Item) : List (Str × Str) → Option (List Str × Annot.Item)
  | [] => some (m, it)
  | (a, v) :: avs => match Annot.setValue m it a (Annot.ofString v) with
    | none => none
    | some (m', it') => setStrings m' it' avs

/-- Bytewise comparison, `operator<` of `std::string`. -/
def strLe : Str → Str → Bool
  | [], _ => true
  | _ :: _, [] => false
  | a :: s, b :: t => if a < b then true else if a = b then strLe s t else false

/-- A string put in its place. -/
def insertStr (s : Str) : List Str → List Str
  | [] => [s]
  | t :: l => if strLe s t then s :: t :: l else t :: insertStr s l

/-- `std::sort` of strings, mapper.cpp 262 (any way to sort them gives the same). -/
def sortStr (l : List Str) : List Str := l.foldr insertStr []

/-- The key of an edge, mapper.cpp 250-266: `m` are the attributes of the manager, `it` is the item of the edge. -/
def keyOf (o : Options) (m : List Str) (it : Annot.Item) : Option Str :=
  match (if o.considerAttributes then Annot.getValues m it else some []) with
  | none => none
  | some avs =>
    some (join [44] ((if o.considerText then [it.text] else []) ++ (if o.considerCategory then [it.cat] else []) ++
      sortStr (avs.map (fun kv => kv.1 ++ [61] ++ kv.2))))

/-- The attributes of the edge given again to the new item, if asked for: mapper.cpp 306-311, 360-365. -/
def cloneStrings (clone : Bool) (m : List Str) (it : Annot.Item) (ai : Annot.Item) : Option (List Str × Annot.Item) :=
  if clone then
    match Annot.getValues m it with
    | none => none
    | some avs => setStrings m ai avs
  else some (m, ai)

/-- The item of `addEntry_`, mapper.cpp 279-321. -/
def entryItem (o : Options) (m : List Str) (it : Annot.Item) (record : Str) : Option (List Str × Annot.Item) :=
  let (t, c, attrs) := parseEntry record
  let t := if o.cloneText then some it.text else t
  let c := if o.cloneCategory then some it.cat else c
  let t := if o.setText.isSome then o.setText else t
  let c := if o.setCategory.isSome then o.setCategory else c
  match cloneStrings o.cloneAttributes m it (Annot.Item.new (c.getD record) (t.getD record)) with
  | none => none
  | some (m, ai) =>
    match setStrings m ai (o.setAttributes.elim [] parseSet) with
    | none => none
    | some (m, ai) => if o.addAttributes then setStrings m ai attrs else some (m, ai)

/-- "unknown". -/
def unknownWord : Str := Server.ascii "unknown"

/-- The item of `addEntryUnknown_`, mapper.cpp 336-370. -/
def unknownItem (o : Options) (m : List Str) (it : Annot.Item) : Option (List Str × Annot.Item) :=
  let t := if o.unknownCloneText then some it.text else none
  let c := if o.unknownCloneCategory then some it.cat else none
  let t := if o.unknownSetText.isSome then o.unknownSetText else t
  let c := if o.unknownSetCategory.isSome then o.unknownSetCategory else c
  match cloneStrings o.unknownCloneAttributes m it (Annot.Item.new (c.getD unknownWord) (t.getD unknownWord)) with
  | none => none
  | some (m, ai) => setStrings m ai (o.unknownSetAttributes.elim [] parseSet)

/-- `addEntry_` for all records, mapper.cpp 269-272. -/
def entryItems (o : Options) (it : Annot.Item) : List Str → List Str → Option (List Str × List Annot.Item)
  | m, [] => some (m, [])
  | m, r :: rs => match entryItem o m it r with
    | none => none
    | some (m, ai) => match entryItems o it m rs with
      | none => none
      | some (m, ais) => some (m, ai :: ais)

/-- Whether unknown keys get an entry, mapper.cpp 273-274. -/
def Options.unknowns (o : Options) : Bool :=
  o.unknownCloneText || o.unknownCloneCategory || o.unknownCloneAttributes || o.unknownSetText.isSome ||
  o.unknownSetCategory.isSome || o.unknownSetAttributes.isSome

/-- `processEdge`, mapper.cpp 248-277: the attributes of the manager afterwards and the items of the new edges, which have the
ends of the edge and consist of it.  `records` is `getRecords`. -/
def processEdge (o : Options) (records : Str → Option (List Str)) (m : List Str) (it : Annot.Item) :
    Option (List Str × List Annot.Item) :=
  match keyOf o m it with
  | none => none
  | some key => match records key with
    | none => none
    | some [] => if o.unknowns then (unknownItem o m it).map (fun r => (r.1, [r.2])) else some (m, [])
    | some (r :: rs) => entryItems o it m (r :: rs)

/-! ### BiLexicon and lexemes -/

/-- `parseRecord_`, bilexicon.cpp 194-203: category and text of the item. -/
def parseRecord (record : Str) : Str × Str :=
  match record.dropWhile (· != 43) with
  | [] => (record, record)
  | _ :: c => (c, record)

/-- `getLemmaFromLexeme`, common/string_helpers.cpp 24-31. -/
def getLemma (lexeme : Str) : Str := lexeme.takeWhile (· != 43)

/-! ### Simplenorm -/

/-- An association list as `std::map`: `map[k] = v`. -/
def mapSet (m : List (Str × Str)) (k v : Str) : List (Str × Str) :=
  match m with
  | [] => [(k, v)]
  | (k', v') :: m => if k' = k then (k, v) :: m else (k', v') :: mapSet m k v

/-- `map.find`. -/
def mapFind (m : List (Str × Str)) (k : Str) : Option Str :=
  match m with
  | [] => none
  | (k', v) :: m => if k' = k then some v else mapFind m k

/-- The loop of the constructor, simplenorm_normalizer.cpp 97-101; `none` is undefined behaviour: `pair[1]` of a vector with one
element. -/
def tableLoop : List Str → List (Str × Str) → Option (List (Str × Str))
  | [], m => some m
  | l :: ls, m => match split (· == 9) l with
    | k :: v :: _ => tableLoop ls (mapSet m k v)
    | _ => none

/-- The constructor, simplenorm_normalizer.cpp 90-102. -/
def readTable (file : Str) : Option (List (Str × Str)) := tableLoop (getlines file) []

/-- What `normalize` adds for a token, simplenorm_normalizer.cpp 141-157: the text of the new item, whose category is "T". -/
def normalizeToken (m : List (Str × Str)) (category text : Str) : Option Str :=
  if category = [84] then mapFind m text else none

/-! ### Detok -/

/-- `shouldBePrecededBySpace_`, detok.cpp 117-135. -/
def precededBySpace : Str → Bool
  | [] => false
  | c :: _ => !([46, 44, 59, 58, 41, 93, 125, 33, 63] : Str).contains c

/-- `shouldBeFollowedBySpace_`, detok.cpp 137-149. -/
def followedBySpace (s : Str) : Bool :=
  match s.getLast? with
  | none => false
  | some c => !([40, 91, 123] : Str).contains c

/-- `orderMap[position] = edge`: the map kept in the order of the positions, detok.cpp 63-76. -/
def orderSet (m : List (Int × Str)) (p : Int) (t : Str) : List (Int × Str) :=
  match m with
  | [] => [(p, t)]
  | (q, u) :: m => if p < q then (p, t) :: (q, u) :: m else if p = q then (p, t) :: m else (q, u) :: orderSet m p t

/-- The conversion of a `long` to `int`. -/
def toInt (i : Int) : Int := Int.bmod i (2 ^ 32)

/-- `ZVALUE_TO_INTEGER(getValue(item, "SurfacePosition"))`, detok.cpp 70-73; `addr` gives the address of a value that is no
number (zvalue.hpp 24, 36); of `NULL` it is 0. -/
def positionOf (addr : Annot.ZVal → Int) : Annot.ZVal → Int
  | .int i => toInt i
  | .null => 0
  | z => toInt ((addr z).fdiv 2)

/-- The positions and texts of the tokens put in order; the tokens are given in the order of the iterator. -/
def orderAll (l : List (Int × Str)) : List (Int × Str) := l.foldl (fun m pt => orderSet m pt.1 pt.2) []

/-- The loop that joins the tokens, detok.cpp 82-100, after the first token. -/
def joinLoop (final : Str) : List Str → Str
  | [] => final
  | t :: ts => joinLoop ((if precededBySpace t && followedBySpace final then final ++ [32] else final) ++ t) ts

/-- `finalText`, detok.cpp 78-100. -/
def joinTokens : List Str → Str
  | [] => []
  | t :: ts => joinLoop t ts

/-- `doRun`, detok.cpp 53-114: the text of the new edge. -/
def detok (tokens : List (Int × Str)) : Str := joinTokens ((orderAll tokens).map (·.2))

end Verif.Lexicon
