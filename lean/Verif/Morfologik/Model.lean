import Verif.Server.Handler

/-!
Model of the parser of the tags of the dictionary Morfologik, `common/morfologik_tags_parser.{hpp,cpp}`.

* A `std::map` from strings to strings is the list of its entries, in increasing order of the keys;
  `LEXEME_TAGS`, `PREDEFINED_TAGS` and `POS_GENERALIZATIONS`, which are only searched, are lists too.
* `none` is an access outside a vector.
* An `int` that counts attributes is an `Int`; a tag with 2^31 attributes is not considered.
* Messages of the log are left out.
-/
namespace Verif.Morfologik
open Verif
open Verif.Server (ascii)

/-- `std::map<std::string, std::string>`. -/
abbrev Attrs := List (Str × Str)

/-- `std::map::insert`: an entry that is there stays. -/
def mapInsert (k v : Str) : Attrs → Attrs
  | [] => [(k, v)]
  | (k', v') :: d =>
    if k < k' then (k, v) :: (k', v') :: d
    else if k' < k then (k', v') :: mapInsert k v d
    else (k', v') :: d

/-- `std::map::find`. -/
def mapFind (k : Str) (d : Attrs) : Option Str := (d.find? fun e => decide (e.1 = k)).map (·.2)

/-- `std::map::erase` of a key. -/
def mapErase (k : Str) (d : Attrs) : Attrs := d.filter fun e => decide (e.1 ≠ k)

/-- `std::map::operator[]`: what is read, and the map, which has an entry for the key afterwards. -/
def mapAt (k : Str) (d : Attrs) : Str × Attrs := ((mapFind k d).getD [], mapInsert k [] d)

/-- `boost::split` at a single character, without compression of empty parts. -/
def split (c : Byte) : Str → List Str
  | [] => [[]]
  | x :: xs =>
    if x = c then [] :: split c xs
    else match split c xs with
      | [] => [[x]]
      | p :: ps => (x :: p) :: ps

/-- `OUTER_SEPARATOR` (morfologik_tags_parser.cpp 11). -/
def outerSep : Byte := 58

/-- `INNER_SEPARATOR` (morfologik_tags_parser.cpp 12). -/
def innerSep : Byte := 46

/-- `LEXEME_TAGS` (morfologik_tags_parser.cpp 14-17). -/
def lexemeTags : Attrs := [(ascii "subst", ascii "gender"), (ascii "verb", ascii "aspect")]

/-- `PREDEFINED_TAGS` (morfologik_tags_parser.cpp 19-104). -/
def predefinedTags : Attrs :=
  [(ascii "adj", ascii "pos"), (ascii "adja", ascii "pos"), (ascii "adjp", ascii "pos"), (ascii "adv", ascii "pos"),
   (ascii "num", ascii "pos"), (ascii "ppron12", ascii "pos"), (ascii "ppron3", ascii "pos"),
   (ascii "pred", ascii "pos"), (ascii "prep", ascii "pos"), (ascii "siebie", ascii "pos"),
   (ascii "subst", ascii "pos"), (ascii "verb", ascii "pos"), (ascii "conj", ascii "pos"),
   (ascii "qub", ascii "pos"), (ascii "burk", ascii "pos"), (ascii "interj", ascii "pos"),
   (ascii "interp", ascii "pos"), (ascii "xxx", ascii "pos"), (ascii "brev", ascii "pos"),
   (ascii "nie", ascii "pos"), (ascii "ign", ascii "pos"), (ascii "sg", ascii "number"),
   (ascii "pl", ascii "number"), (ascii "pltant", ascii "number"), (ascii "nom", ascii "case"),
   (ascii "gen", ascii "case"), (ascii "acc", ascii "case"), (ascii "dat", ascii "case"),
   (ascii "inst", ascii "case"), (ascii "loc", ascii "case"), (ascii "voc", ascii "case"),
   (ascii "pos", ascii "degree"), (ascii "comp", ascii "degree"), (ascii "sup", ascii "degree"),
   (ascii "m", ascii "gender"), (ascii "m1", ascii "gender"), (ascii "m2", ascii "gender"),
   (ascii "m3", ascii "gender"), (ascii "m4", ascii "gender"), (ascii "n", ascii "gender"),
   (ascii "f", ascii "gender"), (ascii "n1", ascii "gender"), (ascii "n2", ascii "gender"),
   (ascii "p1", ascii "gender"), (ascii "p2", ascii "gender"), (ascii "p3", ascii "gender"),
   (ascii "pri", ascii "person"), (ascii "sec", ascii "person"), (ascii "ter", ascii "person"),
   (ascii "depr", ascii "depreciativity"), (ascii "winien", ascii "winien-like"), (ascii "aff", ascii "negation"),
   (ascii "neg", ascii "negation"), (ascii "perf", ascii "aspect"), (ascii "imperf", ascii "aspect"),
   (ascii "?perf", ascii "aspect"), (ascii "nakc", ascii "accentability"), (ascii "akc", ascii "accentability"),
   (ascii "praep", ascii "post-prepositionality"), (ascii "npraep", ascii "post-prepositionality"),
   (ascii "ger", ascii "tense"), (ascii "imps", ascii "tense"), (ascii "inf", ascii "tense"),
   (ascii "fin", ascii "tense"), (ascii "bedzie", ascii "tense"), (ascii "praet", ascii "tense"),
   (ascii "refl", ascii "tense"), (ascii "pact", ascii "tense"), (ascii "pant", ascii "tense"),
   (ascii "pcon", ascii "tense"), (ascii "ppas", ascii "tense"), (ascii "impt", ascii "mode"),
   (ascii "pot", ascii "mode"), (ascii "indecl", ascii "uninflected"), (ascii "irreg", ascii "irregularity"),
   (ascii "pun", ascii "fullstoppedness"), (ascii "npun", ascii "fullstoppedness"),
   (ascii "wok", ascii "vocalicity"), (ascii "nwok", ascii "vocalicity"), (ascii "agl", ascii "agglutination"),
   (ascii "nagl", ascii "agglutination"), (ascii "congr", ascii "accommodability"),
   (ascii "rec", ascii "accommodability"), (ascii "_", ascii "unknown")]

/-- `TAGS_ALLOWED_AS_POS` (morfologik_tags_parser.cpp 106-111). -/
def tagsAllowedAsPos : List Str := [ascii "pos", ascii "depreciativity", ascii "tense", ascii "mode"]

/-- `POS_GENERALIZATIONS` (morfologik_tags_parser.cpp 113-118). -/
def posGeneralizations : Attrs :=
  [(ascii "pact", ascii "verb"), (ascii "pant", ascii "verb"), (ascii "pcon", ascii "verb"), (ascii "ppas", ascii "verb")]

/-- `find(INNER_SEPARATOR) != npos`. -/
def complex (v : Str) : Bool := decide (innerSep ∈ v)

/-- `getAttributeToSeek_` (morfologik_tags_parser.cpp 291-301): the name to look up, and the counter. -/
def getAttributeToSeek (attr : Str) (counter : Int) : Str × Int :=
  if complex attr then (attr.takeWhile fun x => decide (x ≠ innerSep), counter + 1) else (attr, counter)

/-- One round of the loop of `parseSimple` (morfologik_tags_parser.cpp 235-246). -/
def parseAttribute (st : Attrs × Int) (attr : Str) : Attrs × Int :=
  let sought := getAttributeToSeek attr st.2
  match mapFind sought.1 predefinedTags with
  | some category => (mapInsert category attr st.1, sought.2)
  | none => (st.1, sought.2)

/-- `parseSimple` (morfologik_tags_parser.cpp 226-249). -/
def parseSimple (tag : Str) (counter : Int) : Attrs × Int := (split outerSep tag).foldl parseAttribute ([], counter)

/-- `getLengthOfFirstComplexAttribute_` (morfologik_tags_parser.cpp 303-317). -/
def lengthOfFirstComplex : Attrs → Nat
  | [] => 0
  | (_, v) :: d => if complex v then v.count innerSep + 1 else lengthOfFirstComplex d

/-- The loop that gives each result its part (morfologik_tags_parser.cpp 211-214); `none` if there are too few parts. -/
def insertEach (k : Str) : List Attrs → List Str → Option (List Attrs)
  | [], _ => some []
  | _ :: _, [] => none
  | m :: ms, s :: ss => (insertEach k ms ss).map (mapInsert k s m :: ·)

/-- The loop of `expandSingleDescription_` (morfologik_tags_parser.cpp 201-222). -/
def expandLoop (first : Bool) (result : List Attrs) : Attrs → Option (List Attrs)
  | [] => some result
  | (k, v) :: d =>
    if first && complex v then
      match insertEach k result (split innerSep v) with
      | none => none
      | some result' => expandLoop false result' d
    else expandLoop first (result.map (mapInsert k v)) d

/-- `expandSingleDescription_` (morfologik_tags_parser.cpp 190-224). -/
def expandSingle (d : Attrs) : Option (List Attrs) := expandLoop true (List.replicate (lengthOfFirstComplex d) []) d

/-- The inner loop of `expandDescriptions_` (morfologik_tags_parser.cpp 176-182). -/
def expandAll : List Attrs → Option (List Attrs)
  | [] => some []
  | d :: ds =>
    match expandSingle d, expandAll ds with
    | some expanded, some rest => some (expanded ++ rest)
    | _, _ => none

/-- The outer loop of `expandDescriptions_` (morfologik_tags_parser.cpp 175-185). -/
def expandTimes : Nat → List Attrs → Option (List Attrs)
  | 0, ds => some ds
  | n + 1, ds =>
    match expandAll ds with
    | none => none
    | some ds' => expandTimes n ds'

/-- `expandDescriptions_` (morfologik_tags_parser.cpp 169-188). -/
def expandDescriptions (d : Attrs) (counter : Int) : Option (List Attrs) := expandTimes counter.toNat [d]

/-- `parse` (morfologik_tags_parser.cpp 154-167). -/
def parse (tag : Str) : Option (List Attrs) :=
  let r := parseSimple tag 0
  if r.2 = 0 then some [r.1] else expandDescriptions r.1 r.2

/-- The loop of `removeLexemeAttributes_` (morfologik_tags_parser.cpp 145-150); the entries of `LEXEME_TAGS` for a part of
speech, then the description and the counter. -/
def removeLoop : Attrs → Attrs × Int → Attrs × Int
  | [], st => st
  | (_, c) :: es, (d, counter) =>
    let a := mapAt c d
    removeLoop es (mapErase c a.2, if complex a.1 then counter - 1 else counter)

/-- `removeLexemeAttributes_` (morfologik_tags_parser.cpp 140-152). -/
def removeLexemeAttributes (d : Attrs) (counter : Int) : Attrs × Int :=
  let a := mapAt (ascii "pos") d
  let r := removeLoop (lexemeTags.filter fun e => decide (e.1 = a.1)) (a.2, counter)
  (mapErase (ascii "pos") r.1, r.2)

/-- `getFormAttributes` (morfologik_tags_parser.cpp 120-138). -/
def getFormAttributes (tag : Str) : Option (List Attrs) :=
  let r := parseSimple tag 0
  let q := removeLexemeAttributes r.1 r.2
  if q.2 = 0 then some [q.1] else expandDescriptions q.1 q.2

/-- The loop of `getPartOfSpeechTag_` (morfologik_tags_parser.cpp 278-283). -/
def selectPos (attributes : Attrs) : List Str → Str
  | [] => []
  | c :: cs =>
    let a := mapAt c attributes
    if a.1 ≠ [] then a.1 else selectPos a.2 cs

/-- `getPartOfSpeechTag_` (morfologik_tags_parser.cpp 274-289). -/
def getPartOfSpeechTag (attributes : Attrs) : Str :=
  let selected := selectPos attributes tagsAllowedAsPos
  (mapFind selected posGeneralizations).getD selected

/-- The loop of `getLexemeAttributes` (morfologik_tags_parser.cpp 264-269). -/
def lexemeLoop (all attributes : Attrs) : Attrs → Attrs
  | [] => attributes
  | (_, c) :: es =>
    let a := mapAt c all
    lexemeLoop a.2 (mapInsert c (a.1.map fun x => if x = 46 then 45 else x) attributes) es

/-- `getLexemeAttributes` (morfologik_tags_parser.cpp 251-272). -/
def getLexemeAttributes (tag : Str) : Attrs :=
  let all := (parseSimple tag 0).1
  let pos := getPartOfSpeechTag all
  lexemeLoop all (mapInsert (ascii "pos") pos []) (lexemeTags.filter fun e => decide (e.1 = pos))

end Verif.Morfologik
