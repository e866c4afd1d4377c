import Verif.Casing.Tables
import Verif.Server.Handler

/-!
Model of /repo/utf8case/case_converter_factory.hpp (also behind
`string_case_converter_manager.cpp`, a singleton around it) and of the part of
/repo/common/lemmatizer_annotator.hpp that decides under which spellings a word is looked up.
-/
namespace Verif.Casing
open Verif

/-- `LOWER_INDEX`, `UPPER_INDEX` and `TITLE_INDEX`, case_converter_factory.hpp 17-21. -/
inductive Case
  | lower
  | upper
  | title
  deriving DecidableEq, Repr

/-- The range tables chosen in `checkRawConverters_`, case_converter_factory.hpp 38-64. -/
def Case.ranges : Case → List Range
  | .lower => lowerRanges
  | .upper => upperRanges
  | .title => titleRanges

/-- The special casing tables chosen in `checkRawConverters_`, case_converter_factory.hpp
66-91. -/
def Case.special : Case → List (Nat × Str)
  | .lower => lowerSpecial
  | .upper => upperSpecial
  | .title => titleSpecial

/-- `getContextualCaseConverterForLanguage_`, case_converter_factory.hpp 120-133; `none` is the
exception for Lithuanian. -/
def contextFor (lang : Str) (k : Case) : Option Context :=
  if lang = Server.ascii "lt" then none
  else if lang = Server.ascii "tr" ∨ lang = Server.ascii "az" then
    some (if k = .lower then turkishLowerContext else turkishUpperContext)
  else some regularContext

/-- `getCaseConverter_`, case_converter_factory.hpp 94-104. -/
def converter (lang : Str) (k : Case) : Option Converter :=
  (contextFor lang k).map fun c => ⟨k.ranges, k.special, c⟩

/-- `lemmatizeSingleWord`, lemmatizer_annotator.hpp 293-316: the spellings under which the
lemmatizer is asked for a word, in order. -/
def lookups (K : Converter) (w : Str) : Option (List Str) := do
  let t ← willBeTouchedTail K w
  let ts ← if t then (tailConvert K w).map ([·]) else some []
  let h ← willBeTouchedHead K w
  let hs ← if h then (headConvert K w).map ([·]) else some []
  return [w] ++ ts ++ hs

end Verif.Casing
