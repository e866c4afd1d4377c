import Verif.Utf8.Model

/-!
Model of /repo/utf8case: the conversion of texts to lower, upper and title case.

Code points are natural numbers (`uint32_t` in the code). A read past the end of the text by
`utf8::unchecked::next` (undefined behaviour) is `none`.
-/
namespace Verif.Casing
open Verif Verif.Utf8

/-- `CaseConversionRecord`, case_tables.hpp 13-17. -/
structure Range where
  lo : Nat
  hi : Nat
  delta : Int
  deriving DecidableEq, Repr

/-- `EVEN_ODD`, case_tables.hpp 7. -/
def evenOdd : Int := 1
/-- `ODD_EVEN`, case_tables.hpp 8. -/
def oddEven : Int := -1
/-- `EVEN_ODD_SKIP`, case_tables.hpp 9. -/
def evenOddSkip : Int := 1073741824
/-- `ODD_EVEN_SKIP`, case_tables.hpp 10. -/
def oddEvenSkip : Int := 1073741825

/-- `RangeBasedCaseConverter::findRecord_`, range_based_case_converter.cpp 13-26: the search
stops at the first record that begins behind the code point. -/
def findRecord : List Range → Nat → Option Range
  | [], _ => none
  | r :: t, cp =>
    if cp < r.lo then none
    else if cp ≤ r.hi then some r
    else findRecord t cp

/-- `RangeBasedCaseConverter::isSkipRecord_`, range_based_case_converter.cpp 46-50. -/
def isSkip (r : Range) : Bool := r.delta == evenOddSkip || r.delta == oddEvenSkip

/-- `RangeBasedCaseConverter::shouldBeSkipped_`, range_based_case_converter.cpp 38-44. -/
def shouldBeSkipped (r : Range) (cp : Nat) : Bool := isSkip r && cp % 2 != r.lo % 2

/-- `RangeBasedCaseConverter::applyDelta_`, range_based_case_converter.cpp 52-63; the default
case adds in `uint32_t`. -/
def applyDelta (d : Int) (cp : Nat) : Nat :=
  if d = evenOdd ∨ d = evenOddSkip then (if cp % 2 = 0 then cp + 1 else cp - 1)
  else if d = oddEven ∨ d = oddEvenSkip then (if cp % 2 = 1 then cp + 1 else cp - 1)
  else (((cp : Int) + d) % 4294967296).toNat

/-- `RangeBasedCaseConverter::applyRecord_`, range_based_case_converter.cpp 28-35. -/
def applyRecord (r : Range) (cp : Nat) : Nat :=
  if shouldBeSkipped r cp then cp else applyDelta r.delta cp

/-- `RangeBasedCaseConverter::convert`, range_based_case_converter.cpp 3-11. -/
def rangeConvert (t : List Range) (cp : Nat) : Nat :=
  match findRecord t cp with
  | none => cp
  | some r => applyRecord r cp

/-- `SpecialCasingConverter::convert`, special_casing_converter.cpp 3-16: this search stops at
the first record that stands for a greater code point. -/
def specialConvert : List (Nat × Str) → Nat → Option Str
  | [], _ => none
  | r :: t, cp =>
    if cp < r.1 then none
    else if cp = r.1 then some r.2
    else specialConvert t cp

/-- `SPECIAL_CODE_POINT`, general_case_converter.hpp 141: stands for the missing neighbour. -/
def noCodePoint : Nat := 0xFFFFFFFF

/-- `ContextualCaseConverter::convert`, contextual_case_converter.hpp: the code points before,
at and after the place; `none` is the null pointer. -/
abbrev Context := Nat → Nat → Nat → Option Str

/-- `RegularContextualCaseConverter::convert`, regular_contextual_case_converter.cpp 6-11. -/
def regularContext : Context := fun _ _ _ => none

/-- `TurkishAndAzeriLowerContextualCaseConverter::convert`,
turkish_and_azeri_lower_contextual_case_converter.cpp 6-29. -/
def turkishLowerContext : Context := fun prev cp next =>
  if cp = 0x49 ∧ next ≠ 0x307 then some [0xC4, 0xB1]
  else if cp = 0x130 then some [0x69]
  else if cp = 0x307 ∧ prev = 0x49 then some []
  else none

/-- `TurkishAndAzeriUpperContextualCaseConverter::convert`,
turkish_and_azeri_upper_contextual_case_converter.cpp 6-17. -/
def turkishUpperContext : Context := fun _ cp _ =>
  if cp = 0x69 then some [0xC4, 0xB0] else none

/-- `GeneralCaseConverter`, general_case_converter.hpp 12-23: its three parts. -/
structure Converter where
  ranges : List Range
  special : List (Nat × Str)
  context : Context

/-- `copyCharArrayToOutputIterator_`, general_case_converter.hpp 131-135: up to the first zero
byte. -/
def copyCharArray (s : Str) : Str := s.takeWhile (· != 0)

/-- `convertSingleCodePoint`, general_case_converter.hpp 78-96: what is written. -/
def convertSingle (K : Converter) (prev cp next : Nat) : Str :=
  match K.context prev cp next with
  | some r => copyCharArray r
  | none =>
    match specialConvert K.special cp with
    | some r => copyCharArray r
    | none => append (rangeConvert K.ranges cp)

/-- The loop of `convert`, general_case_converter.hpp 52-76, over the code points still to be
read: a code point is written when the one after it is known. `pp` and `p` are
`prev_prev_code_point` and `prev_code_point`. -/
def convertFrom (K : Converter) (pp p : Nat) : List Nat → Str
  | [] => if p ≠ noCodePoint then convertSingle K pp p noCodePoint else []
  | c :: cs =>
    (if p ≠ noCodePoint then convertSingle K pp p c else []) ++ convertFrom K p c cs

/-- `GeneralCaseConverter::convert`, general_case_converter.hpp 52-76. Simplification: the text
is read (with `utf8::unchecked::next`) before anything is written. -/
def convert (K : Converter) (s : Str) : Option Str :=
  (utf8to32 s).map (convertFrom K noCodePoint noCodePoint)

/-- `headConvert`, general_case_converter.hpp 98-111: the bytes of the first code point are
converted on their own, the others are copied. -/
def headConvert (K : Converter) (s : Str) : Option Str :=
  if s = [] then some []
  else match next s with
    | none => none
    | some (_, rest) => (convert K (s.take (s.length - rest.length))).map (· ++ rest)

/-- `tailConvert`, general_case_converter.hpp 113-121. -/
def tailConvert (K : Converter) (s : Str) : Option Str :=
  if s = [] then some []
  else match next s with
    | none => none
    | some (cp, rest) => (convert K rest).map (append cp ++ ·)

/-- The test in `willBeTouchedWhenConverted`, general_case_converter.hpp 29-30. -/
def touches (K : Converter) (cp : Nat) : Bool :=
  (specialConvert K.special cp).isSome || rangeConvert K.ranges cp != cp

/-- `willBeTouchedWhenConverted`, general_case_converter.hpp 25-35. -/
def willBeTouched (K : Converter) (s : Str) : Option Bool :=
  if s = [] then some false
  else match h : next s with
    | none => none
    | some (cp, rest) => if touches K cp then some true else willBeTouched K rest
termination_by s.length
decreasing_by exact next_lt h

/-- `willBeTouchedWhenHeadConverted`, general_case_converter.hpp 37-44. -/
def willBeTouchedHead (K : Converter) (s : Str) : Option Bool :=
  if s = [] then some false
  else match next s with
    | none => none
    | some (_, rest) => willBeTouched K (s.take (s.length - rest.length))

/-- `willBeTouchedWhenTailConverted`, general_case_converter.hpp 46-52. -/
def willBeTouchedTail (K : Converter) (s : Str) : Option Bool :=
  if s = [] then some false
  else match next s with
    | none => none
    | some (_, rest) => willBeTouched K rest

end Verif.Casing
