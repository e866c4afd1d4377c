import Verif.Utf8.Model
import Verif.Server.Handler
import Mathlib.Data.Rat.Defs

/-!
Model of the language guesser, `tools/recognizers/langguesser/lang_guesser.{hpp,cpp}` and
`bigram_language_model.{hpp,cpp}`.

* `none` is an exception of the UTF-8 library (`utf8::next`, utf8/checked.h 140-158; at the end of a string it
  throws `not_enough_room`).
* Frequencies and distances are doubles; they are rationals here.  Tables are functions of the number of the cell.
* The tables of languages are read from files; here they are given.
-/
set_option linter.unusedVariables false

namespace Verif.Guess
open Verif Verif.Server Verif.Utf8

/-- `Language`, lang_guesser.hpp 82-90. -/
structure Language where
  name : Str
  table : Nat → Rat
  letters : Str

/-- `LangGuesser`, lang_guesser.hpp 92-95. -/
structure Guesser where
  languages : List Language
  force : Bool
  default_ : Str
  forced : Str

/-- `UNKNOWN_LANGUAGE`, lang_guesser.cpp 23. -/
def unknown : Str := ascii "unknown"
/-- `DEFAULT_DEFAULT_LANGUAGE`, lang_guesser.cpp 24. -/
def defaultDefault : Str := ascii "xx"
/-- `NONE_LANGUAGE`, lang_guesser.cpp 25. -/
def noneLanguage : Str := ascii "none"
/-- `MIN_TEXT_LENGTH_FOR_BIGRAM_METHOD`, lang_guesser.hpp 76. -/
def minLength : Nat := 24

/-- `isOneOfTheLanguageSpecificLetters`, lang_guesser.cpp 195-207. -/
def isLetterOf (letter : Nat) (letters : Str) : Option Bool :=
  if letters = [] then some false
  else
    match h : validateNext letters with
    | .error _ => none
    | .ok (cp, rest) => if letter = cp then some true else isLetterOf letter rest
termination_by letters.length
decreasing_by exact validateNext_lt h

/-- The variables of `guessLanguageByLetters`, lang_guesser.cpp 151-154. -/
structure Marks where
  found : Bool := false
  allWords : Bool := true
  foundInWord : Bool := false
  isWord : Bool := false

/-- What is done with one letter, lang_guesser.cpp 162-178; `special` tells whether it is one of the language. -/
def Marks.letter (m : Marks) (letter : Nat) (special : Bool) : Marks :=
  let m := if special then { m with foundInWord := true, found := true } else m
  if letter = 32 then
    let m := if m.isWord && !m.foundInWord then { m with allWords := false, found := false } else m
    { m with foundInWord := false, isWord := false }
  else { m with isWord := true }

/-- The loop over the text, lang_guesser.cpp 159-179. -/
def letterLoop (letters text : Str) (m : Marks) : Option Marks :=
  if text = [] then some m
  else
    match h : validateNext text with
    | .error _ => none
    | .ok (cp, rest) =>
      match isLetterOf cp letters with
      | none => none
      | some special => letterLoop letters rest (m.letter cp special)
termination_by text.length
decreasing_by exact validateNext_lt h

/-- The end of the round, lang_guesser.cpp 182-188. -/
def Marks.accept (m : Marks) : Bool :=
  let m := if m.isWord && !m.foundInWord then { m with found := false } else m
  m.found && m.allWords

/-- `guessLanguageByLetters`, lang_guesser.cpp 145-193. -/
def byLetters (text : Str) : List Language → Option Str
  | [] => some unknown
  | lang :: langs =>
    if lang.letters = [] then byLetters text langs
    else
      match letterLoop lang.letters text {} with
      | none => none
      | some m => if m.accept then some lang.name else byLetters text langs

/-- `TABLE_SIZE`, bigram_language_model.hpp 22. -/
def tableSize : Nat := 512
/-- `FACTOR`, bigram_language_model.hpp 31. -/
def factor : Nat := 509

/-- `LOWER_LETTER`, bigram_language_model.cpp 21. -/
def lowerLetter (i : Nat) : Nat := if i > 90 ∨ i < 65 then i else i + 32

/-- The cell of a bigram, bigram_language_model.cpp 61; the numbers are `uint32_t`. -/
def cell (a b : Nat) : Nat := ((a * factor + b * (factor * factor)) % 2 ^ 32) % tableSize

/-- `++countTable[i]`. -/
def bump (t : Nat → Nat) (i : Nat) : Nat → Nat := fun j => if j = i then t j + 1 else t j

/-- The loop of `countBigramsInText`, bigram_language_model.cpp 60-65. -/
def countLoop (rest : Str) (a b : Nat) (t : Nat → Nat) : Option (Nat → Nat) :=
  if rest = [] then some t
  else
    match h : validateNext rest with
    | .error _ => none
    | .ok (c, rest') => countLoop rest' b (lowerLetter c) (bump t (cell a b))
termination_by rest.length
decreasing_by exact validateNext_lt h

/-- `countBigramsInText`, bigram_language_model.cpp 46-66. -/
def countBigrams (text : Str) : Option (Nat → Nat) :=
  if text.length < 2 then some (fun _ => 0)
  else
    match validateNext text with
    | .error _ => none
    | .ok (a, rest) =>
      match validateNext rest with
      | .error _ => none
      | .ok (b, rest) => countLoop rest (lowerLetter a) (lowerLetter b) (fun _ => 0)

/-- `sumOfCounts`, bigram_language_model.cpp 81-89. -/
def sumOfCounts (t : Nat → Nat) : Nat := (List.range tableSize).foldl (fun sum i => sum + t i) 0

/-- `createFrequencyTableFromCountTable`, bigram_language_model.cpp 68-79. -/
def frequencies (t : Nat → Nat) : Nat → Rat :=
  if sumOfCounts t = 0 then fun _ => 0 else fun i => (t i : Rat) / (sumOfCounts t : Rat)

/-- `distance`, lang_guesser.cpp 209-217. -/
def distance (t u : Nat → Rat) : Rat :=
  (List.range tableSize).foldl (fun dist i => dist + (t i - u i) * (t i - u i)) 0

/-- The loop of `guessLanguageByBigramModel`, lang_guesser.cpp 130-138. -/
def nearestLoop (t : Nat → Rat) : List Language → Str × Rat → Str × Rat
  | [], best => best
  | lang :: langs, best =>
    let dist := distance t lang.table
    nearestLoop t langs (if dist < best.2 then (lang.name, dist) else best)

/-- `guessLanguageByBigramModel`, lang_guesser.cpp 117-143. -/
def byBigrams (langs : List Language) (text : Str) : Option Str :=
  if text.length = 0 then some unknown
  else
    match countBigrams text with
    | none => none
    | some t => some (nearestLoop (frequencies t) langs (unknown, 100000000000)).1

/-- The block for the forced mode, lang_guesser.cpp 98-109.  `languages_.front()` of an empty list is undefined;
the list is never empty. -/
def forceGuess (g : Guesser) (text : Str) : Option Str :=
  match g.languages with
  | [] => none
  | [lang] => some lang.name
  | lang :: _ =>
    if text.length < minLength then
      match byBigrams g.languages text with
      | none => none
      | some l => some (if l = unknown then lang.name else l)
    else some unknown

/-- `guessLanguage`, lang_guesser.cpp 91-115. -/
def guess (g : Guesser) (text : Str) : Option Str :=
  if g.forced ≠ [] then some g.forced
  else
    match (if text.length < minLength then byLetters text g.languages else byBigrams g.languages text) with
    | none => none
    | some l =>
      match (if l = unknown ∧ g.force = true then forceGuess g text else some l) with
      | none => none
      | some l => some (if l = unknown ∧ g.default_ ≠ noneLanguage then g.default_ else l)

/-- The loop of `initLanguages` with a selection, lang_guesser.cpp 71-82; `none` is the exception.  The languages
known are given, sorted by name (`LANGUAGES`, lang_guesser.cpp 27-32). -/
def selectLoop (known : List Language) : List Str → Option (List Language)
  | [] => some []
  | s :: ss =>
    match known.find? (fun l => l.name == s) with
    | none => none
    | some l => (selectLoop known ss).map (fun ls => l :: ls)

/-- `initLanguages` with a selection, lang_guesser.cpp 68-87. -/
def selectLanguages (known : List Language) (selected : List Str) : Option (List Language) :=
  match selectLoop known selected with
  | none => none
  | some [] => some known
  | some ls => some ls

/-- The options of the program; `LangGuesser`, lang_guesser.cpp 38-58. -/
def create (known : List Language) (force : Bool) (default_ : Option Str) (only : Option (List Str)) : Option Guesser :=
  let default_ := default_.getD defaultDefault
  match only with
  | none => some ⟨known, force, default_, []⟩
  | some selected =>
    match force, selected with
    | true, [s] => some ⟨known, force, default_, s⟩
    | _, _ => (selectLanguages known selected).map (fun ls => ⟨ls, force, default_, []⟩)

end Verif.Guess
