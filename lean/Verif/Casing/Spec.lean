import Verif.Casing.Unicode
import Verif.Utf8.Spec

/-!
What case conversion should do, in the words of the Unicode standard: characters are mapped by
SpecialCasing.txt where it has a row, and by UnicodeData.txt otherwise.
-/
namespace Verif.Casing.Spec
open Verif

/-- The value of a key in a table, or the key itself. -/
def image (t : List (Nat × Nat)) (cp : Nat) : Nat := (t.lookup cp).getD cp

/-- The mapping of a text by characters: the special row, or the simple mapping. -/
def fullImage (f : List (Nat × List Nat)) (t : List (Nat × Nat)) (cp : Nat) : List Nat :=
  (f.lookup cp).getD [image t cp]

/-- Full (unconditional) lower casing of a character. -/
def lower : Nat → List Nat := fullImage lowerFull lowerPairs
/-- Full (unconditional) upper casing of a character. -/
def upper : Nat → List Nat := fullImage upperFull upperPairs
/-- Full (unconditional) title casing of a character. -/
def title : Nat → List Nat := fullImage titleFull titlePairs

/-- The characters with a row of SpecialCasing.txt that the code does use: sharp s, capital I with
dot above, and the ligatures of the block U+FB00. -/
def used : List Nat :=
  [223, 304, 64256, 64257, 64258, 64259, 64260, 64261, 64262, 64275, 64276, 64277, 64278, 64279]

/-- The upper casing the code performs: rows of SpecialCasing.txt for the used characters only. -/
def upper' (cp : Nat) : List Nat := if cp ∈ used then upper cp else [image upperPairs cp]
/-- The title casing the code performs. -/
def title' (cp : Nat) : List Nat := if cp ∈ used then title cp else [image titlePairs cp]

/-- A mark that does not come between a letter and a dot above it: its combining class `ccc` is
neither 0 nor 230. -/
def between (ccc : Nat → Nat) (c : Nat) : Bool := ccc c != 0 && ccc c != 230

/-- `After_I` of SpecialCasing.txt: there is an uppercase I before, and no character of combining
class 0 or 230 in between. The list are the characters before, last first. -/
def afterI (ccc : Nat → Nat) : List Nat → Bool
  | [] => false
  | c :: before => c == 0x49 || (between ccc c && afterI ccc before)

/-- `Before_Dot` of SpecialCasing.txt: a dot above follows, and no character of combining class
0 or 230 comes in between. -/
def beforeDot (ccc : Nat → Nat) : List Nat → Bool
  | [] => false
  | c :: after => c == 0x307 || (between ccc c && beforeDot ccc after)

/-- Lower casing in Turkish and Azeri, with the conditional rows of SpecialCasing.txt: `before`
are the characters already passed, last first. -/
def turkishLower (ccc : Nat → Nat) (before : List Nat) : List Nat → List Nat
  | [] => []
  | c :: after =>
    (if c = 0x130 then [0x69]
     else if c = 0x307 ∧ afterI ccc before = true then []
     else if c = 0x49 ∧ beforeDot ccc after = false then [0x131]
     else lower c)
      ++ turkishLower ccc (c :: before) after

end Verif.Casing.Spec

/-!
Where the annotations of a lemmatizer belong: a form under its lexeme, a lexeme under its lemma,
a lemma under its normalization, a normalization under its correction, and each of them under the
next kind up, or at last the token, when the one right above was not given.
-/
namespace Verif.Casing.Hooks.Spec

/-- How deep an annotation of a kind is. -/
def depth : String → Nat
  | "correction" => 1
  | "normalization" => 2
  | "lemma" => 3
  | "lexeme" => 4
  | _ => 5

/-- The edge an annotation of depth `d` belongs on: the latest of the edges made before (newest
first, with their depth) that is less deep, or the token. -/
def belongs {E : Type} (token : E) (made : List (Nat × E)) (d : Nat) : E :=
  ((made.find? fun q => q.1 < d).map Prod.snd).getD token

end Verif.Casing.Hooks.Spec
