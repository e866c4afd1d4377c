import Verif.Srx.Model
import Verif.Utf8.Boundary

/-!
What the SRX standard says about rules, and what it means to cut a text.
-/
namespace Verif.Srx
open Verif

/-- The rule matches at `p`: some match has its break there. -/
def Rule.Matches (r : Rule) (p : Nat) : Prop := ∃ m, p ∈ r.breaks m

/-- SRX: at every position the first rule that matches decides, and a breaking rule breaks. -/
def BreakAt (rules : List Rule) (p : Nat) : Prop :=
  ∃ l r l', rules = l ++ r :: l' ∧ r.breaking = true ∧ r.Matches p ∧ ∀ x ∈ l, ¬ x.Matches p

/-- Pieces from `i` to `n`, each beginning where the one before ended, none empty. -/
def Tiles (n : Nat) : Nat → List (Nat × Nat) → Prop
  | i, [] => i = n
  | i, (a, b) :: l => a = i ∧ a < b ∧ Tiles n b l

/-- Matches begin and break at characters of the text, and do not break before they begin. -/
def Sane (text : Str) (r : Rule) : Prop :=
  ∀ m, ∀ p ∈ r.breaks m, m ≤ p ∧ Utf8.Boundary text m ∧ Utf8.Boundary text p

/-- A match can break at one place only. -/
def Single (r : Rule) : Prop := ∀ m, (r.breaks m).length ≤ 1

/-- A match that begins later breaks later, or at the same place. -/
def Monotone (r : Rule) : Prop := ∀ m m' p p', m < m' → p ∈ r.breaks m → p' ∈ r.breaks m' → p ≤ p'

/-- No break falls inside a match, between its beginning and its own break. -/
def NoStraddle (text : Str) (rules : List Rule) : Prop :=
  ∀ q, q < text.length → BreakAt rules q → ∀ r ∈ rules, ∀ m < q, ∀ p ∈ r.breaks m, p ≤ q

/-- Regular expressions byte by byte: `\` and what follows belong together. -/
def tokens : Str → List Str
  | [] => []
  | [b] => [[b]]
  | a :: b :: s => if a = 92 then [a, b] :: tokens s else [a] :: tokens (b :: s)

/-- Every opening parenthesis that is not escaped and not followed by `?` gets `?:`. -/
def nonCapturing : List Str → Str
  | [] => []
  | t :: ts => if t = [40] ∧ ts.flatten.head? ≠ some 63 then [40, 63, 58] ++ nonCapturing ts else t ++ nonCapturing ts

/-- The same, but with bracketed character classes left as they are; `cls`: inside of a class. -/
def nonCapturingOutside : Bool → List Str → Str
  | _, [] => []
  | true, t :: ts => t ++ nonCapturingOutside (decide (t ≠ [93])) ts
  | false, t :: ts =>
    if t = [40] ∧ ts.flatten.head? ≠ some 63 then [40, 63, 58] ++ nonCapturingOutside false ts
    else t ++ nonCapturingOutside (decide (t = [91])) ts

/-- No opening parenthesis in a character class, other than an escaped one. -/
def ClassesPlain : Bool → List Str → Prop
  | _, [] => True
  | true, t :: ts => t ≠ [40] ∧ ClassesPlain (decide (t ≠ [93])) ts
  | false, t :: ts => ClassesPlain (decide (t = [91])) ts

/-- What follows `(` makes the group one that has a name: `?<`, `?P<` or `?'`, but not the look-behinds `?<=` and `?<!`. -/
def namedAfter : Str → Bool
  | 63 :: 60 :: 61 :: _ => false
  | 63 :: 60 :: 33 :: _ => false
  | 63 :: 60 :: _ => true
  | 63 :: 80 :: 60 :: _ => true
  | 63 :: 39 :: _ => true
  | _ => false

/-- Some group captures. -/
def captures : List Str → Bool
  | [] => false
  | t :: ts => (t = [40] && (decide (ts.flatten.head? ≠ some 63) || namedAfter ts.flatten)) || captures ts

/-- Some group has a name. -/
def hasNamed : List Str → Bool
  | [] => false
  | t :: ts => (t = [40] && namedAfter ts.flatten) || hasNamed ts

/-- All language maps of the document, in order. -/
def allMaps {R : Type} (body : List (BodyItem R)) : List LanguageMap :=
  body.flatMap fun
    | .maprules l => l.flatMap fun
      | .languagemap m => [m]
      | .maprule l => l.filterMap id
      | .other => []
    | _ => []

/-- All named lists of rules of the document, in order. -/
def allRules {R : Type} (body : List (BodyItem R)) : List (Str × List R) :=
  body.flatMap fun
    | .languagerules l => l
    | _ => []

/-- The maps that count: all that match, or the first one that matches. -/
def chosen (cascade : Bool) (maps : List LanguageMap) : List LanguageMap :=
  if cascade then maps.filter LanguageMap.matches_ else (maps.find? LanguageMap.matches_).toList

/-- SRX 2.0: the rules of the maps that count, in the order of the maps. -/
def standardRules {R : Type} (cascade : Bool) (body : List (BodyItem R)) : List R :=
  (chosen cascade (allMaps body)).flatMap fun m => ((allRules body).filter (fun r => r.1 = m.name)).flatMap Prod.snd

end Verif.Srx
