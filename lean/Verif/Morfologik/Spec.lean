import Verif.Server.Handler

/-! What tags of Morfologik mean, without maps and counters. -/
namespace Verif.Morfologik
open Verif
open Verif.Server (ascii)

/-- A tag: its attributes, and the alternatives of each. -/
abbrev Tag := List (List Str)

/-- Strings with a character between them. -/
def joined (c : Byte) : List Str → Str
  | [] => []
  | [s] => s
  | s :: ss => s ++ c :: joined c ss

/-- How an attribute is written: alternatives with dots between them. -/
def text (attr : List Str) : Str := joined 46 attr

/-- How a tag is written: attributes with colons between them. -/
def written (t : Tag) : Str := joined 58 (t.map text)

/-- The tag has attributes, these have alternatives, these have no colons and no dots. -/
def Proper (t : Tag) : Prop := t ≠ [] ∧ ∀ attr ∈ t, attr ≠ [] ∧ ∀ a ∈ attr, 58 ∉ a ∧ 46 ∉ a

/-- The values each category may have. -/
def categories : List (String × List String) :=
  [("pos", ["adj", "adja", "adjp", "adv", "num", "ppron12", "ppron3", "pred", "prep", "siebie", "subst", "verb", "conj", "qub", "burk", "interj", "interp", "xxx", "brev", "nie", "ign"]),
   ("number", ["sg", "pl", "pltant"]),
   ("case", ["nom", "gen", "acc", "dat", "inst", "loc", "voc"]),
   ("degree", ["pos", "comp", "sup"]),
   ("gender", ["m", "m1", "m2", "m3", "m4", "n", "f", "n1", "n2", "p1", "p2", "p3"]),
   ("person", ["pri", "sec", "ter"]),
   ("depreciativity", ["depr"]),
   ("winien-like", ["winien"]),
   ("negation", ["aff", "neg"]),
   ("aspect", ["perf", "imperf", "?perf"]),
   ("accentability", ["nakc", "akc"]),
   ("post-prepositionality", ["praep", "npraep"]),
   ("tense", ["ger", "imps", "inf", "fin", "bedzie", "praet", "refl", "pact", "pant", "pcon", "ppas"]),
   ("mode", ["impt", "pot"]),
   ("uninflected", ["indecl"]),
   ("irregularity", ["irreg"]),
   ("fullstoppedness", ["pun", "npun"]),
   ("vocalicity", ["wok", "nwok"]),
   ("agglutination", ["agl", "nagl"]),
   ("accommodability", ["congr", "rec"]),
   ("unknown", ["_"])]

/-- The category of an attribute is that of its first alternative. -/
def HasCategory (attr : List Str) (c : Str) : Prop :=
  ∃ k vs v as, (k, vs) ∈ categories ∧ c = ascii k ∧ v ∈ vs ∧ attr = ascii v :: as

/-- `attr` is the first attribute of `t` with the category `c`. -/
def First (t : Tag) (c : Str) (attr : List Str) : Prop :=
  ∃ before after, t = before ++ attr :: after ∧ HasCategory attr c ∧ ∀ b ∈ before, ¬ HasCategory b c

/-- A description: each category has a value or none. -/
abbrev Description := Str → Option Str

/-- A description of a tag, only the categories in `C` count: each category has one of the alternatives of its first
attribute; a category without attribute has no value. -/
def Describes (t : Tag) (C : Str → Prop) (f : Description) : Prop :=
  ∀ c, (∃ attr a, C c ∧ First t c attr ∧ a ∈ attr ∧ f c = some a) ∨
    ((C c → ∀ attr, ¬ First t c attr) ∧ f c = none)

/-- Each attribute with several alternatives is the first one of its category. -/
def Clean (t : Tag) : Prop :=
  ∀ before attr after, t = before ++ attr :: after → 2 ≤ attr.length →
    ∃ c, HasCategory attr c ∧ ∀ b ∈ before, ¬ HasCategory b c

/-- The categories of a lexeme of the part of speech `pos`, beside the part of speech itself. -/
def lexical (pos : Str) : List Str :=
  if pos = ascii "subst" then [ascii "gender"] else if pos = ascii "verb" then [ascii "aspect"] else []

/-- The part of speech is told by the first of these categories that the tag has. -/
def speechCategories : List Str := [ascii "pos", ascii "depreciativity", ascii "tense", ascii "mode"]

/-- How what tells the part of speech of a tag is written; nothing, if there is nothing. -/
def SpeechText (t : Tag) (s : Str) : Prop :=
  (∃ before c after attr, speechCategories = before ++ c :: after ∧ First t c attr ∧ s = text attr ∧
    ∀ b ∈ before, ∀ a, ¬ First t b a) ∨
  ((∀ c ∈ speechCategories, ∀ a, ¬ First t c a) ∧ s = [])

/-- The part of speech of a tag: participles are verbs. -/
def Speech (t : Tag) (pos : Str) : Prop :=
  ∃ s, SpeechText t s ∧
    pos = if s ∈ [ascii "pact", ascii "pant", ascii "pcon", ascii "ppas"] then ascii "verb" else s

end Verif.Morfologik
