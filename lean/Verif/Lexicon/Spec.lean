import Verif.Quoter.Spec
import Verif.Annot.Spec
import Mathlib.Data.List.SplitOn
import Mathlib.Data.List.Forall2

/-! What the properties of the lexica speak of, apart from the model. -/
namespace Verif.Lexicon.Spec
open Verif

/-- A text of lines, each with a newline at its end. -/
def text (ls : List Str) : Str := ls.flatMap (· ++ [10])

/-- A tab or a space. -/
def Separator (c : Byte) : Prop := c = 9 ∨ c = 32

instance : DecidablePred Separator := fun c => inferInstanceAs (Decidable (c = 9 ∨ c = 32))

/-- What stands before the first "#". -/
def content (line : Str) : Str := line.takeWhile (· ≠ 35)

/-- The words between tabs and spaces. -/
def words (s : Str) : List Str := (s.splitOnP (fun c => decide (Separator c))).filter (· ≠ [])

/-- An entry of a lexicon: a key and at least one more field. -/
abbrev Entry := Str × List Str

/-- What a line of a lexicon is to mean: nothing if it has no words, otherwise an entry of at least two quoted fields. -/
inductive Means (line : Str) : Option Entry → Prop
  | nothing : words (content line) = [] → Means line none
  | entry {k f fs} : List.Forall₂ (Quoter.Spec.Reads []) (words (content line)) (k :: f :: fs) → Means line (some (k, f :: fs))

/-- The line begins with a tab or a space. -/
def Indented (line : Str) : Prop := ∃ c s, line = c :: s ∧ Separator c

/-- What a line is taken for: an indented line says nothing. -/
def Taken (line : Str) (e : Option Entry) : Prop := (Indented line ∧ e = none) ∨ (¬ Indented line ∧ Means line e)

/-- The fields of an entry other than the key, with tabs between them. -/
def record (e : Entry) : Str := [9].intercalate e.2

/-- The entries with neighbours that have the same key put together. -/
def group : List Entry → List (Str × List Str)
  | [] => []
  | e :: es => match group es with
    | [] => [(e.1, [record e])]
    | (k, rs) :: gs => if e.1 = k then (k, record e :: rs) :: gs else (e.1, [record e]) :: (k, rs) :: gs

/-- The value stored for records: with ";" between them. -/
def value (g : Str × List Str) : Str × Str := (g.1, [59].intercalate g.2)

/-- Equal keys stand together. -/
def Together (keys : List Str) : Prop := ∀ a b, [a, b, a].Sublist keys → b = a

/-- A line for an entry: quoted fields with tabs between them. -/
def written (quote : Str → Str) (e : Entry) : Str := [9].intercalate ((e.1 :: e.2).map quote)

/-- The values that are left when pairs are put one after another: the last one for each attribute. -/
def lastOf (avs : List (Str × Str)) (a : Str) : Option Str := ((avs.filter (fun av => av.1 = a)).getLast?).map (·.2)

end Verif.Lexicon.Spec

namespace Verif.Lexicon.Spec
open Verif

/-- Attributes with values, as they are written in the third field of a record. -/
def attributes (avs : List (Str × Str)) : Str := [44].intercalate (avs.map fun av => av.1 ++ [61] ++ av.2)

/-- A space is to stand between the neighbours `s` and `t`: the first does not end with an opening bracket and the second does not
begin with a closing bracket or a punctuation mark. -/
def Spaced (s t : Str) : Prop :=
  (∀ c, s.getLast? = some c → c ∉ Server.ascii "([{") ∧ (∀ c, t.head? = some c → c ∉ Server.ascii ".,;:)]}!?")

instance (s t : Str) : Decidable (Spaced s t) := by
  unfold Spaced
  cases s.getLast? <;> cases t.head? <;> simp <;> infer_instance

/-- Words put together. -/
def glue : List Str → Str
  | [] => []
  | [t] => t
  | s :: t :: ts => s ++ (if Spaced s t then [32] else []) ++ glue (t :: ts)

/-- The text of the last token at a position. -/
def lastAt (tokens : List (Int × Str)) (p : Int) : Option Str := ((tokens.filter (fun t => t.1 = p)).getLast?).map (·.2)

end Verif.Lexicon.Spec

namespace Verif.Lexicon.Spec
open Verif

/-- A line of a table with the columns `k`, `v` and perhaps more after a tab. -/
def Row (l : Str) (kv : Str × Str) : Prop :=
  (9 : Byte) ∉ kv.1 ∧ (9 : Byte) ∉ kv.2 ∧ ∃ rest, l = kv.1 ++ [9] ++ kv.2 ++ rest ∧ (rest = [] ∨ rest.head? = some 9)

end Verif.Lexicon.Spec
