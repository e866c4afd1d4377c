import Verif.Guess.Model
import Verif.Utf8.Spec
import Mathlib.Data.List.SplitOn
import Mathlib.Algebra.BigOperators.Group.List.Basic

/-! What the properties C95–C97 speak of, apart from the model. -/
namespace Verif.Guess
open Verif

/-- The words of a text: what stands between spaces. -/
def words (cps : List Nat) : List (List Nat) := (cps.splitOnP (fun c => c = 32)).filter (fun w => !w.isEmpty)

/-- The letters of a language, as code points. -/
def Letters (lang : Language) (ls : List Nat) : Prop :=
  (∀ c ∈ ls, Utf8.Spec.Scalar c ∧ c ≠ 32) ∧ lang.letters = Utf8.Spec.encodeAll ls

/-- The text has words, and each of them has one of the letters. -/
def Marked (ls cps : List Nat) : Prop := words cps ≠ [] ∧ ∀ w ∈ words cps, ∃ c ∈ w, c ∈ ls

/-- The number of the cell of two letters: capital letters of ASCII count as small ones. -/
def small (c : Nat) : Nat := if 65 ≤ c ∧ c ≤ 90 then c + 32 else c

/-- The cell in which a bigram is counted. -/
def place (p : Nat × Nat) : Nat := (small p.1 * 509 + small p.2 * 259081) % 512

/-- The bigrams of a text. -/
def bigrams (cps : List Nat) : List (Nat × Nat) := cps.zip cps.tail

/-- The share of bigrams in the cells. -/
def share (ps : List (Nat × Nat)) (i : Nat) : Rat :=
  if ps = [] then 0 else ((ps.filter (fun p => place p = i)).length : Rat) / (ps.length : Rat)

/-- The sum of squares of the differences. -/
def squares (t u : Nat → Rat) : Rat := ((List.range 512).map (fun i => (t i - u i) ^ 2)).sum

/-- A language from the list is the nearest one: no language is nearer, those before it are farther. -/
def Nearest (t : Nat → Rat) (langs : List Language) (name : Str) : Prop :=
  ∃ pre lang post, langs = pre ++ lang :: post ∧ lang.name = name ∧
    (∀ l ∈ pre, squares t lang.table < squares t l.table) ∧ ∀ l ∈ post, squares t lang.table ≤ squares t l.table

end Verif.Guess
