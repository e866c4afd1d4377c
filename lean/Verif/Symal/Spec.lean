import Verif.Symal.Model
import Mathlib.Data.List.Forall2

/-!
What symmetrization is, apart from the model.  Positions are counted from 0, as in the output.
-/
namespace Verif.Symal.Spec
open Verif

/-- A pair of positions: of a word of the source sentence and of one of the target sentence. -/
structure Link where
  source : Nat
  target : Nat
deriving DecidableEq

/-- The direct alignment: for each word of the source sentence at most one word of the target sentence. -/
def Direct (x : Input) (l : Link) : Prop := l.source < x.m ∧ x.a (l.source + 1) = l.target + 1

/-- The inverse alignment. -/
def Inverse (x : Input) (l : Link) : Prop := l.target < x.n ∧ x.b (l.target + 1) = l.source + 1

/-- What `getals` asserts: alignments stay within the sentences. -/
def Proper (x : Input) : Prop := (∀ j, 1 ≤ j → j ≤ x.m → x.a j ≤ x.n) ∧ (∀ i, 1 ≤ i → i ≤ x.n → x.b i ≤ x.m)

/-- Words with a link. -/
def CoversSource (S : Link → Prop) (i : Nat) : Prop := ∃ l, S l ∧ l.source = i
def CoversTarget (S : Link → Prop) (i : Nat) : Prop := ∃ l, S l ∧ l.target = i

/-- One of the words of a link has no link yet. -/
def New (S : Link → Prop) (l : Link) : Prop := ¬ CoversSource S l.source ∨ ¬ CoversTarget S l.target

/-- Neither word of a link has a link yet. -/
def Fresh (S : Link → Prop) (l : Link) : Prop := ¬ CoversSource S l.source ∧ ¬ CoversTarget S l.target

/-- Distance of positions. -/
def dist (a b : Nat) : Nat := (a - b) + (b - a)

/-- Links next to each other: at a distance of one in one direction, or, with diagonals, in each. -/
def Adjacent (diagonal : Bool) (k l : Link) : Prop :=
  k ≠ l ∧ dist k.source l.source ≤ 1 ∧ dist k.target l.target ≤ 1 ∧
    (diagonal = false → k.source = l.source ∨ k.target = l.target)

/-- Links are added one after another, each of which may be added to those before. -/
inductive Chain (ok : (Link → Prop) → Link → Prop) (S : Link → Prop) : (Link → Prop) → Prop
  | refl : Chain ok S S
  | step {T : Link → Prop} {l : Link} : Chain ok S T → ok T l → Chain ok S (fun k => T k ∨ k = l)

/-- Links are added until none may be added. -/
def Saturated (ok : (Link → Prop) → Link → Prop) (S T : Link → Prop) : Prop := Chain ok S T ∧ ∀ l, ¬ ok T l

/-- What growing adds: a link of the union next to one that is there, which links a new word. -/
def Grow (x : Input) (diagonal : Bool) (S : Link → Prop) (l : Link) : Prop :=
  (Direct x l ∨ Inverse x l) ∧ (∃ k, S k ∧ Adjacent diagonal k l) ∧ New S l

/-- What the final steps add: a link that links a new word, or two new words. -/
def Final (P : Link → Prop) (both : Bool) (S : Link → Prop) (l : Link) : Prop := P l ∧ if both then Fresh S l else New S l

/-- Grow, grow-diag, and these with final steps: first those of the inverse alignment, then the others. -/
def Symmetrized (x : Input) (diagonal final both : Bool) (S : Link → Prop) : Prop :=
  ∃ T, Saturated (Grow x diagonal) (fun l => Direct x l ∧ Inverse x l) T ∧
    if final then ∃ U, Saturated (Final (Inverse x) both) T U ∧ Saturated (Final (Direct x) both) U S else S = T

/-! ### What is printed -/

/-- The number that digits mean. -/
def value (s : Str) : Nat := s.foldl (fun n d => n * 10 + (d.toNat - 48)) 0

/-- A number in decimal digits. -/
def Number (s : Str) (n : Nat) : Prop := s ≠ [] ∧ (∀ d ∈ s, 48 ≤ d.toNat ∧ d.toNat ≤ 57) ∧ value s = n

/-- A link: the two positions with a hyphen between them. -/
def Shows (l : Link) (s : Str) : Prop := ∃ u v, s = u ++ [45] ++ v ∧ Number u l.source ∧ Number v l.target

/-- A line: links, with spaces between them, and the end of the line. -/
def Line (ls : List Link) (s : Str) : Prop := ∃ ws, List.Forall₂ Shows ls ws ∧ s = [32].intercalate ws ++ [10]

end Verif.Symal.Spec
