import Verif.Huffman.Model

/-!
What the standard says about the heap functions, and the notion of a complete prefix code.
-/
namespace Verif.Huffman.Spec
open Verif

/-- The heap order of the standard for "heavier first": no element is lighter than its parent. -/
def IsHeap (w : Nat → Nat) (l : List Nat) : Prop :=
  ∀ i (h : i < l.length), 0 < i → w (l[(i - 1) / 2]'(by omega)) ≤ w l[i]

/-- The contract of `make_heap`, `pop_heap` and `push_heap`. -/
structure Standard (ops : HeapOps) : Prop where
  make : ∀ w l, (ops.make w l).Perm l ∧ IsHeap w (ops.make w l)
  pop : ∀ w x l, IsHeap w (x :: l) → ∃ l', ops.pop w (x :: l) = l' ++ [x] ∧ l'.Perm l ∧ IsHeap w l'
  push : ∀ w l x, IsHeap w l → (ops.push w (l ++ [x])).Perm (l ++ [x]) ∧ IsHeap w (ops.push w (l ++ [x]))

/-- The Kraft sum of a list of code lengths, scaled by `2^D`. -/
def kraft (D : Nat) (ls : List Nat) : Nat := (ls.map fun l => 2 ^ (D - l)).sum

/-- The lengths are those of a complete binary prefix code: the Kraft sum is exactly 1. -/
def Complete (ls : List Nat) : Prop := ∃ D, (∀ l ∈ ls, l ≤ D) ∧ kraft D ls = 2 ^ D

/-- No code word is a prefix of the code word of another symbol. -/
def PrefixFree {α : Type} (code : α → List Bool) (syms : List α) : Prop :=
  ∀ a ∈ syms, ∀ b ∈ syms, code a <+: code b → a = b

end Verif.Huffman.Spec
