import Verif.MonotonicVector.Lemmas

/-!
Property theorems C27 (compressed position vector).

The specification is the plain list of pushed values: `xs[i]?` is the i-th pushed value.
-/
namespace Verif.MonotonicVector
open Binary

/-- **C27** After pushing any sequence of positions (non-decreasing or not), `size` is its length and
`at(i)` is the i-th pushed value; no access leaves a vector. -/
theorem C27_at (p : Params) (hp : p.Ok) (xs : List Nat) (hx : ∀ x ∈ xs, x < 256 ^ p.posBytes)
    (hn : xs.length < 256 ^ p.posBytes) :
    ∃ v, pushAll p empty xs = some v ∧ size p v = xs.length ∧
      ∀ i : Nat, i < xs.length → get p v i = xs[i]? := by
  obtain ⟨v, h1, h2⟩ := holds_pushAll hp xs (holds_empty hp) (by simp; exact hx)
    (by simp; exact Nat.le_of_lt hn)
  simp only [List.nil_append] at h2
  refine ⟨v, h1, h2.shape.size hp hn, fun i hi => ?_⟩
  rw [List.getElem?_eq_getElem hi]
  exact h2.vals i _ (List.getElem?_eq_getElem hi)

/-- **C27** `back()` is the last pushed value. -/
theorem C27_back (p : Params) (hp : p.Ok) (xs : List Nat) (x : Nat)
    (hx : ∀ y ∈ xs ++ [x], y < 256 ^ p.posBytes) (hn : xs.length + 1 < 256 ^ p.posBytes) :
    (pushAll p empty (xs ++ [x])).bind (back p) = some x := by
  obtain ⟨v, h1, h2, h3⟩ := C27_at p hp (xs ++ [x]) hx (by simpa using hn)
  have hW : p.W = 256 ^ p.posBytes := rfl
  simp only [h1, Option.bind_some, back]
  have : (size p v + p.W - 1) % p.W = xs.length := by
    rw [h2]; simp
    rw [Nat.mod_eq_of_lt]; omega
  rw [this, h3 _ (by simp)]
  simp

/-- **C27** A saved vector is loaded back unchanged, leaving the rest of the file. -/
theorem C27_save_load (p : Params) (hp : p.Ok) (xs : List Nat) (hx : ∀ x ∈ xs, x < 256 ^ p.posBytes)
    (hn : xs.length < 256 ^ p.posBytes) (hn' : xs.length < 2 ^ 64) (rest : Str) :
    ∃ v, pushAll p empty xs = some v ∧ load p (save p v ++ rest) = some (v, rest) := by
  obtain ⟨v, h1, h2⟩ := holds_pushAll hp xs (holds_empty hp) (by simp; exact hx)
    (by simp; exact Nat.le_of_lt hn)
  exact ⟨v, h1, load_save hp h2.shape (by simpa using hn') (by simp; exact Nat.le_of_lt hn) rest⟩

/-- The default instance `MonotonicVector<size_t, unsigned char, 25>` is covered. -/
example : (⟨8, 1, 25⟩ : Params).Ok := ⟨by decide, by decide, by decide⟩

/-- A sequence with a saturated gap (255), a larger gap and an anchor: the hypotheses hold and the
overflow table is used. -/
example : ∃ v, pushAll ⟨4, 1, 3⟩ empty [5, 260, 1000, 1000, 70000] = some v ∧
    v.rests = [(1, 485), (2, 68745)] ∧ get ⟨4, 1, 3⟩ v 4 = some 70000 := by
  refine ⟨_, rfl, ?_⟩; decide

example : (∀ x ∈ [5, 260, 1000, 1000, 70000], x < 256 ^ (⟨4, 1, 3⟩ : Params).posBytes) := by decide

end Verif.MonotonicVector
