import Verif.ListCoders.Lemmas

/-!
Property theorems C33 (variable-length integers) and C34 (Simple9).
-/
set_option linter.unusedVariables false
set_option linter.unusedSimpArgs false

namespace Verif.ListCoders
open Verif

/-- **C33** Decoding an encoded list gives the list back, for every list of 64-bit numbers and every word
size (`s` payload bits per word: 7, 15 or 31 in the code). -/
theorem C33_roundtrip (s : Nat) (hs : 0 < s) (xs : List Nat) (h : ∀ x ∈ xs, x < 2 ^ 64) :
    decode s (encode s hs xs) = some xs := by
  induction xs with
  | nil => rw [encode, decode]; simp
  | cons x xs ih =>
    rw [encode, decode, if_neg (by simp [encodeSymbol_ne_nil])]
    have hd := decode_encodeSymbol s hs x (encode s hs xs) (h x (by simp))
    split
    · rename_i h1; rw [hd] at h1; cases h1
    · rename_i h1; rw [hd] at h1; cases h1
      rw [ih (fun y hy => h y (by simp [hy]))]; rfl

/-- **C33** The words fit in the word type. -/
theorem C33_words (s : Nat) (hs : 0 < s) (xs : List Nat) : ∀ w ∈ encode s hs xs, w < 2 ^ (s + 1) := by
  have hloop : ∀ x, ∀ w ∈ encodeLoop s x hs, w < 2 ^ (s + 1) := by
    intro x
    fun_induction encodeLoop s x hs with
    | case1 => simp
    | case2 x h0 res x' ih =>
      intro w hw
      simp only [List.mem_cons] at hw
      rcases hw with rfl | hw
      · have hr : res < 2 ^ s := by
          simp only [res, Nat.and_two_pow_sub_one_eq_mod]
          exact Nat.mod_lt _ (Nat.pow_pos (by omega))
        rw [Nat.pow_succ]
        split
        · rw [or_top _ _ hr]; omega
        · omega
      · exact ih w hw
  induction xs with
  | nil => simp [encode]
  | cons x xs ih =>
    intro w hw
    rw [encode, List.mem_append] at hw
    rcases hw with hw | hw
    · unfold encodeSymbol at hw
      split at hw
      · simp at hw; subst hw; exact Nat.pow_pos (by omega)
      · exact hloop x w hw
    · exact ih w hw

/-- **C33** `DecodeAndSum` returns the sum (in 64 bits) of the first `n` numbers, or of all if there are
fewer, and leaves the iterator behind them. -/
theorem C33_sum (s : Nat) (hs : 0 < s) (xs : List Nat) (h : ∀ x ∈ xs, x < 2 ^ 64) (n : Nat) :
    decodeAndSum s n (encode s hs xs) 0 = some ((xs.take n).sum % 2 ^ 64, encode s hs (xs.drop n)) := by
  suffices key : ∀ sum, sum < 2 ^ 64 → decodeAndSum s n (encode s hs xs) sum =
      some ((sum + (xs.take n).sum) % 2 ^ 64, encode s hs (xs.drop n)) by
    have := key 0 (by omega)
    simpa using this
  induction n generalizing xs with
  | zero => intro sum hsum; simp [decodeAndSum, Nat.mod_eq_of_lt hsum]
  | succ n ih =>
    intro sum hsum
    cases xs with
    | nil => simp [decodeAndSum, encode, Nat.mod_eq_of_lt hsum]
    | cons x xs =>
      have hd := decode_encodeSymbol s hs x (encode s hs xs) (h x (by simp))
      rw [encode, decodeAndSum, if_neg (by simp [encodeSymbol_ne_nil]), hd]
      simp only
      rw [ih xs (fun y hy => h y (by simp [hy])) _ (Nat.mod_lt _ (by omega))]
      simp only [List.take_succ_cons, List.sum_cons, List.drop_succ_cons]
      congr 2; omega

/-- A concrete encoding with 8-bit words. -/
example : encode 7 (by omega) [300, 0, 5] = [172, 2, 0, 5] ∧ decodeSymbol 7 [172, 2, 0, 5] 0 0 = some (300, [0, 5]) :=
  ⟨by simp [encode, encodeSymbol, encodeLoop], by decide⟩

/-- The 64-bit bound is needed: decoding loses the bits above. -/
example : decodeSymbol 31 [0x80000000, 0x80000000, 4] 0 0 = some (0, []) := by decide

/-- **C34** `Encode` is defined exactly for the lists of numbers from 1 to 2^28-1. -/
theorem C34_defined (xs : List Nat) : (encode9 xs).isSome ↔ ∀ x ∈ xs, 0 < x ∧ x < 2 ^ 28 := by
  constructor
  · intro h
    obtain ⟨ws, hw⟩ := Option.isSome_iff_exists.1 h
    exact (encode9Loop_decode _ _ _ hw).2
  · intro h
    obtain ⟨ws, hw⟩ := encode9Loop_some xs.length xs (Nat.le_refl _) h
    unfold encode9; rw [hw]; rfl

/-- **C34** (partial: the numbers must not be 0) Decoding an encoded list gives the list back. -/
theorem C34_roundtrip_partial (xs : List Nat) (h : ∀ x ∈ xs, 0 < x ∧ x < 2 ^ 28) :
    ∃ ws, encode9 xs = some ws ∧ decode9 ws = xs := by
  obtain ⟨ws, hw⟩ := encode9Loop_some xs.length xs (Nat.le_refl _) h
  exact ⟨ws, hw, (encode9Loop_decode _ _ _ hw).1⟩

/-- **C34** (partial: the numbers must not be 0) `DecodeAndSum` returns the sum, in 64 bits, of the first
`n` numbers; asking for more numbers than there are fails the assertion. -/
theorem C34_sum_partial (xs : List Nat) (h : ∀ x ∈ xs, 0 < x ∧ x < 2 ^ 28) (n : Nat) :
    ∃ ws, encode9 xs = some ws ∧
      decodeAndSum9 ws n = if n ≤ xs.length then some ((xs.take n).sum % 2 ^ 64) else none := by
  obtain ⟨ws, hw⟩ := encode9Loop_some xs.length xs (Nat.le_refl _) h
  refine ⟨ws, hw, ?_⟩
  unfold decodeAndSum9
  rw [sumWords_spec n _ xs ws hw 0 0 (by omega) (by omega)]
  simp only [Nat.zero_add, Nat.sub_zero]
  by_cases hn : n ≤ xs.length
  · rw [if_pos hn, if_pos (by omega)]
  · rw [if_neg hn, if_neg (by omega)]

/-- **C34 (disagreement)** Encoding a list with the number 0 divides by zero. -/
theorem C34_zero_false : encode9 [3, 0, 7] = none := by
  have : ¬ (encode9 [3, 0, 7]).isSome := by rw [C34_defined]; simp
  simpa using this

/-- Three small numbers share a word; a large one has its own. -/
example : ∀ x ∈ [1, 500, 7, 200000000, 3], 0 < x ∧ x < 2 ^ 28 := by decide
example : packWord [1, 500, 7] = 3 * 2 ^ 28 + 1 * 2 ^ 18 + 500 * 2 ^ 9 + 7 := by decide

end Verif.ListCoders
