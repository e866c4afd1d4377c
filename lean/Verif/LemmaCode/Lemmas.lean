import Verif.LemmaCode.Model

set_option linter.unusedVariables false
set_option linter.unusedSimpArgs false

namespace Verif.LemmaCode
open Verif

theorem commonLen_le (s t : Str) : commonLen s t ≤ s.length ∧ commonLen s t ≤ t.length ∧
    s.take (commonLen s t) = t.take (commonLen s t) := by
  fun_induction commonLen s t with
  | case1 a s t ih => simp; exact ⟨ih.1, ih.2.1, ih.2.2⟩
  | case2 a s b t h => simp
  | case3 s t h => simp

/-- `commonLen` is the length of the longest common prefix. -/
theorem commonLen_max (s t : Str) (n : Nat) (hs : n ≤ s.length) (ht : n ≤ t.length)
    (h : s.take n = t.take n) : n ≤ commonLen s t := by
  fun_induction commonLen s t generalizing n with
  | case1 a s t ih =>
    cases n with
    | zero => omega
    | succ n =>
      simp at h hs ht
      have := ih n hs ht h; omega
  | case2 a s b t hne =>
    cases n with
    | zero => omega
    | succ n => simp at h; exact absurd h.1 hne
  | case3 s t h' =>
    cases s with
    | nil => simpa using hs
    | cons a s =>
      cases t with
      | nil => simpa using ht
      | cons b t => exact (h' a s b t rfl rfl).elim

theorem matchLen_eq (rest toCode : Str) (h0 : toCode ≠ [] ∨ (0 : Byte) ∉ rest) :
    matchLen rest toCode = commonLen rest toCode := by
  cases toCode with
  | cons b t => rfl
  | nil =>
    cases rest with
    | nil => rfl
    | cons a r =>
      have : ¬ a = 0 := by
        rcases h0 with h | h
        · exact absurd rfl h
        · intro he; subst he; simp at h
      simp [matchLen, commonLen, this]

/-- The result of the search: a longest prefix of `toCode` occurring in `asRef`, and where. -/
structure Found (asRef toCode : Str) (r : Nat × Nat) : Prop where
  le : r.1 + r.2 ≤ asRef.length
  le' : r.2 ≤ toCode.length
  eq : (asRef.drop r.1).take r.2 = toCode.take r.2
  max : ∀ i, commonLen (asRef.drop i) toCode ≤ r.2
  left : ∀ i, i < r.1 → commonLen (asRef.drop i) toCode < r.2

theorem search_found (asRef toCode : Str) (h0 : toCode ≠ [] ∨ (0 : Byte) ∉ asRef) (rest : Str)
    (i maxi maxLength : Nat) (hrest : rest = asRef.drop i) (hi : i ≤ asRef.length)
    (hle : maxi + maxLength ≤ asRef.length) (hle' : maxLength ≤ toCode.length)
    (heq : (asRef.drop maxi).take maxLength = toCode.take maxLength)
    (hmax : ∀ j, j < i → commonLen (asRef.drop j) toCode ≤ maxLength)
    (hleft : ∀ j, j < maxi → commonLen (asRef.drop j) toCode < maxLength) :
    Found asRef toCode (search toCode rest i maxi maxLength) := by
  have hbnd : ∀ j, commonLen (asRef.drop j) toCode ≤ asRef.length - j := by
    intro j; have := (commonLen_le (asRef.drop j) toCode).1; simpa using this
  induction rest generalizing i maxi maxLength with
  | nil =>
    refine ⟨hle, hle', heq, ?_, hleft⟩
    intro j
    have : asRef.length ≤ i := List.drop_eq_nil_iff.1 hrest.symm
    by_cases hj : j < i
    · exact hmax j hj
    · have := hbnd j; omega
  | cons a rest ih =>
    have hlt : i < asRef.length := by
      rcases Nat.lt_or_ge i asRef.length with h | h
      · exact h
      · rw [List.drop_eq_nil_of_le h] at hrest; exact absurd hrest (by simp)
    have hrest' : rest = asRef.drop (i + 1) := by
      have := congrArg List.tail hrest
      simpa using this
    have hrl : rest.length + 1 = asRef.length - i := by
      have := congrArg List.length hrest; simpa using this
    have hm : matchLen (a :: rest) toCode = commonLen (asRef.drop i) toCode := by
      rw [← hrest]; apply matchLen_eq
      rcases h0 with h | h
      · exact Or.inl h
      · right; intro hmem; rw [hrest] at hmem; exact h (List.mem_of_mem_drop hmem)
    obtain ⟨c1, c2, c3⟩ := commonLen_le (asRef.drop i) toCode
    simp only [List.length_drop] at c1
    rw [search, hm]
    generalize hlen : commonLen (asRef.drop i) toCode = len at *
    have hmax' : ∀ j, j < i + 1 → commonLen (asRef.drop j) toCode ≤ (if len > maxLength then len else maxLength) := by
      intro j hj
      by_cases hji : j = i
      · subst hji; rw [hlen]; split <;> omega
      · have := hmax j (by omega); split <;> omega
    by_cases hgt : len > maxLength
    · simp only [hgt, if_true] at hmax' ⊢
      split
      · refine ⟨by simp; omega, c2, c3, ?_, fun j hj => Nat.lt_of_le_of_lt (hmax j hj) hgt⟩
        intro j
        by_cases hj : j < i + 1
        · exact hmax' j hj
        · have := hbnd j; simp; omega
      · exact ih (i + 1) i len hrest' (by omega) (by omega) c2 c3 hmax'
          (fun j hj => Nat.lt_of_le_of_lt (hmax j hj) hgt)
    · simp only [hgt, if_false] at hmax' ⊢
      split
      · refine ⟨hle, hle', heq, ?_, hleft⟩
        intro j
        by_cases hj : j < i + 1
        · exact hmax' j hj
        · have := hbnd j; simp; omega
      · exact ih (i + 1) maxi maxLength hrest' (by omega) hle hle' heq hmax' hleft

theorem charInt_ofNat (n : Nat) : ∃ j : Int, charInt (UInt8.ofNat (65 + n)) - 65 = n - 256 * j ∧
    (j = 0 ↔ n ≤ 62) ∧ 0 ≤ j := by
  have e : (UInt8.ofNat (65 + n)).toNat = (65 + n) % 256 := by simp
  rw [charInt, e]
  by_cases h : (65 + n) % 256 < 128
  · rw [if_pos h]
    refine ⟨((65 + n) / 256 : Nat), ?_, ?_, ?_⟩ <;> omega
  · rw [if_neg h]
    refine ⟨((65 + n) / 256 : Nat) + 1, ?_, ?_, ?_⟩ <;> omega

theorem toSize_nat (n : Nat) (h : n < 2 ^ 64) : toSize (n : Int) = n := by
  simp only [toSize]; omega

theorem toSize_neg (n : Int) (h : n < 0) (h' : -2 ^ 63 ≤ n) : 2 ^ 63 ≤ toSize n := by
  simp only [toSize]; omega

end Verif.LemmaCode
