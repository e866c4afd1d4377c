import Verif.Zlib.CrcRev
import Verif.Zlib.CrcSpec
import Mathlib.Tactic.LinearCombination
import Mathlib.Tactic.ComputeDegree

/-! The register of the CRC as a polynomial. -/

namespace Verif.Zlib

open Polynomial

theorem two_mul_poly (p : (ZMod 2)[X]) : p + p = 0 := CharTwo.add_self_eq_zero p

theorem toPoly_xor (a b : U4) : toPoly (a ^^^ b) = toPoly a + toPoly b := by
  unfold toPoly
  rw [← Finset.sum_add_distrib]
  refine Finset.sum_congr rfl fun i _ => ?_
  rw [BitVec.getLsbD_xor]
  cases a.getLsbD (31 - i) <;> cases b.getLsbD (31 - i) <;> simp [two_mul_poly]

theorem toPoly_zero : toPoly 0#32 = 0 := by
  simp [toPoly]

theorem toPoly_coeff (c : U4) (i : Nat) (h : i < 32) :
    (toPoly c).coeff i = if c.getLsbD (31 - i) then 1 else 0 := by
  unfold toPoly
  rw [Polynomial.finset_sum_coeff]
  rw [Finset.sum_eq_single i]
  · split <;> simp
  · intro j _ hj
    split
    · rw [Polynomial.coeff_X_pow, if_neg (by omega)]
    · simp
  · intro h'
    exact absurd (Finset.mem_range.mpr h) h'

theorem toPoly_inj (a b : U4) (h : toPoly a = toPoly b) : a = b := by
  apply BitVec.eq_of_getLsbD_eq
  intro i hi
  have h1 := congrArg (fun p => p.coeff (31 - i)) h
  rw [toPoly_coeff _ _ (by omega), toPoly_coeff _ _ (by omega), show 31 - (31 - i) = i by omega] at h1
  revert h1
  cases a.getLsbD i <;> cases b.getLsbD i <;> simp

theorem toPoly_degree (c : U4) : (toPoly c).degree < 32 := by
  unfold toPoly
  refine lt_of_le_of_lt (Polynomial.degree_sum_le _ _) ?_
  rw [Finset.sup_lt_iff (by decide)]
  intro i hi
  have hi' := Finset.mem_range.mp hi
  split
  · rw [Polynomial.degree_X_pow]
    exact_mod_cast hi'
  · rw [Polynomial.degree_zero]; decide

theorem toPoly_ones : toPoly (~~~ 0#32) = allOnes := by
  unfold toPoly allOnes
  refine Finset.sum_congr rfl fun i hi => ?_
  have hi' := Finset.mem_range.mp hi
  rw [BitVec.getLsbD_not]
  simp [show 31 - i < 32 by omega]

theorem toPoly_not (c : U4) : toPoly (~~~ c) = toPoly c + allOnes := by
  rw [← toPoly_ones, ← toPoly_xor]
  rw [not_eq_xor c, show ~~~ 0#32 = 0xffffffff#32 by decide]

theorem toPoly_poly : toPoly poly + X ^ 32 = generator := by
  rw [poly_eq]
  unfold toPoly generator
  simp only [Finset.sum_range_succ, Finset.sum_range_zero]
  simp only [show ∀ (p q : (ZMod 2)[X]), (if (0xedb88320#32).getLsbD (31 - 0) = true then p else q) = p from fun _ _ => if_pos (by decide)]
  simp (decide := true) only [if_true, if_false]
  ring

theorem toPoly_shift (c : U4) :
    X * toPoly c = toPoly (c >>> 1) + (if c.getLsbD 0 then X ^ 32 else 0) := by
  unfold toPoly
  rw [Finset.sum_range_succ, Finset.sum_range_succ' (n := 31)]
  have h0 : (c >>> 1).getLsbD (31 - 0) = false := by
    rw [BitVec.getLsbD_ushiftRight, BitVec.getLsbD_of_ge c _ (by omega)]
  rw [h0]
  have h1 : ∀ i ∈ Finset.range 31,
      (if (c >>> 1).getLsbD (31 - (i + 1)) = true then (X : (ZMod 2)[X]) ^ (i + 1) else 0) =
      X * (if c.getLsbD (31 - i) = true then X ^ i else 0) := by
    intro i hi
    have hi' := Finset.mem_range.mp hi
    rw [BitVec.getLsbD_ushiftRight, show 1 + (31 - (i + 1)) = 31 - i by omega]
    split
    · rw [pow_succ']
    · simp
  rw [Finset.sum_congr rfl h1, ← Finset.mul_sum]
  simp only [Bool.false_eq_true, if_false, add_zero, Nat.sub_self]
  rw [mul_add]
  congr 1
  split
  · rw [← pow_succ']
  · simp

/-- A step of the register is a multiplication by `x`. -/
theorem toPoly_bitStep (c : U4) : generator ∣ X * toPoly c - toPoly (bitStep c) := by
  rw [toPoly_shift, bitStep_eq, toPoly_xor]
  cases h : c.getLsbD 0
  · simp [toPoly_zero]
  · simp only [if_true]
    rw [show toPoly (c >>> 1) + X ^ 32 - (toPoly poly + toPoly (c >>> 1)) =
      (toPoly poly + X ^ 32) - (toPoly poly + toPoly poly) by ring]
    rw [two_mul_poly, toPoly_poly, sub_zero]

theorem toPoly_iter (n : Nat) (c : U4) :
    generator ∣ X ^ n * toPoly c - toPoly (iter n bitStep c) := by
  induction n generalizing c with
  | zero => simp [iter]
  | succ n ih =>
    rw [iter]
    have h1 := ih (bitStep c)
    have h2 := (toPoly_bitStep c).mul_left (X ^ n)
    have h3 := dvd_add h1 h2
    rw [show X ^ n * toPoly (bitStep c) - toPoly (iter n bitStep (bitStep c)) +
      X ^ n * (X * toPoly c - toPoly (bitStep c)) =
      X ^ (n + 1) * toPoly c - toPoly (iter n bitStep (bitStep c)) by ring] at h3
    exact h3

theorem polyOf_append (a b : List Bool) : polyOf (a ++ b) = polyOf a * X ^ b.length + polyOf b := by
  induction a with
  | nil => simp [polyOf]
  | cons x a ih =>
    rw [List.cons_append, polyOf, polyOf, ih, List.length_append]
    split
    · rw [pow_add]; ring
    · ring

theorem word_bit (b : Byte) (i : Nat) (hi : i < 32) : (word b).getLsbD i = b.toNat.testBit i := by
  unfold word
  rw [BitVec.getLsbD_ofNat]
  simp [hi]

theorem toPoly_word (b : Byte) : toPoly (word b) = polyOf (bitsOf [b]) * X ^ 24 := by
  unfold toPoly
  simp only [Finset.sum_range_succ, Finset.sum_range_zero]
  simp only [Nat.reduceSub]
  simp only [word_getLsbD b 31 (by omega), word_getLsbD b 30 (by omega), word_getLsbD b 29 (by omega),
    word_getLsbD b 28 (by omega), word_getLsbD b 27 (by omega), word_getLsbD b 26 (by omega),
    word_getLsbD b 25 (by omega), word_getLsbD b 24 (by omega), word_getLsbD b 23 (by omega),
    word_getLsbD b 22 (by omega), word_getLsbD b 21 (by omega), word_getLsbD b 20 (by omega),
    word_getLsbD b 19 (by omega), word_getLsbD b 18 (by omega), word_getLsbD b 17 (by omega),
    word_getLsbD b 16 (by omega), word_getLsbD b 15 (by omega), word_getLsbD b 14 (by omega),
    word_getLsbD b 13 (by omega), word_getLsbD b 12 (by omega), word_getLsbD b 11 (by omega),
    word_getLsbD b 10 (by omega), word_getLsbD b 9 (by omega), word_getLsbD b 8 (by omega)]
  simp only [Bool.false_eq_true, if_false, zero_add]
  simp only [bitsOf, List.flatMap_cons, List.flatMap_nil, List.append_nil]
  simp only [show List.range 8 = [0, 1, 2, 3, 4, 5, 6, 7] from rfl, List.map_cons, List.map_nil, polyOf,
    List.length_cons, List.length_nil]
  simp only [word_bit b _ (show 7 < 32 by omega), word_bit b _ (show 6 < 32 by omega),
    word_bit b _ (show 5 < 32 by omega), word_bit b _ (show 4 < 32 by omega),
    word_bit b _ (show 3 < 32 by omega), word_bit b _ (show 2 < 32 by omega),
    word_bit b _ (show 1 < 32 by omega), word_bit b _ (show 0 < 32 by omega)]
  have hX : ∀ (p : Bool) (n m k : Nat), n + k = m →
      (if p = true then (X : (ZMod 2)[X]) ^ m else 0) = (if p = true then X ^ n else 0) * X ^ k := by
    intro p n m k h
    cases p
    · simp
    · simp [← h, pow_add]
  rw [hX (b.toNat.testBit 7) 0 24 24 rfl, hX (b.toNat.testBit 6) 1 25 24 rfl,
    hX (b.toNat.testBit 5) 2 26 24 rfl, hX (b.toNat.testBit 4) 3 27 24 rfl,
    hX (b.toNat.testBit 3) 4 28 24 rfl, hX (b.toNat.testBit 2) 5 29 24 rfl,
    hX (b.toNat.testBit 1) 6 30 24 rfl, hX (b.toNat.testBit 0) 7 31 24 rfl]
  simp only [Nat.reduceAdd, zero_add, add_zero]
  ring

theorem bitsOf_length (s : Str) : (bitsOf s).length = 8 * s.length := by
  induction s with
  | nil => rfl
  | cons b s ih =>
    have : bitsOf (b :: s) = bitsOf [b] ++ bitsOf s := by simp [bitsOf]
    rw [this, List.length_append, ih]
    simp [bitsOf]
    omega

theorem bitsOf_append (s t : Str) : bitsOf (s ++ t) = bitsOf s ++ bitsOf t := by
  simp [bitsOf]

/-- A byte. -/
theorem toPoly_do1 (c : U4) (b : Byte) :
    generator ∣ (X ^ 8 * toPoly c + polyOf (bitsOf [b]) * X ^ 32) - toPoly (do1 c b) := by
  rw [do1_eq]
  have h := toPoly_iter 8 (c ^^^ word b)
  rw [toPoly_xor, toPoly_word] at h
  rw [show X ^ 8 * (toPoly c + polyOf (bitsOf [b]) * X ^ 24) =
    X ^ 8 * toPoly c + polyOf (bitsOf [b]) * X ^ 32 by ring] at h
  exact h

/-- The bytes of a buffer. -/
theorem toPoly_fold (c : U4) (s : Str) :
    generator ∣ (X ^ (8 * s.length) * toPoly c + polyOf (bitsOf s) * X ^ 32) -
      toPoly (s.foldl do1 c) := by
  induction s generalizing c with
  | nil => simp [bitsOf, polyOf]
  | cons b s ih =>
    have h1 := ih (do1 c b)
    have h2 := (toPoly_do1 c b).mul_left (X ^ (8 * s.length))
    have h3 := dvd_add h1 h2
    have hb : bitsOf (b :: s) = bitsOf [b] ++ bitsOf s := by simp [bitsOf]
    rw [List.foldl_cons, hb, polyOf_append, bitsOf_length]
    rw [show X ^ (8 * s.length) * toPoly (do1 c b) + polyOf (bitsOf s) * X ^ 32 -
        toPoly (List.foldl do1 (do1 c b) s) +
      X ^ (8 * s.length) * (X ^ 8 * toPoly c + polyOf (bitsOf [b]) * X ^ 32 - toPoly (do1 c b)) =
      X ^ (8 * (s.length + 1)) * toPoly c +
        (polyOf (bitsOf [b]) * X ^ (8 * s.length) + polyOf (bitsOf s)) * X ^ 32 -
        toPoly (List.foldl do1 (do1 c b) s) by ring] at h3
    exact h3

theorem generator_degree : generator.degree = 32 := by
  unfold generator
  compute_degree!

theorem generator_monic : generator.Monic := by
  unfold generator
  monicity!

/-- What is congruent to a polynomial of low degree has it as its remainder. -/
theorem rem_eq (p r : (ZMod 2)[X]) (hr : r.degree < 32) (h : generator ∣ p - r) :
    r = p %ₘ generator := by
  have h1 : (p - r) %ₘ generator = 0 := (Polynomial.modByMonic_eq_zero_iff_dvd generator_monic).mpr h
  rw [Polynomial.sub_modByMonic] at h1
  have h2 : r %ₘ generator = r :=
    (Polynomial.modByMonic_eq_self_iff generator_monic).mpr (by rw [generator_degree]; exact hr)
  rw [h2] at h1
  exact (sub_eq_zero.mp h1).symm

/-- A remainder is congruent. -/
theorem rem_dvd (p r : (ZMod 2)[X]) (h : r = p %ₘ generator) : generator ∣ p - r := by
  rw [h, ← Polynomial.modByMonic_eq_zero_iff_dvd generator_monic, Polynomial.sub_modByMonic,
    sub_eq_zero]
  exact ((Polynomial.modByMonic_eq_self_iff generator_monic).mpr
    (Polynomial.degree_modByMonic_lt _ generator_monic)).symm

end Verif.Zlib
