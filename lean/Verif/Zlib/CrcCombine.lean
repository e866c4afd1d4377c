import Verif.Zlib.CrcLemmas

/-! The matrices of `crc32_combine`. -/

namespace Verif.Zlib

/-- The matrix of an operator on words. -/
def matOf (f : U4 → U4) : List Nat := (List.range 32).map fun i => (f (1#32 <<< i)).toNat

theorem split_bit (v : U4) (j : Nat) (hj : j < 32) :
    (v >>> j) <<< j = (if v.getLsbD j then 1#32 <<< j else 0#32) ^^^ (v >>> (j + 1)) <<< (j + 1) := by
  apply BitVec.eq_of_getLsbD_eq
  intro i hi
  have h1 : (if v.getLsbD j = true then 1#32 <<< j else 0#32).getLsbD i =
      (decide (i = j) && v.getLsbD j) := by
    cases v.getLsbD j
    · simp
    · simp only [if_true, BitVec.getLsbD_shiftLeft, hi, decide_true, Bool.true_and, Bool.and_true]
      by_cases h : i < j
      · simp [h, show i ≠ j by omega]
      · by_cases h2 : i = j
        · simp [h2]
        · simp [h, h2, show i - j ≠ 0 by omega]
  rw [BitVec.getLsbD_xor, h1]
  simp only [BitVec.getLsbD_shiftLeft, BitVec.getLsbD_ushiftRight, hi, decide_true, Bool.true_and]
  by_cases h : i < j
  · simp [h, show i < j + 1 by omega, show i ≠ j by omega]
  · by_cases h2 : i = j
    · simp [h2]
    · simp [h, h2, show ¬ i < j + 1 by omega, show j + (i - j) = i by omega,
        show j + 1 + (i - (j + 1)) = i by omega]

theorem drop_matOf (f : U4 → U4) (j : Nat) (hj : j < 32) :
    (matOf f).drop j = (f (1#32 <<< j)).toNat :: (matOf f).drop (j + 1) := by
  rw [List.drop_eq_getElem_cons (by simpa [matOf] using hj)]
  simp [matOf]

theorem linear_zero (f : U4 → U4) (hf : ∀ a b, f (a ^^^ b) = f a ^^^ f b) : f 0#32 = 0#32 := by
  have := hf 0#32 0#32
  simpa using this

theorem gf2Loop_eq (f : U4 → U4) (hf : ∀ a b, f (a ^^^ b) = f a ^^^ f b) (v : U4) (k : Nat)
    (hk : k ≤ 32) (sum : U4) :
    gf2Loop sum.toNat (v.toNat >>> (32 - k)) ((matOf f).drop (32 - k)) =
      some (sum ^^^ f ((v >>> (32 - k)) <<< (32 - k))).toNat := by
  induction k generalizing sum with
  | zero =>
    have h1 : v.toNat >>> 32 = 0 := by
      rw [Nat.shiftRight_eq_div_pow]; exact Nat.div_eq_of_lt v.isLt
    have h2 : (matOf f).drop 32 = [] := by simp [matOf]
    have h3 : (v >>> 32) <<< 32 = 0#32 := by
      apply BitVec.eq_of_getLsbD_eq
      intro i hi
      simp [hi]
    rw [show 32 - 0 = 32 from rfl, h1, h2, h3, linear_zero f hf]
    simp [gf2Loop]
  | succ k ih =>
    have ih := ih (by omega)
    obtain ⟨j, hj⟩ : ∃ j, j = 32 - (k + 1) := ⟨_, rfl⟩
    rw [show 32 - k = j + 1 by omega] at ih
    rw [← hj, drop_matOf f j (by omega), gf2Loop]
    have hv : (v >>> j).toNat = v.toNat >>> j := BitVec.toNat_ushiftRight v j
    by_cases h0 : v.toNat >>> j = 0
    · rw [if_pos h0]
      have : v >>> j = 0#32 := by
        apply BitVec.eq_of_toNat_eq; rw [hv, h0]; rfl
      rw [this, show (0#32 <<< j) = 0#32 by simp, linear_zero f hf]
      simp
    · rw [if_neg h0]
      have hbit : (v.toNat >>> j &&& 1 = 1) ↔ v.getLsbD j = true := by
        rw [Nat.and_one_is_mod, BitVec.getLsbD, Nat.testBit, Nat.and_comm, Nat.and_one_is_mod]
        simp
      have hsh : v.toNat >>> j >>> 1 = v.toNat >>> (j + 1) := (Nat.shiftRight_add _ _ _).symm
      rw [hsh, split_bit v j (by omega), hf]
      by_cases hb : v.getLsbD j = true
      · rw [if_pos (hbit.mpr hb), if_pos hb, ← BitVec.toNat_xor, ih, BitVec.xor_assoc]
      · rw [if_neg (fun h => hb (hbit.mp h)), if_neg hb, linear_zero f hf, ih]
        simp

/-- A matrix times a vector. -/
theorem gf2Times_eq (f : U4 → U4) (hf : ∀ a b, f (a ^^^ b) = f a ^^^ f b) (v : U4) :
    gf2Times (matOf f) v.toNat = some (f v).toNat := by
  have h := gf2Loop_eq f hf v 32 (by omega) 0#32
  simpa [gf2Times] using h

theorem mapM_some {α β : Type} (f : α → Option β) (g : α → β) (l : List α)
    (h : ∀ x ∈ l, f x = some (g x)) : l.mapM f = some (l.map g) := by
  induction l with
  | nil => rfl
  | cons x l ih =>
    rw [List.mapM_cons, h x (by simp), ih (fun y hy => h y (by simp [hy]))]
    rfl

theorem gf2Square_eq (f : U4 → U4) (hf : ∀ a b, f (a ^^^ b) = f a ^^^ f b) :
    gf2Square (matOf f) = some (matOf fun c => f (f c)) := by
  unfold gf2Square
  have h : ∀ x ∈ matOf f, gf2Times (matOf f) x = some ((f (BitVec.ofNat 32 x)).toNat) := by
    intro x hx
    obtain ⟨i, _, rfl⟩ := List.mem_map.mp hx
    rw [gf2Times_eq f hf]
    simp
  rw [mapM_some _ (fun x => (f (BitVec.ofNat 32 x)).toNat) _ h]
  unfold matOf
  rw [List.map_map]
  congr 1
  refine List.map_congr_left fun i _ => ?_
  simp

theorem oneBit_eq : oneBit = matOf bitStep := by decide +kernel

theorem matOf_congr (f g : U4 → U4) (h : ∀ c, f c = g c) : matOf f = matOf g := by
  rw [show f = g from funext h]

theorem square_iter (m : Nat) :
    gf2Square (matOf (iter m bitStep)) = some (matOf (iter (2 * m) bitStep)) := by
  rw [gf2Square_eq _ (iter_xor bitStep bitStep_xor m)]
  congr 1
  apply matOf_congr
  intro c
  rw [Nat.two_mul, iter_add]

theorem start_eq : (gf2Square oneBit).bind gf2Square = some (matOf (iter 4 bitStep)) := by
  rw [oneBit_eq]
  have h1 : matOf bitStep = matOf (iter 1 bitStep) := matOf_congr _ _ (fun _ => rfl)
  rw [h1, square_iter 1, Option.bind_some]
  exact square_iter 2

theorem combineLoop_eq (fuel m : Nat) (c : U4) (len : Nat) (h0 : 0 < len) (hf : len < 2 ^ fuel) :
    combineLoop fuel (matOf (iter m bitStep)) c.toNat (len : Int) =
      some (some (iter (2 * m * len) bitStep c).toNat) := by
  induction fuel generalizing m c len with
  | zero => simp at hf; omega
  | succ fuel ih =>
    rw [combineLoop, square_iter m]
    simp only
    have hc : (if (len : Int) % 2 = 1 then gf2Times (matOf (iter (2 * m) bitStep)) c.toNat
        else some c.toNat) = some (iter (2 * m * (len % 2)) bitStep c).toNat := by
      by_cases h : len % 2 = 1
      · rw [if_pos (by omega), gf2Times_eq _ (iter_xor bitStep bitStep_xor _), h, Nat.mul_one]
      · rw [if_neg (by omega), show len % 2 = 0 by omega]
        rfl
    rw [hc]
    simp only
    by_cases h2 : len / 2 = 0
    · rw [if_pos (by omega)]
      have : len = 1 := by omega
      subst this
      rfl
    · rw [if_neg (by omega), show ((len : Int) / 2) = ((len / 2 : Nat) : Int) by omega]
      rw [ih (2 * m) _ (len / 2) (by omega) (by rw [Nat.pow_succ] at hf; omega)]
      rw [← iter_add]
      congr 4
      have : len = 2 * (len / 2) + len % 2 := by omega
      conv_rhs => rw [this]
      rw [Nat.mul_add, Nat.add_comm]
      congr 1
      rw [← Nat.mul_assoc (2 * m), Nat.mul_comm (2 * m) 2, ← Nat.mul_assoc]

theorem combineLoop_negative (fuel m : Nat) (c : U4) (len : Int) (h0 : len < 0) :
    combineLoop fuel (matOf (iter m bitStep)) c.toNat len = none := by
  induction fuel generalizing m c len with
  | zero => rfl
  | succ fuel ih =>
    rw [combineLoop, square_iter m]
    simp only
    obtain ⟨d, hd⟩ : ∃ d : U4, (if len % 2 = 1 then gf2Times (matOf (iter (2 * m) bitStep)) c.toNat
        else some c.toNat) = some d.toNat := by
      split
      · exact ⟨_, gf2Times_eq _ (iter_xor bitStep bitStep_xor _) c⟩
      · exact ⟨c, rfl⟩
    rw [hd]
    simp only
    rw [if_neg (by omega)]
    exact ih (2 * m) d (len / 2) (by omega)

/-- What `crc32_combine` computes. -/
theorem crc32Combine_eq (fuel : Nat) (c d : U4) (len : Nat) (hf : len < 2 ^ fuel) :
    crc32Combine fuel c.toNat d.toNat (len : Int) =
      some (some (if len = 0 then c else iter len byteStep c ^^^ d).toNat) := by
  unfold crc32Combine
  by_cases h : len = 0
  · rw [if_pos (by omega), if_pos h]
  · rw [if_neg (by omega), if_neg h, start_eq]
    simp only
    rw [combineLoop_eq fuel 4 c len (by omega) hf]
    simp only [Option.map_some, BitVec.toNat_xor]
    rw [show 2 * 4 * len = len * 8 by omega, iter_mul]
    rfl

theorem fold_linear (c d : U4) (s : Str) :
    s.foldl do1 (c ^^^ d) = iter s.length byteStep c ^^^ s.foldl do1 d := by
  induction s generalizing c d with
  | nil => rfl
  | cons b s ih =>
    rw [List.foldl_cons, List.foldl_cons, List.length_cons, iter]
    rw [← ih, do1_eq, do1_eq, BitVec.xor_assoc, byteStep_xor c]

end Verif.Zlib
