import Verif.Md5.Spec
import Mathlib.Tactic.NormNum
import Mathlib.Tactic.Linarith
import Mathlib.Tactic.Ring
import Mathlib.Analysis.Complex.Exponential
import Mathlib.Analysis.Complex.Norm
import Mathlib.Analysis.Complex.Basic

/-!
The constants of MD5 are the integer parts of 2³² |sin i|: multiples of an angle by rational
approximations of powers of `exp I` with a bound for the error.
-/
set_option linter.unusedVariables false
set_option linter.unusedSimpArgs false

namespace Verif.Md5.Table
open Complex

/-- The scale of the approximations. -/
def scale : Int := 10 ^ 24

/-- Scaled approximations of cos 1 and sin 1. -/
def c1 : Int := 540302305868139717400936
def s1 : Int := 841470984807896506652502

/-- Scaled approximations of cos n and sin n. -/
def approx : Nat → Int × Int
  | 0 => (scale, 0)
  | n + 1 =>
    let p := approx n
    ((p.1 * c1 - p.2 * s1) / scale, (p.2 * c1 + p.1 * s1) / scale)

/-- The complex number of a scaled pair. -/
noncomputable def toC (p : Int × Int) : ℂ := ((p.1 : ℝ) / (10 ^ 24 : ℝ) : ℝ) + ((p.2 : ℝ) / (10 ^ 24 : ℝ) : ℝ) * I

theorem norm_le (a b : ℝ) : ‖(a : ℂ) + (b : ℂ) * I‖ ≤ |a| + |b| := by
  refine (norm_add_le _ _).trans ?_
  simp

theorem one_approx : ‖exp I - toC (c1, s1)‖ ≤ 1 / 10 ^ 18 := by
  have h := exp_bound (x := I) (by simp) (n := 20) (by norm_num)
  have hs : (∑ m ∈ Finset.range 20, I ^ m / (m.factorial : ℂ)) - toC (c1, s1) =
      ((((∑ m ∈ Finset.range 10, (-1) ^ m / ((2 * m).factorial : ℝ)) - c1 / 10 ^ 24 : ℝ)) : ℂ) +
      ((((∑ m ∈ Finset.range 10, (-1) ^ m / ((2 * m + 1).factorial : ℝ)) - s1 / 10 ^ 24 : ℝ)) : ℂ) * I := by
    unfold toC
    have hpair : ∀ n : Nat, (∑ m ∈ Finset.range (2 * n), I ^ m / (m.factorial : ℂ)) =
        (∑ m ∈ Finset.range n, (-1) ^ m / ((2 * m).factorial : ℂ)) + (∑ m ∈ Finset.range n, (-1) ^ m / ((2 * m + 1).factorial : ℂ)) * I := by
      intro n
      induction n with
      | zero => simp
      | succ n ih =>
        rw [show 2 * (n + 1) = 2 * n + 1 + 1 from rfl, Finset.sum_range_succ, Finset.sum_range_succ, ih, Finset.sum_range_succ, Finset.sum_range_succ,
          pow_succ, pow_mul, I_sq]
        ring
    rw [show (20 : Nat) = 2 * 10 from rfl, hpair 10]
    push_cast
    ring
  have h1 : ‖(∑ m ∈ Finset.range 20, I ^ m / (m.factorial : ℂ)) - toC (c1, s1)‖ ≤ 45 / 10 ^ 20 := by
    rw [hs]
    refine (norm_le _ _).trans ?_
    simp only [Finset.sum_range_succ, Finset.sum_range_zero, c1, s1]
    norm_num [Nat.factorial, abs_le]
  have h2 : ‖exp I - ∑ m ∈ Finset.range 20, I ^ m / (m.factorial : ℂ)‖ ≤ 5 / 10 ^ 19 := by
    refine h.trans ?_
    simp only [norm_I, one_pow, one_mul]
    norm_num [Nat.factorial]
  have h3 : exp I - toC (c1, s1) = (exp I - ∑ m ∈ Finset.range 20, I ^ m / (m.factorial : ℂ)) + ((∑ m ∈ Finset.range 20, I ^ m / (m.factorial : ℂ)) - toC (c1, s1)) := by
    ring
  rw [h3]
  refine (norm_add_le _ _).trans ?_
  linarith

/-- Rounding. -/
theorem div_close (x : Int) : |(x : ℝ) / (10 ^ 24 : ℝ) - ((x / scale : Int) : ℝ)| ≤ 1 := by
  have h1 : (x / scale) * scale ≤ x := Int.ediv_mul_le _ (by decide)
  have h2 : x < (x / scale + 1) * scale := Int.lt_ediv_add_one_mul_self _ (by decide)
  have h1' : ((x / scale : Int) : ℝ) * 10 ^ 24 ≤ x := by exact_mod_cast h1
  have h2' : (x : ℝ) < (((x / scale : Int) : ℝ) + 1) * 10 ^ 24 := by exact_mod_cast h2
  rw [abs_le]
  constructor
  · have : ((x / scale : Int) : ℝ) ≤ x / 10 ^ 24 := by rw [le_div_iff₀ (by norm_num)]; exact h1'
    linarith
  · have : (x : ℝ) / 10 ^ 24 < ((x / scale : Int) : ℝ) + 1 := by rw [div_lt_iff₀ (by norm_num)]; exact h2'
    linarith

theorem next_approx (p : Int × Int) :
    ‖toC p * toC (c1, s1) - toC ((p.1 * c1 - p.2 * s1) / scale, (p.2 * c1 + p.1 * s1) / scale)‖ ≤ 2 / 10 ^ 24 := by
  have h1 := div_close (p.1 * c1 - p.2 * s1)
  have h2 := div_close (p.2 * c1 + p.1 * s1)
  have e : toC p * toC (c1, s1) - toC ((p.1 * c1 - p.2 * s1) / scale, (p.2 * c1 + p.1 * s1) / scale) =
      (((((p.1 * c1 - p.2 * s1 : Int) : ℝ) / 10 ^ 24 - (((p.1 * c1 - p.2 * s1) / scale : Int) : ℝ)) / 10 ^ 24 : ℝ) : ℂ) +
      (((((p.2 * c1 + p.1 * s1 : Int) : ℝ) / 10 ^ 24 - (((p.2 * c1 + p.1 * s1) / scale : Int) : ℝ)) / 10 ^ 24 : ℝ) : ℂ) * I := by
    unfold toC
    push_cast
    have hI : I * I = -1 := I_mul_I
    ring_nf
    rw [I_sq]
    ring
  rw [e]
  refine (norm_le _ _).trans ?_
  rw [abs_div, abs_div, abs_of_pos (show (0 : ℝ) < 10 ^ 24 by norm_num)]
  have g1 := div_le_div_of_nonneg_right h1 (show (0 : ℝ) ≤ 10 ^ 24 by norm_num)
  have g2 := div_le_div_of_nonneg_right h2 (show (0 : ℝ) ≤ 10 ^ 24 by norm_num)
  linarith

theorem norm_exp_I : ‖exp I‖ = 1 := by
  have := norm_exp_ofReal_mul_I 1
  simpa using this

/-- The error grows with the multiple. -/
theorem approx_error (n : Nat) (hn : n ≤ 1000) : ‖exp I ^ n - toC (approx n)‖ ≤ n * (3 / 10 ^ 18) := by
  induction n with
  | zero => norm_num [approx, toC, scale]
  | succ n ih =>
    have ih := ih (by omega)
    have hone := one_approx
    have hnext := next_approx (approx n)
    have hn' : (n : ℝ) ≤ 1000 := by exact_mod_cast (by omega : n ≤ 1000)
    have hsize : ‖toC (approx n)‖ ≤ 2 := by
      have : toC (approx n) = exp I ^ n - (exp I ^ n - toC (approx n)) := by ring
      rw [this]
      refine (norm_sub_le _ _).trans ?_
      rw [norm_pow, norm_exp_I, one_pow]
      have : (n : ℝ) * (3 / 10 ^ 18) ≤ 1 := by nlinarith
      linarith
    have e : exp I ^ (n + 1) - toC (approx (n + 1)) = (exp I ^ n - toC (approx n)) * exp I + toC (approx n) * (exp I - toC (c1, s1)) +
        (toC (approx n) * toC (c1, s1) - toC (approx (n + 1))) := by rw [pow_succ]; ring
    rw [e]
    refine (norm_add_le _ _).trans ?_
    refine (add_le_add_left (norm_add_le _ _) _).trans ?_
    rw [norm_mul, norm_mul, norm_exp_I, mul_one]
    have g1 : ‖toC (approx n)‖ * ‖exp I - toC (c1, s1)‖ ≤ 2 * (1 / 10 ^ 18) := mul_le_mul hsize hone (norm_nonneg _) (by norm_num)
    have g2 : ‖toC (approx n) * toC (c1, s1) - toC (approx (n + 1))‖ ≤ 2 / 10 ^ 24 := hnext
    push_cast
    have : (2 : ℝ) * (1 / 10 ^ 18) + 2 / 10 ^ 24 ≤ 3 / 10 ^ 18 := by norm_num
    linarith

theorem sin_error (n : Nat) (hn : n ≤ 1000) : |Real.sin n - ((approx n).2 : ℝ) / 10 ^ 24| ≤ 3 / 10 ^ 15 := by
  have h := approx_error n hn
  have him : (exp I ^ n - toC (approx n)).im = Real.sin n - ((approx n).2 : ℝ) / 10 ^ 24 := by
    rw [← exp_nat_mul]
    simp only [sub_im, toC, add_im, mul_im, ofReal_im, ofReal_re, I_re, I_im]
    have : (n : ℂ) * I = ((n : ℝ) : ℂ) * I := by norm_cast
    rw [this, exp_ofReal_mul_I_im]
    ring
  rw [← him]
  refine (abs_im_le_norm _).trans (h.trans ?_)
  have hn' : (n : ℝ) ≤ 1000 := by exact_mod_cast hn
  nlinarith

/-- Whether the integer part of 2³² |sin n| can be read off the approximation, and is `k`. -/
def check (n k : Nat) : Bool :=
  decide ((k : Int) * scale + 13 * 10 ^ 18 ≤ 2 ^ 32 * |(approx n).2| ∧ 2 ^ 32 * |(approx n).2| + 13 * 10 ^ 18 < (k + 1) * scale)

theorem check_ok {n k : Nat} (hn : n ≤ 1000) (h : check n k = true) : ⌊(2 : ℝ) ^ 32 * |Real.sin n|⌋₊ = k := by
  simp only [check, decide_eq_true_eq] at h
  obtain ⟨h1, h2⟩ := h
  have he := sin_error n hn
  have h1' : (k : ℝ) * 10 ^ 24 + 13 * 10 ^ 18 ≤ 2 ^ 32 * |((approx n).2 : ℝ)| := by exact_mod_cast h1
  have h2' : 2 ^ 32 * |((approx n).2 : ℝ)| + 13 * 10 ^ 18 < (k + 1) * (10 : ℝ) ^ 24 := by exact_mod_cast h2
  have hd : |(|Real.sin n| - |((approx n).2 : ℝ) / 10 ^ 24|)| ≤ 3 / 10 ^ 15 := (abs_abs_sub_abs_le _ _).trans he
  rw [abs_div, abs_of_pos (show (0 : ℝ) < 10 ^ 24 by norm_num)] at hd
  rw [abs_le] at hd
  rw [Nat.floor_eq_iff (by positivity)]
  have hx : (10 : ℝ) ^ 24 * (|((approx n).2 : ℝ)| / 10 ^ 24) = |((approx n).2 : ℝ)| := by field_simp
  constructor
  · nlinarith
  · nlinarith

/-- The constants of section 3.4. -/
def table : List Nat :=
  [0xd76aa478, 0xe8c7b756, 0x242070db, 0xc1bdceee, 0xf57c0faf, 0x4787c62a, 0xa8304613, 0xfd469501,
   0x698098d8, 0x8b44f7af, 0xffff5bb1, 0x895cd7be, 0x6b901122, 0xfd987193, 0xa679438e, 0x49b40821,
   0xf61e2562, 0xc040b340, 0x265e5a51, 0xe9b6c7aa, 0xd62f105d, 0x2441453, 0xd8a1e681, 0xe7d3fbc8,
   0x21e1cde6, 0xc33707d6, 0xf4d50d87, 0x455a14ed, 0xa9e3e905, 0xfcefa3f8, 0x676f02d9, 0x8d2a4c8a,
   0xfffa3942, 0x8771f681, 0x6d9d6122, 0xfde5380c, 0xa4beea44, 0x4bdecfa9, 0xf6bb4b60, 0xbebfbc70,
   0x289b7ec6, 0xeaa127fa, 0xd4ef3085, 0x4881d05, 0xd9d4d039, 0xe6db99e5, 0x1fa27cf8, 0xc4ac5665,
   0xf4292244, 0x432aff97, 0xab9423a7, 0xfc93a039, 0x655b59c3, 0x8f0ccc92, 0xffeff47d, 0x85845dd1,
   0x6fa87e4f, 0xfe2ce6e0, 0xa3014314, 0x4e0811a1, 0xf7537e82, 0xbd3af235, 0x2ad7d2bb, 0xeb86d391]

theorem table_ok : (List.range 64).all (fun i => check (i + 1) (table.getD i 0)) = true := by decide +kernel

theorem T_eq {i : Nat} (hi : i < 64) : Spec.T (i + 1) = BitVec.ofNat 32 (table.getD i 0) := by
  have h := table_ok
  rw [List.all_eq_true] at h
  unfold Spec.T
  rw [check_ok (by omega) (h i (by simp [hi]))]

end Verif.Md5.Table
