import Verif.Zlib.CrcPoly
import Verif.Zlib.CrcCombine
import Verif.Zlib.CrcData
import Mathlib.RingTheory.Coprime.Lemmas

/-!
# What the CRC-32 of zlib and of 7z is

`IsCrc s c` (`CrcSpec.lean`) says that `c` is the CRC-32 of the message `s`, by a division of
polynomials.
-/

namespace Verif.Zlib

open Polynomial

/-! ## C186: the tables -/

/-- The tables that are made are those of `crc32.h`. -/
theorem C186_stored : (List.range 8).map (fun k => (crcTable k).map BitVec.toNat) = stored := by
  decide +kernel

/-- The entries are remainders: those of a byte that is followed by zero, one, two or three
bytes of zeros. -/
theorem C186_remainder (k : Nat) (hk : k < 4) (b : Byte) :
    toPoly ((crcTable k).getD b.toNat 0#32) =
      (polyOf (bitsOf [b]) * X ^ (32 + 8 * k)) %ₘ generator := by
  have hb : b.toNat < 256 := b.toNat_lt
  rw [show (crcTable k).getD b.toNat 0#32 = iter (k + 1) byteStep (BitVec.ofNat 32 b.toNat) from
    crcTable_low k hk b.toNat hb]
  rw [show iter (k + 1) byteStep (BitVec.ofNat 32 b.toNat) = iter ((k + 1) * 8) bitStep (word b) by
    rw [iter_mul]; rfl]
  apply rem_eq _ _ (toPoly_degree _)
  have h := toPoly_iter ((k + 1) * 8) (word b)
  rw [toPoly_word] at h
  rw [show X ^ ((k + 1) * 8) * (polyOf (bitsOf [b]) * X ^ 24) =
    polyOf (bitsOf [b]) * X ^ (32 + 8 * k) by ring] at h
  exact h

example : (crcTable 0).getD 1 0#32 = 0x77073096#32 := by decide +kernel

/-- The table of 7z is the first of them. -/
theorem C186_seven : sevenTable = crcTable 0 := by decide +kernel

/-! ## C187: the CRC -/

theorem isCrc_fold (s : Str) : IsCrc s (~~~ (s.foldl do1 (~~~ 0#32))) := by
  unfold IsCrc
  rw [BitVec.not_not]
  apply rem_eq _ _ (toPoly_degree _)
  have h := toPoly_fold (~~~ 0#32) s
  rw [toPoly_ones] at h
  rw [show X ^ (8 * s.length) * allOnes + polyOf (bitsOf s) * X ^ 32 =
    polyOf (bitsOf s) * X ^ 32 + allOnes * X ^ (8 * s.length) by ring] at h
  exact h

/-- A message has one CRC. -/
theorem C187_unique (s : Str) (c d : BitVec 32) (hc : IsCrc s c) (hd : IsCrc s d) : c = d := by
  have h := toPoly_inj _ _ (hc.trans hd.symm)
  have := congrArg (fun x => ~~~ x) h
  simpa using this

/-- `crc32` gives the CRC, on all machines and for buffers at all addresses. -/
theorem C187_crc (m : Machine) (addr : Nat) (s : Str) : IsCrc s (crc32 m 0#32 (some (addr, s))) := by
  rw [crc32_bytes]
  exact isCrc_fold s

/-- The check value of the CRC-32: that of the digits from 1 to 9. -/
example : crc32 .plain 0#32 (some (1, [0x31, 0x32, 0x33, 0x34, 0x35, 0x36, 0x37, 0x38, 0x39])) =
    0xcbf43926#32 := by decide +kernel

example : crc32 .big 0#32 (some (1, [0x31, 0x32, 0x33, 0x34, 0x35, 0x36, 0x37, 0x38, 0x39])) =
    0xcbf43926#32 := by decide +kernel

example : crc32 .little 0#32 (some (3, [0x31, 0x32, 0x33, 0x34, 0x35, 0x36, 0x37, 0x38, 0x39])) =
    0xcbf43926#32 := by decide +kernel

/-- No buffer: the CRC of the empty message, whatever the initial value. -/
theorem C187_null (m : Machine) (crc : U4) : IsCrc [] (crc32 m crc none) := by
  have h := C187_crc .plain 0 []
  rwa [show crc32 .plain 0#32 (some (0, [])) = 0#32 by decide] at h

theorem sevenByte_eq : sevenByte = do1 := by
  funext c b
  unfold sevenByte do1
  rw [C186_seven]

/-- The CRC of 7z is the same one. -/
theorem C187_seven (s : Str) : IsCrc s (sevenCalc s) := by
  unfold sevenCalc sevenUpdate
  rw [sevenByte_eq, ← not_eq_xor]
  exact isCrc_fold s

example : sevenCalc [0x31, 0x32, 0x33, 0x34, 0x35, 0x36, 0x37, 0x38, 0x39] = 0xcbf43926#32 := by
  decide +kernel

/-! ## C188: messages in parts -/

/-- From the CRC of the first part `crc32` gives that of the whole message. -/
theorem C188_parts (m : Machine) (addr : Nat) (s t : Str) (c : BitVec 32) (hc : IsCrc s c) :
    IsCrc (s ++ t) (crc32 m c (some (addr, t))) := by
  have h := C187_unique s _ _ hc (isCrc_fold s)
  rw [h, crc32_bytes, BitVec.not_not, ← List.foldl_append]
  exact isCrc_fold _

/-- From the CRCs of both parts `crc32_combine` gives that of the whole message. -/
theorem C188_combine (s t : Str) (c d : BitVec 32) (hc : IsCrc s c) (hd : IsCrc t d)
    (fuel : Nat) (hf : t.length < 2 ^ fuel) :
    ∃ e : BitVec 32, crc32Combine fuel c.toNat d.toNat (t.length : Int) = some (some e.toNat) ∧
      IsCrc (s ++ t) e := by
  refine ⟨_, crc32Combine_eq fuel c d t.length hf, ?_⟩
  by_cases h0 : t.length = 0
  · rw [if_pos h0, List.eq_nil_of_length_eq_zero h0, List.append_nil]
    exact hc
  · rw [if_neg h0, C187_unique t _ _ hd (isCrc_fold t), C187_unique s _ _ hc (isCrc_fold s)]
    have h := isCrc_fold (s ++ t)
    rw [List.foldl_append] at h
    generalize hr : s.foldl do1 (~~~ 0#32) = r at h ⊢
    have hx : r = (~~~ r) ^^^ (~~~ 0#32) := by
      rw [not_eq_xor r, show ~~~ 0#32 = 0xffffffff#32 by decide, BitVec.xor_assoc]
      simp
    have h2 := fold_linear (~~~ r) (~~~ 0#32) t
    rw [← hx] at h2
    rw [h2] at h
    have h3 : ∀ a b : U4, ~~~ (a ^^^ b) = a ^^^ ~~~ b := by
      intro a b
      rw [not_eq_xor, not_eq_xor, BitVec.xor_assoc]
    rw [h3] at h
    exact h

example : crc32Combine 4 0xcbf43926 (crc32 .plain 0#32 (some (0, [0x61, 0x62]))).toNat 2 =
    some (some (crc32 .plain 0#32
      (some (0, [0x31, 0x32, 0x33, 0x34, 0x35, 0x36, 0x37, 0x38, 0x39, 0x61, 0x62]))).toNat) := by
  decide +kernel

/-- False: `crc32_combine` always returns.  With a negative length it goes round forever. -/
theorem C188_ends_false :
    ¬ ∀ (c d : BitVec 32) (len : Int), ∃ fuel, (crc32Combine fuel c.toNat d.toNat len).isSome := by
  intro h
  obtain ⟨fuel, hf⟩ := h 0#32 0#32 (-1)
  unfold crc32Combine at hf
  rw [if_neg (by decide), start_eq] at hf
  simp only at hf
  rw [combineLoop_negative fuel 4 0#32 (-1) (by decide)] at hf
  simp at hf

/-- With lengths that are not negative it returns. -/
theorem C188_ends_partial (c d : BitVec 32) (len : Int) (h : 0 ≤ len) :
    ∃ fuel e, crc32Combine fuel c.toNat d.toNat len = some (some e) := by
  obtain ⟨n, rfl⟩ := Int.eq_ofNat_of_zero_le h
  exact ⟨n, _, crc32Combine_eq n c d n Nat.lt_two_pow_self⟩

/-! ## C189: errors that are detected -/

theorem generator_coprime_X : IsCoprime generator (X : (ZMod 2)[X]) := by
  refine ⟨1, -(X ^ 31 + X ^ 25 + X ^ 22 + X ^ 21 + X ^ 15 + X ^ 11 + X ^ 10 + X ^ 9 + X ^ 7 + X ^ 6 +
    X ^ 4 + X ^ 3 + X + 1), ?_⟩
  unfold generator
  ring

theorem polyOf_degree (bs : List Bool) : (polyOf bs).degree < bs.length := by
  induction bs with
  | nil => simp [polyOf]
  | cons b bs ih =>
    rw [polyOf, List.length_cons]
    refine lt_of_le_of_lt (Polynomial.degree_add_le _ _) (max_lt ?_ ?_)
    · split
      · rw [Polynomial.degree_X_pow]
        exact_mod_cast Nat.lt_succ_self _
      · rw [Polynomial.degree_zero]
        exact WithBot.bot_lt_coe _
    · exact lt_trans ih (by exact_mod_cast Nat.lt_succ_self _)

theorem polyOf_inj (a b : List Bool) (hl : a.length = b.length) (h : polyOf a = polyOf b) : a = b := by
  induction a generalizing b with
  | nil =>
    cases b with
    | nil => rfl
    | cons y b => simp at hl
  | cons x a ih =>
    cases b with
    | nil => simp at hl
    | cons y b =>
      have hl' : a.length = b.length := by simpa using hl
      have hx : x = y := by
        have h1 := congrArg (fun p => p.coeff a.length) h
        rw [show (polyOf (x :: a)).coeff a.length =
          (if x then 1 else 0) by
            rw [polyOf, Polynomial.coeff_add,
              Polynomial.coeff_eq_zero_of_degree_lt (polyOf_degree a), add_zero]
            split <;> simp] at h1
        rw [show (polyOf (y :: b)).coeff a.length =
          (if y then 1 else 0) by
            rw [hl', polyOf, Polynomial.coeff_add,
              Polynomial.coeff_eq_zero_of_degree_lt (polyOf_degree b), add_zero]
            split <;> simp] at h1
        revert h1
        cases x <;> cases y <;> simp
      subst hx
      congr 1
      apply ih b hl'
      rw [polyOf, polyOf, hl'] at h
      exact add_left_cancel h

theorem byte_bits (b c : Byte)
    (h : (List.range 8).map (fun i => b.toNat.testBit i) = (List.range 8).map fun i => c.toNat.testBit i) :
    b = c := by
  apply UInt8.toNat_inj.mp
  apply Nat.eq_of_testBit_eq
  intro i
  by_cases hi : i < 8
  · have := (List.map_inj_left.mp h) i (List.mem_range.mpr hi)
    exact this
  · have h1 : b.toNat < 2 ^ i :=
      Nat.lt_of_lt_of_le b.toNat_lt (Nat.pow_le_pow_right (n := 2) (i := 8) (by omega) (by omega))
    have h2 : c.toNat < 2 ^ i :=
      Nat.lt_of_lt_of_le c.toNat_lt (Nat.pow_le_pow_right (n := 2) (i := 8) (by omega) (by omega))
    rw [Nat.testBit_lt_two_pow h1, Nat.testBit_lt_two_pow h2]

theorem bitsOf_inj (s t : Str) (h : bitsOf s = bitsOf t) : s = t := by
  induction s generalizing t with
  | nil =>
    have := congrArg List.length h
    rw [bitsOf_length, bitsOf_length] at this
    exact (List.eq_nil_of_length_eq_zero (by simp only [List.length_nil] at this; omega)).symm
  | cons b s ih =>
    cases t with
    | nil =>
      have := congrArg List.length h
      rw [bitsOf_length, bitsOf_length] at this
      simp at this
    | cons c t =>
      unfold bitsOf at h
      rw [List.flatMap_cons, List.flatMap_cons] at h
      have h2 := List.append_inj h (by simp)
      rw [byte_bits b c h2.1, ih t h2.2]

/-- Two messages of the same length that only differ in 32 successive bits (a burst of errors) do
not have the same CRC. -/
theorem C189_burst (m m' : Machine) (addr addr' : Nat) (s t : Str) (p u v q : List Bool)
    (hs : bitsOf s = p ++ u ++ q) (ht : bitsOf t = p ++ v ++ q) (hl : u.length = v.length)
    (h32 : u.length ≤ 32) (hne : s ≠ t) :
    crc32 m 0#32 (some (addr, s)) ≠ crc32 m' 0#32 (some (addr', t)) := by
  intro heq
  apply hne
  have h1 := C187_crc m addr s
  have h2 := C187_crc m' addr' t
  rw [heq] at h1
  have hlen : s.length = t.length := by
    have e1 := bitsOf_length s
    have e2 := bitsOf_length t
    rw [hs] at e1
    rw [ht] at e2
    simp only [List.length_append] at e1 e2
    omega
  have d1 := rem_dvd _ _ h1
  have d2 := rem_dvd _ _ h2
  have d := dvd_sub d1 d2
  rw [hlen] at d
  rw [show polyOf (bitsOf s) * X ^ 32 + allOnes * X ^ (8 * t.length) -
      toPoly (~~~ crc32 m' 0#32 (some (addr', t))) -
      (polyOf (bitsOf t) * X ^ 32 + allOnes * X ^ (8 * t.length) -
        toPoly (~~~ crc32 m' 0#32 (some (addr', t)))) =
      X ^ 32 * (polyOf (bitsOf s) - polyOf (bitsOf t)) by ring] at d
  rw [hs, ht] at d
  simp only [polyOf_append, List.length_append] at d
  rw [← hl] at d
  rw [show X ^ 32 * ((polyOf p * X ^ u.length + polyOf u) * X ^ q.length + polyOf q -
      ((polyOf p * X ^ u.length + polyOf v) * X ^ q.length + polyOf q)) =
      X ^ (32 + q.length) * (polyOf u - polyOf v) by ring] at d
  have hco : IsCoprime generator ((X : (ZMod 2)[X]) ^ (32 + q.length)) := generator_coprime_X.pow_right
  have d3 := hco.dvd_of_dvd_mul_left d
  have hdeg : (polyOf u - polyOf v).degree < generator.degree := by
    rw [generator_degree]
    refine lt_of_lt_of_le (lt_of_le_of_lt (Polynomial.degree_sub_le _ _)
      (max_lt (polyOf_degree u) (hl ▸ polyOf_degree v))) ?_
    exact_mod_cast h32
  have h0 : polyOf u - polyOf v = 0 := Polynomial.eq_zero_of_dvd_of_degree_lt d3 hdeg
  have huv := polyOf_inj u v hl (sub_eq_zero.mp h0)
  apply bitsOf_inj
  rw [hs, ht, huv]

/-- In particular four successive bytes can be changed in no way that is not noticed. -/
theorem C189_bytes (m m' : Machine) (addr addr' : Nat) (p u v q : Str) (hl : u.length = v.length)
    (h4 : u.length ≤ 4) (hne : u ≠ v) :
    crc32 m 0#32 (some (addr, p ++ u ++ q)) ≠ crc32 m' 0#32 (some (addr', p ++ v ++ q)) := by
  apply C189_burst m m' addr addr' _ _ (bitsOf p) (bitsOf u) (bitsOf v) (bitsOf q)
  · rw [bitsOf_append, bitsOf_append]
  · rw [bitsOf_append, bitsOf_append]
  · rw [bitsOf_length, bitsOf_length, hl]
  · rw [bitsOf_length]; omega
  · intro h
    have h1 := List.append_cancel_right h
    exact hne (List.append_cancel_left h1)

example : bitsOf [1, 3, 0] = [true, false, false, false, false, false, false] ++ [false] ++
      [true, true, false, false, false, false, false, false,
        false, false, false, false, false, false, false, false] ∧
    bitsOf [129, 3, 0] = [true, false, false, false, false, false, false] ++ [true] ++
      [true, true, false, false, false, false, false, false,
        false, false, false, false, false, false, false, false] := by decide +kernel

end Verif.Zlib
