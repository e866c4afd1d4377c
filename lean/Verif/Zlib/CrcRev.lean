import Verif.Zlib.CrcLemmas

/-! Words with the bytes in the other order (crc32.c, `REV`). -/

namespace Verif.Zlib

theorem getLsbD_ff00 (i : Nat) (hi : i < 32) :
    (0xff00#32).getLsbD i = (decide (8 ≤ i) && decide (i < 16)) := by
  revert i; decide

theorem rev_or (w : U4) : rev w =
    (w >>> 24) ||| ((w >>> 8) &&& 0xff00#32) ||| ((w &&& 0xff00#32) <<< 8) |||
      ((w &&& 0xff#32) <<< 24) := by
  unfold rev
  have hw : ∀ i, 32 ≤ i → w.getLsbD i = false := fun i h => BitVec.getLsbD_of_ge w i h
  have h1 : (w >>> 24) &&& ((w >>> 8) &&& 0xff00#32) = 0#32 := by
    apply BitVec.eq_of_getLsbD_eq
    intro i hi
    simp only [BitVec.getLsbD_and, BitVec.getLsbD_ushiftRight, BitVec.getLsbD_zero]
    rw [getLsbD_ff00 i hi]
    by_cases h : i < 8
    · simp [show ¬ 8 ≤ i by omega]
    · simp [hw (24 + i) (by omega)]
  rw [BitVec.add_eq_or_of_and_eq_zero _ _ h1]
  have h2 : (w >>> 24 ||| w >>> 8 &&& 0xff00#32) &&& ((w &&& 0xff00#32) <<< 8) = 0#32 := by
    apply BitVec.eq_of_getLsbD_eq
    intro i hi
    simp only [BitVec.getLsbD_and, BitVec.getLsbD_or, BitVec.getLsbD_ushiftRight,
      BitVec.getLsbD_zero, BitVec.getLsbD_shiftLeft]
    rw [getLsbD_ff00 i hi, getLsbD_ff00 (i - 8) (by omega)]
    by_cases h : i < 16
    · simp [show ¬ 8 ≤ i - 8 by omega]
    · simp [hw (24 + i) (by omega), h]
  rw [BitVec.add_eq_or_of_and_eq_zero _ _ h2]
  have h3 : (w >>> 24 ||| w >>> 8 &&& 0xff00#32 ||| (w &&& 0xff00#32) <<< 8) &&&
      ((w &&& 0xff#32) <<< 24) = 0#32 := by
    apply BitVec.eq_of_getLsbD_eq
    intro i hi
    simp only [BitVec.getLsbD_and, BitVec.getLsbD_or, BitVec.getLsbD_ushiftRight,
      BitVec.getLsbD_zero, BitVec.getLsbD_shiftLeft]
    rw [getLsbD_ff00 i hi, getLsbD_ff00 (i - 8) (by omega), getLsbD_255 (i - 24) (by omega)]
    by_cases h : i < 24
    · simp [h]
    · simp [hw (24 + i) (by omega), show ¬ i < 16 by omega, show ¬ i - 8 < 16 by omega]
  rw [BitVec.add_eq_or_of_and_eq_zero _ _ h3]

theorem rev_bit (w : U4) (i : Nat) (hi : i < 32) :
    (rev w).getLsbD i = w.getLsbD (24 - 8 * (i / 8) + i % 8) := by
  rw [rev_or]
  simp only [BitVec.getLsbD_and, BitVec.getLsbD_or, BitVec.getLsbD_ushiftRight,
      BitVec.getLsbD_shiftLeft]
  have hw : ∀ i, 32 ≤ i → w.getLsbD i = false := fun i h => BitVec.getLsbD_of_ge w i h
  rw [getLsbD_ff00 i hi, getLsbD_ff00 (i - 8) (by omega), getLsbD_255 (i - 24) (by omega)]
  by_cases h8 : i < 8
  · rw [show 24 - 8 * (i / 8) + i % 8 = 24 + i by omega]
    simp [show ¬ 8 ≤ i by omega, show i < 24 by omega, h8]
  · rw [hw (24 + i) (by omega)]
    by_cases h16 : i < 16
    · rw [show 24 - 8 * (i / 8) + i % 8 = 8 + i by omega]
      simp [show 8 ≤ i by omega, h16, show i < 24 by omega, show ¬ 8 ≤ i - 8 by omega]
    · by_cases h24 : i < 24
      · rw [show 24 - 8 * (i / 8) + i % 8 = i - 8 by omega]
        simp [h8, h16, h24, hi, show 8 ≤ i - 8 by omega, show i - 8 < 16 by omega]
      · rw [show 24 - 8 * (i / 8) + i % 8 = i - 24 by omega]
        simp [h8, h16, h24, hi, show ¬ i - 8 < 16 by omega, show i - 24 < 8 by omega]

theorem rev_rev (w : U4) : rev (rev w) = w := by
  apply BitVec.eq_of_getLsbD_eq
  intro i hi
  rw [rev_bit _ i hi, rev_bit _ _ (by omega)]
  congr 1
  omega

theorem rev_xor (a b : U4) : rev (a ^^^ b) = rev a ^^^ rev b := by
  apply BitVec.eq_of_getLsbD_eq
  intro i hi
  simp only [rev_bit _ i hi, BitVec.getLsbD_xor]

theorem rev_not (a : U4) : rev (~~~ a) = ~~~ (rev a) := by
  apply BitVec.eq_of_getLsbD_eq
  intro i hi
  rw [rev_bit _ i hi, BitVec.getLsbD_not, BitVec.getLsbD_not, rev_bit _ i hi]
  simp [hi, show 24 - 8 * (i / 8) + i % 8 < 32 by omega]

theorem rev_shiftLeft (a : U4) : rev (a <<< 8) = rev a >>> 8 := by
  apply BitVec.eq_of_getLsbD_eq
  intro i hi
  rw [rev_bit _ i hi, BitVec.getLsbD_shiftLeft, BitVec.getLsbD_ushiftRight]
  by_cases h : i < 24
  · rw [rev_bit _ (8 + i) (by omega)]
    rw [show 24 - 8 * (i / 8) + i % 8 - 8 = 24 - 8 * ((8 + i) / 8) + (8 + i) % 8 by omega]
    simp [show 24 - 8 * (i / 8) + i % 8 < 32 by omega, show ¬ 24 - 8 * (i / 8) + i % 8 < 8 by omega]
  · rw [BitVec.getLsbD_of_ge (rev a) (8 + i) (by omega)]
    simp [show 24 - 8 * (i / 8) + i % 8 < 8 by omega]

theorem shift24_rev (a : U4) : a >>> 24 = rev a &&& 0xff#32 := by
  apply BitVec.eq_of_getLsbD_eq
  intro i hi
  rw [BitVec.getLsbD_ushiftRight, BitVec.getLsbD_and, rev_bit _ i hi, getLsbD_255 i hi]
  by_cases h : i < 8
  · rw [show 24 - 8 * (i / 8) + i % 8 = 24 + i by omega]; simp [h]
  · simp [h, BitVec.getLsbD_of_ge a (24 + i) (by omega)]

theorem low_rev (a : U4) : a &&& 0xff#32 = rev a >>> 24 := by
  rw [shift24_rev, rev_rev]

theorem rev_shift8_low (a : U4) : (a >>> 8) &&& 0xff#32 = (rev a >>> 16) &&& 0xff#32 := by
  apply BitVec.eq_of_getLsbD_eq
  intro i hi
  simp only [BitVec.getLsbD_ushiftRight, BitVec.getLsbD_and]
  rw [getLsbD_255 i hi]
  by_cases h : i < 8
  · rw [rev_bit _ (16 + i) (by omega)]
    rw [show 24 - 8 * ((16 + i) / 8) + (16 + i) % 8 = 8 + i by omega]
  · simp [h]

theorem rev_shift16_low (a : U4) : (a >>> 16) &&& 0xff#32 = (rev a >>> 8) &&& 0xff#32 := by
  rw [rev_shift8_low, rev_rev]

theorem xor_low (a : U4) (b : Byte) : (a ^^^ word b) &&& 0xff#32 = (a &&& 0xff#32) ^^^ word b := by
  apply BitVec.eq_of_getLsbD_eq
  intro i hi
  simp only [BitVec.getLsbD_xor, BitVec.getLsbD_and]
  rw [getLsbD_255 i hi]
  by_cases h : i < 8
  · simp [h]
  · simp [h, word_getLsbD b i (by omega)]

theorem bigByte_eq (c : U4) (b : Byte) : rev (bigByte c b) = do1 (rev c) b := by
  unfold bigByte do1
  rw [rev_xor, rev_shiftLeft, xor_low, shift24_rev, ← xor_low]
  rw [crcTable_high 4 (by omega) _ (low_lt _), rev_rev, crcTable_low 0 (by omega) _ (low_lt _)]

theorem rev_loadBig (b0 b1 b2 b3 : Byte) : rev (loadBig b0 b1 b2 b3) = loadLittle b0 b1 b2 b3 := by
  unfold loadBig loadLittle
  apply BitVec.eq_of_getLsbD_eq
  intro i hi
  rw [rev_bit _ i hi]
  simp only [BitVec.getLsbD_or, BitVec.getLsbD_shiftLeft]
  by_cases h8 : i < 8
  · rw [show 24 - 8 * (i / 8) + i % 8 = 24 + i by omega]
    rw [word_getLsbD b3 (24 + i) (by omega), word_getLsbD b2 (24 + i - 8) (by omega),
      word_getLsbD b1 (24 + i - 16) (by omega)]
    simp [h8, show 24 + i - 24 = i by omega, show 24 + i < 32 by omega, show i < 16 by omega,
      show i < 24 by omega]
  · rw [word_getLsbD b0 i (by omega)]
    by_cases h16 : i < 16
    · rw [show 24 - 8 * (i / 8) + i % 8 = 8 + i by omega]
      rw [word_getLsbD b3 (8 + i) (by omega), word_getLsbD b2 (8 + i - 8) (by omega)]
      simp [h8, h16, show 8 + i - 16 = i - 8 by omega, show 8 + i < 32 by omega,
        show 8 + i < 24 by omega, show i < 24 by omega, show ¬ 8 + i < 16 by omega, hi]
    · rw [word_getLsbD b1 (i - 8) (by omega)]
      by_cases h24 : i < 24
      · rw [show 24 - 8 * (i / 8) + i % 8 = i - 8 by omega]
        rw [word_getLsbD b3 (i - 8) (by omega)]
        simp [h16, h24, show i - 8 - 8 = i - 16 by omega, show i - 8 < 32 by omega,
          show i - 8 < 24 by omega, show i - 8 < 16 by omega, show ¬ i - 8 < 8 by omega, hi]
      · rw [show 24 - 8 * (i / 8) + i % 8 = i - 24 by omega]
        rw [word_getLsbD b2 (i - 16) (by omega)]
        simp [h24, show i - 24 < 24 by omega, show i - 24 < 16 by omega, show i - 24 < 8 by omega, hi]

theorem doBig4_eq (c : U4) (b0 b1 b2 b3 : Byte) :
    rev (doBig4 c b0 b1 b2 b3) = doLit4 (rev c) b0 b1 b2 b3 := by
  unfold doBig4 doLit4
  simp only
  rw [show rev c ^^^ loadLittle b0 b1 b2 b3 = rev (c ^^^ loadBig b0 b1 b2 b3) by
    rw [rev_xor, rev_loadBig]]
  generalize c ^^^ loadBig b0 b1 b2 b3 = x
  simp only [rev_xor]
  rw [crcTable_high 4 (by omega) _ (low_lt _), crcTable_high 5 (by omega) _ (low_lt _), crcTable_high 6 (by omega) _ (low_lt _),
    crcTable_high 7 (by omega) _ (shift24_lt _), crcTable_low 3 (by omega) _ (low_lt _),
    crcTable_low 2 (by omega) _ (low_lt _), crcTable_low 1 (by omega) _ (low_lt _),
    crcTable_low 0 (by omega) _ (shift24_lt _)]
  simp only [rev_rev, ofNat_toNat', Nat.reduceAdd, Nat.reduceSub]
  rw [low_rev x, rev_shift8_low x, rev_shift16_low x, shift24_rev x]
  generalize iter 1 byteStep (rev x >>> 24) = p
  generalize iter 2 byteStep (rev x >>> 16 &&& 0xff#32) = q
  generalize iter 3 byteStep (rev x >>> 8 &&& 0xff#32) = r
  generalize iter 4 byteStep (rev x &&& 0xff#32) = t
  ac_rfl

theorem doBig4_bytes (c : U4) (b0 b1 b2 b3 : Byte) :
    doBig4 c b0 b1 b2 b3 = bigByte (bigByte (bigByte (bigByte c b0) b1) b2) b3 := by
  have h : rev (doBig4 c b0 b1 b2 b3) = rev (bigByte (bigByte (bigByte (bigByte c b0) b1) b2) b3) := by
    rw [doBig4_eq, doLit4_eq]
    simp only [bigByte_eq]
  have := congrArg rev h
  rwa [rev_rev, rev_rev] at this

theorem foldl_bigByte (c : U4) (s : Str) : rev (s.foldl bigByte c) = s.foldl do1 (rev c) := by
  induction s generalizing c with
  | nil => rfl
  | cons b s ih => rw [List.foldl_cons, ih, bigByte_eq, List.foldl_cons]

/-- What all versions compute. -/
theorem crc32_bytes (m : Machine) (crc : U4) (addr : Nat) (s : Str) :
    crc32 m crc (some (addr, s)) = ~~~ (s.foldl do1 (~~~ crc)) := by
  cases m with
  | little =>
    show crc32Little crc addr s = _
    rw [crc32Little, byFour_eq _ _ doLit4_eq]
  | big =>
    show crc32Big crc addr s = _
    rw [crc32Big, byFour_eq _ _ doBig4_bytes, rev_not, foldl_bigByte, rev_not, rev_rev]
  | plain =>
    show crc32Plain crc s = _
    rw [crc32Plain, plainLoop_eq, ← not_eq_xor, ← not_eq_xor]

end Verif.Zlib
