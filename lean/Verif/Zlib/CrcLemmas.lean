import Verif.Zlib.Crc
import Mathlib.Tactic.Conv

namespace Verif.Zlib

theorem poly_eq : poly = 0xedb88320#32 := by decide

theorem and_one_eq (c : U4) : (c &&& 1#32 = 1#32) ↔ c.getLsbD 0 = true := by
  constructor
  · intro h
    have := congrArg (fun x => x.getLsbD 0) h
    simpa using this
  · intro h
    apply BitVec.eq_of_getLsbD_eq
    intro i hi
    rcases i with _ | i
    · simp [h]
    · simp [BitVec.getLsbD_one]

theorem bitStep_eq (c : U4) :
    bitStep c = (if c.getLsbD 0 then poly else 0#32) ^^^ (c >>> 1) := by
  unfold bitStep
  by_cases h : c.getLsbD 0 = true
  · rw [if_pos ((and_one_eq c).mpr h), if_pos h]
  · rw [if_neg (fun h' => h ((and_one_eq c).mp h')), if_neg h]
    simp

theorem ushiftRight_xor (a b : U4) (n : Nat) : (a ^^^ b) >>> n = (a >>> n) ^^^ (b >>> n) := by
  apply BitVec.eq_of_getLsbD_eq
  intro i hi
  simp

theorem bitStep_xor (a b : U4) : bitStep (a ^^^ b) = bitStep a ^^^ bitStep b := by
  rw [bitStep_eq, bitStep_eq, bitStep_eq, ushiftRight_xor]
  rw [BitVec.getLsbD_xor]
  generalize a >>> 1 = u
  generalize b >>> 1 = v
  cases a.getLsbD 0 <;> cases b.getLsbD 0 <;> simp
  · rw [← BitVec.xor_assoc, BitVec.xor_comm poly u, BitVec.xor_assoc]
  · rw [BitVec.xor_assoc]
  · rw [show poly ^^^ u ^^^ (poly ^^^ v) = (poly ^^^ poly) ^^^ (u ^^^ v) by ac_rfl]
    simp

theorem bitStep_zero : bitStep 0#32 = 0#32 := by decide

theorem iter_succ {α : Type} (n : Nat) (f : α → α) (a : α) : iter (n + 1) f a = f (iter n f a) := by
  induction n generalizing a with
  | zero => rfl
  | succ n ih =>
    rw [iter, ih, iter]

theorem iter_add {α : Type} (m n : Nat) (f : α → α) (a : α) :
    iter (m + n) f a = iter n f (iter m f a) := by
  induction m generalizing a with
  | zero => simp [iter]
  | succ m ih => rw [Nat.add_right_comm, iter, ih, iter]

theorem iter_mul {α : Type} (m n : Nat) (f : α → α) (a : α) :
    iter (m * n) f a = iter m (iter n f) a := by
  induction m generalizing a with
  | zero => simp [iter]
  | succ m ih => rw [Nat.succ_mul, Nat.add_comm, iter_add, ih, iter]

theorem iter_xor (f : U4 → U4) (hf : ∀ a b, f (a ^^^ b) = f a ^^^ f b) (n : Nat) (a b : U4) :
    iter n f (a ^^^ b) = iter n f a ^^^ iter n f b := by
  induction n generalizing a b with
  | zero => rfl
  | succ n ih => rw [iter, iter, iter, hf, ih]

/-- Eight steps: a byte of zeros. -/
def byteStep (c : U4) : U4 := iter 8 bitStep c

theorem byteStep_xor (a b : U4) : byteStep (a ^^^ b) = byteStep a ^^^ byteStep b :=
  iter_xor bitStep bitStep_xor 8 a b

theorem bitStep_shift (z : U4) (k : Nat) (hz : z.toNat < 2 ^ (31 - k)) (hk : k < 31) :
    bitStep (z <<< (k + 1)) = z <<< k := by
  rw [bitStep_eq]
  have h0 : (z <<< (k + 1)).getLsbD 0 = false := by simp
  rw [h0]
  simp only [Bool.false_eq_true, if_false, BitVec.zero_xor]
  apply BitVec.eq_of_getLsbD_eq
  intro i hi
  simp only [BitVec.getLsbD_ushiftRight, BitVec.getLsbD_shiftLeft]
  by_cases hik : i < k
  · have : 1 + i < k + 1 := by omega
    simp [hik, this]
  · have h1 : ¬ 1 + i < k + 1 := by omega
    have h2 : 1 + i - (k + 1) = i - k := by omega
    rw [h2]
    simp only [h1, hik, hi, decide_true, decide_false, Bool.not_false, Bool.true_and]
    by_cases h3 : 1 + i < 32
    · simp [h3]
    · have hi31 : i = 31 := by omega
      subst hi31
      have : z.getLsbD (31 - k) = false := by
        rw [BitVec.getLsbD, Nat.testBit_lt_two_pow hz]
      simp [this]

theorem iter_bitStep_shift (z : U4) (k : Nat) (hz : z.toNat < 2 ^ (32 - k)) (hk : k < 32) :
    iter k bitStep (z <<< k) = z := by
  induction k with
  | zero => simp [iter]
  | succ k ih =>
    rw [iter, bitStep_shift z k (by rw [show 31 - k = 32 - (k+1) by omega]; exact hz) (by omega)]
    exact ih (Nat.lt_of_lt_of_le hz (Nat.pow_le_pow_right (by omega) (by omega))) (by omega)

theorem split_low (x : U4) : x = (x &&& 0xff#32) ^^^ ((x >>> 8) <<< 8) := by
  apply BitVec.eq_of_getLsbD_eq
  intro i hi
  have h255 : (0xff#32).getLsbD i = decide (i < 8) := by
    revert i; decide
  simp only [BitVec.getLsbD_xor, BitVec.getLsbD_and, BitVec.getLsbD_shiftLeft,
    BitVec.getLsbD_ushiftRight, h255, hi, decide_true, Bool.true_and]
  by_cases h : i < 8
  · simp [h]
  · simp [h, show 8 + (i - 8) = i by omega]

theorem entry_map (f : Nat → U4) (i : Nat) (h : i < 256) :
    entry ((List.range 256).map f) i = f i := by
  unfold entry
  rw [List.getD_eq_getElem?_getD, List.getElem?_map, List.getElem?_range h]
  rfl

theorem low_lt (x : U4) : (x &&& 0xff#32).toNat < 256 := by
  rw [BitVec.toNat_and]
  exact Nat.lt_of_le_of_lt Nat.and_le_right (by decide)

theorem entry_table0 (i : Nat) (h : i < 256) : entry table0 i = byteStep (BitVec.ofNat 32 i) :=
  entry_map _ i h

theorem ofNat_toNat' (x : U4) : BitVec.ofNat 32 x.toNat = x := by simp

theorem shift_lt (x : U4) (k : Nat) (hk : k ≤ 32) : (x >>> k).toNat < 2 ^ (32 - k) := by
  rw [BitVec.toNat_ushiftRight, Nat.shiftRight_eq_div_pow]
  apply Nat.div_lt_of_lt_mul
  rw [← Nat.pow_add, show k + (32 - k) = 32 by omega]
  exact x.isLt

/-- The table is right. -/
theorem byteStep_table (x : U4) : byteStep x = entry table0 (x &&& 0xff#32).toNat ^^^ (x >>> 8) := by
  rw [entry_table0 _ (low_lt x), ofNat_toNat']
  conv_lhs => rw [split_low x, byteStep_xor]
  congr 1
  exact iter_bitStep_shift (x >>> 8) 8 (shift_lt x 8 (by omega)) (by omega)

theorem zeroByte_eq (x : U4) : zeroByte x = byteStep x := (byteStep_table x).symm

theorem word_shift8 (b : Byte) : word b >>> 8 = 0#32 := by
  apply BitVec.eq_of_toNat_eq
  have := b.toNat_lt
  simp [word, Nat.shiftRight_eq_div_pow]
  omega

theorem do1_eq (c : U4) (b : Byte) : do1 c b = byteStep (c ^^^ word b) := by
  rw [byteStep_table, ushiftRight_xor, word_shift8, BitVec.xor_zero]
  rfl

theorem iter_congr {α : Type} (f g : α → α) (h : ∀ a, f a = g a) (n : Nat) (a : α) :
    iter n f a = iter n g a := by
  have : f = g := funext h
  rw [this]

theorem crcTable_low (k : Nat) (hk : k < 4) (i : Nat) (h : i < 256) :
    entry (crcTable k) i = iter (k + 1) byteStep (BitVec.ofNat 32 i) := by
  unfold crcTable
  by_cases h0 : k = 0
  · subst h0
    rw [if_pos rfl, entry_table0 i h]; rfl
  · rw [if_neg h0, if_pos hk, entry_map _ i h, entry_table0 i h, iter_congr _ _ zeroByte_eq]
    rfl

theorem crcTable_high (k : Nat) (hk : 4 ≤ k) (i : Nat) (h : i < 256) :
    entry (crcTable k) i = rev (iter (k - 3) byteStep (BitVec.ofNat 32 i)) := by
  unfold crcTable
  rw [if_neg (by omega), if_neg (by omega), entry_map _ i h, entry_table0 i h,
    iter_congr _ _ zeroByte_eq, show k - 3 = (k - 4) + 1 by omega]
  rfl

/-! ### Words -/

theorem word_lt (b : Byte) : (word b).toNat < 256 := by
  have := b.toNat_lt
  simp [word]
  omega

theorem byteStep_shift (z : U4) (hz : z.toNat < 2 ^ 24) : byteStep (z <<< 8) = z :=
  iter_bitStep_shift z 8 hz (by omega)

/-- `k` bytes of zeros behind a byte which is `k - j` bytes higher. -/
theorem iter_byteStep_shift (z : U4) (j : Nat) (hj : j < 4) (hz : z.toNat < 256) :
    iter j byteStep (z <<< (8 * j)) = z := by
  have h2 : iter j byteStep (z <<< (8 * j)) = iter (j * 8) bitStep (z <<< (8 * j)) := by
    rw [iter_mul]; rfl
  rw [h2, Nat.mul_comm]
  refine iter_bitStep_shift z _ (Nat.lt_of_lt_of_le hz ?_) (by omega)
  exact Nat.pow_le_pow_right (n := 2) (i := 8) (by omega) (by omega)

theorem iter_byteStep_xor (n : Nat) (a b : U4) :
    iter n byteStep (a ^^^ b) = iter n byteStep a ^^^ iter n byteStep b :=
  iter_xor byteStep byteStep_xor n a b

theorem getLsbD_255 (i : Nat) (hi : i < 32) : (0xff#32).getLsbD i = decide (i < 8) := by
  revert i; decide

/-- The four bytes of a word. -/
theorem split_word (x : U4) :
    x = (x &&& 0xff#32) ^^^ ((x >>> 8) &&& 0xff#32) <<< 8 ^^^ ((x >>> 16) &&& 0xff#32) <<< 16 ^^^
      (x >>> 24) <<< 24 := by
  apply BitVec.eq_of_getLsbD_eq
  intro i hi
  simp only [BitVec.getLsbD_xor, BitVec.getLsbD_and, BitVec.getLsbD_shiftLeft,
    BitVec.getLsbD_ushiftRight, hi, decide_true, Bool.true_and]
  rw [getLsbD_255 i hi, getLsbD_255 (i - 8) (by omega), getLsbD_255 (i - 16) (by omega)]
  by_cases h8 : i < 8
  · simp [h8, show i < 16 by omega, show i < 24 by omega]
  · rw [show 8 + (i - 8) = i by omega]
    by_cases h16 : i < 16
    · simp [h8, h16, show i < 24 by omega, show i - 8 < 8 by omega]
    · rw [show 16 + (i - 16) = i by omega]
      by_cases h24 : i < 24
      · simp [h8, h16, h24, show ¬ i - 8 < 8 by omega, show i - 16 < 8 by omega]
      · rw [show 24 + (i - 24) = i by omega]
        simp [h8, h16, h24, show ¬ i - 8 < 8 by omega, show ¬ i - 16 < 8 by omega]

theorem shift24_lt (x : U4) : (x >>> 24).toNat < 256 := shift_lt x 24 (by omega)

/-- Four bytes of zeros behind a word, with the tables. -/
theorem four_table (x : U4) :
    entry (crcTable 3) (x &&& 0xff#32).toNat ^^^ entry (crcTable 2) ((x >>> 8) &&& 0xff#32).toNat ^^^
      entry (crcTable 1) ((x >>> 16) &&& 0xff#32).toNat ^^^ entry (crcTable 0) (x >>> 24).toNat =
    iter 4 byteStep x := by
  rw [crcTable_low 3 (by omega) _ (low_lt _), crcTable_low 2 (by omega) _ (low_lt _),
    crcTable_low 1 (by omega) _ (low_lt _), crcTable_low 0 (by omega) _ (shift24_lt _)]
  simp only [ofNat_toNat', Nat.reduceAdd]
  have hA : iter 4 byteStep ((x >>> 8 &&& 0xff#32) <<< 8) = iter 3 byteStep (x >>> 8 &&& 0xff#32) := by
    rw [show (4 : Nat) = 1 + 3 from rfl, iter_add]
    rw [show iter 1 byteStep ((x >>> 8 &&& 255#32) <<< 8) = x >>> 8 &&& 255#32 from
        iter_byteStep_shift _ 1 (by omega) (low_lt _)]
  have hB : iter 4 byteStep ((x >>> 16 &&& 0xff#32) <<< 16) = iter 2 byteStep (x >>> 16 &&& 0xff#32) := by
    rw [show (4 : Nat) = 2 + 2 from rfl, iter_add]
    rw [show iter 2 byteStep ((x >>> 16 &&& 255#32) <<< 16) = x >>> 16 &&& 255#32 from
        iter_byteStep_shift _ 2 (by omega) (low_lt _)]
  have hC : iter 4 byteStep ((x >>> 24) <<< 24) = iter 1 byteStep (x >>> 24) := by
    rw [show (4 : Nat) = 3 + 1 from rfl, iter_add]
    rw [show iter 3 byteStep ((x >>> 24) <<< 24) = x >>> 24 from
        iter_byteStep_shift _ 3 (by omega) (shift24_lt _)]
  rw [← hA, ← hB, ← hC, ← iter_byteStep_xor, ← iter_byteStep_xor, ← iter_byteStep_xor, ← split_word]

theorem word_getLsbD (b : Byte) (i : Nat) (h : 8 ≤ i) : (word b).getLsbD i = false := by
  rw [BitVec.getLsbD]
  exact Nat.testBit_lt_two_pow (Nat.lt_of_lt_of_le (word_lt b) (Nat.pow_le_pow_right (n := 2) (i := 8) (by omega) h))

theorem loadLittle_eq (b0 b1 b2 b3 : Byte) :
    loadLittle b0 b1 b2 b3 = word b0 ^^^ word b1 <<< 8 ^^^ word b2 <<< 16 ^^^ word b3 <<< 24 := by
  unfold loadLittle
  apply BitVec.eq_of_getLsbD_eq
  intro i hi
  simp only [BitVec.getLsbD_or, BitVec.getLsbD_xor, BitVec.getLsbD_shiftLeft, hi, decide_true,
    Bool.true_and]
  by_cases h8 : i < 8
  · simp [h8, show i < 16 by omega, show i < 24 by omega]
  · rw [word_getLsbD b0 i (by omega)]
    by_cases h16 : i < 16
    · simp [h8, h16, show i < 24 by omega]
    · rw [word_getLsbD b1 (i - 8) (by omega)]
      by_cases h24 : i < 24
      · simp [h8, h16, h24]
      · rw [word_getLsbD b2 (i - 16) (by omega)]
        simp [h8, h16, h24]

theorem doLit4_eq (c : U4) (b0 b1 b2 b3 : Byte) :
    doLit4 c b0 b1 b2 b3 = do1 (do1 (do1 (do1 c b0) b1) b2) b3 := by
  unfold doLit4
  rw [four_table, loadLittle_eq]
  simp only [do1_eq, iter_byteStep_xor, byteStep_xor]
  rw [show iter 4 byteStep (word b1 <<< 8) = byteStep (byteStep (byteStep (word b1))) by
      rw [show (4 : Nat) = 1 + 3 from rfl, iter_add]
      rw [show iter 1 byteStep (word b1 <<< 8) = word b1 from
        iter_byteStep_shift _ 1 (by omega) (word_lt _)]
      rfl]
  rw [show iter 4 byteStep (word b2 <<< 16) = byteStep (byteStep (word b2)) by
      rw [show (4 : Nat) = 2 + 2 from rfl, iter_add]
      rw [show iter 2 byteStep (word b2 <<< 16) = word b2 from
        iter_byteStep_shift _ 2 (by omega) (word_lt _)]
      rfl]
  rw [show iter 4 byteStep (word b3 <<< 24) = byteStep (word b3) by
      rw [show (4 : Nat) = 3 + 1 from rfl, iter_add]
      rw [show iter 3 byteStep (word b3 <<< 24) = word b3 from
        iter_byteStep_shift _ 3 (by omega) (word_lt _)]
      rfl]
  simp only [iter, BitVec.xor_assoc]

/-! ### The loops -/

theorem alignHead_eq (f : U4 → Byte → U4) (addr : Nat) (c : U4) (s : Str) :
    (alignHead f addr c s).2.foldl f (alignHead f addr c s).1 = s.foldl f c := by
  induction s generalizing addr c with
  | nil => rfl
  | cons b s ih =>
    unfold alignHead
    split
    · rw [ih]; rfl
    · rfl

theorem words_eq (f : U4 → Byte → U4) (g : U4 → Byte → Byte → Byte → Byte → U4)
    (hg : ∀ c b0 b1 b2 b3, g c b0 b1 b2 b3 = f (f (f (f c b0) b1) b2) b3)
    (n : Nat) (c : U4) (s : Str) :
    (words g n c s).2.foldl f (words g n c s).1 = s.foldl f c := by
  fun_induction words g n c s with
  | case1 n c b0 b1 b2 b3 s ih => rw [ih, hg]; rfl
  | case2 => rfl

theorem wordLoop_eq (f : U4 → Byte → U4) (g : U4 → Byte → Byte → Byte → Byte → U4)
    (hg : ∀ c b0 b1 b2 b3, g c b0 b1 b2 b3 = f (f (f (f c b0) b1) b2) b3) (c : U4) (s : Str) :
    (wordLoop g c s).2.foldl f (wordLoop g c s).1 = s.foldl f c := by
  fun_induction wordLoop g c s with
  | case1 c b0 b1 b2 b3 s ih => rw [ih, hg]; rfl
  | case2 => rfl

theorem wordLoop32_eq (f : U4 → Byte → U4) (g : U4 → Byte → Byte → Byte → Byte → U4)
    (hg : ∀ c b0 b1 b2 b3, g c b0 b1 b2 b3 = f (f (f (f c b0) b1) b2) b3)
    (n : Nat) (c : U4) (s : Str) :
    (wordLoop32 g n c s).2.foldl f (wordLoop32 g n c s).1 = s.foldl f c := by
  fun_induction wordLoop32 g n c s with
  | case1 => rfl
  | case2 n c s h r ih => rw [ih]; exact words_eq f g hg 8 c s
  | case3 => rfl

theorem byFour_eq (f : U4 → Byte → U4) (g : U4 → Byte → Byte → Byte → Byte → U4)
    (hg : ∀ c b0 b1 b2 b3, g c b0 b1 b2 b3 = f (f (f (f c b0) b1) b2) b3)
    (addr : Nat) (c : U4) (s : Str) : byFour f g addr c s = s.foldl f c := by
  unfold byFour
  simp only
  rw [wordLoop_eq f g hg, wordLoop32_eq f g hg, alignHead_eq]

theorem plainLoop_eq (c : U4) (s : Str) : plainLoop c s = s.foldl do1 c := by
  fun_induction plainLoop c s with
  | case1 c b0 b1 b2 b3 b4 b5 b6 b7 s ih => rw [ih]; rfl
  | case2 => rfl

theorem not_eq_xor (c : U4) : ~~~ c = c ^^^ 0xffffffff#32 := by
  apply BitVec.eq_of_getLsbD_eq
  intro i hi
  have : (0xffffffff#32).getLsbD i = true := by revert i; decide
  rw [BitVec.getLsbD_not, BitVec.getLsbD_xor, this]
  simp [hi]

end Verif.Zlib
