import Verif.Zlib.AdlerLemmas
import Mathlib.Tactic.NormNum.Prime
import Mathlib.Data.Nat.Prime.Int
import Mathlib.RingTheory.Int.Basic

/-!
# What the Adler-32 checksum of zlib is

`IsAdler s v` (`AdlerSpec.lean`) says that `v` is the checksum of the message `s`.  All theorems
are for all sizes `w` of an `unsigned long` from 32 bits on, with and without division.
-/

namespace Verif.Zlib

/-! ## C190: the checksum -/

theorem isAdler_unpack (s : Str) (v : Nat) (h : IsAdler s v) :
    v = (sums (1, 0) s).2 * 65536 + (sums (1, 0) s).1 := by
  rw [sums_spec]; exact h

/-- From the checksum of the first part `adler32` gives that of the whole message. -/
theorem C190_parts (noDivide : Bool) (w : Nat) (hw : 32 ≤ w) (s t : Str) (v : Nat) (h : IsAdler s v) :
    IsAdler (s ++ t) (adlerBuf noDivide w v t) := by
  rw [isAdler_unpack s v h, adlerBuf_eq noDivide w hw (sums (1, 0) s).1 (sums (1, 0) s).2 t
    (Nat.mod_lt _ base_pos) (Nat.mod_lt _ base_pos)]
  have := sums_append (1, 0) s t
  unfold IsAdler
  rw [show ((sums (1, 0) s).1, (sums (1, 0) s).2) = sums (1, 0) s from rfl, ← this, sums_spec]

theorem isAdler_nil : IsAdler [] 1 := by
  unfold IsAdler
  decide

/-- `adler32` gives the checksum of a message. -/
theorem C190_adler (noDivide : Bool) (w : Nat) (hw : 32 ≤ w) (s : Str) :
    IsAdler s (adlerBuf noDivide w 1 s) :=
  C190_parts noDivide w hw [] s 1 isAdler_nil

/-- The checksum of the text `Wikipedia`. -/
example : adlerBuf true 32 1 [0x57, 0x69, 0x6b, 0x69, 0x70, 0x65, 0x64, 0x69, 0x61] = 0x11E60398 := by
  decide +kernel

/-- Without a buffer `adler32` gives the checksum of the empty message. -/
theorem C190_null_partial (len : Nat) (h : len ≠ 1) : ∃ v, adlerNull len = some v ∧ IsAdler [] v :=
  ⟨1, by rw [adlerNull, if_neg h], isAdler_nil⟩

example : adlerNull 0 = some 1 := rfl

/-- False: whatever the length is.  With the length one the buffer that is not there is read. -/
theorem C190_null_false : ¬ ∀ len, ∃ v, adlerNull len = some v ∧ IsAdler [] v := by
  intro h
  obtain ⟨v, h1, _⟩ := h 1
  simp [adlerNull] at h1

/-! ## C191: combining two checksums -/

theorem wsum_append (s t : Str) : wsum (s ++ t) = wsum s + t.length * sumBytes s + wsum t := by
  induction s with
  | nil => simp [wsum, sumBytes]
  | cons x s ih =>
    rw [List.cons_append, wsum, wsum, ih, sumBytes_cons, List.length_append]
    ring

theorem first_append (s t : Str) :
    (firstSum s + (firstSum t + 65521 - 1)) % 65521 = firstSum (s ++ t) := by
  unfold firstSum
  rw [sumBytes_append]
  omega

theorem second_append (s t : Str) :
    ((t.length % 65521 * firstSum s % 65521) +
      (secondSum s + secondSum t + 65521 - t.length % 65521)) % 65521 = secondSum (s ++ t) := by
  rw [secondSum_eq, secondSum_eq, secondSum_eq, wsum_append, List.length_append]
  have h1 : t.length % 65521 * firstSum s % 65521 = (t.length + t.length * sumBytes s) % 65521 := by
    unfold firstSum
    rw [← Nat.mul_mod, Nat.mul_add, Nat.mul_one]
  rw [h1]
  generalize t.length * sumBytes s = z
  omega

/-- What `adler32_combine` gives: the sums of the whole message, but with 65521 instead of zero. -/
theorem C191_combine (noDivide : Bool) (w : Nat) (hw : 32 ≤ w) (s t : Str) (v v' : Nat)
    (h : IsAdler s v) (h' : IsAdler t v') :
    adlerCombine noDivide w v v' t.length =
      (if secondSum (s ++ t) = 0 then 65521 else secondSum (s ++ t)) * 65536 +
        (if firstSum (s ++ t) = 0 then 65521 else firstSum (s ++ t)) := by
  have hpow : 2 ^ 32 ≤ 2 ^ w := Nat.pow_le_pow_right (by omega) hw
  have f1 : firstSum s < 65521 := Nat.mod_lt _ (by decide)
  have f2 : firstSum t < 65521 := Nat.mod_lt _ (by decide)
  have g1 : secondSum s < 65521 := Nat.mod_lt _ (by decide)
  have g2 : secondSum t < 65521 := Nat.mod_lt _ (by decide)
  have hr : t.length % 65521 < 65521 := Nat.mod_lt _ (by decide)
  have e1 := first_append s t
  have e2 := second_append s t
  obtain ⟨u1, u2⟩ := split_sums (firstSum s) (secondSum s) (by omega) (by omega)
  obtain ⟨u3, u4⟩ := split_sums (firstSum t) (secondSum t) (by omega) (by omega)
  unfold adlerCombine
  rw [h, h', u1, u2, u3, u4]
  simp only
  have hp : t.length % base * firstSum s < 2 ^ 32 := by
    have : t.length % base * firstSum s ≤ 65520 * 65520 :=
      Nat.mul_le_mul (by unfold base; omega) (by omega)
    omega
  rw [Nat.mod_eq_of_lt (Nat.lt_of_lt_of_le hp hpow), modBase_eq noDivide _ hp]
  unfold base
  simp only [show 65521 <<< 1 = 131042 from rfl]
  have hm : t.length % 65521 * firstSum s % 65521 < 65521 := Nat.mod_lt _ (by decide)
  generalize t.length % 65521 * firstSum s % 65521 = m at *
  generalize t.length % 65521 = r at *
  generalize firstSum (s ++ t) = F at *
  generalize secondSum (s ++ t) = S at *
  generalize firstSum s = a1 at *
  generalize firstSum t = a2 at *
  generalize secondSum s = b1 at *
  generalize secondSum t = b2 at *
  have hx : (a1 + (a2 + 65521 - 1)) % 2 ^ w = a1 + (a2 + 65521 - 1) := Nat.mod_eq_of_lt (by omega)
  have hy : (m + (b1 + b2 + 65521 - r)) % 2 ^ w = m + (b1 + b2 + 65521 - r) :=
    Nat.mod_eq_of_lt (by omega)
  rw [hx, hy]
  generalize hX : a1 + (a2 + 65521 - 1) = x at *
  generalize hY : m + (b1 + b2 + 65521 - r) = y at *
  have hF : (if (if x > 65521 then x - 65521 else x) > 65521 then
      (if x > 65521 then x - 65521 else x) - 65521 else (if x > 65521 then x - 65521 else x)) =
      if F = 0 then 65521 else F := by
    split_ifs <;> omega
  have hS : (if (if y > 131042 then y - 131042 else y) > 65521 then
      (if y > 131042 then y - 131042 else y) - 65521 else (if y > 131042 then y - 131042 else y)) =
      if S = 0 then 65521 else S := by
    split_ifs <;> omega
  rw [hF, hS]
  apply joinSums_eq w hw
  · split_ifs <;> omega
  · split_ifs <;> omega

/-- `adler32_combine` gives the checksum of the whole message if neither of its sums is zero. -/
theorem C191_combine_partial (noDivide : Bool) (w : Nat) (hw : 32 ≤ w) (s t : Str) (v v' : Nat)
    (h : IsAdler s v) (h' : IsAdler t v') (h1 : firstSum (s ++ t) ≠ 0) (h2 : secondSum (s ++ t) ≠ 0) :
    IsAdler (s ++ t) (adlerCombine noDivide w v v' t.length) := by
  rw [C191_combine noDivide w hw s t v v' h h', if_neg h1, if_neg h2]
  rfl

example : firstSum [1, 2, 3] ≠ 0 ∧ secondSum [1, 2, 3] ≠ 0 := by decide

/-- False: in all cases.  The sums are compared with `>` where it should be `>=`. -/
theorem C191_combine_false :
    ¬ ∀ (s t : Str) (v v' : Nat), IsAdler s v → IsAdler t v' →
      IsAdler (s ++ t) (adlerCombine false 64 v v' t.length) := by
  intro h
  have h1 := h (List.replicate 256 255 ++ [240]) [] _ 1 rfl isAdler_nil
  rw [C191_combine false 64 (by decide) _ [] _ 1 rfl isAdler_nil] at h1
  unfold IsAdler at h1
  revert h1
  decide +kernel

/-! ## C192: errors that are detected -/

theorem adler_eq_iff (nd nd' : Bool) (w w' : Nat) (hw : 32 ≤ w) (hw' : 32 ≤ w') (s t : Str) :
    adlerBuf nd w 1 s = adlerBuf nd' w' 1 t ↔ firstSum s = firstSum t ∧ secondSum s = secondSum t := by
  have h1 := C190_adler nd w hw s
  have h2 := C190_adler nd' w' hw' t
  unfold IsAdler at h1 h2
  have f1 : firstSum s < 65521 := Nat.mod_lt _ (by decide)
  have f2 : firstSum t < 65521 := Nat.mod_lt _ (by decide)
  rw [h1, h2]
  constructor
  · intro h; constructor <;> omega
  · rintro ⟨a, b⟩; rw [a, b]

/-- A change of one byte is noticed. -/
theorem C192_byte (noDivide : Bool) (w : Nat) (hw : 32 ≤ w) (p q : Str) (x y : Byte) (hxy : x ≠ y) :
    adlerBuf noDivide w 1 (p ++ x :: q) ≠ adlerBuf noDivide w 1 (p ++ y :: q) := by
  intro h
  have h1 := ((adler_eq_iff _ _ w w hw hw _ _).mp h).1
  unfold firstSum at h1
  rw [sumBytes_append, sumBytes_append, sumBytes_cons, sumBytes_cons] at h1
  have hx := x.toNat_lt
  have hy := y.toNat_lt
  apply hxy
  apply UInt8.toNat_inj.mp
  omega

/-- An exchange of two different bytes is noticed, unless they are 65521 bytes or a multiple of that
apart. -/
theorem C192_swap (noDivide : Bool) (w : Nat) (hw : 32 ≤ w) (p m q : Str) (x y : Byte) (hxy : x ≠ y) :
    adlerBuf noDivide w 1 (p ++ x :: (m ++ y :: q)) = adlerBuf noDivide w 1 (p ++ y :: (m ++ x :: q)) ↔
      65521 ∣ m.length + 1 := by
  rw [adler_eq_iff _ _ w w hw hw]
  have hf : firstSum (p ++ x :: (m ++ y :: q)) = firstSum (p ++ y :: (m ++ x :: q)) := by
    unfold firstSum
    simp only [sumBytes_append, sumBytes_cons]
    congr 1
    omega
  rw [hf]
  simp only [true_and]
  rw [secondSum_eq, secondSum_eq]
  simp only [wsum_append, wsum, List.length_append, List.length_cons, sumBytes_cons]
  have hx := x.toNat_lt
  have hy := y.toNat_lt
  have hne : x.toNat ≠ y.toNat := fun h => hxy (UInt8.toNat_inj.mp h)
  have hprime : Nat.Prime 65521 := by norm_num
  have key : ∀ A B : Nat, A % 65521 = B % 65521 ↔ (65521 : Int) ∣ (B : Int) - (A : Int) := by
    intro A B
    omega
  rw [key]
  have e : ∀ c d : Nat, ((c : Int) - d = ((m.length + 1 : Nat) : Int) * ((y.toNat : Int) - x.toNat)) →
      ((65521 : Int) ∣ (c : Int) - d ↔ 65521 ∣ m.length + 1) := by
    intro c d hcd
    rw [hcd]
    have hp : Prime (65521 : Int) := Int.prime_iff_natAbs_prime.mpr hprime
    constructor
    · intro hd
      rcases hp.dvd_or_dvd hd with h1 | h1
      · exact_mod_cast h1
      · exfalso; omega
    · intro hd
      exact Dvd.dvd.mul_right (by exact_mod_cast hd) _
  apply e
  push_cast
  ring

example : (1 : Byte) ≠ 2 ∧ ¬ 65521 ∣ ([7, 8] : Str).length + 1 := by decide

end Verif.Zlib
