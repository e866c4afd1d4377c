import Verif.Zlib.Adler
import Verif.Zlib.AdlerSpec
import Mathlib.Data.Nat.ModEq
import Mathlib.Tactic.Ring
import Mathlib.Tactic.Linarith

namespace Verif.Zlib

/-! ### Without overflow -/

/-- The sums without overflow. -/
def exact' (st : Nat × Nat) (s : Str) : Nat × Nat :=
  s.foldl (fun p b => (p.1 + b.toNat, p.2 + (p.1 + b.toNat))) st

/-- The weighted sum of the bytes. -/
def wsum : Str → Nat
  | [] => 0
  | b :: s => (s.length + 1) * b.toNat + wsum s

theorem exact_fst (a b : Nat) (s : Str) : (exact' (a, b) s).1 = a + sumBytes s := by
  induction s generalizing a b with
  | nil => simp [exact', sumBytes]
  | cons x s ih =>
    have := ih (a + x.toNat) (b + (a + x.toNat))
    unfold exact' at this ⊢
    rw [List.foldl_cons, this]
    simp [sumBytes]; omega

theorem exact_snd (a b : Nat) (s : Str) :
    (exact' (a, b) s).2 = b + s.length * a + wsum s := by
  induction s generalizing a b with
  | nil => simp [exact', wsum]
  | cons x s ih =>
    have := ih (a + x.toNat) (b + (a + x.toNat))
    unfold exact' at this ⊢
    rw [List.foldl_cons, this, wsum, List.length_cons]
    ring

theorem sumBytes_cons (x : Byte) (s : Str) : sumBytes (x :: s) = x.toNat + sumBytes s := by
  simp [sumBytes]

theorem sumBytes_append (s t : Str) : sumBytes (s ++ t) = sumBytes s + sumBytes t := by
  simp [sumBytes]

theorem sumBytes_le (s : Str) : sumBytes s ≤ 255 * s.length := by
  induction s with
  | nil => simp [sumBytes]
  | cons x s ih =>
    have := x.toNat_lt
    rw [sumBytes_cons, List.length_cons]
    omega

theorem wsum_le (s : Str) : 2 * wsum s ≤ 255 * (s.length * (s.length + 1)) := by
  induction s with
  | nil => simp [wsum]
  | cons x s ih =>
    have hx : x.toNat ≤ 255 := by have := x.toNat_lt; omega
    have h1 : (s.length + 1) * x.toNat ≤ (s.length + 1) * 255 := Nat.mul_le_mul_left _ hx
    rw [wsum, List.length_cons]
    nlinarith

/-- The sums fit in 32 bits. -/
def Fits (a b n : Nat) : Prop := 2 * (b + n * a) + 255 * (n * (n + 1)) < 2 ^ 33 ∧ a + 255 * n < 2 ^ 32

theorem fold_exact (w : Nat) (hw : 32 ≤ w) (a b : Nat) (s : Str) (h : Fits a b s.length) :
    s.foldl (adlerByte w) (a, b) = exact' (a, b) s := by
  have hpow : 2 ^ 32 ≤ 2 ^ w := Nat.pow_le_pow_right (by omega) hw
  have hA : a + sumBytes s < 2 ^ w := by
    have := sumBytes_le s
    have := h.2
    omega
  have hB : b + s.length * a + wsum s < 2 ^ w := by
    have := wsum_le s
    have := h.1
    omega
  clear h
  induction s generalizing a b with
  | nil => rfl
  | cons x s ih =>
    rw [sumBytes_cons] at hA
    rw [wsum, List.length_cons] at hB
    have e1 : (s.length + 1) * a = s.length * a + a := by ring
    have e2 : (s.length + 1) * x.toNat = s.length * x.toNat + x.toNat := by ring
    have e3 : s.length * (a + x.toNat) = s.length * a + s.length * x.toNat := by ring
    have h1 : adlerByte w (a, b) x = (a + x.toNat, b + (a + x.toNat)) := by
      unfold adlerByte addW
      simp only
      rw [Nat.mod_eq_of_lt (show a + x.toNat < 2 ^ w by omega),
        Nat.mod_eq_of_lt (show b + (a + x.toNat) < 2 ^ w by omega)]
    rw [List.foldl_cons, h1, ih _ _ (by omega) (by omega)]
    rfl

theorem fits_small (a b : Nat) (ha : a < 65536) (hb : b < 65536) (n : Nat) (hn : n ≤ 5552) :
    Fits a b n := by
  constructor
  · have h1 : n * a ≤ 5552 * 65535 := Nat.mul_le_mul hn (by omega)
    have h2 : n * (n + 1) ≤ 5552 * 5553 := Nat.mul_le_mul hn (by omega)
    omega
  · omega

/-! ### Reductions -/

theorem subIf_eq (a k : Nat) (h : a < base <<< (k + 1)) : subIf a k = a % (base <<< k) := by
  unfold subIf
  rw [Nat.shiftLeft_eq] at h
  rw [Nat.shiftLeft_eq]
  rw [Nat.pow_succ] at h
  have hpos : 0 < base * 2 ^ k := Nat.mul_pos (by decide) (Nat.pow_pos (by omega))
  split
  · rename_i h2
    rw [Nat.mod_eq_sub_mod h2, Nat.mod_eq_of_lt]
    have : base * (2 ^ k * 2) = base * 2 ^ k + base * 2 ^ k := by ring
    omega
  · rename_i h2
    rw [Nat.mod_eq_of_lt (by omega)]

theorem mod_step (a k : Nat) (h : a < base <<< (k + 1)) :
    subIf a k % base = a % base ∧ subIf a k < base <<< k := by
  rw [subIf_eq a k h]
  constructor
  · rw [Nat.mod_mod_of_dvd]
    rw [Nat.shiftLeft_eq]
    exact Nat.dvd_mul_right _ _
  · apply Nat.mod_lt
    rw [Nat.shiftLeft_eq]
    exact Nat.mul_pos (by decide) (Nat.pow_pos (by omega))

/-- The conditional subtractions from a power on. -/
def subs : Nat → Nat → Nat
  | 0, a => a
  | k + 1, a => subs k (subIf a k)

theorem subs_eq (k a : Nat) (h : a < base <<< k) : subs k a = a % base := by
  induction k generalizing a with
  | zero =>
    show a = a % base
    exact (Nat.mod_eq_of_lt (by simpa using h)).symm
  | succ k ih =>
    obtain ⟨h1, h2⟩ := mod_step a k h
    rw [subs, ih _ h2, h1]

theorem modBase_eq (nd : Bool) (a : Nat) (h : a < 2 ^ 32) : modBase nd a = a % base := by
  unfold modBase
  cases nd
  · rfl
  · have h2 := subs_eq 17 a (Nat.lt_of_lt_of_le h (by decide))
    simp only [subs] at h2
    simp only [if_true, List.foldl_cons, List.foldl_nil]
    exact h2

theorem mod4Base_eq (nd : Bool) (a : Nat) (h : a < base <<< 5) : mod4Base nd a = a % base := by
  unfold mod4Base
  cases nd
  · rfl
  · have h2 := subs_eq 5 a h
    simp only [subs] at h2
    simp only [if_true, List.foldl_cons, List.foldl_nil]
    exact h2

theorem joinSums_eq (w : Nat) (hw : 32 ≤ w) (a b : Nat) (ha : a < 65536) (hb : b < 65536) :
    joinSums w a b = b * 65536 + a := by
  have hpow : 2 ^ 32 ≤ 2 ^ w := Nat.pow_le_pow_right (by omega) hw
  unfold joinSums
  have h1 : b <<< 16 = b * 65536 := Nat.shiftLeft_eq b 16
  rw [h1, Nat.mod_eq_of_lt (by omega), Nat.or_comm]
  have := Nat.shiftLeft_add_eq_or_of_lt (i := 16) (b := a) ha b
  rw [h1] at this
  exact this.symm

theorem split_sums (a b : Nat) (ha : a < 65536) (hb : b < 65536) :
    (b * 65536 + a) &&& 0xffff = a ∧ ((b * 65536 + a) >>> 16) &&& 0xffff = b := by
  have e : ∀ n, n &&& 0xffff = n % 65536 := fun n => Nat.and_two_pow_sub_one_eq_mod n 16
  rw [e, e, Nat.shiftRight_eq_div_pow]
  constructor <;> omega

/-! ### What the loops compute -/

/-- The sums of a state and a buffer, reduced. -/
def sums (st : Nat × Nat) (s : Str) : Nat × Nat :=
  ((exact' st s).1 % base, (exact' st s).2 % base)

theorem exact_append (st : Nat × Nat) (s t : Str) : exact' st (s ++ t) = exact' (exact' st s) t := by
  unfold exact'
  rw [List.foldl_append]

theorem sums_mod (a b a' b' : Nat) (ha : a % base = a' % base) (hb : b % base = b' % base) (s : Str) :
    sums (a, b) s = sums (a', b') s := by
  unfold sums
  rw [exact_fst, exact_fst, exact_snd, exact_snd]
  have h1 : (a + sumBytes s) % base = (a' + sumBytes s) % base := Nat.ModEq.add_right _ ha
  have h2 : (b + s.length * a + wsum s) % base = (b' + s.length * a' + wsum s) % base :=
    Nat.ModEq.add_right _ (Nat.ModEq.add hb (Nat.ModEq.mul_left _ ha))
  rw [h1, h2]

theorem sums_append (st : Nat × Nat) (s t : Str) : sums st (s ++ t) = sums (sums st s) t := by
  obtain ⟨a, b⟩ := st
  have h : sums (a, b) (s ++ t) = sums (exact' (a, b) s) t := by
    unfold sums
    rw [exact_append]
  rw [h]
  exact (sums_mod _ _ _ _ (Nat.mod_mod _ _) (Nat.mod_mod _ _) t).symm

theorem do16s_eq (w n : Nat) (st : Nat × Nat) (s : Str) (h : 16 * n ≤ s.length) :
    do16s w n (st, s) = ((s.take (16 * n)).foldl (adlerByte w) st, s.drop (16 * n)) := by
  induction n generalizing st s with
  | zero => simp [do16s]
  | succ n ih =>
    rw [do16s, do16]
    simp only
    rw [ih _ _ (by rw [List.length_drop]; omega), ← List.foldl_append, List.drop_drop]
    congr 2
    · rw [← List.take_add]
      congr 1
      omega
    · omega

theorem base_lt : base < 65536 := by decide

theorem base_pos : 0 < base := by decide

theorem largeBlocks_eq (nd : Bool) (w : Nat) (hw : 32 ≤ w) (fuel : Nat) (a b : Nat) (s : Str)
    (ha : a < base) (hb : b < base) (hf : s.length ≤ fuel) :
    ∃ a' b' s', largeBlocks nd w fuel ((a, b), s) = ((a', b'), s') ∧ a' < base ∧ b' < base ∧
      s'.length < nmax ∧ sums (a, b) s = sums (a', b') s' := by
  have hbase := base_lt
  induction fuel generalizing a b s with
  | zero => exact ⟨a, b, s, rfl, ha, hb, by unfold nmax; omega, rfl⟩
  | succ fuel ih =>
    rw [largeBlocks]
    by_cases h : s.length ≥ nmax
    · rw [if_pos h]
      have h' : 5552 ≤ s.length := h
      have hlen : (s.take 5552).length = 5552 := by rw [List.length_take]; omega
      simp only [show nmax / 16 = 347 from rfl]
      rw [do16s_eq w 347 (a, b) s (by omega)]
      simp only [show 16 * 347 = 5552 from rfl]
      have hfit := fits_small a b (by omega) (by omega) 5552 (by omega)
      rw [fold_exact w hw a b _ (by rw [hlen]; exact hfit)]
      have e1 : (exact' (a, b) (s.take 5552)).1 < 2 ^ 32 := by
        rw [exact_fst]
        have := sumBytes_le (s.take 5552)
        have := hfit.2
        rw [hlen] at *
        omega
      have e2 : (exact' (a, b) (s.take 5552)).2 < 2 ^ 32 := by
        rw [exact_snd]
        have := wsum_le (s.take 5552)
        have := hfit.1
        rw [hlen] at *
        omega
      rw [modBase_eq nd _ e1, modBase_eq nd _ e2]
      have hsp : s = s.take 5552 ++ s.drop 5552 := (List.take_append_drop _ _).symm
      obtain ⟨a', b', s', h1, h2, h3, h4, h5⟩ := ih _ _ (s.drop 5552)
        (Nat.mod_lt (exact' (a, b) (s.take 5552)).1 base_pos)
        (Nat.mod_lt (exact' (a, b) (s.take 5552)).2 base_pos)
        (by rw [List.length_drop]; omega)
      refine ⟨a', b', s', h1, h2, h3, h4, ?_⟩
      rw [← h5]
      conv_lhs => rw [hsp]
      rw [sums_append]
      rfl
    · rw [if_neg h]
      exact ⟨a, b, s, rfl, ha, hb, by simpa using h, rfl⟩

theorem smallBlocks_eq (w : Nat) (fuel : Nat) (st : Nat × Nat) (s : Str) :
    (smallBlocks w fuel (st, s)).2.foldl (adlerByte w) (smallBlocks w fuel (st, s)).1 =
      s.foldl (adlerByte w) st := by
  induction fuel generalizing st s with
  | zero => rfl
  | succ fuel ih =>
    rw [smallBlocks]
    split
    · rw [do16]
      simp only
      rw [ih, ← List.foldl_append, List.take_append_drop]
    · rfl

theorem exact_lt (a b : Nat) (s : Str) (h : Fits a b s.length) :
    (exact' (a, b) s).1 < 2 ^ 32 ∧ (exact' (a, b) s).2 < 2 ^ 32 := by
  constructor
  · rw [exact_fst]
    have := sumBytes_le s
    have := h.2
    omega
  · rw [exact_snd]
    have := wsum_le s
    have := h.1
    omega

/-- What `adler32` computes. -/
theorem adlerBuf_eq (nd : Bool) (w : Nat) (hw : 32 ≤ w) (a b : Nat) (s : Str)
    (ha : a < base) (hb : b < base) :
    adlerBuf nd w (b * 65536 + a) s = (sums (a, b) s).2 * 65536 + (sums (a, b) s).1 := by
  have hbase := base_lt
  have hpow : 2 ^ 32 ≤ 2 ^ w := Nat.pow_le_pow_right (by omega) hw
  obtain ⟨hs1, hs2⟩ := split_sums a b (by omega) (by omega)
  have hlt1 : ∀ s, (sums (a, b) s).1 < 65536 :=
    fun s => Nat.lt_trans (Nat.mod_lt _ base_pos) hbase
  have hlt2 : ∀ s, (sums (a, b) s).2 < 65536 :=
    fun s => Nat.lt_trans (Nat.mod_lt _ base_pos) hbase
  unfold adlerBuf
  rw [hs1, hs2]
  simp only
  split
  · rename_i x
    have hx := x.toNat_lt
    have e1 : addW w a x.toNat = a + x.toNat := Nat.mod_eq_of_lt (by omega)
    rw [e1]
    have e2 : (if a + x.toNat ≥ base then a + x.toNat - base else a + x.toNat) =
        (a + x.toNat) % base := by
      have hx2 : a + x.toNat < 2 * base := by unfold base at *; omega
      split
      · rename_i h
        rw [Nat.mod_eq_sub_mod h, Nat.mod_eq_of_lt (by omega)]
      · rename_i h
        rw [Nat.mod_eq_of_lt (by omega)]
    rw [e2]
    have hm : (a + x.toNat) % base < base := Nat.mod_lt _ base_pos
    have e3 : addW w b ((a + x.toNat) % base) = b + (a + x.toNat) % base :=
      Nat.mod_eq_of_lt (by omega)
    rw [e3]
    have e4 : (if b + (a + x.toNat) % base ≥ base then b + (a + x.toNat) % base - base
        else b + (a + x.toNat) % base) = (b + (a + x.toNat)) % base := by
      rw [show (b + (a + x.toNat)) % base = (b + (a + x.toNat) % base) % base by simp]
      generalize (a + x.toNat) % base = m at hm
      split
      · rename_i h
        rw [Nat.mod_eq_sub_mod h, Nat.mod_eq_of_lt (by omega)]
      · rename_i h
        rw [Nat.mod_eq_of_lt (by omega)]
    rw [e4, joinSums_eq w hw _ _ (by omega)
      (Nat.lt_trans (Nat.mod_lt _ base_pos) hbase)]
    rfl
  · split
    · rename_i h16
      have hfit := fits_small a b (by omega) (by omega) s.length (by omega)
      rw [fold_exact w hw a b s hfit]
      have e1 : (if (exact' (a, b) s).1 ≥ base then (exact' (a, b) s).1 - base
          else (exact' (a, b) s).1) = (sums (a, b) s).1 := by
        unfold sums
        simp only
        have := exact_fst a b s
        have := sumBytes_le s
        have hx2 : (exact' (a, b) s).1 < 2 * base := by unfold base at *; omega
        split
        · rename_i h
          rw [Nat.mod_eq_sub_mod h, Nat.mod_eq_of_lt (by omega)]
        · rename_i h
          rw [Nat.mod_eq_of_lt (by omega)]
      rw [e1, mod4Base_eq]
      · exact joinSums_eq w hw _ _ (hlt1 s) (hlt2 s)
      · rw [exact_snd]
        have h1 := wsum_le s
        have h2 : s.length * (s.length + 1) ≤ 15 * 16 := Nat.mul_le_mul (by omega) (by omega)
        have h3 : s.length * a ≤ 15 * 65535 := Nat.mul_le_mul (by omega) (by omega)
        rw [show base <<< 5 = 2096672 from rfl]
        omega
    · rename_i h16
      obtain ⟨a', b', s', h1, h2, h3, h4, h5⟩ :=
        largeBlocks_eq nd w hw s.length a b s ha hb (Nat.le_refl _)
      rw [h1]
      simp only
      split
      · rw [smallBlocks_eq]
        have hfit := fits_small a' b' (by omega) (by omega) s'.length
          (by unfold nmax at h4; omega)
        rw [fold_exact w hw a' b' s' hfit]
        obtain ⟨l1, l2⟩ := exact_lt a' b' s' hfit
        rw [modBase_eq nd _ l1, modBase_eq nd _ l2]
        have := joinSums_eq w hw (sums (a', b') s').1 (sums (a', b') s').2
          (by rw [← h5]; exact hlt1 s) (by rw [← h5]; exact hlt2 s)
        rw [h5, ← this]
        rfl
      · rename_i hne
        have : s' = [] := List.eq_nil_of_length_eq_zero (by simpa using hne)
        subst this
        have h6 : sums (a', b') [] = (a', b') := by
          unfold sums exact'
          simp [Nat.mod_eq_of_lt h2, Nat.mod_eq_of_lt h3]
        rw [h5, h6]
        exact joinSums_eq w hw a' b' (by omega) (by omega)

/-! ### The specification -/

theorem sum_map_add (l : List Nat) (c : Nat) (f : Nat → Nat) :
    (l.map fun i => c + f i).sum = l.length * c + (l.map f).sum := by
  induction l with
  | nil => simp
  | cons x l ih =>
    simp only [List.map_cons, List.sum_cons, ih, List.length_cons]
    ring

theorem prefix_sums (c : Nat) (s : Str) :
    ((List.range s.length).map fun i => c + sumBytes (s.take (i + 1))).sum = s.length * c + wsum s := by
  induction s generalizing c with
  | nil => simp [wsum]
  | cons x s ih =>
    rw [List.length_cons, List.range_succ_eq_map, List.map_cons, List.sum_cons, List.map_map]
    have : ((List.range s.length).map ((fun i => c + sumBytes ((x :: s).take (i + 1))) ∘ Nat.succ)) =
        (List.range s.length).map fun i => (c + x.toNat) + sumBytes (s.take (i + 1)) := by
      refine List.map_congr_left fun i _ => ?_
      simp only [Function.comp, Nat.succ_eq_add_one, List.take_succ_cons, sumBytes_cons]
      omega
    rw [this, ih, wsum]
    simp [sumBytes_cons, sumBytes]
    ring

theorem secondSum_eq (s : Str) : secondSum s = (s.length + wsum s) % 65521 := by
  unfold secondSum
  rw [prefix_sums]
  simp

theorem sums_spec (s : Str) : sums (1, 0) s = (firstSum s, secondSum s) := by
  unfold sums
  rw [exact_fst, exact_snd, secondSum_eq]
  simp [firstSum, base]

end Verif.Zlib
