import Verif.Md5.Block
import Mathlib.Data.List.Forall2

/-!
What the members of `MD5` mean after a message has been fed.
-/
set_option linter.unusedVariables false
set_option linter.unusedSimpArgs false

namespace Verif.Md5
open Verif

def start : Regs := ⟨0x67452301, 0xefcdab89, 0x98badcfe, 0x10325476⟩

/-- The first `n` blocks of a message. -/
def fold (m : Str) (n : Nat) : Regs := (List.range n).foldl (fun r i => transform r ((m.drop (64 * i)).take 64)) start

theorem fold_succ (m : Str) (n : Nat) : fold m (n + 1) = transform (fold m n) ((m.drop (64 * n)).take 64) := by
  unfold fold
  rw [List.range_succ, List.foldl_append]
  rfl

theorem fold_append {m : Str} {n : Nat} (l : Str) (h : 64 * n ≤ m.length) : fold (m ++ l) n = fold m n := by
  induction n with
  | zero => simp [fold]
  | succ n ih =>
    rw [fold_succ, fold_succ, ih (by omega), List.drop_append_of_le_length (by omega), List.take_append_of_le_length (by simp; omega)]

theorem fold_blocks {m : Str} {n : Nat} (h : 64 * n ≤ m.length) : (fold m n).v0 = Spec.blocks m n := by
  induction n with
  | zero =>
    have e : Spec.blocks m 0 = start.v0 := by
      unfold Spec.blocks
      simp only [List.range_zero, List.foldl_nil]
      decide +kernel
    rw [e]; simp [fold]
  | succ n ih =>
    have e : Spec.blocks m (n + 1) = Spec.block (Spec.blocks m n) (Spec.wordAt m n) := by
      unfold Spec.blocks
      rw [List.range_succ, List.foldl_append]
      rfl
    rw [fold_succ, transform_eq, ih (by omega), e]
    exact block_congr (fun j hj => decode_wordAt hj (by omega)) _

/-- The message `w` has been fed. -/
structure Fed (m : Md5) (w : Str) : Prop where
  open_ : m.finalized = false
  buffer : m.buffer.length = 64
  count : m.lo.toNat + 2 ^ 32 * m.hi.toNat = 8 * w.length % 2 ^ 64
  state : m.state = fold w (w.length / 64)
  rest : m.buffer.take (w.length % 64) = w.drop (64 * (w.length / 64))

theorem fed_init {buffer digest : Str} (h : buffer.length = 64) : Fed (init buffer digest) [] := by
  refine ⟨rfl, h, rfl, rfl, by simp⟩

theorem copyTo_length {b p : Str} {i : Nat} (h : i + p.length ≤ b.length) : (copyTo b i p).length = b.length := by
  simp [copyTo]; omega

theorem copyTo_take {b p : Str} {i : Nat} (h : i ≤ b.length) : (copyTo b i p).take (i + p.length) = b.take i ++ p := by
  unfold copyTo
  exact List.take_left' (by simp; omega)

theorem index_eq {m : Md5} {w : Str} (h : Fed m w) : m.lo.toNat / 8 % 64 = w.length % 64 := by
  have h1 := h.count
  have h2 := m.lo.isLt
  omega

/-- The counter. -/
theorem counted_eq {m : Md5} {w : Str} (h : Fed m w) {length : Word} :
    (counted m length).lo.toNat + 2 ^ 32 * (counted m length).hi.toNat = 8 * (w.length + length.toNat) % 2 ^ 64 := by
  have h1 := h.count
  have h2 := m.lo.isLt
  have h3 := m.hi.isLt
  have h4 := length.isLt
  have e1 : (length <<< 3).toNat = 8 * length.toNat % 2 ^ 32 := by
    rw [BitVec.toNat_shiftLeft, Nat.shiftLeft_eq]; congr 1; omega
  have e2 : (length >>> 29).toNat = length.toNat / 2 ^ 29 := by
    rw [BitVec.toNat_ushiftRight, Nat.shiftRight_eq_div_pow]
  have e3 : (counted m length).lo.toNat = (m.lo.toNat + 8 * length.toNat % 2 ^ 32) % 2 ^ 32 := by
    simp only [counted, BitVec.toNat_add, e1]
  have e4 : (counted m length).hi.toNat =
      ((if (m.lo.toNat + 8 * length.toNat % 2 ^ 32) % 2 ^ 32 < 8 * length.toNat % 2 ^ 32 then (m.hi.toNat + 1) % 2 ^ 32 else m.hi.toNat) + length.toNat / 2 ^ 29) % 2 ^ 32 := by
    simp only [counted, BitVec.toNat_add, e2, BitVec.lt_def, e1]
    split <;> simp [BitVec.toNat_add]
  rw [e3, e4]
  split <;> omega

/-- The blocks taken from the input. -/
theorem chunks_ok {w input : Str} {length : Word} (hl : length.toNat ≤ input.length) (hs : length.toNat + 64 < 2 ^ 32) {first : Nat}
    (hf : (w.length + first) % 64 = 0) :
    ∀ (n : Nat) (i : Word) (r : Regs), first ≤ i.toNat → (i.toNat - first) % 64 = 0 → i.toNat ≤ length.toNat → length.toNat < i.toNat + 64 * n →
      r = fold (w ++ input.take length.toNat) ((w.length + i.toNat) / 64) →
      ∃ i' r', chunks input length n i r = some (r', i') ∧ first ≤ i'.toNat ∧ (i'.toNat - first) % 64 = 0 ∧ i'.toNat ≤ length.toNat ∧
        length.toNat < i'.toNat + 64 ∧ r' = fold (w ++ input.take length.toNat) ((w.length + i'.toNat) / 64) := by
  intro n
  induction n with
  | zero => intro i r h1 h2 h3 h4; omega
  | succ n ih =>
    intro i r h1 h2 h3 h4 h5
    have hadd : (i + 64).toNat = i.toNat + 64 := by
      rw [BitVec.toNat_add, show (64 : Word).toNat = 64 from rfl, Nat.mod_eq_of_lt (by omega)]
    unfold chunks
    by_cases hc : i.toNat + 64 ≤ length.toNat
    · rw [if_pos (by rw [BitVec.le_def, hadd]; exact hc), if_pos (by omega)]
      have hdiv : (w.length + i.toNat) / 64 + 1 = (w.length + (i + 64).toNat) / 64 := by rw [hadd]; omega
      have hblock : ((w ++ input.take length.toNat).drop (64 * ((w.length + i.toNat) / 64))).take 64 = (input.drop i.toNat).take 64 := by
        have : 64 * ((w.length + i.toNat) / 64) = w.length + i.toNat := by omega
        rw [this, List.drop_append, List.drop_eq_nil_of_le (by omega), List.nil_append, Nat.add_sub_cancel_left, List.drop_take, List.take_take,
          Nat.min_eq_left (by omega)]
      refine ih (i + 64) _ (by omega) (by omega) (by omega) (by omega) ?_
      rw [← hdiv, fold_succ, hblock, h5]
    · rw [if_neg (by rw [BitVec.le_def, hadd]; exact hc)]
      exact ⟨i, r, rfl, h1, h2, h3, by omega, h5⟩

theorem update_ok {m : Md5} {w input : Str} {length : Word} (h : Fed m w) (hl : length.toNat ≤ input.length) (hs : length.toNat + 64 < 2 ^ 32) :
    ∃ m', update m input length = some m' ∧ Fed m' (w ++ input.take length.toNat) ∧ m'.digest = m.digest := by
  have hidx := index_eq h
  have hcount := counted_eq h (length := length)
  have hwl : (w ++ input.take length.toNat).length = w.length + length.toNat := by simp; omega
  unfold update
  simp only [hidx]
  by_cases hc : length.toNat ≥ 64 - w.length % 64
  · rw [if_pos hc, if_pos (by omega)]
    have hb0 : (copyTo m.buffer (w.length % 64) (input.take (64 - w.length % 64))) = w.drop (64 * (w.length / 64)) ++ input.take (64 - w.length % 64) := by
      unfold copyTo
      have hd : m.buffer.drop (w.length % 64 + (input.take (64 - w.length % 64)).length) = [] :=
        List.drop_eq_nil_of_le (by rw [h.buffer]; simp; omega)
      rw [h.rest, hd, List.append_nil]
    have hfirst : fold (w ++ input.take length.toNat) ((w.length + (64 - w.length % 64)) / 64) =
        transform m.state (copyTo m.buffer (w.length % 64) (input.take (64 - w.length % 64))) := by
      have e : (w.length + (64 - w.length % 64)) / 64 = w.length / 64 + 1 := by omega
      rw [e, fold_succ, fold_append _ (by omega), ← h.state, hb0]
      congr 1
      rw [List.drop_append_of_le_length (by omega), List.take_append, List.take_of_length_le (by simp; omega)]
      congr 1
      rw [List.take_take]
      congr 1
      simp
      omega
    have hlen : (BitVec.ofNat 32 (64 - w.length % 64)).toNat = 64 - w.length % 64 := by
      rw [BitVec.toNat_ofNat, Nat.mod_eq_of_lt (by omega)]
    obtain ⟨i', r', h1, h2, h3, h4, h5, h6⟩ := chunks_ok (w := w) hl hs (first := 64 - w.length % 64) (by omega) (input.length + 1)
      (BitVec.ofNat 32 (64 - w.length % 64)) (transform m.state (copyTo m.buffer (w.length % 64) (input.take (64 - w.length % 64)))) (by rw [hlen]) (by rw [hlen]; simp) (by rw [hlen]; omega) (by rw [hlen]; omega)
      (by rw [hlen]; exact hfirst.symm)
    have hst : (counted m length).buffer = m.buffer ∧ (counted m length).state = m.state ∧ (counted m length).finalized = m.finalized ∧
        (counted m length).digest = m.digest := ⟨rfl, rfl, rfl, rfl⟩
    rw [hst.1, hst.2.1, h1]
    have hsub : (length - i').toNat = length.toNat - i'.toNat := by
      rw [BitVec.toNat_sub]; have := i'.isLt; omega
    simp only [hsub]
    rw [if_pos (by omega)]
    have hbl : (copyTo m.buffer (w.length % 64) (input.take (64 - w.length % 64))).length = 64 := by
      rw [copyTo_length (by rw [h.buffer]; simp; omega), h.buffer]
    have hpl : ((input.drop i'.toNat).take (length.toNat - i'.toNat)).length = length.toNat - i'.toNat := by simp; omega
    refine ⟨_, rfl, ⟨h.open_, ?_, ?_, ?_, ?_⟩, rfl⟩
    · rw [copyTo_length (by rw [hpl, hbl]; omega), hbl]
    · rw [hwl]; exact hcount
    · have e0 : (w.length + i'.toNat) / 64 = (w.length + length.toNat) / 64 := by omega
      rw [hwl, ← e0]
      exact h6
    · rw [hwl]
      have e1 : (w.length + length.toNat) % 64 = 0 + ((input.drop i'.toNat).take (length.toNat - i'.toNat)).length := by rw [hpl]; omega
      have e2 : 64 * ((w.length + length.toNat) / 64) = w.length + i'.toNat := by omega
      have e3 : w.drop (w.length + i'.toNat) = [] := List.drop_eq_nil_of_le (by omega)
      rw [e1, copyTo_take (by omega), e2, List.drop_append, e3, List.nil_append, Nat.add_sub_cancel_left, List.drop_take]
      simp
  · rw [if_neg hc, if_pos hl]
    have hbuf : (counted m length).buffer = m.buffer := rfl
    have hpl : (input.take length.toNat).length = length.toNat := by simp; omega
    have hdiv : (w.length + length.toNat) / 64 = w.length / 64 := by omega
    refine ⟨_, rfl, ⟨h.open_, ?_, ?_, ?_, ?_⟩, rfl⟩
    · rw [hbuf, copyTo_length (by rw [hpl, h.buffer]; omega), h.buffer]
    · rw [hwl]; exact hcount
    · rw [hwl, hdiv, fold_append _ (by omega)]; exact h.state
    · rw [hwl, hdiv, hbuf, show (w.length + length.toNat) % 64 = w.length % 64 + (input.take length.toNat).length by rw [hpl]; omega,
        copyTo_take (by rw [h.buffer]; omega), h.rest, List.drop_append_of_le_length (by omega)]

theorem v0_fields (r : Regs) {a b c d : Word} (h : r.v0 = (a, b, c, d)) : r.a = a ∧ r.b = b ∧ r.c = c ∧ r.d = d := by
  simpa [Regs.v0] using h

theorem finalize_ok {m : Md5} {w : Str} (h : Fed m w) :
    ∃ m', finalize m = some m' ∧ m'.finalized = true ∧ m'.digest = Spec.digest w := by
  have hidx := index_eq h
  unfold finalize
  rw [h.open_]
  simp only [hidx, Bool.false_eq_true, if_false]
  have hpad : ∀ n, (BitVec.ofNat 32 (if n % 64 < 56 then 56 - n % 64 else 120 - n % 64)).toNat = (119 - n % 64) % 64 + 1 := by
    intro n
    rw [BitVec.toNat_ofNat]
    split <;> omega
  have hp := hpad w.length
  obtain ⟨m1, h1, h2, _⟩ := update_ok (input := 0x80 :: List.replicate 63 0)
    (length := BitVec.ofNat 32 (if w.length % 64 < 56 then 56 - w.length % 64 else 120 - w.length % 64)) h (by rw [hp]; simp; omega) (by rw [hp]; omega)
  have htake : (0x80 :: List.replicate 63 0 : Str).take ((119 - w.length % 64) % 64 + 1) = [0x80] ++ List.replicate ((119 - w.length % 64) % 64) 0 := by
    rw [List.take_succ_cons, List.take_replicate, Nat.min_eq_left (by omega)]
    rfl
  rw [hp, htake] at h2
  have hbits : (encodeWord m.lo ++ encodeWord m.hi) = Spec.littleEndian 8 (8 * w.length % 2 ^ 64) := bits_eq h.count
  obtain ⟨m2, h3, h4, _⟩ := update_ok (input := encodeWord m.lo ++ encodeWord m.hi) (length := 8) h2 (by rw [hbits, littleEndian_length]; decide) (by decide)
  rw [h1]
  dsimp only
  rw [h3]
  refine ⟨_, rfl, rfl, ?_⟩
  have hpd : w ++ ([0x80] ++ List.replicate ((119 - w.length % 64) % 64) 0) ++ (encodeWord m.lo ++ encodeWord m.hi).take (8 : Word).toNat = Spec.padded w := by
    rw [hbits, List.take_of_length_le (by rw [littleEndian_length]; decide)]
    simp [Spec.padded]
  rw [hpd] at h4
  have hst := h4.state
  have hv := fold_blocks (m := Spec.padded w) (n := (Spec.padded w).length / 64) (by omega)
  rw [← hst] at hv
  unfold Spec.digest
  simp only
  cases hb : Spec.blocks (Spec.padded w) ((Spec.padded w).length / 64) with
  | mk a t =>
    obtain ⟨b, c, d⟩ := t
    rw [hb] at hv
    obtain ⟨e1, e2, e3, e4⟩ := v0_fields _ hv
    simp only [e1, e2, e3, e4, encode_eq]

/-! ## Digits -/

theorem hexDigit_ok {n : Nat} (h : n < 16) : Spec.Digit (hexDigit n) n := by
  have : ∀ k : Fin 16, Spec.Digit (hexDigit k.1) k.1 := by unfold Spec.Digit; decide +kernel
  exact this ⟨n, h⟩

theorem hex_ok (l : Str) : Spec.Hex l (l.flatMap (fun b => [hexDigit (b.toNat / 16), hexDigit (b.toNat % 16)])) := by
  induction l with
  | nil => exact .nil
  | cons b l ih =>
    have := b.toNat_lt
    exact .cons (hexDigit_ok (by omega)) (hexDigit_ok (by omega)) (by omega) ih

theorem digit_unique {b : Byte} {x y : Nat} (h : Spec.Digit b x) (h' : Spec.Digit b y) : x = y := by
  unfold Spec.Digit at h h'
  omega

theorem digit_same {b c : Byte} {x : Nat} (h : Spec.Digit b x) (h' : Spec.Digit c x) : b = c := by
  apply UInt8.toNat_inj.1
  unfold Spec.Digit at h h'
  omega

/-- Hexadecimal digits tell the bytes. -/
theorem hex_unique {l l' s : Str} (h : Spec.Hex l s) (h' : Spec.Hex l' s) : l = l' := by
  induction h generalizing l' with
  | nil => cases h'; rfl
  | cons a b c d ih =>
    cases h' with
    | cons a' b' c' d' =>
      have e : _ = _ := UInt8.toNat_inj.1 (c.trans (by rw [digit_unique a a', digit_unique b b', c']))
      rw [ih d', e]

theorem hex_function {l s s' : Str} (h : Spec.Hex l s) (h' : Spec.Hex l s') : s = s' := by
  induction h generalizing s' with
  | nil => cases h'; rfl
  | @cons b h l bs s x y a b' c d ih =>
    cases h' with
    | @cons _ h2 l2 _ s2 x2 y2 a2 b2 c2 d2 =>
      have hx : x < 16 := by unfold Spec.Digit at a; omega
      have hy : y < 16 := by unfold Spec.Digit at b'; omega
      have hx2 : x2 < 16 := by unfold Spec.Digit at a2; omega
      have hy2 : y2 < 16 := by unfold Spec.Digit at b2; omega
      have e1 : x = x2 := by omega
      have e2 : y = y2 := by omega
      subst e1; subst e2
      rw [ih d2, digit_same a a2, digit_same b' b2]

end Verif.Md5
