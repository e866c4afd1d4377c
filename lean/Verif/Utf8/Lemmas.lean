import Verif.Utf8.Model
import Verif.Utf8.Spec

/-! Helper lemmas for `Props.lean`. -/
set_option linter.unusedSimpArgs false
set_option linter.unusedVariables false

namespace Verif.Utf8
open Verif

theorem toNat_ofNat (n : Nat) : (UInt8.ofNat n).toNat = n % 256 := by
  simp

theorem byte_ext {a b : Byte} (h : a.toNat = b.toNat) : a = b := UInt8.toNat_inj.1 h

theorem byte_eq (n : Nat) (b : Byte) (h : n = b.toNat) : Spec.byte n = b := by
  subst h; simp [Spec.byte]

theorem byte_lt (b : Byte) : b.toNat < 256 := UInt8.toNat_lt b

theorem isTrail_iff (b : Byte) : isTrail b = true ↔ 128 ≤ b.toNat ∧ b.toNat < 192 := by
  simp only [isTrail, beq_iff_eq, Nat.shiftRight_eq_div_pow]
  omega

theorem seqLen_1 (b : Byte) : sequenceLength b = 1 ↔ b.toNat < 128 := by
  simp only [sequenceLength, Nat.shiftRight_eq_div_pow]
  repeat' split
  all_goals omega

theorem seqLen_2 (b : Byte) : sequenceLength b = 2 ↔ 192 ≤ b.toNat ∧ b.toNat < 224 := by
  simp only [sequenceLength, Nat.shiftRight_eq_div_pow]
  repeat' split
  all_goals omega

theorem seqLen_3 (b : Byte) : sequenceLength b = 3 ↔ 224 ≤ b.toNat ∧ b.toNat < 240 := by
  simp only [sequenceLength, Nat.shiftRight_eq_div_pow]
  repeat' split
  all_goals omega

theorem seqLen_4 (b : Byte) : sequenceLength b = 4 ↔ 240 ≤ b.toNat ∧ b.toNat < 248 := by
  simp only [sequenceLength, Nat.shiftRight_eq_div_pow]
  repeat' split
  all_goals omega

theorem seqLen_0 (b : Byte) :
    sequenceLength b = 0 ↔ (128 ≤ b.toNat ∧ b.toNat < 192) ∨ 248 ≤ b.toNat := by
  have := byte_lt b
  simp only [sequenceLength, Nat.shiftRight_eq_div_pow]
  repeat' split
  all_goals omega

theorem seqLen_le (b : Byte) : sequenceLength b ≤ 4 := by
  simp only [sequenceLength]
  repeat' split
  all_goals omega

theorem and_3f (n : Nat) : n &&& 0x3f = n % 64 := Nat.and_two_pow_sub_one_eq_mod n 6
theorem and_3ff (n : Nat) : n &&& 0x3ff = n % 1024 := Nat.and_two_pow_sub_one_eq_mod n 10
theorem and_7ff (n : Nat) : n &&& 0x7ff = n % 2048 := Nat.and_two_pow_sub_one_eq_mod n 11
theorem and_fff (n : Nat) : n &&& 0xfff = n % 4096 := Nat.and_two_pow_sub_one_eq_mod n 12
theorem and_ffff (n : Nat) : n &&& 0xffff = n % 65536 := Nat.and_two_pow_sub_one_eq_mod n 16
theorem and_3ffff (n : Nat) : n &&& 0x3ffff = n % 262144 := Nat.and_two_pow_sub_one_eq_mod n 18
theorem and_1fffff (n : Nat) : n &&& 0x1fffff = n % 2097152 := Nat.and_two_pow_sub_one_eq_mod n 21

theorem or_80 (n : Nat) (h : n < 64) : n ||| 0x80 = 128 + n := by
  have : ∀ n < 64, n ||| 0x80 = 128 + n := by decide
  exact this n h
theorem or_c0 (n : Nat) (h : n < 32) : n ||| 0xc0 = 192 + n := by
  have : ∀ n < 32, n ||| 0xc0 = 192 + n := by decide
  exact this n h
theorem or_e0 (n : Nat) (h : n < 16) : n ||| 0xe0 = 224 + n := by
  have : ∀ n < 16, n ||| 0xe0 = 224 + n := by decide
  exact this n h
theorem or_f0 (n : Nat) (h : n < 8) : n ||| 0xf0 = 240 + n := by
  have : ∀ n < 8, n ||| 0xf0 = 240 + n := by decide
  exact this n h

theorem append_eq_encode (cp : Nat) (h : cp < 0x200000) : append cp = Spec.encode cp := by
  simp only [append, Spec.encode, toByte, Spec.byte, and_3f, Nat.shiftRight_eq_div_pow]
  repeat' split
  · rfl
  · rw [or_c0 _ (by omega), or_80 _ (by omega)]
  · rw [or_e0 _ (by omega), or_80 _ (by omega), or_80 _ (by omega)]
  · rw [or_f0 _ (by omega), or_80 _ (by omega), or_80 _ (by omega), or_80 _ (by omega)]

theorem isCodePointValid_iff (cp : Nat) : isCodePointValid cp = true ↔ Spec.Scalar cp := by
  simp [isCodePointValid, isSurrogate, Spec.Scalar]
  omega

/-- The decoder on the standard encoding of any code point below 2^21. -/
theorem next_encode (cp : Nat) (h : cp < 0x200000) (rest : Str) :
    next (Spec.encode cp ++ rest) = some (cp, rest) := by
  unfold Spec.encode
  have tb : ∀ n, n < 256 → (Spec.byte n).toNat = n := by
    intro n hn; simp only [Spec.byte, toNat_ofNat]; omega
  repeat' split
  · have : sequenceLength (Spec.byte cp) = 1 := by rw [seqLen_1, tb _ (by omega)]; omega
    simp [next, this, tb cp (by omega)]
  · have : sequenceLength (Spec.byte (192 + cp / 64)) = 2 := by
      rw [seqLen_2, tb _ (by omega)]; omega
    simp only [next, this, List.cons_append, List.nil_append, and_7ff, and_3f,
      Nat.shiftLeft_eq]
    rw [tb _ (by omega), tb _ (by omega)]
    congr 2; omega
  · have : sequenceLength (Spec.byte (224 + cp / 4096)) = 3 := by
      rw [seqLen_3, tb _ (by omega)]; omega
    simp only [next, this, List.cons_append, List.nil_append, and_ffff, and_3f, and_fff,
      Nat.shiftLeft_eq]
    rw [tb _ (by omega), tb _ (by omega), tb _ (by omega)]
    congr 2; omega
  · have : sequenceLength (Spec.byte (240 + cp / 262144)) = 4 := by
      rw [seqLen_4, tb _ (by omega)]; omega
    simp only [next, this, List.cons_append, List.nil_append, and_1fffff, and_3f, and_fff,
      and_3ffff, Nat.shiftLeft_eq]
    rw [tb _ (by omega), tb _ (by omega), tb _ (by omega), tb _ (by omega)]
    congr 2; omega

/-- The checked decoder accepts exactly the encodings of scalar values. -/
theorem validateNext_iff (s : Str) (cp : Nat) (rest : Str) :
    validateNext s = .ok (cp, rest) ↔ Spec.Scalar cp ∧ s = Spec.encode cp ++ rest := by
  have tb : ∀ n, n < 256 → (Spec.byte n).toNat = n := by
    intro n hn; simp only [Spec.byte, toNat_ofNat]; omega
  constructor
  · intro h
    match s with
    | [] => simp [validateNext] at h
    | b0 :: s =>
      have hb0 := byte_lt b0
      unfold validateNext at h
      dsimp only at h
      split at h
      · simp at h
      rename_i hl0
      split at h
      · simp at h
      rename_i cp' rest' hs
      split at h
      · rename_i hv
        split at h
        · simp at h
        · rename_i ho
          simp only [Except.ok.injEq, Prod.mk.injEq] at h
          obtain ⟨rfl, rfl⟩ := h
          rw [isCodePointValid_iff] at hv
          refine ⟨hv, ?_⟩
          have hle := seqLen_le b0
          have hc : sequenceLength b0 = 1 ∨ sequenceLength b0 = 2 ∨ sequenceLength b0 = 3 ∨
              sequenceLength b0 = 4 := by omega
          rcases hc with hc | hc | hc | hc
          · rw [hc] at hs
            simp only [getSequence, getSequence1, Except.ok.injEq, Prod.mk.injEq] at hs
            obtain ⟨rfl, rfl⟩ := hs
            have := (seqLen_1 b0).1 hc
            simp [Spec.encode, this, byte_eq _ b0 rfl]
          · rw [hc] at hs ho
            have h0 := (seqLen_2 b0).1 hc
            simp only [getSequence, getSequence2] at hs
            split at hs
            · rename_i b0' b1 s' heq
              simp only [List.cons.injEq] at heq
              obtain ⟨rfl, rfl⟩ := heq
              split at hs
              · rename_i ht
                rw [isTrail_iff] at ht
                simp only [Except.ok.injEq, Prod.mk.injEq, and_7ff, and_3f,
                  Nat.shiftLeft_eq] at hs
                obtain ⟨rfl, rfl⟩ := hs
                simp only [isOverlong] at ho
                unfold Spec.encode
                repeat' split at ho
                all_goals (try simp at ho)
                · rw [if_neg (by omega), if_pos (by omega)]
                  rw [byte_eq _ b0 (by omega), byte_eq _ b1 (by omega)]; rfl
                · omega
              · simp at hs
            · simp at hs
          · rw [hc] at hs ho
            have h0 := (seqLen_3 b0).1 hc
            simp only [getSequence, getSequence3] at hs
            split at hs
            · rename_i b0' b1 s' heq
              simp only [List.cons.injEq] at heq
              obtain ⟨rfl, rfl⟩ := heq
              split at hs
              · rename_i ht
                rw [isTrail_iff] at ht
                split at hs
                · rename_i b2 s''
                  split at hs
                  · rename_i ht2
                    rw [isTrail_iff] at ht2
                    simp only [Except.ok.injEq, Prod.mk.injEq, and_ffff, and_3f, and_fff,
                      Nat.shiftLeft_eq] at hs
                    obtain ⟨rfl, rfl⟩ := hs
                    simp only [isOverlong] at ho
                    unfold Spec.encode
                    repeat' split at ho
                    all_goals (try simp at ho)
                    · rw [if_neg (by omega), if_neg (by omega), if_pos (by omega)]
                      rw [byte_eq _ b0 (by omega), byte_eq _ b1 (by omega),
                        byte_eq _ b2 (by omega)]; rfl
                    · omega
                  · simp at hs
                · simp at hs
              · simp at hs
            · simp at hs
          · rw [hc] at hs ho
            have h0 := (seqLen_4 b0).1 hc
            simp only [getSequence, getSequence4] at hs
            split at hs
            · rename_i b0' b1 s' heq
              simp only [List.cons.injEq] at heq
              obtain ⟨rfl, rfl⟩ := heq
              split at hs
              · rename_i ht
                rw [isTrail_iff] at ht
                split at hs
                · rename_i b2 s''
                  split at hs
                  · rename_i ht2
                    rw [isTrail_iff] at ht2
                    split at hs
                    · rename_i b3 s'''
                      split at hs
                      · rename_i ht3
                        rw [isTrail_iff] at ht3
                        simp only [Except.ok.injEq, Prod.mk.injEq, and_1fffff, and_3f, and_fff,
                          and_3ffff, Nat.shiftLeft_eq] at hs
                        obtain ⟨rfl, rfl⟩ := hs
                        simp only [isOverlong] at ho
                        unfold Spec.encode
                        repeat' split at ho
                        all_goals (try simp at ho)
                        rw [if_neg (by omega), if_neg (by omega), if_neg (by omega)]
                        rw [byte_eq _ b0 (by omega), byte_eq _ b1 (by omega),
                          byte_eq _ b2 (by omega), byte_eq _ b3 (by omega)]; rfl
                      · simp at hs
                    · simp at hs
                  · simp at hs
                · simp at hs
              · simp at hs
            · simp at hs
      · simp at h
  · rintro ⟨hv, rfl⟩
    have hv' := (isCodePointValid_iff cp).2 hv
    have hmax := hv.1
    have ht : ∀ n, isTrail (Spec.byte (128 + n % 64)) = true := by
      intro n; rw [isTrail_iff, tb _ (by omega)]; omega
    unfold Spec.encode
    repeat' split
    · have : sequenceLength (Spec.byte cp) = 1 := by rw [seqLen_1, tb _ (by omega)]; omega
      simp [validateNext, this, tb cp (by omega), getSequence, getSequence1, hv', isOverlong, *]
    · have : sequenceLength (Spec.byte (192 + cp / 64)) = 2 := by
        rw [seqLen_2, tb _ (by omega)]; omega
      simp only [validateNext, this, List.cons_append, List.nil_append, getSequence, getSequence2,
        ht, if_true, and_7ff, and_3f, Nat.shiftLeft_eq]
      rw [tb _ (by omega), tb _ (by omega)]
      have e : (192 + cp / 64) * 2 ^ 6 % 2048 + (128 + cp % 64) % 64 = cp := by omega
      rw [e]
      simp [hv', isOverlong, *]
    · have : sequenceLength (Spec.byte (224 + cp / 4096)) = 3 := by
        rw [seqLen_3, tb _ (by omega)]; omega
      simp only [validateNext, this, List.cons_append, List.nil_append, getSequence, getSequence3,
        ht, if_true, and_ffff, and_3f, and_fff, Nat.shiftLeft_eq]
      rw [tb _ (by omega), tb _ (by omega), tb _ (by omega)]
      have e : (224 + cp / 4096) * 2 ^ 12 % 65536 + (128 + cp / 64 % 64) * 2 ^ 6 % 4096
        + (128 + cp % 64) % 64 = cp := by omega
      rw [e]
      simp [hv', isOverlong, *]
    · have : sequenceLength (Spec.byte (240 + cp / 262144)) = 4 := by
        rw [seqLen_4, tb _ (by omega)]; omega
      simp only [validateNext, this, List.cons_append, List.nil_append, getSequence, getSequence4,
        ht, if_true, and_1fffff, and_3f, and_fff, and_3ffff, Nat.shiftLeft_eq]
      rw [tb _ (by omega), tb _ (by omega), tb _ (by omega), tb _ (by omega)]
      have e : (240 + cp / 262144) * 2 ^ 18 % 2097152 + (128 + cp / 4096 % 64) * 2 ^ 12 % 262144
        + (128 + cp / 64 % 64) * 2 ^ 6 % 4096 + (128 + cp % 64) % 64 = cp := by omega
      rw [e]
      simp [hv', isOverlong, *]

theorem scalar_lt {cp : Nat} (h : Spec.Scalar cp) : cp < 0x200000 := by
  have := h.1; omega

theorem encode_ne_nil (cp : Nat) : Spec.encode cp ≠ [] := by
  unfold Spec.encode; repeat' split
  all_goals simp

theorem encode_shape (cp : Nat) (h : cp < 0x200000) :
    ∃ b t, Spec.encode cp = b :: t ∧ isTrail b = false ∧ (∀ c ∈ t, isTrail c = true) ∧
      sequenceLength b = t.length + 1 := by
  have tb : ∀ n, n < 256 → (Spec.byte n).toNat = n := by
    intro n hn; simp only [Spec.byte, toNat_ofNat]; omega
  have ht : ∀ n, isTrail (Spec.byte (128 + n % 64)) = true := by
    intro n; rw [isTrail_iff, tb _ (by omega)]; omega
  have hf : ∀ n, n < 256 → ¬ (128 ≤ n ∧ n < 192) → isTrail (Spec.byte n) = false := by
    intro n hn hn2
    rw [Bool.eq_false_iff, ne_eq, isTrail_iff, tb _ hn]; exact hn2
  unfold Spec.encode
  repeat' split
  · exact ⟨_, _, rfl, hf _ (by omega) (by omega), by simp,
      by simp; rw [seqLen_1, tb _ (by omega)]; omega⟩
  · exact ⟨_, _, rfl, hf _ (by omega) (by omega), by simp [ht],
      by simp; rw [seqLen_2, tb _ (by omega)]; omega⟩
  · exact ⟨_, _, rfl, hf _ (by omega) (by omega), by simp [ht],
      by simp; rw [seqLen_3, tb _ (by omega)]; omega⟩
  · exact ⟨_, _, rfl, hf _ (by omega) (by omega), by simp [ht],
      by simp; rw [seqLen_4, tb _ (by omega)]; omega⟩

theorem priorScan_trail (u : Str) (ht : ∀ c ∈ u, isTrail c = true) (before after : Str) :
    priorScan (u ++ before) after = priorScan before (u.reverse ++ after) := by
  induction u generalizing after with
  | nil => simp
  | cons c u ih =>
    have hc : isTrail c = true := ht c (by simp)
    simp only [List.cons_append]
    rw [priorScan, if_pos hc, ih (fun c' h' => ht c' (by simp [h']))]
    simp

theorem findInvalid_ok {s rest : Str} {cp : Nat} (h : validateNext s = .ok (cp, rest)) :
    findInvalid s = (s.length - rest.length) + findInvalid rest := by
  rw [findInvalid]
  split
  · rename_i e he; rw [he] at h; simp at h
  · rename_i c r he; rw [he] at h; simp at h; obtain ⟨_, rfl⟩ := h; rfl

theorem findInvalid_error {s : Str} {e : Error} (h : validateNext s = .error e) :
    findInvalid s = 0 := by
  rw [findInvalid]
  split
  · rfl
  · rename_i c r he; rw [he] at h; simp at h

theorem findInvalid_encodeAll (cps : List Nat) (h : ∀ cp ∈ cps, Spec.Scalar cp) (rest : Str) :
    findInvalid (Spec.encodeAll cps ++ rest) = (Spec.encodeAll cps).length + findInvalid rest := by
  induction cps with
  | nil => simp [Spec.encodeAll]
  | cons c cps ih =>
    simp only [Spec.encodeAll, List.flatMap_cons, List.append_assoc] at ih ⊢
    rw [findInvalid_ok ((validateNext_iff _ _ _).2 ⟨h c (by simp), rfl⟩)]
    rw [ih (fun cp hc => h cp (by simp [hc]))]
    simp; omega

theorem utf8to32_step {s rest : Str} {cp : Nat} (h : next s = some (cp, rest)) :
    utf8to32 s = (utf8to32 rest).map (cp :: ·) := by
  have hs : s ≠ [] := by rintro rfl; simp [next] at h
  rw [utf8to32, if_neg hs]
  split
  · rename_i he; rw [h] at he; simp at he
  · rename_i c r he
    rw [h] at he; simp only [Option.some.injEq, Prod.mk.injEq] at he
    obtain ⟨rfl, rfl⟩ := he; rfl

theorem distance_step {s rest : Str} {cp : Nat} (h : next s = some (cp, rest)) :
    distance s = (distance rest).map (· + 1) := by
  have hs : s ≠ [] := by rintro rfl; simp [next] at h
  rw [distance, if_neg hs]
  split
  · rename_i he; rw [h] at he; simp at he
  · rename_i c r he
    rw [h] at he; simp only [Option.some.injEq, Prod.mk.injEq] at he
    obtain ⟨rfl, rfl⟩ := he; rfl

theorem utf8to16_step {s rest : Str} {cp : Nat} (h : next s = some (cp, rest)) :
    utf8to16 s = (utf8to16 rest).map (cpTo16 cp ++ ·) := by
  have hs : s ≠ [] := by rintro rfl; simp [next] at h
  rw [utf8to16, if_neg hs]
  split
  · rename_i he; rw [h] at he; simp at he
  · rename_i c r he
    rw [h] at he; simp only [Option.some.injEq, Prod.mk.injEq] at he
    obtain ⟨rfl, rfl⟩ := he; rfl

theorem utf16to8_cpTo16 (cp : Nat) (h : Spec.Scalar cp) (us : List Nat) :
    utf16to8 (cpTo16 cp ++ us) = (utf16to8 us).map (append cp ++ ·) := by
  have h1 := h.1
  have h2 := h.2
  unfold cpTo16
  split
  · simp only [and_3ff, Nat.shiftRight_eq_div_pow, List.cons_append, List.nil_append]
    rw [utf16to8]
    rw [if_pos (by omega)]
    simp only [Nat.shiftLeft_eq]
    have e : ((cp / 2 ^ 10 + (55296 - 65536 / 2 ^ 10)) % 65536 * 2 ^ 10 + (cp % 1024 + 56320) % 65536 +
      (65536 + 2 ^ 32 - 55296 * 2 ^ 10 - 56320)) % 2 ^ 32 = cp := by omega
    rw [e]
  · rw [List.cons_append, List.nil_append, utf16to8.eq_def]
    dsimp only
    rw [if_neg (by omega)]
    rw [Nat.mod_eq_of_lt (by omega)]

end Verif.Utf8
