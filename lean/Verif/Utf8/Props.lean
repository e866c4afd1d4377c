import Verif.Utf8.Lemmas

/-!
Property theorems C20, C21 (UTF-8 library).
-/
set_option linter.unusedSimpArgs false
set_option linter.unusedVariables false

namespace Verif.Utf8
open Verif

/-! ### C20: encoding and decoding are inverse -/

/-- **C20** `append` writes exactly the standard shortest-form encoding. -/
theorem C20_append_is_standard (cp : Nat) (h : Spec.Scalar cp) : append cp = Spec.encode cp :=
  append_eq_encode cp (scalar_lt h)

/-- **C20** decoding what `append` wrote returns the code point and consumes exactly the bytes
written, whatever follows. -/
theorem C20_next_append (cp : Nat) (h : Spec.Scalar cp) (rest : Str) :
    next (append cp ++ rest) = some (cp, rest) := by
  rw [append_eq_encode cp (scalar_lt h), next_encode cp (scalar_lt h)]

example : Spec.Scalar 0x20AC ∧ append 0x20AC = [0xE2, 0x82, 0xAC] := by
  refine ⟨by simp [Spec.Scalar], by decide⟩

/-- **C20** the checked decoder succeeds exactly on the shortest-form encodings of scalar
values: overlong forms, surrogates, values above 0x10FFFF, truncated and stray bytes are all
rejected, and nothing else is. -/
theorem C20_validate_exact (s : Str) (cp : Nat) (rest : Str) :
    validateNext s = .ok (cp, rest) ↔ Spec.Scalar cp ∧ s = Spec.encode cp ++ rest :=
  validateNext_iff s cp rest

/-- **C20** the unchecked and the checked decoder agree wherever the checked one succeeds. -/
theorem C20_next_of_validate (s : Str) (cp : Nat) (rest : Str)
    (h : validateNext s = .ok (cp, rest)) : next s = some (cp, rest) := by
  obtain ⟨hv, rfl⟩ := (validateNext_iff s cp rest).1 h
  exact next_encode cp (scalar_lt hv) rest

example : validateNext [0xC4, 0x85, 0x61] = .ok (0x105, [0x61]) := rfl
example : validateNext [0xC0, 0x80] = .error .overlongSequence := rfl
example : validateNext [0xED, 0xA0, 0x80] = .error .invalidCodePoint := rfl

/-- **C20** stepping backwards over an encoded code point returns that code point and stops
exactly at its first byte. -/
theorem C20_prior_append (cp : Nat) (h : Spec.Scalar cp) (before after : Str) :
    prior ((append cp).reverse ++ before) after = some (cp, before, append cp ++ after) := by
  rw [append_eq_encode cp (scalar_lt h)]
  obtain ⟨b, t, he, hb, ht, _⟩ := encode_shape cp (scalar_lt h)
  have hn := next_encode cp (scalar_lt h) after
  rw [he] at hn ⊢
  simp only [List.reverse_cons, List.append_assoc, prior]
  rw [priorScan_trail t.reverse (by simpa using ht)]
  simp only [List.cons_append, List.nil_append, List.reverse_reverse] at hn ⊢
  simp only [priorScan, hb]
  simp [hn]

example : prior [0xAC, 0x82, 0xE2, 0x61] [0x62] = some (0x20AC, [0x61], [0xE2, 0x82, 0xAC, 0x62]) := by
  decide

/-! ### C21: validity and stepping -/

/-- **C21** `encodeAll` is injective on scalar values: a text has only one reading. -/
theorem C21_reading_unique (a b : List Nat) (ha : ∀ cp ∈ a, Spec.Scalar cp)
    (hb : ∀ cp ∈ b, Spec.Scalar cp) (h : Spec.encodeAll a = Spec.encodeAll b) : a = b := by
  induction a generalizing b with
  | nil =>
    match b with
    | [] => rfl
    | c :: b =>
      simp [Spec.encodeAll] at h
      exact absurd h.1.symm (by have := encode_ne_nil c; simp [this])
  | cons c a ih =>
    match b with
    | [] =>
      simp [Spec.encodeAll] at h
      exact absurd h.1 (encode_ne_nil c)
    | d :: b =>
      simp only [Spec.encodeAll, List.flatMap_cons] at h
      have h1 := next_encode c (scalar_lt (ha c (by simp))) (a.flatMap Spec.encode)
      rw [h, next_encode d (scalar_lt (hb d (by simp)))] at h1
      simp only [Option.some.injEq, Prod.mk.injEq] at h1
      obtain ⟨rfl, h2⟩ := h1
      rw [ih b (fun cp hc => ha cp (by simp [hc])) (fun cp hc => hb cp (by simp [hc])) h2.symm]

/-- **C21** `find_invalid` cuts the text into its longest well-formed prefix and a rest at which
no encoded scalar value starts. -/
theorem C21_find_invalid_exact (s : Str) :
    ∃ cps rest, (∀ cp ∈ cps, Spec.Scalar cp) ∧ s = Spec.encodeAll cps ++ rest ∧
      findInvalid s = (Spec.encodeAll cps).length ∧
      (¬ ∃ cp rest', Spec.Scalar cp ∧ rest = Spec.encode cp ++ rest') := by
  induction hn : s.length using Nat.strongRecOn generalizing s with
  | _ n ih =>
    subst hn
    match h : validateNext s with
    | .error e =>
      refine ⟨[], s, by simp, by simp [Spec.encodeAll], ?_, ?_⟩
      · simp [findInvalid_error h, Spec.encodeAll]
      · rintro ⟨cp, rest', hc⟩
        rw [← validateNext_iff] at hc
        rw [h] at hc; simp at hc
    | .ok (cp, rest) =>
      obtain ⟨cps, rest', h1, h2, h3, h4⟩ := ih _ (validateNext_lt h) rest rfl
      obtain ⟨hv, hs⟩ := (validateNext_iff _ _ _).1 h
      refine ⟨cp :: cps, rest', ?_, ?_, ?_, h4⟩
      · intro c hc; simp at hc; rcases hc with rfl | hc
        · exact hv
        · exact h1 c hc
      · rw [hs, h2]; simp [Spec.encodeAll]
      · rw [findInvalid_ok h, h3, hs]; simp [Spec.encodeAll]

/-- **C21** `is_valid` accepts exactly the concatenations of encodings of scalar values. -/
theorem C21_isValid_iff (s : Str) : isValid s = true ↔ Spec.WellFormed s := by
  constructor
  · intro h
    obtain ⟨cps, rest, h1, h2, h3, _⟩ := C21_find_invalid_exact s
    simp only [isValid, beq_iff_eq] at h
    have : rest = [] := by
      have : rest.length = 0 := by
        have := congrArg List.length h2
        simp at this; omega
      simpa using this
    exact ⟨cps, h1, by simpa [this] using h2⟩
  · rintro ⟨cps, h, rfl⟩
    have := findInvalid_encodeAll cps h []
    simp only [List.append_nil] at this
    rw [isValid, this, findInvalid_error (e := .notEnoughRoom) rfl]
    simp

/-- **C21** validity is preserved and reflected by splitting at a character boundary. -/
theorem C21_split (cps : List Nat) (h : ∀ cp ∈ cps, Spec.Scalar cp) (t : Str) :
    isValid (Spec.encodeAll cps ++ t) = isValid t := by
  simp only [isValid, findInvalid_encodeAll cps h, List.length_append]
  rw [Bool.eq_iff_iff]; simp

example : Spec.WellFormed [0xC4, 0x85, 0x61] ∧ isValid [0x61, 0xC4] = false := by
  refine ⟨(C21_isValid_iff _).1 ?_, ?_⟩ <;> decide +kernel

/-- **C21** converting to code points visits every encoded code point once, in order. -/
theorem C21_utf8to32 (cps : List Nat) (h : ∀ cp ∈ cps, Spec.Scalar cp) :
    utf8to32 (Spec.encodeAll cps) = some cps := by
  induction cps with
  | nil => rw [utf8to32]; simp [Spec.encodeAll]
  | cons c cps ih =>
    have hn := next_encode c (scalar_lt (h c (by simp))) (cps.flatMap Spec.encode)
    have := ih (fun cp hc => h cp (by simp [hc]))
    simp only [Spec.encodeAll, List.flatMap_cons] at this ⊢
    rw [utf8to32_step hn, this]; simp

/-- **C21** converting the code points back gives the same bytes. -/
theorem C21_utf32to8 (cps : List Nat) (h : ∀ cp ∈ cps, Spec.Scalar cp) :
    utf32to8 cps = Spec.encodeAll cps := by
  induction cps with
  | nil => simp [utf32to8, Spec.encodeAll]
  | cons c cps ih =>
    simp only [utf32to8, Spec.encodeAll, List.flatMap_cons] at ih ⊢
    rw [ih (fun cp hc => h cp (by simp [hc])), append_eq_encode c (scalar_lt (h c (by simp)))]

/-- **C21** on every valid byte string the conversion to code points and back is the identity. -/
theorem C21_roundtrip (s : Str) (h : isValid s = true) :
    ∃ cps, utf8to32 s = some cps ∧ utf32to8 cps = s := by
  obtain ⟨cps, hc, rfl⟩ := (C21_isValid_iff s).1 h
  exact ⟨cps, C21_utf8to32 cps hc, C21_utf32to8 cps hc⟩

/-- **C21** `distance` counts the encoded code points. -/
theorem C21_distance (cps : List Nat) (h : ∀ cp ∈ cps, Spec.Scalar cp) :
    distance (Spec.encodeAll cps) = some cps.length := by
  induction cps with
  | nil => rw [distance]; simp [Spec.encodeAll]
  | cons c cps ih =>
    have hn := next_encode c (scalar_lt (h c (by simp))) (cps.flatMap Spec.encode)
    have := ih (fun cp hc => h cp (by simp [hc]))
    simp only [Spec.encodeAll, List.flatMap_cons] at this ⊢
    rw [distance_step hn, this]; simp

/-- **C21** `advance` by the number of code points of a prefix lands exactly behind it. -/
theorem C21_advance (cps : List Nat) (h : ∀ cp ∈ cps, Spec.Scalar cp) (rest : Str) :
    advance (Spec.encodeAll cps ++ rest) cps.length = some rest := by
  induction cps with
  | nil => simp [advance, Spec.encodeAll]
  | cons c cps ih =>
    have hn := next_encode c (scalar_lt (h c (by simp))) (cps.flatMap Spec.encode ++ rest)
    simp only [Spec.encodeAll, List.flatMap_cons, List.append_assoc, List.length_cons, advance, hn]
    exact ih (fun cp hc => h cp (by simp [hc]))

/-- **C21** `symbolLength` (used by the lattice) is the length of the encoded character on
well-formed text. -/
theorem C21_symbolLength (cp : Nat) (h : Spec.Scalar cp) :
    ∃ b t, Spec.encode cp = b :: t ∧ symbolLength b = (Spec.encode cp).length := by
  obtain ⟨b, t, he, _, _, hl⟩ := encode_shape cp (scalar_lt h)
  exact ⟨b, t, he, by rw [he, symbolLength, hl]; simp⟩

/-- **C21** `symbolLength` of any byte whatever: 2, 3 or 4 for the leads of the respective blocks, 1 for all other bytes.
It is never 0, so a scan that steps by it makes progress on malformed text too. -/
theorem C21_symbolLength_all (b : Byte) :
    symbolLength b =
      if 0xC0 ≤ b.toNat ∧ b.toNat < 0xE0 then 2
      else if 0xE0 ≤ b.toNat ∧ b.toNat < 0xF0 then 3
      else if 0xF0 ≤ b.toNat ∧ b.toNat < 0xF8 then 4
      else 1 := by
  have key : ∀ n : Fin 256, symbolLength (UInt8.ofNat n) =
      if 0xC0 ≤ n.val ∧ n.val < 0xE0 then 2
      else if 0xE0 ≤ n.val ∧ n.val < 0xF0 then 3
      else if 0xF0 ≤ n.val ∧ n.val < 0xF8 then 4
      else 1 := by decide +kernel
  have := key ⟨b.toNat, UInt8.toNat_lt b⟩
  simpa using this

example : ∀ cp ∈ [0x61, 0x105, 0x20AC, 0x1F600], Spec.Scalar cp := by
  simp [Spec.Scalar]

/-! ### C45: UTF-16 conversion -/

/-- **C45** UTF-16 code units of every scalar value are those of the standard: one unit below
0x10000, otherwise a lead and a trail surrogate. -/
theorem C45_units (cp : Nat) (h : Spec.Scalar cp) :
    cpTo16 cp = if cp < 0x10000 then [cp]
      else [0xD800 + (cp - 0x10000) / 1024, 0xDC00 + (cp - 0x10000) % 1024] := by
  have h1 := h.1
  unfold cpTo16
  simp only [and_3ff, Nat.shiftRight_eq_div_pow]
  split
  · rw [if_neg (by omega)]
    have e1 : (cp / 2 ^ 10 + (0xd800 - 0x10000 / 2 ^ 10)) % 65536
        = 0xD800 + (cp - 0x10000) / 1024 := by omega
    have e2 : (cp % 1024 + 0xdc00) % 65536 = 0xDC00 + (cp - 0x10000) % 1024 := by omega
    rw [e1, e2]
  · rw [if_pos (by omega), Nat.mod_eq_of_lt (by omega)]

/-- **C45** converting well-formed UTF-8 to UTF-16 gives the units of its code points in order,
and converting them back gives the same bytes. -/
theorem C45_roundtrip (cps : List Nat) (h : ∀ cp ∈ cps, Spec.Scalar cp) :
    utf8to16 (Spec.encodeAll cps) = some (cps.flatMap cpTo16) ∧
    utf16to8 (cps.flatMap cpTo16) = some (Spec.encodeAll cps) := by
  induction cps with
  | nil => constructor
           · rw [utf8to16]; simp [Spec.encodeAll]
           · simp [utf16to8, Spec.encodeAll]
  | cons c cps ih =>
    have hc := h c (by simp)
    have hn := next_encode c (scalar_lt hc) (cps.flatMap Spec.encode)
    obtain ⟨i1, i2⟩ := ih (fun cp hc => h cp (by simp [hc]))
    simp only [Spec.encodeAll, List.flatMap_cons] at i1 i2 ⊢
    constructor
    · rw [utf8to16_step hn, i1]; simp
    · rw [utf16to8_cpTo16 c hc, i2, append_eq_encode c (scalar_lt hc)]; simp

example : [0x61, 0x1F600].flatMap cpTo16 = [0x61, 0xD83D, 0xDE00] := by decide

end Verif.Utf8
