import Verif.StringVector.Lemmas

/-!
Property theorems C28 (string vector).

The specification is the plain list of pushed strings, with core Lean's lexicographic order `<`,
`xs[i]?` and `List.findIdx`.
-/
set_option linter.unusedVariables false

namespace Verif.StringVector
open Verif Binary

/-- The pushed strings fit the position type. -/
def Fits (pb : Nat) (xs : List Str) : Prop :=
  2 ≤ pb ∧ xs.length < 256 ^ pb ∧ xs.flatten.length < 256 ^ pb

/-- **C28** Elements and size: after pushing `xs` element `i` is `xs[i]` and the size is `xs.length`. -/
theorem C28_elements (pb : Nat) (xs : List Str) (hf : Fits pb xs) :
    ∃ v, pushAll pb empty xs = some v ∧ size pb v = xs.length ∧
      ∀ i : Nat, i < xs.length → at' pb v i = xs[i]? := by
  obtain ⟨hp, hn, hc⟩ := hf
  obtain ⟨v, h1, h2⟩ := holds_pushAll hp xs (holds_empty hp) (by simpa using hn) (by simpa using hc)
  simp only [List.nil_append] at h2
  refine ⟨v, h1, holds_size hp h2 hn, fun i hi => ?_⟩
  rw [List.getElem?_eq_getElem hi]
  exact holds_at hp h2 hn hc (List.getElem?_eq_getElem hi)

/-- **C28** The sorted flag is exact: it is set just when the strings are strictly increasing. -/
theorem C28_sorted (pb : Nat) (xs : List Str) (hf : Fits pb xs) (v : SV)
    (hv : pushAll pb empty xs = some v) : v.sorted = true ↔ xs.Pairwise (· < ·) := by
  obtain ⟨hp, hn, hc⟩ := hf
  obtain ⟨v, h1, h2⟩ := holds_pushAll hp xs (holds_empty hp) (by simpa using hn) (by simpa using hc)
  simp only [List.nil_append] at h2
  rw [hv] at h1; cases h1
  exact h2.sorted

/-- **C28** Sorted mode: `find` returns the number of strings less than the one looked for, so it
locates every string that was pushed. -/
theorem C28_find_sorted (pb : Nat) (xs : List Str) (hf : Fits pb xs) (hs : xs.Pairwise (· < ·))
    (v : SV) (hv : pushAll pb empty xs = some v) (s : Str) :
    ∃ r, find pb v s = some r ∧ r ≤ xs.length ∧
      (∀ i x, xs[i]? = some x → (i < r ↔ x < s)) ∧ (s ∈ xs → xs[r]? = some s) := by
  obtain ⟨hp, hn, hc⟩ := hf
  obtain ⟨v, h1, h2⟩ := holds_pushAll hp xs (holds_empty hp) (by simpa using hn) (by simpa using hc)
  simp only [List.nil_append] at h2
  rw [hv] at h1; cases h1
  have hsz := holds_size hp h2 hn
  have hlt : ∀ i x, xs[i]? = some x → (at' pb v i).map (less · s) = some (less x s) := by
    intro i x hx; rw [holds_at hp h2 hn hc hx]; rfl
  have hpw := List.pairwise_iff_getElem.1 hs
  obtain ⟨r, e1, e2, e3, e4⟩ := lowerBound_spec (fun i => (at' pb v i).map (less · s)) xs.length
    (fun i hi => ⟨_, hlt i _ (List.getElem?_eq_getElem hi)⟩)
    (by
      intro i j hij hj hjt
      rw [hlt j _ (List.getElem?_eq_getElem hj)] at hjt
      rw [hlt i _ (List.getElem?_eq_getElem (by omega))]
      simp only [Option.some.injEq, less_iff] at hjt ⊢
      exact List.lt_trans (hpw i j (by omega) hj hij) hjt)
    0 xs.length (by omega) (by omega) (by omega)
  have key : ∀ i x, xs[i]? = some x → (i < r ↔ x < s) := by
    intro i x hx
    have hi := (List.getElem?_eq_some_iff.1 hx).1
    constructor
    · intro h; have := e3 i h
      rw [hlt i x hx] at this; simpa [less_iff] using this
    · intro h
      by_cases hir : i < r
      · exact hir
      · have := e4 i (by omega) hi
        rw [hlt i x hx] at this
        have h' := (less_iff x s).2 h
        simp [h'] at this
  refine ⟨r, ?_, e2, key, ?_⟩
  · rw [find, h2.sorted.2 hs, hsz]; exact e1
  · intro hmem
    obtain ⟨k, hk, hks⟩ := List.getElem_of_mem hmem
    have hx : xs[k]? = some s := by rw [List.getElem?_eq_getElem hk, hks]
    have h1 : ¬ k < r := by rw [key k s hx]; exact List.lt_irrefl s
    have h2 : ¬ r < k := by
      intro hrk
      have hr : xs[r]? = some (xs[r]'(by omega)) := List.getElem?_eq_getElem _
      have := hpw r k (by omega) hk hrk
      rw [hks] at this
      have := (key r _ hr).2 this
      omega
    have : r = k := by omega
    rw [this]; exact hx

/-- **C28** Unsorted mode, ASCII text: `find` returns the first position of the string, and the size
if the string was not pushed. -/
theorem C28_find_unsorted_partial (pb : Nat) (xs : List Str) (hf : Fits pb xs)
    (hs : ¬ xs.Pairwise (· < ·)) (v : SV) (hv : pushAll pb empty xs = some v) (s : Str)
    (ha : ∀ b ∈ s, b.toNat < 128) :
    find pb v s = some (xs.findIdx (· == s)) := by
  obtain ⟨hp, hn, hc⟩ := hf
  obtain ⟨v, h1, h2⟩ := holds_pushAll hp xs (holds_empty hp) (by simpa using hn) (by simpa using hc)
  simp only [List.nil_append] at h2
  rw [hv] at h1; cases h1
  have hsz := holds_size hp h2 hn
  have hsort : v.sorted = false := by
    cases hb : v.sorted with
    | false => rfl
    | true => exact absurd (h2.sorted.1 hb) hs
  have := linearFind_spec xs (· == s) (fun i => (at' pb v i).map (equal · s)) 0 xs.length (by omega)
    (by
      intro j x hx
      rw [holds_at hp h2 hn hc hx]
      simp only [Option.map_some, Option.some.injEq]
      rw [Bool.eq_iff_iff, equal_ascii _ _ ha]; simp)
  rw [find, hsort, hsz]
  simpa using this

/-- **C28 (disagreement)** Unsorted mode, non-ASCII text: `find` reports every string that has a byte
above 127 as missing, whether it was pushed or not, because `unsigned char` bytes are compared with
negative `char`s. -/
theorem C28_nonascii_false (pb : Nat) (xs : List Str) (hf : Fits pb xs)
    (hs : ¬ xs.Pairwise (· < ·)) (v : SV) (hv : pushAll pb empty xs = some v) (s : Str)
    (ha : ∃ b ∈ s, 128 ≤ b.toNat) :
    find pb v s = some xs.length := by
  obtain ⟨hp, hn, hc⟩ := hf
  obtain ⟨v, h1, h2⟩ := holds_pushAll hp xs (holds_empty hp) (by simpa using hn) (by simpa using hc)
  simp only [List.nil_append] at h2
  rw [hv] at h1; cases h1
  have hsz := holds_size hp h2 hn
  have hsort : v.sorted = false := by
    cases hb : v.sorted with
    | false => rfl
    | true => exact absurd (h2.sorted.1 hb) hs
  have := linearFind_spec xs (fun _ => false) (fun i => (at' pb v i).map (equal · s)) 0 xs.length (by omega)
    (by
      intro j x hx
      rw [holds_at hp h2 hn hc hx]
      simp only [Option.map_some, Option.some.injEq]
      apply equal_nonascii
      rintro h
      obtain ⟨b, hb, hb'⟩ := ha
      have := h b hb; omega)
  rw [find, hsort, hsz]
  simp at this
  have e : (xs.findIdx fun _ => false) = xs.length := List.findIdx_eq_length.2 (by simp)
  simpa [e] using this

/-- **C28 (disagreement)** Witnesses: in sorted mode a string that was not pushed is reported at an
existing index (looking for "a" in ["b"]); in unsorted mode a pushed non-ASCII string ("ą" in
["ą", "a"]) is reported as missing. -/
theorem C28_find_false :
    (∃ v, pushAll 4 empty [[98]] = some v ∧ find 4 v [97] = some 0 ∧ size 4 v = 1) ∧
    (∃ v, pushAll 4 empty [[0xC4, 0x85], [97]] = some v ∧ find 4 v [0xC4, 0x85] = some 2 ∧
      size 4 v = 2) := by
  constructor
  · obtain ⟨v, h1, h2, _⟩ := C28_elements 4 [[98]] ⟨by decide, by decide, by decide⟩
    obtain ⟨r, e1, e2, e3, _⟩ := C28_find_sorted 4 [[98]] ⟨by decide, by decide, by decide⟩ (by simp) v h1 [97]
    refine ⟨v, h1, ?_, h2⟩
    have := (e3 0 [98] rfl)
    have h0 : ¬ ([98] : Str) < [97] := by decide
    rw [e1]; congr 1
    have := mt this.1 h0
    omega
  · obtain ⟨v, h1, h2, _⟩ := C28_elements 4 [[0xC4, 0x85], [97]] ⟨by decide, by decide, by decide⟩
    refine ⟨v, h1, ?_, h2⟩
    exact C28_nonascii_false 4 _ ⟨by decide, by decide, by decide⟩ (by decide) v h1 _
      ⟨0xC4, by simp, by decide⟩

/-- **C28** A saved vector is loaded back unchanged. -/
theorem C28_save_load (pb : Nat) (xs : List Str) (hf : Fits pb xs) (hpb : pb ≤ 8) (rest : Str) :
    ∃ v, pushAll pb empty xs = some v ∧ load pb (save pb v ++ rest) = some (v, rest) := by
  obtain ⟨hp, hn, hc⟩ := hf
  obtain ⟨v, h1, h2⟩ := holds_pushAll hp xs (holds_empty hp) (by simpa using hn) (by simpa using hc)
  simp only [List.nil_append] at h2
  have : (256 : Nat) ^ pb ≤ 256 ^ 8 := Nat.pow_le_pow_right (by omega) hpb
  exact ⟨v, h1, load_save hp h2 (by omega) (by omega) (by omega) rest⟩

/-- The hypotheses are met by a list with an empty string, and by both orders. -/
example : Fits 4 [[], [97], [97, 98]] ∧ [([] : Str), [97], [97, 98]].Pairwise (· < ·) ∧
    Fits 4 [[98], [97]] ∧ ¬ [([98] : Str), [97]].Pairwise (· < ·) :=
  ⟨⟨by decide, by decide, by decide⟩, by decide, ⟨by decide, by decide, by decide⟩, by decide⟩

end Verif.StringVector
