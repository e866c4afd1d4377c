import Verif.LemmaCode.Lemmas

/-!
Property theorems C32 (lemma difference codes).

The claim is that `decode form (encode form lemma) = lemma`.  Words are shorter than 2^31 bytes.
-/
set_option linter.unusedVariables false
set_option linter.unusedSimpArgs false

namespace Verif.LemmaCode
open Verif

/-- `decode` applied to the output of `encode`; `none` if either throws. -/
def roundTrip (form lemma_ : Str) : Option Str := (encode form lemma_).bind (decode form)

/-- **C32** What the code stores: a position `i` and length `n` of a longest prefix of the lemma that
occurs in the form; the code is the byte `65+i`, the byte `65 +` what remains of the form behind
the match, and the rest of the lemma. -/
theorem C32_code (form lemma_ : Str) (h0 : lemma_ ≠ [] ∨ (0 : Byte) ∉ form) :
    ∃ i n, i + n ≤ form.length ∧ n ≤ lemma_.length ∧
      (form.drop i).take n = lemma_.take n ∧
      (∀ j m, j + m ≤ form.length → m ≤ lemma_.length → (form.drop j).take m = lemma_.take m → m ≤ n) ∧
      encode form lemma_ =
        some (UInt8.ofNat (65 + i) :: UInt8.ofNat (65 + (form.length - (i + n))) :: lemma_.drop n) := by
  have := search_found form lemma_ h0 form 0 0 0 (by simp) (by omega) (by omega) (by omega) (by simp)
    (by omega) (by omega)
  obtain ⟨a, b, c, d, _⟩ := this
  refine ⟨_, _, a, b, c, ?_, ?_⟩
  · intro j m h1 h2 h3
    exact Nat.le_trans (commonLen_max (form.drop j) lemma_ m (by simp; omega) h2 h3) (d j)
  · simp only [encode, substr, if_pos b, Option.map_some]
    congr 3
    apply List.take_of_length_le; simp

/-- The best match of the lemma in the form: the longest prefix of the lemma that occurs in the form, and its
leftmost occurrence. -/
structure BestMatch (form lemma_ : Str) (i n : Nat) : Prop where
  inForm : i + n ≤ form.length
  inLemma : n ≤ lemma_.length
  same : (form.drop i).take n = lemma_.take n
  longest : ∀ j m, j + m ≤ form.length → m ≤ lemma_.length → (form.drop j).take m = lemma_.take m → m ≤ n
  leftmost : ∀ j, j < i → (form.drop j).take n ≠ lemma_.take n

theorem search_best (form lemma_ : Str) (h0 : lemma_ ≠ [] ∨ (0 : Byte) ∉ form) :
    BestMatch form lemma_ (search lemma_ form 0 0 0).1 (search lemma_ form 0 0 0).2 := by
  obtain ⟨a, b, c, d, e⟩ := search_found form lemma_ h0 form 0 0 0 (by simp) (by omega) (by omega)
    (by omega) (by simp) (by omega) (by omega)
  refine ⟨a, b, c, ?_, ?_⟩
  · intro j m h1 h2 h3
    exact Nat.le_trans (commonLen_max (form.drop j) lemma_ m (by simp; omega) h2 h3) (d j)
  · intro j hj heq
    have h1 := e j hj
    have h2 := commonLen_max (form.drop j) lemma_ _ (by simp; omega) b heq
    omega

theorem best_unique {form lemma_ : Str} {i n i' n' : Nat} (h : BestMatch form lemma_ i n)
    (h' : BestMatch form lemma_ i' n') : i = i' ∧ n = n' := by
  have hn : n = n' := Nat.le_antisymm (h'.longest i n h.inForm h.inLemma h.same)
    (h.longest i' n' h'.inForm h'.inLemma h'.same)
  subst hn
  refine ⟨?_, rfl⟩
  rcases Nat.lt_trichotomy i i' with hl | hl | hl
  · exact absurd h.same (h'.leftmost i hl)
  · exact hl
  · exact absurd h'.same (h.leftmost i' hl)

/-- **C32** Exactly when the code is right: the round trip returns the lemma if and only if the best match leaves
at most 62 characters of the form uncovered at either end. -/
theorem C32_exact (form lemma_ : Str) (h0 : lemma_ ≠ [] ∨ (0 : Byte) ∉ form)
    (hlen : form.length < 2 ^ 31) :
    ∃ i n, BestMatch form lemma_ i n ∧ (∀ i' n', BestMatch form lemma_ i' n' → i' = i ∧ n' = n) ∧
      (roundTrip form lemma_ = some lemma_ ↔ i ≤ 62 ∧ form.length - (i + n) ≤ 62) := by
  have hbest := search_best form lemma_ h0
  refine ⟨_, _, hbest, fun i' n' h' => best_unique h' hbest, ?_⟩
  obtain ⟨a, b, c, _, _⟩ := hbest
  have henc : encode form lemma_ = some (UInt8.ofNat (65 + (search lemma_ form 0 0 0).1) ::
      UInt8.ofNat (65 + (form.length - ((search lemma_ form 0 0 0).1 + (search lemma_ form 0 0 0).2))) ::
      lemma_.drop (search lemma_ form 0 0 0).2) := by
    simp only [encode, substr, if_pos b, Option.map_some]
    congr 3
    apply List.take_of_length_le; simp
  generalize (search lemma_ form 0 0 0).1 = i at *
  generalize (search lemma_ form 0 0 0).2 = n at *
  obtain ⟨j, hj, hj0, hjp⟩ := charInt_ofNat i
  obtain ⟨j', hj', hj0', hjp'⟩ := charInt_ofNat (form.length - (i + n))
  simp only [roundTrip, henc, Option.bind_some, decode, hj, hj']
  have hdl : (form.length : Int) - ((i : Int) - 256 * j) - (((form.length - (i + n) : Nat) : Int) - 256 * j')
      = n + 256 * (j + j') := by omega
  rw [hdl]
  by_cases hneg : (i : Int) - 256 * j < 0
  · -- `substr` throws
    have h1 := toSize_neg _ hneg (by
      have : (UInt8.ofNat (65 + i)).toNat < 256 := UInt8.toNat_lt _
      have : -256 ≤ charInt (UInt8.ofNat (65 + i)) := by
        simp only [charInt]; split <;> omega
      omega)
    have h2 : ¬ toSize ((i : Int) - 256 * j) ≤ form.length := by omega
    simp only [substr, if_neg h2]
    constructor
    · intro h; exact absurd h (by simp)
    · rintro ⟨h3, _⟩
      have := hj0.2 h3; omega
  · obtain ⟨k, hk⟩ : ∃ k : Nat, (i : Int) - 256 * j = k := ⟨((i : Int) - 256 * j).toNat, by omega⟩
    obtain ⟨m, hm⟩ : ∃ m : Nat, (n : Int) + 256 * (j + j') = m := ⟨((n : Int) + 256 * (j + j')).toNat, by omega⟩
    have hkl : k ≤ form.length := by omega
    have hb' : (256 : Int) * j' ≤ (form.length - (i + n) : Nat) + 256 := by
      have : (UInt8.ofNat (65 + (form.length - (i + n)))).toNat < 256 := UInt8.toNat_lt _
      have : -128 ≤ charInt (UInt8.ofNat (65 + (form.length - (i + n)))) := by
        simp only [charInt]; split <;> omega
      omega
    rw [hk, hm, toSize_nat k (by omega), toSize_nat m (by omega)]
    simp only [substr, if_pos hkl, Option.map_some, Option.some.injEq]
    constructor
    · intro h
      have hl := congrArg List.length h
      simp only [List.length_append, List.length_take, List.length_drop] at hl
      have : j = 0 ∧ j' = 0 := by omega
      exact ⟨hj0.1 this.1, hj0'.1 this.2⟩
    · rintro ⟨h1, h2⟩
      have e1 := hj0.2 h1
      have e2 := hj0'.2 h2
      have : k = i := by omega
      have : m = n := by omega
      subst_vars
      rw [c, List.take_append_drop]

/-- **C32 (part that holds)** The code is right for every form of at most 62 bytes. -/
theorem C32_short_partial (form lemma_ : Str) (h0 : lemma_ ≠ [] ∨ (0 : Byte) ∉ form)
    (hlen : form.length ≤ 62) : roundTrip form lemma_ = some lemma_ := by
  obtain ⟨i, n, hb, _, h⟩ := C32_exact form lemma_ h0 (by omega)
  have := hb.inForm
  exact h.2 (by omega)

/-- **C32 (disagreement)** For a form of 63 bytes that shares nothing with the lemma the round trip
returns the form followed by the lemma; if the common part begins at byte 63, decoding throws. -/
theorem C32_false :
    roundTrip (List.replicate 63 97) [98] = some (List.replicate 63 97 ++ [98]) ∧
    roundTrip (List.replicate 63 97 ++ [98]) [98] = none := by
  constructor <;> decide

/-- Non-trivial instances: a Polish form and its lemma ("psami", "pies"). -/
example : roundTrip [112, 115, 97, 109, 105] [112, 105, 101, 115] = some [112, 105, 101, 115] ∧
    encode [112, 115, 97, 109, 105] [112, 105, 101, 115] = some [65, 69, 105, 101, 115] := by decide

end Verif.LemmaCode
