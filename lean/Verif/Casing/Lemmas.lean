import Verif.Casing.Check
import Verif.Utf8.Props

/-!
Helper lemmas: what the conversion writes for a code point, and for a text.
-/
namespace Verif.Casing
open Verif Verif.Utf8
open Verif.Utf8.Spec (Scalar encode encodeAll WellFormed)

/-- The characters written for a character, without context. -/
def codeMap : Case → Nat → List Nat
  | .lower => Spec.lower
  | .upper => Spec.upper'
  | .title => Spec.title'

/-- The same for all three: special rows for the used characters only. -/
def plainMap (k : Case) (cp : Nat) : List Nat :=
  if cp ∈ Spec.used then (k.full.lookup cp).getD [] else [Spec.image k.pairs cp]

theorem full_lookup {k : Case} {cp : Nat} (h : cp ∈ Spec.used) :
    ∃ ds, k.full.lookup cp = some ds := by
  have := full_check k
  simp only [fullCheck, Bool.and_eq_true, List.all_eq_true] at this
  exact Option.isSome_iff_exists.1 (this.1 cp h)

theorem lookup_mem {α : Type} {l : List (Nat × α)} {c : Nat} {v : α}
    (h : l.lookup c = some v) : (c, v) ∈ l := by
  induction l with
  | nil => simp at h
  | cons q l ih =>
    rw [List.lookup_cons] at h
    split at h
    · rename_i he
      simp only [Option.some.injEq] at h
      have := eq_of_beq he
      subst this; subst h; simp
    · exact List.mem_cons_of_mem _ (ih h)

theorem plainMap_eq (k : Case) (cp : Nat) : plainMap k cp = codeMap k cp := by
  cases k
  · simp only [plainMap, codeMap, Spec.lower, Spec.fullImage]
    by_cases h : cp ∈ Spec.used
    · rw [if_pos h]
      obtain ⟨ds, hd⟩ := full_lookup (k := .lower) h
      rw [hd]
      have hd' : Spec.lowerFull.lookup cp = some ds := hd
      rw [hd']; rfl
    · rw [if_neg h]
      cases hl : Spec.lowerFull.lookup cp with
      | none => rfl
      | some ds =>
        have := lower_full_check
        simp only [lowerFullCheck, List.all_eq_true, Bool.or_eq_true, List.contains_iff_mem,
          beq_iff_eq] at this
        rcases this _ (lookup_mem hl) with h' | h'
        · exact absurd h' h
        · rw [rangeConvert_eq_simple lower_check] at h'
          simpa [Case.pairs] using h'.symm
  · simp only [plainMap, codeMap, Spec.upper', Spec.upper, Spec.fullImage]
    by_cases h : cp ∈ Spec.used
    · rw [if_pos h, if_pos h]
      obtain ⟨ds, hd⟩ := full_lookup (k := .upper) h
      rw [hd]
      have hd' : Spec.upperFull.lookup cp = some ds := hd
      rw [hd']; rfl
    · rw [if_neg h, if_neg h]; rfl
  · simp only [plainMap, codeMap, Spec.title', Spec.title, Spec.fullImage]
    by_cases h : cp ∈ Spec.used
    · rw [if_pos h, if_pos h]
      obtain ⟨ds, hd⟩ := full_lookup (k := .title) h
      rw [hd]
      have hd' : Spec.titleFull.lookup cp = some ds := hd
      rw [hd']; rfl
    · rw [if_neg h, if_neg h]; rfl

theorem image_scalar {k : Case} {cp : Nat} (h : Scalar cp) : Scalar (Spec.image k.pairs cp) := by
  unfold Spec.image
  cases hl : k.pairs.lookup cp with
  | none => exact h
  | some d =>
    have := pairs_check k
    simp only [pairsCheck, List.all_eq_true, Bool.or_eq_true, Bool.and_eq_true, Nat.blt_eq] at this
    have := this _ (lookup_mem hl)
    simp only [Option.getD_some]
    constructor <;> simp only at this ⊢ <;> omega

theorem full_scalar {k : Case} {cp : Nat} {ds : List Nat} (h : k.full.lookup cp = some ds) :
    ∀ d ∈ ds, Scalar d ∧ 0 < d := by
  have := full_check k
  simp only [fullCheck, Bool.and_eq_true, List.all_eq_true, Bool.or_eq_true, Nat.blt_eq] at this
  intro d hd
  have := this.2 _ (lookup_mem h) d hd
  refine ⟨⟨?_, ?_⟩, this.1⟩ <;> omega

theorem codeMap_scalar (k : Case) {cp : Nat} (h : Scalar cp) : ∀ d ∈ codeMap k cp, Scalar d := by
  rw [← plainMap_eq, plainMap]
  split
  · rename_i hu
    obtain ⟨ds, hd⟩ := full_lookup (k := k) hu
    rw [hd]
    exact fun d hm => (full_scalar hd d hm).1
  · intro d hd
    simp only [List.mem_singleton] at hd
    subst hd
    exact image_scalar h

/-- No byte of the encoding of a code point other than zero is zero. -/
theorem encode_nonzero {cp : Nat} (h : Scalar cp) (h0 : 0 < cp) : ∀ b ∈ encode cp, b ≠ 0 := by
  have h1 := h.1
  unfold encode
  intro b hb hz
  subst hz
  repeat' split at hb
  all_goals simp only [List.mem_cons, List.not_mem_nil, or_false] at hb
  all_goals
    repeat'
      first
        | (rcases hb with hb | hb)
        | (have := congrArg UInt8.toNat hb
           simp only [Utf8.Spec.byte, UInt8.toNat_ofNat', UInt8.toNat_zero] at this
           omega)

theorem takeWhile_all {p : Byte → Bool} {s : Str} (h : ∀ b ∈ s, p b = true) :
    s.takeWhile p = s := by
  induction s with
  | nil => rfl
  | cons b s ih =>
    rw [List.takeWhile_cons_of_pos (h b (by simp)), ih (fun c hc => h c (by simp [hc]))]

theorem copyCharArray_encodeAll {ds : List Nat} (h : ∀ d ∈ ds, Scalar d ∧ 0 < d) :
    copyCharArray (encodeAll ds) = encodeAll ds := by
  apply takeWhile_all
  intro b hb
  simp only [encodeAll, List.mem_flatMap] at hb
  obtain ⟨d, hd, hb⟩ := hb
  have := encode_nonzero (h d hd).1 (h d hd).2 b hb
  simpa using this

/-- What is written for a code point for which the context has nothing to say. -/
theorem convertSingle_plain {k : Case} {f : Context} {p cp n : Nat} (hf : f p cp n = none)
    (h : Scalar cp) : convertSingle ⟨k.ranges, k.special, f⟩ p cp n = encodeAll (codeMap k cp) := by
  rw [← plainMap_eq, convertSingle]
  simp only [hf, specialConvert_case, found, plainMap]
  by_cases hu : cp ∈ Spec.used
  · simp only [if_pos hu]
    obtain ⟨ds, hd⟩ := full_lookup (k := k) hu
    simp only [hd, Option.map_some, Option.getD_some]
    exact copyCharArray_encodeAll (full_scalar hd)
  · simp only [if_neg hu]
    rw [rangeConvert_case, append_eq_encode _ (scalar_lt (image_scalar h))]
    simp [encodeAll]

theorem scalar_ne {cp : Nat} (h : Scalar cp) : cp ≠ noCodePoint := by
  have := h.1; unfold noCodePoint; omega

/-- The converter of a language without rules of its own. -/
def regular (k : Case) : Converter := ⟨k.ranges, k.special, regularContext⟩

theorem convertFrom_regular (k : Case) {pp p : Nat} (hp : Scalar p) (cs : List Nat)
    (h : ∀ c ∈ cs, Scalar c) :
    convertFrom (regular k) pp p cs = encodeAll ((p :: cs).flatMap (codeMap k)) := by
  induction cs generalizing pp p with
  | nil =>
    rw [convertFrom, if_pos (scalar_ne hp)]
    rw [regular, convertSingle_plain rfl hp]
    simp
  | cons c cs ih =>
    rw [convertFrom, if_pos (scalar_ne hp), ih (h c (by simp)) (fun x hx => h x (by simp [hx]))]
    rw [regular, convertSingle_plain rfl hp]
    simp [encodeAll]

theorem convert_regular (k : Case) {cs : List Nat} (h : ∀ c ∈ cs, Scalar c) :
    convert (regular k) (encodeAll cs) = some (encodeAll (cs.flatMap (codeMap k))) := by
  rw [convert, C21_utf8to32 cs h, Option.map_some]
  congr 1
  cases cs with
  | nil => simp [convertFrom, encodeAll]
  | cons c cs =>
    rw [convertFrom, if_neg (by simp), List.nil_append,
      convertFrom_regular k (h c (by simp)) cs (fun x hx => h x (by simp [hx]))]

theorem next_enc {c : Nat} (h : Scalar c) (rest : Str) :
    next (encode c ++ rest) = some (c, rest) := next_encode c (scalar_lt h) rest

theorem take_enc (c : Nat) (rest : Str) :
    (encode c ++ rest).take ((encode c ++ rest).length - rest.length) = encode c := by
  simp

theorem headConvert_enc (K : Converter) {c : Nat} (h : Scalar c) (rest : Str) :
    headConvert K (encode c ++ rest) = (convert K (encode c)).map (· ++ rest) := by
  rw [headConvert, if_neg (by simp [encode_ne_nil]), next_enc h]
  simp only [take_enc]

theorem tailConvert_enc (K : Converter) {c : Nat} (h : Scalar c) (rest : Str) :
    tailConvert K (encode c ++ rest) = (convert K rest).map (encode c ++ ·) := by
  rw [tailConvert, if_neg (by simp [encode_ne_nil]), next_enc h]
  simp only [append_eq_encode c (scalar_lt h)]

theorem willBeTouched_step (K : Converter) {c : Nat} (h : Scalar c) (rest : Str) :
    willBeTouched K (encode c ++ rest)
      = if touches K c then some true else willBeTouched K rest := by
  rw [willBeTouched, if_neg (by simp [encode_ne_nil])]
  split
  · rename_i he; rw [next_enc h] at he; simp at he
  · rename_i c' r he
    rw [next_enc h] at he; simp only [Option.some.injEq, Prod.mk.injEq] at he
    obtain ⟨rfl, rfl⟩ := he; rfl

theorem willBeTouched_enc (K : Converter) {cs : List Nat} (h : ∀ c ∈ cs, Scalar c) :
    willBeTouched K (encodeAll cs) = some (cs.any (touches K)) := by
  induction cs with
  | nil => rw [willBeTouched]; simp [encodeAll]
  | cons c cs ih =>
    have : encodeAll (c :: cs) = encode c ++ encodeAll cs := by simp [encodeAll]
    rw [this, willBeTouched_step K (h c (by simp)), ih (fun x hx => h x (by simp [hx])),
      List.any_cons]
    cases touches K c <;> simp

theorem willBeTouchedHead_enc (K : Converter) {c : Nat} (h : Scalar c) (rest : Str) :
    willBeTouchedHead K (encode c ++ rest) = some (touches K c) := by
  rw [willBeTouchedHead, if_neg (by simp [encode_ne_nil]), next_enc h]
  simp only [take_enc]
  have := willBeTouched_enc K (cs := [c]) (by simpa using h)
  simpa [encodeAll] using this

theorem willBeTouchedTail_enc (K : Converter) {c : Nat} (h : Scalar c) {cs : List Nat}
    (hs : ∀ x ∈ cs, Scalar x) :
    willBeTouchedTail K (encode c ++ encodeAll cs) = some (cs.any (touches K)) := by
  rw [willBeTouchedTail, if_neg (by simp [encode_ne_nil]), next_enc h]
  exact willBeTouched_enc K hs

/-- The test looks at the tables only: a used character, or one with another simple mapping. -/
theorem touches_iff (k : Case) (f : Context) (cp : Nat) :
    touches ⟨k.ranges, k.special, f⟩ cp = true
      ↔ cp ∈ Spec.used ∨ Spec.image k.pairs cp ≠ cp := by
  simp only [touches, specialConvert_case, rangeConvert_case, Bool.or_eq_true, bne_iff_ne, ne_eq,
    found]
  by_cases hu : cp ∈ Spec.used
  · obtain ⟨ds, hd⟩ := full_lookup (k := k) hu
    simp [hu, hd]
  · simp [hu]

theorem codeMap_untouched {k : Case} {f : Context} {cp : Nat}
    (h : touches ⟨k.ranges, k.special, f⟩ cp = false) : codeMap k cp = [cp] := by
  have h' : ¬ (cp ∈ Spec.used ∨ Spec.image k.pairs cp ≠ cp) := by
    rw [← touches_iff k f cp]; simp [h]
  simp only [not_or, ne_eq, Decidable.not_not] at h'
  rw [← plainMap_eq, plainMap, if_neg h'.1, h'.2]

end Verif.Casing
