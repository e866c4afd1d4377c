import Verif.Casing.Texts
import Verif.Casing.HooksLemmas

/-!
Properties C118 to C124: the conversion of letters and texts to lower, upper and title case, the
spellings under which lemmatizers are asked, and the edges their answers become.
-/
namespace Verif.Casing
open Verif Verif.Utf8
open Verif.Utf8.Spec (Scalar encode encodeAll WellFormed)

/-! ## C118: letters -/

/-- C118: in a table of ranges that follow each other, the search with its early stop finds the
range of a code point whenever there is one. -/
theorem C118_search (t : List Range) (h : ∀ r ∈ t, r.lo ≤ r.hi)
    (hs : t.Pairwise fun a b => a.hi < b.lo) (cp : Nat) :
    findRecord t cp = t.find? fun r => decide (r.lo ≤ cp ∧ cp ≤ r.hi) := by
  induction t with
  | nil => rfl
  | cons r t ih =>
    rw [List.pairwise_cons] at hs
    have hr := h r (by simp)
    rw [findRecord, List.find?_cons]
    by_cases h1 : cp < r.lo
    · rw [if_pos h1]
      have h2 : decide (r.lo ≤ cp ∧ cp ≤ r.hi) = false := by simp; omega
      rw [h2]
      symm
      rw [List.find?_eq_none]
      intro r' hr'
      have := hs.1 r' hr'
      simp
      omega
    · rw [if_neg h1]
      by_cases h3 : cp ≤ r.hi
      · have : decide (r.lo ≤ cp ∧ cp ≤ r.hi) = true := by simp; omega
        rw [if_pos h3, this]
      · have : decide (r.lo ≤ cp ∧ cp ≤ r.hi) = false := by simp; omega
        rw [if_neg h3, this]
        exact ih (fun x hx => h x (by simp [hx])) hs.2

example : findRecord [⟨65, 90, 32⟩, ⟨256, 302, evenOddSkip⟩] 300
    = some ⟨256, 302, evenOddSkip⟩ := by decide

/-- C118: the range tables of the code are in order, so nothing is lost in the search. -/
theorem C118_ordered (k : Case) :
    (∀ r ∈ k.ranges, r.lo ≤ r.hi) ∧ k.ranges.Pairwise fun a b => a.hi < b.lo := by
  have key : ∀ (t : List Range) (n : Nat), increasing n t = true →
      (∀ r ∈ t, n ≤ r.lo ∧ r.lo ≤ r.hi) ∧ t.Pairwise fun a b => a.hi < b.lo := by
    intro t
    induction t with
    | nil => intro n _; simp
    | cons r t ih =>
      intro n h
      simp only [increasing, Bool.and_eq_true, Nat.ble_eq] at h
      obtain ⟨i1, i2⟩ := ih _ h.2
      refine ⟨fun x hx => ?_, List.pairwise_cons.2 ⟨fun x hx => (i1 x hx).1, i2⟩⟩
      rcases List.mem_cons.1 hx with rfl | hx
      · exact h.1
      · have := i1 x hx; omega
  have h : increasing 0 k.ranges = true := by
    cases k
    · have := lower_check; simp only [tableCheck, Bool.and_eq_true] at this; exact this.1.1
    · have := upper_check; simp only [tableCheck, Bool.and_eq_true] at this; exact this.1.1
    · have := title_check; simp only [tableCheck, Bool.and_eq_true] at this; exact this.1.1
  exact ⟨fun r hr => ((key _ 0 h).1 r hr).2, (key _ 0 h).2⟩

example : (⟨65, 90, 32⟩ : Range) ∈ Case.lower.ranges := by decide +kernel

/-- C118: for every code point, the lower case of the code is the simple lower case mapping of
Unicode 6.0. -/
theorem C118_lower (cp : Nat) :
    rangeConvert lowerRanges cp = Spec.image Spec.lowerPairs cp :=
  rangeConvert_eq_simple lower_check cp

/-- C118: for every code point, the upper case of the code is the simple upper case mapping of
Unicode 6.0. -/
theorem C118_upper (cp : Nat) :
    rangeConvert upperRanges cp = Spec.image Spec.upperPairs cp :=
  rangeConvert_eq_simple upper_check cp

/-- C118: for every code point, the title case of the code is the simple title case mapping of
Unicode 6.0. -/
theorem C118_title (cp : Nat) :
    rangeConvert titleRanges cp = Spec.image Spec.titlePairs cp :=
  rangeConvert_eq_simple title_check cp

-- Ł and ł, and the three forms of the Croatian digraph DŽ.
example : rangeConvert lowerRanges 0x141 = 0x142 ∧ rangeConvert upperRanges 0x142 = 0x141
    ∧ rangeConvert upperRanges 0x1C6 = 0x1C4 ∧ rangeConvert titleRanges 0x1C6 = 0x1C5
    ∧ rangeConvert lowerRanges 0x2C = 0x2C := by
  decide +kernel

/-! ## C119: special casing -/

/-- C119: the tables of the code have all unconditional rows of SpecialCasing.txt. -/
theorem C119_table (k : Case) : ∀ q ∈ k.full, (q.1, encodeAll q.2) ∈ k.special := by
  have h : (k.full.all fun q => k.special.contains (q.1, encodeAll q.2)) = true := by
    cases k <;> decide +kernel
  simpa using h

example : (329, [700, 78]) ∈ Case.upper.full := by decide +kernel

/-- C119 is false of the code: a row of the table need not be found. The rows are not in the order
the search relies on, and U+0149 is never found, nor are the other 88 rows below U+FB00. -/
theorem C119_special_false :
    ¬ ∀ (k : Case) (cp : Nat) (r : Str), (cp, r) ∈ k.special →
        specialConvert k.special cp = some r := by
  intro h
  have := h .upper 329 (encodeAll [700, 78]) (C119_table .upper (329, [700, 78]) (by decide +kernel))
  revert this
  decide +kernel

/-- C119 (partial): exactly for the 14 characters of `Spec.used` the row of SpecialCasing.txt is
found, and it is the right one. Missing: the other 89. -/
theorem C119_special_partial (k : Case) (cp : Nat) :
    specialConvert k.special cp
      = if cp ∈ Spec.used then (k.full.lookup cp).map encodeAll else none :=
  specialConvert_case k cp

example : specialConvert Case.upper.special 223 = some (encodeAll [83, 83]) := by decide +kernel

/-- C119: lower casing a text in a language without rules of its own is the full lower casing of
Unicode, character by character (the rows that are not found say nothing new here). -/
theorem C119_lower (lang : Str) (hl : Plain lang) (K : Converter)
    (hK : converter lang .lower = some K) (cs : List Nat) (h : ∀ c ∈ cs, Scalar c) :
    convert K (encodeAll cs) = some (encodeAll (cs.flatMap Spec.lower)) := by
  rw [converter_plain hl hK]
  exact convert_regular .lower h

example : ∃ K, converter (Server.ascii "pl") .lower = some K := ⟨_, rfl⟩

/-- C119 is false of the code: upper casing a text is not the full upper casing of Unicode. The
letter U+1F80, for example, should become two letters. -/
theorem C119_upper_false :
    ¬ ∀ (lang : Str) (_ : Plain lang) (K : Converter) (_ : converter lang .upper = some K)
        (cs : List Nat) (_ : ∀ c ∈ cs, Scalar c),
        convert K (encodeAll cs) = some (encodeAll (cs.flatMap Spec.upper)) := by
  intro h
  have hs : ∀ c ∈ [0x1F80], Scalar c := by simp [Scalar]
  have := h (Server.ascii "pl") (by unfold Plain; decide) (regular .upper) rfl [0x1F80] hs
  rw [convert_regular .upper hs] at this
  revert this
  decide +kernel

/-- C119 (partial): upper casing is the full upper casing of Unicode on texts in which the only
characters with a row in SpecialCasing.txt are the used ones; on other texts the rest of them is
converted by its simple mapping. -/
theorem C119_upper_partial (lang : Str) (hl : Plain lang) (K : Converter)
    (hK : converter lang .upper = some K) (cs : List Nat) (h : ∀ c ∈ cs, Scalar c) :
    convert K (encodeAll cs) = some (encodeAll (cs.flatMap Spec.upper'))
      ∧ ((∀ c ∈ cs, (Spec.upperFull.lookup c).isSome → c ∈ Spec.used) →
          convert K (encodeAll cs) = some (encodeAll (cs.flatMap Spec.upper))) := by
  rw [converter_plain hl hK]
  have h0 := convert_regular .upper h
  refine ⟨h0, fun hu => ?_⟩
  rw [h0]
  congr 2
  induction cs with
  | nil => rfl
  | cons c cs ih =>
    rw [List.flatMap_cons, List.flatMap_cons, ih (fun x hx => h x (by simp [hx]))
      (convert_regular .upper (fun x hx => h x (by simp [hx]))) (fun x hx => hu x (by simp [hx]))]
    congr 1
    change Spec.upper' c = Spec.upper c
    unfold Spec.upper'
    split
    · rfl
    · rename_i hc
      have := hu c (by simp)
      cases hl : Spec.upperFull.lookup c with
      | none => simp [Spec.upper, Spec.fullImage, hl]
      | some d => exact absurd (this (by simp [hl])) hc

example : ∀ c ∈ [0x61, 223, 0x142], (Spec.upperFull.lookup c).isSome → c ∈ Spec.used := by
  decide +kernel

/-- C119 (partial): the same for title casing. -/
theorem C119_title_partial (lang : Str) (hl : Plain lang) (K : Converter)
    (hK : converter lang .title = some K) (cs : List Nat) (h : ∀ c ∈ cs, Scalar c) :
    convert K (encodeAll cs) = some (encodeAll (cs.flatMap Spec.title'))
      ∧ ((∀ c ∈ cs, (Spec.titleFull.lookup c).isSome → c ∈ Spec.used) →
          convert K (encodeAll cs) = some (encodeAll (cs.flatMap Spec.title))) := by
  rw [converter_plain hl hK]
  have h0 := convert_regular .title h
  refine ⟨h0, fun hu => ?_⟩
  rw [h0]
  congr 2
  induction cs with
  | nil => rfl
  | cons c cs ih =>
    rw [List.flatMap_cons, List.flatMap_cons, ih (fun x hx => h x (by simp [hx]))
      (convert_regular .title (fun x hx => h x (by simp [hx]))) (fun x hx => hu x (by simp [hx]))]
    congr 1
    change Spec.title' c = Spec.title c
    unfold Spec.title'
    split
    · rfl
    · rename_i hc
      have := hu c (by simp)
      cases hl : Spec.titleFull.lookup c with
      | none => simp [Spec.title, Spec.fullImage, hl]
      | some d => exact absurd (this (by simp [hl])) hc

example : ∀ c ∈ [0x61, 223, 0x142], (Spec.titleFull.lookup c).isSome → c ∈ Spec.used := by
  decide +kernel

/-! ## C120: texts -/

/-- C120: in a language without rules of its own every well-formed text has a conversion, and it
is well-formed. -/
theorem C120_wellformed (lang : Str) (hl : Plain lang) (k : Case) (K : Converter)
    (hK : converter lang k = some K) (s : Str) (hs : WellFormed s) :
    ∃ t, convert K s = some t ∧ WellFormed t := by
  obtain ⟨cs, h, rfl⟩ := hs
  rw [converter_plain hl hK]
  exact ⟨_, convert_regular k h, _, flatMap_scalar k h, rfl⟩

example : Plain (Server.ascii "pl") := by unfold Plain; decide

/-- C120: the conversion of two texts put together is the two conversions put together. -/
theorem C120_append (lang : Str) (hl : Plain lang) (k : Case) (K : Converter)
    (hK : converter lang k = some K) (s t s' t' : Str) (hs : WellFormed s) (ht : WellFormed t)
    (h1 : convert K s = some s') (h2 : convert K t = some t') :
    convert K (s ++ t) = some (s' ++ t') := by
  obtain ⟨cs, hc, rfl⟩ := hs
  obtain ⟨ds, hd, rfl⟩ := ht
  rw [converter_plain hl hK] at h1 h2 ⊢
  rw [convert_regular k hc, Option.some.injEq] at h1
  rw [convert_regular k hd, Option.some.injEq] at h2
  rw [← encodeAll_append, convert_regular k (fun c hcd => by
    rcases List.mem_append.1 hcd with h | h
    · exact hc c h
    · exact hd c h), List.flatMap_append, encodeAll_append, h1, h2]

example : convert (regular .upper) (encodeAll [0x61]) = some (encodeAll [0x41]) := by
  rw [convert_regular .upper (by simp [Scalar])]; decide +kernel

/-- C120: a text in lower case stays as it is. -/
theorem C120_lower_idempotent (lang : Str) (hl : Plain lang) (K : Converter)
    (hK : converter lang .lower = some K) (s t : Str) (hs : WellFormed s)
    (h : convert K s = some t) : convert K t = some t := by
  obtain ⟨cs, hc, rfl⟩ := hs
  rw [converter_plain hl hK] at h ⊢
  have := convert_twice lower_lower_check hc (by simp)
  rw [h] at this
  exact this

example : convert (regular .lower) (encodeAll [0x130]) = some (encodeAll [0x69, 0x307]) := by
  rw [convert_regular .lower (by simp [Scalar])]; decide +kernel

/-- C120: a text in upper case stays as it is. -/
theorem C120_upper_idempotent (lang : Str) (hl : Plain lang) (K : Converter)
    (hK : converter lang .upper = some K) (s t : Str) (hs : WellFormed s)
    (h : convert K s = some t) : convert K t = some t := by
  obtain ⟨cs, hc, rfl⟩ := hs
  rw [converter_plain hl hK] at h ⊢
  have := convert_twice upper_upper_check hc (by simp)
  rw [h] at this
  exact this

example : convert (regular .upper) (encodeAll [0xDF]) = some (encodeAll [0x53, 0x53]) := by
  rw [convert_regular .upper (by simp [Scalar])]; decide +kernel

/-- C120 is false of title case: sharp s becomes `Ss`, and that becomes `SS`. -/
theorem C120_title_idempotent_false :
    ¬ ∀ (lang : Str) (_ : Plain lang) (K : Converter) (_ : converter lang .title = some K)
        (s t : Str) (_ : WellFormed s) (_ : convert K s = some t), convert K t = some t := by
  intro h
  have hs : ∀ c ∈ [0xDF], Scalar c := by simp [Scalar]
  have h1 : convert (regular .title) (encodeAll [0xDF]) = some (encodeAll [0x53, 0x73]) := by
    rw [convert_regular .title hs]; decide +kernel
  have := h (Server.ascii "pl") (by unfold Plain; decide) (regular .title) rfl
    (encodeAll [0xDF]) (encodeAll [0x53, 0x73]) ⟨_, hs, rfl⟩ h1
  rw [convert_regular .title (by simp [Scalar])] at this
  revert this
  decide +kernel

/-- C120 (partial): a text in title case stays as it is if it was made from one without sharp s
and ligatures. -/
theorem C120_title_idempotent_partial (lang : Str) (hl : Plain lang) (K : Converter)
    (hK : converter lang .title = some K) (cs : List Nat) (hc : ∀ c ∈ cs, Scalar c)
    (hu : ∀ c ∈ cs, c ∉ unstableTitle) (t : Str)
    (h : convert K (encodeAll cs) = some t) : convert K t = some t := by
  rw [converter_plain hl hK] at h ⊢
  have := convert_twice title_title_check hc hu
  rw [h] at this
  exact this

example : ∀ c ∈ [0x61, 0x1C4], Scalar c ∧ c ∉ unstableTitle := by
  simp [Scalar, unstableTitle]

/-- C120: upper casing does not depend on whether the text has been made title case before. -/
theorem C120_upper_title (lang : Str) (hl : Plain lang) (K T : Converter)
    (hK : converter lang .upper = some K) (hT : converter lang .title = some T) (s : Str)
    (hs : WellFormed s) : (convert T s).bind (convert K) = convert K s := by
  obtain ⟨cs, hc, rfl⟩ := hs
  rw [converter_plain hl hK, converter_plain hl hT]
  exact convert_twice upper_title_check hc (by simp)

example : ∃ K T, converter (Server.ascii "pl") .upper = some K
    ∧ converter (Server.ascii "pl") .title = some T := ⟨_, _, rfl, rfl⟩

/-- C120 (partial): upper casing a text that was made lower case before gives the upper case of
the original, unless it has one of six characters (such as the Kelvin sign), for each of which it
does not. -/
theorem C120_upper_lower_partial (lang : Str) (hl : Plain lang) (K L : Converter)
    (hK : converter lang .upper = some K) (hL : converter lang .lower = some L) (cs : List Nat)
    (hc : ∀ c ∈ cs, Scalar c) :
    ((∀ c ∈ cs, c ∉ unstableUpper) →
        (convert L (encodeAll cs)).bind (convert K) = convert K (encodeAll cs))
      ∧ ∀ c ∈ unstableUpper,
          (convert L (encodeAll [c])).bind (convert K) ≠ convert K (encodeAll [c]) := by
  rw [converter_plain hl hK, converter_plain hl hL]
  refine ⟨convert_twice upper_lower_check hc, fun c hc => ?_⟩
  have hs : ∀ x ∈ [c], Scalar x := by
    have : ∀ c ∈ unstableUpper, c ≤ 0x10FFFF ∧ ¬ (0xD800 ≤ c ∧ c ≤ 0xDFFF) := by decide
    intro x hx
    rw [List.mem_singleton.1 hx]; exact this c hc
  have h := unstable_check
  simp only [Bool.and_eq_true, List.all_eq_true, bne_iff_ne, ne_eq, fastMap_eq] at h
  rw [convert_regular .lower hs, Option.bind_some,
    convert_regular .upper (flatMap_scalar .lower hs), convert_regular .upper hs]
  intro he
  have := encodeAll_inj (flatMap_scalar .upper (flatMap_scalar .lower hs))
    (flatMap_scalar .upper hs) (Option.some.inj he)
  have hm : codeMap .upper = fastMap .upper := funext fun c => (fastMap_eq .upper c).symm
  apply h.1 c hc
  simpa [hm] using this

example : ∀ c ∈ [0x61, 0x141, 0xDF], c ∉ unstableUpper := by decide

/-- C120 (partial): lower casing a text that was made upper case before gives the lower case of
the original, unless it has one of 27 characters (such as sharp s or the final sigma), for each of
which it does not. -/
theorem C120_lower_upper_partial (lang : Str) (hl : Plain lang) (K L : Converter)
    (hK : converter lang .upper = some K) (hL : converter lang .lower = some L) (cs : List Nat)
    (hc : ∀ c ∈ cs, Scalar c) :
    ((∀ c ∈ cs, c ∉ unstableLower) →
        (convert K (encodeAll cs)).bind (convert L) = convert L (encodeAll cs))
      ∧ ∀ c ∈ unstableLower,
          (convert K (encodeAll [c])).bind (convert L) ≠ convert L (encodeAll [c]) := by
  rw [converter_plain hl hK, converter_plain hl hL]
  refine ⟨convert_twice lower_upper_check hc, fun c hc => ?_⟩
  have hs : ∀ x ∈ [c], Scalar x := by
    have : ∀ c ∈ unstableLower, c ≤ 0x10FFFF ∧ ¬ (0xD800 ≤ c ∧ c ≤ 0xDFFF) := by decide
    intro x hx
    rw [List.mem_singleton.1 hx]; exact this c hc
  have h := unstable_check
  simp only [Bool.and_eq_true, List.all_eq_true, bne_iff_ne, ne_eq, fastMap_eq] at h
  rw [convert_regular .upper hs, Option.bind_some,
    convert_regular .lower (flatMap_scalar .upper hs), convert_regular .lower hs]
  intro he
  have := encodeAll_inj (flatMap_scalar .lower (flatMap_scalar .upper hs))
    (flatMap_scalar .lower hs) (Option.some.inj he)
  have hm : codeMap .lower = fastMap .lower := funext fun c => (fastMap_eq .lower c).symm
  apply h.2 c hc
  simpa [hm] using this

example : ∀ c ∈ [0x61, 0x141, 0x3A3], c ∉ unstableLower := by decide

/-! ## C121: Turkish and Azeri -/

/-- C121: every language has a converter but Lithuanian. -/
theorem C121_languages (lang : Str) (k : Case) :
    (converter lang k).isSome ↔ lang ≠ Server.ascii "lt" := by
  unfold converter contextFor
  by_cases h : lang = Server.ascii "lt"
  · simp [h]
  · rw [if_neg h]
    split <;> simp [h]

example : (converter (Server.ascii "tr") .lower).isSome := rfl

/-- The two languages with rules of their own. -/
def Turkic (lang : Str) : Prop := lang = Server.ascii "tr" ∨ lang = Server.ascii "az"

theorem converter_turkic_lower {lang : Str} (h : Turkic lang) {K : Converter}
    (hK : converter lang .lower = some K) : K = turkishLower := by
  rcases h with rfl | rfl <;> exact (Option.some.inj hK).symm

theorem converter_turkic_upper {lang : Str} (h : Turkic lang) {k : Case} (hk : k ≠ .lower)
    {K : Converter} (hK : converter lang k = some K) : K = turkishUpper k := by
  rcases h with rfl | rfl <;> cases k <;>
    first | exact absurd rfl hk | exact (Option.some.inj hK).symm

/-- C121 is false of the code: lower casing in Turkish does not follow SpecialCasing.txt when a
mark stands between the capital I and the dot above it. The code looks at the next character
only. (The combining class of U+0323, the dot below, is 220.) -/
theorem C121_lower_false (ccc : Nat → Nat) (h0 : ccc 0x323 = 220) :
    ¬ ∀ (lang : Str) (_ : Turkic lang) (K : Converter) (_ : converter lang .lower = some K)
        (cs : List Nat) (_ : ∀ c ∈ cs, Scalar c),
        convert K (encodeAll cs) = some (encodeAll (Spec.turkishLower ccc [] cs)) := by
  intro h
  have hs : ∀ c ∈ [0x49, 0x323, 0x307], Scalar c := by simp [Scalar]
  have := h (Server.ascii "tr") (Or.inl rfl) turkishLower rfl [0x49, 0x323, 0x307] hs
  rw [convert_turkishLower (ccc := fun _ => 0) hs (by simp [Spec.between])] at this
  have e : Spec.turkishLower ccc [] [0x49, 0x323, 0x307]
      = Spec.turkishLower (fun c => if c = 0x323 then 220 else 0) [] [0x49, 0x323, 0x307] := by
    simp [Spec.turkishLower, Spec.afterI, Spec.beforeDot, Spec.between, h0]
  rw [e] at this
  revert this
  decide +kernel

/-- C121 (partial): lower casing in Turkish and Azeri follows SpecialCasing.txt on texts without
marks that may stand between an I and its dot (those of a combining class other than 0 and
230). -/
theorem C121_lower_partial (lang : Str) (hl : Turkic lang) (K : Converter)
    (hK : converter lang .lower = some K) (ccc : Nat → Nat) (cs : List Nat)
    (h : ∀ c ∈ cs, Scalar c) (hm : ∀ c ∈ cs, ccc c = 0 ∨ ccc c = 230) :
    convert K (encodeAll cs) = some (encodeAll (Spec.turkishLower ccc [] cs)) := by
  rw [converter_turkic_lower hl hK]
  exact convert_turkishLower h (fun c hc => by
    rcases hm c hc with e | e <;> simp [Spec.between, e])

-- `I`, and `I` with a dot above.
example : Spec.turkishLower (fun _ => 0) [] [0x49, 0x5A, 0x49, 0x307] = [0x131, 0x7A, 0x69] := by
  decide +kernel

/-- C121 (partial): upper and title casing in Turkish and Azeri turn `i` into the capital I with
a dot, and treat the rest as elsewhere (so the missing rows of C119 are missing here too). -/
theorem C121_upper_partial (lang : Str) (hl : Turkic lang) (K T : Converter)
    (hK : converter lang .upper = some K) (hT : converter lang .title = some T) (cs : List Nat)
    (h : ∀ c ∈ cs, Scalar c) :
    convert K (encodeAll cs)
        = some (encodeAll (cs.flatMap fun c => if c = 0x69 then [0x130] else Spec.upper' c))
      ∧ convert T (encodeAll cs)
        = some (encodeAll (cs.flatMap fun c => if c = 0x69 then [0x130] else Spec.title' c)) := by
  rw [converter_turkic_upper hl (by decide) hK, converter_turkic_upper hl (by decide) hT]
  exact ⟨convert_turkishUpper .upper h, convert_turkishUpper .title h⟩

example : Turkic (Server.ascii "az") := Or.inr rfl

/-- C121 is false of the code: converting the head of a Turkish word is not what converting the
word does to its first letter. The dotted `I` written with a combining dot becomes a dotless `ı`
with a dot. -/
theorem C121_head_false :
    ¬ ∀ (lang : Str) (_ : Turkic lang) (K : Converter) (_ : converter lang .lower = some K)
        (cs : List Nat) (_ : ∀ c ∈ cs, Scalar c) (t u : Str)
        (_ : convert K (encodeAll cs) = some t) (_ : headConvert K (encodeAll cs) = some u),
        t.head? = u.head? := by
  intro h
  have hs : ∀ c ∈ [0x49, 0x307], Scalar c := by simp [Scalar]
  have h1 : convert turkishLower (encodeAll [0x49, 0x307]) = some [0x69] := by
    rw [convert_turkishLower (ccc := fun _ => 0) hs (by simp [Spec.between])]
    decide +kernel
  have h2 : headConvert turkishLower (encodeAll [0x49, 0x307])
      = some (encodeAll [0x131, 0x307]) := by
    rw [encodeAll_cons, headConvert_enc _ (hs 0x49 (by simp))]
    have := convert_turkishLower (ccc := fun _ => 0) (cs := [0x49]) (by simp [Scalar])
      (by simp [Spec.between])
    have e : encodeAll [0x49] = encode 0x49 := by simp [encodeAll]
    rw [e] at this
    rw [this]
    decide +kernel
  have := h (Server.ascii "tr") (Or.inl rfl) turkishLower rfl _ hs _ _ h1 h2
  revert this
  decide

/-! ## C122: whether a conversion would change anything, heads and tails -/

/-- C122: in all languages, a text that is said not to be touched is its own conversion. -/
theorem C122_untouched (lang : Str) (k : Case) (K : Converter) (hK : converter lang k = some K)
    (s : Str) (hs : WellFormed s) (h : willBeTouched K s = some false) : convert K s = some s := by
  obtain ⟨cs, hc, rfl⟩ := hs
  rw [willBeTouched_enc K hc, Option.some.injEq] at h
  apply convert_untouched hK hc
  intro c hm
  have := (List.any_eq_false.1 h) c hm
  simpa using this

example : willBeTouched (regular .lower) (encodeAll [0x61, 0x7C5B]) = some false := by
  rw [willBeTouched_enc _ (by simp [Scalar])]; decide +kernel

/-- C122 is false of the code: a text that is said to be touched need not change. In lower case
sharp s has a row of its own that says it stays as it is. -/
theorem C122_touched_false :
    ¬ ∀ (lang : Str) (_ : Plain lang) (k : Case) (K : Converter) (_ : converter lang k = some K)
        (s : Str) (_ : WellFormed s) (_ : willBeTouched K s = some true), convert K s ≠ some s := by
  intro h
  have hs : ∀ c ∈ [0xDF], Scalar c := by simp [Scalar]
  refine h (Server.ascii "de") (by unfold Plain; decide) .lower (regular .lower) rfl
    (encodeAll [0xDF]) ⟨_, hs, rfl⟩ ?_ ?_
  · rw [willBeTouched_enc _ hs]; decide +kernel
  · rw [convert_regular .lower hs]; decide +kernel

/-- C122 (partial): without the 14 characters whose special rows are used, a text is said to be
touched exactly if its conversion differs from it. -/
theorem C122_touched_partial (lang : Str) (hl : Plain lang) (k : Case) (K : Converter)
    (hK : converter lang k = some K) (cs : List Nat) (h : ∀ c ∈ cs, Scalar c)
    (hu : ∀ c ∈ cs, c ∉ Spec.used) :
    willBeTouched K (encodeAll cs) = some true ↔ convert K (encodeAll cs) ≠ some (encodeAll cs) := by
  have hpl := converter_plain hl hK
  subst hpl
  constructor
  · intro ht he
    rw [willBeTouched_enc _ h, Option.some.injEq, List.any_eq_true] at ht
    obtain ⟨c, hc, ht⟩ := ht
    have ht' := (touches_iff k regularContext c).1 ht
    rw [convert_regular k h, Option.some.injEq] at he
    have he := encodeAll_inj (flatMap_scalar k h) h he
    rw [flatMap_unused hu] at he
    refine map_changed ⟨c, hc, ?_⟩ he
    rcases ht' with ht' | ht'
    · exact absurd ht' (hu c hc)
    · exact ht'
  · intro hne
    rw [willBeTouched_enc _ h, Option.some.injEq]
    cases ha : cs.any (touches (regular k)) with
    | true => rfl
    | false =>
      exact absurd (C122_untouched lang k _ hK _ ⟨cs, h, rfl⟩ (by
        rw [willBeTouched_enc _ h, ha])) hne

example : ∀ c ∈ [0x41, 0x62], Scalar c ∧ c ∉ Spec.used := by simp [Scalar, Spec.used]

/-- C122: converting the head of a word converts its first character and leaves the rest;
converting the tail leaves the first character and converts the rest; and doing both is
converting the word. -/
theorem C122_head_tail (lang : Str) (hl : Plain lang) (k : Case) (K : Converter)
    (hK : converter lang k = some K) (c : Nat) (cs : List Nat) (hc : Scalar c)
    (hs : ∀ x ∈ cs, Scalar x) (head tail : Str) (h1 : convert K (encode c) = some head)
    (h2 : convert K (encodeAll cs) = some tail) :
    headConvert K (encode c ++ encodeAll cs) = some (head ++ encodeAll cs)
      ∧ tailConvert K (encode c ++ encodeAll cs) = some (encode c ++ tail)
      ∧ headConvert K (encode c ++ tail) = some (head ++ tail)
      ∧ convert K (encode c ++ encodeAll cs) = some (head ++ tail) := by
  refine ⟨?_, ?_, ?_, ?_⟩
  · rw [headConvert_enc K hc, h1]; rfl
  · rw [tailConvert_enc K hc, h2]; rfl
  · rw [headConvert_enc K hc, h1]; rfl
  · exact C120_append lang hl k K hK _ _ _ _ ⟨[c], by simpa using hc, by simp [encodeAll]⟩
      ⟨cs, hs, rfl⟩ h1 h2

example : convert (regular .lower) (encode 0x41) = some (encode 0x61) := by
  have := convert_regular .lower (cs := [0x41]) (by simp [Scalar])
  have e : encodeAll [0x41] = encode 0x41 := by simp [encodeAll]
  rw [← e, this]; decide +kernel

/-- C122: a word is said to be touched at its head, or at its tail, exactly if the first
character, or the rest, is said to be touched on its own; the empty word never is. -/
theorem C122_parts (K : Converter) (c : Nat) (cs : List Nat) (hc : Scalar c)
    (hs : ∀ x ∈ cs, Scalar x) :
    willBeTouchedHead K (encode c ++ encodeAll cs) = willBeTouched K (encode c)
      ∧ willBeTouchedTail K (encode c ++ encodeAll cs) = willBeTouched K (encodeAll cs)
      ∧ willBeTouchedHead K [] = some false ∧ willBeTouchedTail K [] = some false
      ∧ headConvert K [] = some [] ∧ tailConvert K [] = some [] := by
  refine ⟨?_, ?_, rfl, rfl, rfl, rfl⟩
  · rw [willBeTouchedHead_enc K hc]
    have := willBeTouched_enc K (cs := [c]) (by simpa using hc)
    have e : encodeAll [c] = encode c := by simp [encodeAll]
    rw [e] at this
    rw [this]; simp
  · rw [willBeTouchedTail_enc K hc hs, willBeTouched_enc K hs]

example : Scalar 0x130 := by unfold Scalar; omega

/-! ## C123: the spellings a word is looked up under -/

/-- C123: a lemmatizer is asked for the word itself; then, if something behind the first letter is
touched by lower casing, for the word with that in lower case; then, if the first letter is
touched, for the word with its first letter in lower case. -/
theorem C123_lookups (lang : Str) (hl : Plain lang) (K : Converter)
    (hK : converter lang .lower = some K) (c : Nat) (cs : List Nat) (hc : Scalar c)
    (hs : ∀ x ∈ cs, Scalar x) (head tail : Str) (h1 : convert K (encode c) = some head)
    (h2 : convert K (encodeAll cs) = some tail) :
    lookups K (encode c ++ encodeAll cs)
      = some ([encode c ++ encodeAll cs]
          ++ (if willBeTouched K (encodeAll cs) = some true then [encode c ++ tail] else [])
          ++ (if willBeTouched K (encode c) = some true then [head ++ encodeAll cs] else [])) := by
  obtain ⟨e1, e2, -⟩ := C122_head_tail lang hl .lower K hK c cs hc hs head tail h1 h2
  obtain ⟨e3, e4, -⟩ := C122_parts K c cs hc hs
  have hc' : willBeTouched K (encode c) = some (touches K c) := by
    have := willBeTouched_enc K (cs := [c]) (by simpa using hc)
    have e : encodeAll [c] = encode c := by simp [encodeAll]
    rw [e] at this
    rw [this]; simp
  unfold lookups
  rw [e1, e2, e3, e4, hc', willBeTouched_enc K hs]
  cases cs.any (touches K) <;> cases touches K c <;> rfl

example : Plain (Server.ascii "en") := by unfold Plain; decide

/-- C123 is false of the code: a word is not always looked up in lower case. A word in capitals
is looked up as it is, with its first letter kept and the others lowered, and with its first
letter lowered and the others kept. -/
theorem C123_lower_false :
    ¬ ∀ (lang : Str) (_ : Plain lang) (K : Converter) (_ : converter lang .lower = some K)
        (cs : List Nat) (_ : ∀ c ∈ cs, Scalar c) (t : Str) (ws : List Str)
        (_ : convert K (encodeAll cs) = some t) (_ : lookups K (encodeAll cs) = some ws),
        t ∈ ws := by
  intro h
  have hs : ∀ c ∈ [0x50, 0x49, 0x45, 0x53], Scalar c := by simp [Scalar]
  have := h (Server.ascii "pl") (by unfold Plain; decide) (regular .lower) rfl _ hs _ _
    (convert_regular .lower hs)
    (lookups_enc .lower (hs 0x50 (by simp)) (fun x hx => hs x (by simp [hx])))
  revert this
  decide +kernel

/-- C123 (partial): a word is looked up in lower case if its first letter is, or all others are,
in lower case already. -/
theorem C123_lower_partial (lang : Str) (hl : Plain lang) (K : Converter)
    (hK : converter lang .lower = some K) (c : Nat) (cs : List Nat) (hc : Scalar c)
    (hs : ∀ x ∈ cs, Scalar x) (t : Str) (ws : List Str)
    (h1 : convert K (encode c ++ encodeAll cs) = some t)
    (h2 : lookups K (encode c ++ encodeAll cs) = some ws)
    (hlow : convert K (encode c) = some (encode c)
      ∨ convert K (encodeAll cs) = some (encodeAll cs)) : t ∈ ws := by
  obtain ⟨tail, ht, -⟩ := C120_wellformed lang hl .lower K hK (encodeAll cs) ⟨cs, hs, rfl⟩
  have hwc : WellFormed (encode c) := ⟨[c], by simpa using hc, by simp [encodeAll]⟩
  obtain ⟨head, hh, -⟩ := C120_wellformed lang hl .lower K hK (encode c) hwc
  have e := (C122_head_tail lang hl .lower K hK c cs hc hs head tail hh ht).2.2.2
  rw [h1, Option.some.injEq] at e
  rw [C123_lookups lang hl K hK c cs hc hs head tail hh ht, Option.some.injEq] at h2
  subst h2 e
  have un : ∀ ds : List Nat, (∀ x ∈ ds, Scalar x) → willBeTouched K (encodeAll ds) ≠ some true →
      convert K (encodeAll ds) = some (encodeAll ds) := by
    intro ds hd hn
    apply C122_untouched lang .lower K hK _ ⟨ds, hd, rfl⟩
    rw [willBeTouched_enc K hd] at hn ⊢
    cases h : ds.any (touches K) with
    | true => rw [h] at hn; exact absurd rfl hn
    | false => rfl
  rcases hlow with hlow | hlow
  · rw [hh, Option.some.injEq] at hlow
    subst hlow
    by_cases hT : willBeTouched K (encodeAll cs) = some true
    · simp [hT]
    · have := un cs hs hT
      rw [ht, Option.some.injEq] at this
      subst this
      simp
  · rw [ht, Option.some.injEq] at hlow
    subst hlow
    by_cases hT : willBeTouched K (encode c) = some true
    · simp [hT]
    · have e0 : encodeAll [c] = encode c := by simp [encodeAll]
      have := un [c] (by simpa using hc) (by rw [e0]; exact hT)
      rw [e0, hh, Option.some.injEq] at this
      subst this
      simp

example : convert (regular .lower) (encodeAll [0x6F, 0x74]) = some (encodeAll [0x6F, 0x74]) := by
  rw [convert_regular .lower (by simp [Scalar])]; decide +kernel

/-- C123 is false of the code: a word may be looked up twice under the same spelling. -/
theorem C123_once_false :
    ¬ ∀ (lang : Str) (_ : Plain lang) (K : Converter) (_ : converter lang .lower = some K)
        (cs : List Nat) (_ : ∀ c ∈ cs, Scalar c) (ws : List Str)
        (_ : lookups K (encodeAll cs) = some ws), ws.Nodup := by
  intro h
  have hs : ∀ c ∈ [0x61, 0xDF], Scalar c := by simp [Scalar]
  have := h (Server.ascii "de") (by unfold Plain; decide) (regular .lower) rfl _ hs _
    (lookups_enc .lower (hs 0x61 (by simp)) (fun x hx => hs x (by simp [hx])))
  revert this
  decide +kernel

/-- C123 (partial): a word without sharp s, the capital I with dot and the ligatures is looked up
at most once under a spelling. -/
theorem C123_once_partial (lang : Str) (hl : Plain lang) (K : Converter)
    (hK : converter lang .lower = some K) (c : Nat) (cs : List Nat)
    (hs : ∀ x ∈ c :: cs, Scalar x) (hu : ∀ x ∈ c :: cs, x ∉ Spec.used) (ws : List Str)
    (h : lookups K (encodeAll (c :: cs)) = some ws) : ws.Nodup := by
  have hpl := converter_plain hl hK
  subst hpl
  have hc := hs c (by simp)
  have hs' : ∀ x ∈ cs, Scalar x := fun x hx => hs x (by simp [hx])
  have hu' : ∀ x ∈ cs, x ∉ Spec.used := fun x hx => hu x (by simp [hx])
  rw [lookups_enc .lower hc hs', Option.some.injEq] at h
  subst h
  have hcm : codeMap .lower c = [Spec.image Spec.lowerPairs c] := by
    have := flatMap_unused (k := .lower) (cs := [c]) (fun x hx => hu x (by
      rw [List.mem_singleton.1 hx]; simp))
    simpa [Case.pairs] using this
  have hic : Scalar (Spec.image Spec.lowerPairs c) := image_scalar (k := .lower) hc
  have htail : ∀ x ∈ c :: cs.flatMap (codeMap .lower), Scalar x := fun x hx => by
    rcases List.mem_cons.1 hx with rfl | hx
    · exact hc
    · exact flatMap_scalar .lower hs' x hx
  have hhead : ∀ x ∈ codeMap .lower c ++ cs, Scalar x := fun x hx => by
    rcases List.mem_append.1 hx with hx | hx
    · exact codeMap_scalar .lower hc x hx
    · exact hs' x hx
  have n1 : cs.any (touches (regular .lower)) = true →
      encodeAll (c :: cs) ≠ encodeAll (c :: cs.flatMap (codeMap .lower)) := by
    intro ha he
    have he := encodeAll_inj hs htail he
    simp only [List.cons.injEq, true_and] at he
    rw [flatMap_unused hu'] at he
    obtain ⟨x, hx, ht⟩ := List.any_eq_true.1 ha
    refine map_changed ⟨x, hx, ?_⟩ he.symm
    rcases (touches_iff .lower regularContext x).1 ht with ht | ht
    · exact absurd ht (hu' x hx)
    · exact ht
  have ne : touches (regular .lower) c = true → Spec.image Spec.lowerPairs c ≠ c := by
    intro ht
    rcases (touches_iff .lower regularContext c).1 ht with ht | ht
    · exact absurd ht (hu c (by simp))
    · exact ht
  have n2 : touches (regular .lower) c = true →
      encodeAll (c :: cs) ≠ encodeAll (codeMap .lower c ++ cs) := by
    intro ht he
    have he := encodeAll_inj hs hhead he
    rw [hcm] at he
    simp only [List.cons_append, List.nil_append, List.cons.injEq, and_true] at he
    exact ne ht he.symm
  have n3 : touches (regular .lower) c = true →
      encodeAll (c :: cs.flatMap (codeMap .lower)) ≠ encodeAll (codeMap .lower c ++ cs) := by
    intro ht he
    have he := encodeAll_inj htail hhead he
    rw [hcm] at he
    simp only [List.cons_append, List.nil_append, List.cons.injEq] at he
    exact ne ht he.1.symm
  cases ha : cs.any (touches (regular .lower)) <;> cases ht : touches (regular .lower) c
  · simp
  · simpa using n2 ht
  · simpa using n1 ha
  · simp [n1 ha, n2 ht, n3 ht]

example : ∀ x ∈ [0x50, 0x49], Scalar x ∧ x ∉ Spec.used := by simp [Scalar, Spec.used]

/-! ## C124: where the annotations of a lemmatizer are put -/

open Hooks in
/-- C124: whatever a lemmatizer reports in a run that is defined, every annotation is put on the
edge it belongs on: the latest annotation of a kind further up, or the token. The lattice and its
operation to add an edge are arbitrary. -/
theorem C124_belongs {σ E α : Type} (add : σ → Level → α → E → σ × E) (token : E) (s s' : σ)
    (events : List (Level × α)) (before : List (Made E)) (m : Made E) (after : List (Made E))
    (h : run add token s (Last.start token) events = some (s', before ++ m :: after)) :
    m.under = Hooks.Spec.belongs token
      ((before.map fun b => (b.level.depth, b.edge)).reverse) m.level.depth := by
  have := run_spec add token s (Last.start token) events [] (Agrees.start token) (by simp) h
    before m after rfl
  simpa [seen] using this

open Hooks in
/-- C124: what a lemmatizer reports comes out in order and completely. -/
theorem C124_complete {σ E α : Type} (add : σ → Level → α → E → σ × E) (token : E) (s s' : σ)
    (l : Last E) (events : List (Level × α)) (ms : List (Made E))
    (h : run add token s l events = some (s', ms)) :
    ms.map (·.level) = events.map Prod.fst := by
  induction events generalizing s l ms with
  | nil => simp only [run, Option.some.injEq, Prod.mk.injEq] at h; rw [← h.2]; rfl
  | cons v events ih =>
    obtain ⟨v, a⟩ := v
    rw [run] at h
    cases hu : l.under token v with
    | none => rw [hu] at h; simp at h
    | some u =>
      rw [hu] at h
      simp only [Option.map_eq_some_iff] at h
      obtain ⟨r, hr, he⟩ := h
      simp only [Prod.mk.injEq] at he
      rw [← he.2, List.map_cons, List.map_cons, ih _ _ _ (by rw [hr, ← he.1])]

/-- Edges numbered from 1 on, 0 being the token. -/
def Hooks.number (n : Nat) (_ : Hooks.Level) (_ : Unit) (_ : Nat) : Nat × Nat := (n + 1, n + 1)

open Hooks in
example : run number 0 0 (Last.start 0)
      [(.normalization, ()), (.lemma, ()), (.lexeme, ()), (.form, ()), (.form, ()), (.lemma, ())]
    = some (6, [⟨.normalization, 0, 1⟩, ⟨.lemma, 1, 2⟩, ⟨.lexeme, 2, 3⟩, ⟨.form, 3, 4⟩,
        ⟨.form, 3, 5⟩, ⟨.lemma, 1, 6⟩]) := by decide

open Hooks in
/-- C124 is false of the code: not every report of a lemmatizer has a result. A form reported
first is put on an edge that was never set. -/
theorem C124_form_false :
    ¬ ∀ events : List (Level × Unit), (run number 0 0 (Last.start 0) events).isSome := by
  intro h
  exact absurd (h [(.form, ())]) (by decide)

open Hooks in
/-- C124 (partial): that is the only way to fail: a run is defined exactly if its first
annotation is not a form. -/
theorem C124_defined_partial {σ E α : Type} (add : σ → Level → α → E → σ × E) (token : E) (s : σ)
    (events : List (Level × α)) :
    run add token s (Last.start token) events = none
      ↔ (events.map Prod.fst).head? = some .form := by
  rw [run_defined]
  simp [Last.start]

example : ((([(.lemma, ()), (.form, ())] : List (Hooks.Level × Unit)).map Prod.fst).head?)
    ≠ some .form := by decide

open Hooks in
/-- C124 is false of the code: the annotations for one spelling of a word are not kept apart from
those for another. The output iterator is made once for the word and keeps its memory when the
lemmatizer is asked for the next spelling, so a lemma reported for that spelling may be put on the
normalization of the first. -/
theorem C124_apart_false :
    ¬ ∀ (first second : List (Level × Unit)) (n m : Nat) (ms ms' : List (Made Nat)),
        run number 0 0 (Last.start 0) first = some (n, ms) →
        run number 0 0 (Last.start 0) (first ++ second) = some (m, ms ++ ms') →
        ∀ x ∈ ms', x.under = 0 ∨ x.under ∈ ms'.map (·.edge) := by
  intro h
  have := h [(.normalization, ()), (.lemma, ())] [(.lemma, ())] 2 3
    [⟨.normalization, 0, 1⟩, ⟨.lemma, 1, 2⟩] [⟨.lemma, 1, 3⟩] (by decide) (by decide)
    ⟨.lemma, 1, 3⟩ (by simp)
  revert this
  decide

open Hooks in
/-- C124 (partial): they are kept apart if the report on the second spelling begins with an
annotation of the topmost kind that occurs at all. (The lemmatizers of the toolkit report like
this: either every report begins with a normalization and there are no corrections, or it begins
with a lemma and there are neither.) -/
theorem C124_apart_partial {σ E α : Type} (add : σ → Level → α → E → σ × E) (token : E)
    (s s1 s2 : σ) (first rest : List (Level × α)) (v : Level) (a : α) (ms ms' : List (Made E))
    (hmin : ∀ e ∈ first ++ (v, a) :: rest, v.depth ≤ e.1.depth)
    (h1 : run add token s (Last.start token) first = some (s1, ms))
    (h2 : run add token s (Last.start token) (first ++ (v, a) :: rest) = some (s2, ms ++ ms')) :
    ∀ x ∈ ms', x.under = token ∨ x.under ∈ ms'.map (·.edge) := by
  intro x hx
  have hl1 := C124_complete add token s s1 _ _ _ h1
  have hl2 := C124_complete add token s s2 _ _ _ h2
  rw [List.map_append, List.map_append, hl1, List.append_cancel_left_eq] at hl2
  have hd : ∀ m ∈ ms ++ ms', v.depth ≤ m.level.depth := by
    intro m hm
    have hm' : m.level ∈ (ms ++ ms').map (·.level) := List.mem_map_of_mem hm
    rw [C124_complete add token s s2 _ _ _ h2] at hm'
    obtain ⟨e, he, hv⟩ := List.mem_map.1 hm'
    rw [← hv]
    exact hmin e he
  obtain ⟨b, c, rfl⟩ := List.append_of_mem hx
  have hb := C124_belongs add token s s2 _ (ms ++ b) x c (by rw [h2]; simp)
  rw [List.map_append, List.reverse_append] at hb
  rw [hb, Hooks.Spec.belongs, List.find?_append]
  cases hf : ((b.map fun b => (b.level.depth, b.edge)).reverse).find?
      (fun q => decide (q.1 < x.level.depth)) with
  | some q =>
    right
    have hq := List.mem_of_find?_eq_some hf
    rw [List.mem_reverse, List.mem_map] at hq
    obtain ⟨y, hy, rfl⟩ := hq
    simp only [Option.some_or, Option.map_some, Option.getD_some, List.map_append, List.mem_append,
      List.mem_map]
    exact Or.inl ⟨y, hy, rfl⟩
  | none =>
    left
    have hxv : x.level.depth ≤ v.depth := by
      cases b with
      | nil =>
        simp only [List.nil_append, List.map_cons, List.cons.injEq] at hl2
        rw [hl2.1]; exact Nat.le_refl _
      | cons y b =>
        simp only [List.cons_append, List.map_cons, List.cons.injEq] at hl2
        rw [List.find?_eq_none] at hf
        have := hf (y.level.depth, y.edge) (by simp)
        simp only [decide_eq_true_eq] at this
        rw [← hl2.1]; omega
    have : ((ms.map fun b => (b.level.depth, b.edge)).reverse).find?
        (fun q => decide (q.1 < x.level.depth)) = none := by
      rw [List.find?_eq_none]
      intro q hq
      rw [List.mem_reverse, List.mem_map] at hq
      obtain ⟨y, hy, rfl⟩ := hq
      have := hd y (by simp [hy])
      simp only [decide_eq_true_eq]
      omega
    rw [this]
    rfl

open Hooks in
example : ∀ e ∈ [(Level.normalization, ()), (.lemma, ())] ++ (.normalization, ()) :: [(.lemma, ())],
    Level.normalization.depth ≤ e.1.depth := by decide

end Verif.Casing
