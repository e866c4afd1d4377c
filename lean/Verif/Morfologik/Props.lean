import Verif.Morfologik.Parse
set_option linter.unusedSimpArgs false
set_option linter.unusedVariables false

/-! C87, C88: tags of the dictionary Morfologik. -/
namespace Verif.Morfologik
open Verif
open Verif.Server (ascii)

/-! ### C87 -/

/-- Every string is a tag, and in one way. -/
theorem C87_every_tag (s : Str) : ∃ t, Proper t ∧ written t = s ∧ ∀ t', Proper t' → written t' = s → t' = t := by
  refine ⟨(split outerSep s).map (split innerSep), ⟨by simpa using split_ne _ s, ?_⟩, ?_, ?_⟩
  · intro a ha
    obtain ⟨p, hp, rfl⟩ := List.mem_map.1 ha
    refine ⟨split_ne _ p, fun x hx => ⟨fun h => ?_, (split_mem hx).1⟩⟩
    exact (split_mem hp).1 ((split_mem hx).2 _ h)
  · unfold written
    rw [List.map_map]
    have : text ∘ split innerSep = id := by funext p; exact joined_split 46 p
    rw [this, List.map_id]
    exact joined_split 58 s
  · rintro t' h rfl
    rw [split_written h, List.map_map]
    conv => lhs; rw [← List.map_id t']
    apply List.map_congr_left
    intro a ha
    exact (split_text (h.2 a ha).1 (h.2 a ha).2).symm

/-- **C87** If each attribute with alternatives is the first one of a known category, `parse` returns exactly the
descriptions of the tag, all combinations of alternatives; each one once, if no alternative is repeated.
Missing: tags with further attributes with alternatives, see `C87_lost` and `C87_unknown_false`. -/
theorem C87_parse_partial {t : Tag} (hp : Proper t) (hc : Clean t) : ∃ ds, parse (written t) = some ds ∧
    (∀ f, Describes t (fun _ => True) f ↔ ∃ d ∈ ds, f = read d) ∧
    ((∀ attr ∈ t, attr.Nodup) → ds.Pairwise fun d d' => read d ≠ read d') := by
  obtain ⟨extra, hi⟩ := parseSimple_inv hp
  have h0 := hi.clean.2 hc
  refine ⟨choices (parseSimple (written t) 0).1, ?_, ?_, ?_⟩
  · rw [parse, expand_result hi.sorted hi.count, if_pos h0]
  · exact fun f => describes_iff hp hi.sorted (by simpa using hi.find) f
  · exact choices_distinct (C := fun _ => True) hp hi.sorted (by simpa using hi.find)

/-- **C87** Otherwise there are no descriptions at all. -/
theorem C87_lost {t : Tag} (hp : Proper t) (hc : ¬ Clean t) : parse (written t) = some [] := by
  obtain ⟨extra, hi⟩ := parseSimple_inv hp
  rw [parse, expand_result hi.sorted hi.count, if_neg (fun h => hc (hi.clean.1 h))]

/-- The tag of a word of the tests of the parser: `adj:pl:acc.nom.voc:f.m2.m3.n:pos`. -/
def sample : Tag :=
  [[ascii "adj"], [ascii "pl"], [ascii "acc", ascii "nom", ascii "voc"], [ascii "f", ascii "m2", ascii "m3", ascii "n"], [ascii "pos"]]

theorem sample_proper : Proper sample := ⟨by decide, by decide +kernel⟩

theorem clean_of {t : Tag} (h : ∀ n : Fin t.length, 2 ≤ (t[n]).length →
    ((catOf t[n]).bind fun c => if firstOf (t.take n) c = none then some c else none).isSome = true) : Clean t := by
  rintro b a r rfl ha
  have := h ⟨b.length, by simp⟩
  simp only [Fin.getElem_fin, List.getElem_append_right (Nat.le_refl _), Nat.sub_self, List.getElem_cons_zero, List.take_left] at this
  obtain ⟨c, hc⟩ := Option.isSome_iff_exists.1 (this ha)
  obtain ⟨c', h1, h2⟩ := Option.bind_eq_some_iff.1 hc
  refine ⟨c', hasCategory_iff.2 h1, firstOf_none.1 ?_⟩
  by_cases h3 : firstOf b c' = none
  · exact h3
  · rw [if_neg h3] at h2; cases h2

theorem sample_clean : Clean sample := clean_of (by decide +kernel)

example : Proper sample ∧ Clean sample ∧ written sample = ascii "adj:pl:acc.nom.voc:f.m2.m3.n:pos" ∧
    (parse (written sample)).map List.length = some 12 :=
  ⟨sample_proper, sample_clean, by decide +kernel, by decide +kernel⟩

/-- **C87** A tag with an unknown attribute that has alternatives, or with two attributes of a category, of which the second
has alternatives, gets no descriptions, while without these attributes it does. -/
theorem C87_unknown_false : parse (ascii "subst:sg:nom:m3:a.b") = some [] ∧ parse (ascii "subst:sg:nom:m3:nom.acc") = some [] ∧
    (parse (ascii "subst:sg:nom:m3:a")).map List.length = some 1 ∧ (parse (ascii "subst:sg:nom.acc:m3")).map List.length = some 2 := by
  decide +kernel

example : ¬ Clean [[ascii "subst"], [ascii "a", ascii "b"]] := by
  intro h
  obtain ⟨c, h1, _⟩ := h [[ascii "subst"]] [ascii "a", ascii "b"] [] rfl (by decide)
  rw [hasCategory_iff] at h1
  have : catOf [ascii "a", ascii "b"] = none := by decide +kernel
  rw [this] at h1; cases h1

/-! ### C88 -/

/-- The text of the attribute that is called `pos`. -/
theorem pos_text {t : Tag} {st : Attrs × Int} {extra : Nat} (hi : Inv t st extra) :
    (mapFind (ascii "pos") st.1).getD [] = ((firstOf t (ascii "pos")).map text).getD [] := by rw [hi.find]

theorem forms_result {t : Tag} (hp : Proper t) {p : Str} (hpos : ((firstOf t (ascii "pos")).map text).getD [] = p) :
    ∃ d extra, Sorted d ∧ (∀ c, mapFind c d = if c ≠ ascii "pos" ∧ c ∉ lexical p then (firstOf t c).map text else none) ∧
      (extra = 0 ↔ Clean t ∧ complex p = false) ∧
      getFormAttributes (written t) = some (if extra = 0 then choices d else []) := by
  obtain ⟨extra, hi⟩ := parseSimple_inv hp
  obtain ⟨h1, h2, h3⟩ := remove_spec (n := (parseSimple (written t) 0).2) hi.sorted
  rw [pos_text hi, hpos] at h2 h3
  rw [hi.count] at h3
  refine ⟨_, extra + if complex p then 1 else 0, h1, ?_, ?_, ?_⟩
  · intro c; rw [h2, hi.find]
  · rw [← hi.clean]
    by_cases hx : complex p = true
    · simp [hx]
    · simp [hx]
  · rw [getFormAttributes]
    apply expand_result h1
    rw [hi.count]
    by_cases hx : complex p = true
    · simp only [hx, if_true] at h3 ⊢; push_cast at h3 ⊢; omega
    · simp only [hx, if_false] at h3 ⊢; push_cast at h3 ⊢; omega

/-- **C88** If the tag is as required for `C87_parse_partial` and its part of speech has no alternatives (or is missing),
the descriptions of the forms are those of the tag, without the part of speech and the categories of lexemes.
Missing: other tags, see `C88_no_forms` and `C88_pos_false`. -/
theorem C88_forms_partial {t : Tag} (hp : Proper t) (hc : Clean t) {p : Str}
    (h : First t (ascii "pos") [p] ∨ ((∀ a, ¬ First t (ascii "pos") a) ∧ p = [])) :
    ∃ ds, getFormAttributes (written t) = some ds ∧
      (∀ f, Describes t (fun c => c ≠ ascii "pos" ∧ c ∉ lexical p) f ↔ ∃ d ∈ ds, f = read d) ∧
      ((∀ attr ∈ t, attr.Nodup) → ds.Pairwise fun d d' => read d ≠ read d') := by
  have hpos : ((firstOf t (ascii "pos")).map text).getD [] = p ∧ complex p = false := by
    rcases h with h | ⟨h, rfl⟩
    · rw [first_iff] at h
      refine ⟨by rw [h]; rfl, complex_false.2 ?_⟩
      exact ((hp.2 _ (firstOf_mem h)).2 p (by simp)).2
    · rw [no_first.1 h]; exact ⟨rfl, by decide⟩
  obtain ⟨d, extra, h1, h2, h3, h4⟩ := forms_result hp hpos.1
  rw [if_pos (h3.2 ⟨hc, hpos.2⟩)] at h4
  exact ⟨choices d, h4, fun f => describes_iff hp h1 h2 f, choices_distinct hp h1 h2⟩

/-- **C88** Otherwise there are no forms at all. -/
theorem C88_no_forms {t : Tag} (hp : Proper t) (h : ¬ Clean t ∨ ∃ attr, First t (ascii "pos") attr ∧ 2 ≤ attr.length) :
    getFormAttributes (written t) = some [] := by
  obtain ⟨d, extra, h1, h2, h3, h4⟩ := forms_result hp rfl
  rw [if_neg] at h4
  · exact h4
  · rw [h3]
    rintro ⟨hc, hx⟩
    rcases h with h | ⟨a, ha, hl⟩
    · exact h hc
    · rw [first_iff] at ha
      have := hp.2 a (firstOf_mem ha)
      rw [ha] at hx
      simp only [Option.map_some, Option.getD_some] at hx
      rw [complex_text this.1 this.2] at hx
      simp at hx
      omega

/-- A noun, of two cases. -/
def noun : Tag := [[ascii "subst"], [ascii "sg"], [ascii "nom", ascii "acc"], [ascii "m2", ascii "m3"]]

theorem noun_proper : Proper noun := ⟨by decide, by decide +kernel⟩

theorem noun_clean : Clean noun := clean_of (by decide +kernel)

example : Proper noun ∧ Clean noun ∧ First noun (ascii "pos") [ascii "subst"] ∧
    getFormAttributes (written noun) = some [[(ascii "case", ascii "nom"), (ascii "number", ascii "sg")],
      [(ascii "case", ascii "acc"), (ascii "number", ascii "sg")]] ∧
    getLexemeAttributes (written noun) = [(ascii "gender", ascii "m2-m3"), (ascii "pos", ascii "subst")] :=
  ⟨noun_proper, noun_clean, first_iff.2 (by decide +kernel), by decide +kernel, by decide +kernel⟩

/-- **C88** A tag that gives alternatives for the part of speech has no forms, though it has descriptions. -/
theorem C88_pos_false : getFormAttributes (ascii "adj.subst:sg") = some [] ∧
    (parse (ascii "adj.subst:sg")).map List.length = some 2 := by decide +kernel

example : First [[ascii "adj", ascii "subst"], [ascii "sg"]] (ascii "pos") [ascii "adj", ascii "subst"] := first_iff.2 (by decide +kernel)

theorem text_ne {t : Tag} {c : Str} {a : List Str} (h : firstOf t c = some a) : text a ≠ [] := by
  have hc := List.find?_some h
  simp only [decide_eq_true_eq] at hc
  cases a with
  | nil => simp [catOf] at hc
  | cons x as =>
    have hx : x ≠ [] := by
      rintro rfl
      have : catOf ([] :: as) = mapFind [] predefinedTags := rfl
      rw [this, show mapFind [] predefinedTags = none by decide +kernel] at hc
      cases hc
    intro e
    cases as with
    | nil => exact hx e
    | cons y as => simp [text, joined, hx] at e

theorem speech_first {f : Str → Option Str} : ∀ {cs : List Str}, ((cs.findSome? f).getD [] = [] ∧ ∀ c ∈ cs, f c = none) ∨
    ∃ b c a v, cs = b ++ c :: a ∧ f c = some v ∧ (cs.findSome? f).getD [] = v ∧ ∀ x ∈ b, f x = none
  | [] => Or.inl ⟨rfl, by simp⟩
  | c :: cs => by
    cases e : f c with
    | some v => exact Or.inr ⟨[], c, cs, v, rfl, e, by simp [List.findSome?_cons, e], by simp⟩
    | none =>
      rcases speech_first (f := f) (cs := cs) with ⟨h1, h2⟩ | ⟨b, c', a, v, h1, h2, h3, h4⟩
      · left
        refine ⟨by rw [List.findSome?_cons, e]; exact h1, ?_⟩
        intro x hx
        simp only [List.mem_cons] at hx
        rcases hx with rfl | hx
        · exact e
        · exact h2 x hx
      · right
        refine ⟨c :: b, c', a, v, by rw [h1]; rfl, h2, by rw [List.findSome?_cons, e]; exact h3, ?_⟩
        intro x hx
        simp only [List.mem_cons] at hx
        rcases hx with rfl | hx
        · exact e
        · exact h4 x hx

theorem speechText_iff {t : Tag} {s : Str} :
    SpeechText t s ↔ s = (speechCategories.findSome? fun c => (firstOf t c).map text).getD [] := by
  have none_iff : ∀ c, (firstOf t c).map text = none ↔ ∀ a, ¬ First t c a := fun c => by rw [no_first]; simp
  constructor
  · rintro (⟨b, c, r, a, h1, h2, rfl, h3⟩ | ⟨h1, rfl⟩)
    · rw [h1, List.findSome?_append]
      have : (b.findSome? fun c => (firstOf t c).map text) = none := by
        rw [List.findSome?_eq_none_iff]
        intro x hx
        exact (none_iff x).2 (h3 x hx)
      rw [this, List.findSome?_cons, first_iff.1 h2]
      rfl
    · have : (speechCategories.findSome? fun c => (firstOf t c).map text) = none := by
        rw [List.findSome?_eq_none_iff]
        intro x hx
        exact (none_iff x).2 (h1 x hx)
      rw [this]; rfl
  · rintro rfl
    rcases speech_first (f := fun c => (firstOf t c).map text) (cs := speechCategories) with ⟨h1, h2⟩ | ⟨b, c, a, v, h1, h2, h3, h4⟩
    · right
      exact ⟨fun c hc => (none_iff c).1 (h2 c hc), h1⟩
    · left
      obtain ⟨x, hx, rfl⟩ := Option.map_eq_some_iff.1 h2
      exact ⟨b, c, a, x, h1, first_iff.2 hx, h3, fun y hy => (none_iff y).1 (h4 y hy)⟩

theorem generalized (s : Str) : (mapFind s posGeneralizations).getD s =
    if s ∈ [ascii "pact", ascii "pant", ascii "pcon", ascii "ppas"] then ascii "verb" else s := by
  unfold posGeneralizations
  simp only [mapFind_cons, List.mem_cons, List.not_mem_nil, or_false]
  by_cases h1 : s = ascii "pact"
  · simp [h1]
  · by_cases h2 : s = ascii "pant"
    · simp [h2]
    · by_cases h3 : s = ascii "pcon"
      · simp [h3]
      · by_cases h4 : s = ascii "ppas"
        · simp [h4]
        · rw [if_neg (fun e => h1 e.symm), if_neg (fun e => h2 e.symm), if_neg (fun e => h3 e.symm), if_neg (fun e => h4 e.symm),
            if_neg (by simp [h1, h2, h3, h4])]
          rfl

theorem pos_spec {t : Tag} {st : Attrs × Int} {extra : Nat} (hi : Inv t st extra) {pos : Str} (h : Speech t pos) :
    getPartOfSpeechTag st.1 = pos := by
  obtain ⟨s, h1, rfl⟩ := h
  have : selectPos st.1 tagsAllowedAsPos = s := by
    rw [selectPos_spec hi.sorted _ (by decide)]
    · rw [speechText_iff.1 h1]
      have : (fun c => mapFind c st.1) = fun c => (firstOf t c).map text := by funext c; exact hi.find c
      rw [this]; rfl
    · intro c v hv _
      rw [hi.find] at hv
      obtain ⟨a, ha, rfl⟩ := Option.map_eq_some_iff.1 hv
      exact text_ne ha
  unfold getPartOfSpeechTag
  rw [this]
  exact generalized s

theorem dashes {a : List Str} (h : ∀ x ∈ a, (58 : Byte) ∉ x ∧ 46 ∉ x) :
    ((text a).map fun x => if x = 46 then 45 else x) = joined 45 a := by
  have plain : ∀ x : Str, 46 ∉ x → (x.map fun y => if y = (46 : Byte) then 45 else y) = x := by
    intro x hx
    conv => rhs; rw [← List.map_id x]
    apply List.map_congr_left
    intro y hy
    rw [if_neg (by rintro rfl; exact hx hy)]; rfl
  unfold text
  induction a with
  | nil => rfl
  | cons x as ih =>
    cases as with
    | nil => exact plain x (h x (by simp)).2
    | cons y as =>
      simp only [joined, List.map_append, List.map_cons, if_true]
      have h2 := ih (fun z hz => h z (by simp at hz ⊢; exact Or.inr hz))
      rw [plain x (h x (by simp)).2, h2]

theorem lexeme_entries (p : Str) : (lexemeTags.filter fun e => decide (e.1 = p)) = (lexical p).map (p, ·) := by
  unfold lexical lexemeTags
  by_cases h1 : p = ascii "subst"
  · subst h1; decide
  · by_cases h2 : p = ascii "verb"
    · subst h2; decide
    · rw [if_neg h1, if_neg h2]
      have g1 : ¬ ascii "subst" = p := fun e => h1 e.symm
      have g2 : ¬ ascii "verb" = p := fun e => h2 e.symm
      rw [List.filter_cons_of_neg (by simpa using g1), List.filter_cons_of_neg (by simpa using g2)]
      rfl

/-- Every tag has one part of speech, which may be empty. -/
theorem C88_speech (t : Tag) : ∃ pos, Speech t pos ∧ ∀ pos', Speech t pos' → pos' = pos := by
  refine ⟨_, ⟨_, speechText_iff.2 rfl, rfl⟩, ?_⟩
  rintro pos' ⟨s, h1, rfl⟩
  rw [speechText_iff.1 h1]

/-- **C88** The attributes of the lexeme: the part of speech, and for nouns the gender, for verbs and participles the aspect,
with dashes between alternatives, empty if the tag has none; nothing else. -/
theorem C88_lexeme {t : Tag} (hp : Proper t) {pos : Str} (h : Speech t pos) :
    read (getLexemeAttributes (written t)) (ascii "pos") = some pos ∧
    (∀ c ∈ lexical pos, ∀ attr, First t c attr → read (getLexemeAttributes (written t)) c = some (joined 45 attr)) ∧
    (∀ c ∈ lexical pos, (∀ attr, ¬ First t c attr) → read (getLexemeAttributes (written t)) c = some []) ∧
    ∀ c, c ≠ ascii "pos" → c ∉ lexical pos → read (getLexemeAttributes (written t)) c = none := by
  obtain ⟨extra, hi⟩ := parseSimple_inv hp
  have hg : getLexemeAttributes (written t) =
      lexemeLoop (parseSimple (written t) 0).1 [(ascii "pos", pos)] ((lexical pos).map (pos, ·)) := by
    unfold getLexemeAttributes
    simp only [pos_spec hi h, lexeme_entries]
    rfl
  rw [hg]
  have hl : lexical pos = [] ∨ ∃ c, lexical pos = [c] ∧ c ≠ ascii "pos" := by
    unfold lexical
    split
    · exact Or.inr ⟨_, rfl, by decide⟩
    · split
      · exact Or.inr ⟨_, rfl, by decide⟩
      · exact Or.inl rfl
  rcases hl with hl | ⟨c, hl, hc⟩
  · rw [hl]
    refine ⟨by simp [lexemeLoop, read, mapFind_cons], by simp, by simp, ?_⟩
    intro c hc _
    simp only [List.map_nil, lexemeLoop, read, mapFind_cons, if_neg (fun e => hc e.symm : ¬ ascii "pos" = c)]
    rfl
  · rw [hl]
    have hs : Sorted [(ascii "pos", pos)] := by simp [Sorted]
    have hloop : lexemeLoop (parseSimple (written t) 0).1 [(ascii "pos", pos)] ([c].map (pos, ·)) =
        mapInsert c (((mapFind c (parseSimple (written t) 0).1).getD []).map fun x => if x = 46 then 45 else x) [(ascii "pos", pos)] := rfl
    rw [hloop, hi.find]
    simp only [read, mapFind_insert hs, mapFind_cons, List.mem_singleton]
    refine ⟨?_, ?_, ?_, ?_⟩
    · rw [if_neg (fun e => hc e.symm)]; rfl
    · rintro _ rfl a ha
      rw [first_iff] at ha
      rw [if_pos rfl, if_neg (fun e => hc e.symm), ha]
      simp only [Option.map_some, Option.getD_some]
      rw [dashes (hp.2 a (firstOf_mem ha)).2]
      rfl
    · rintro _ rfl ha
      rw [no_first] at ha
      rw [if_pos rfl, if_neg (fun e => hc e.symm), ha]
      rfl
    · intro k hk hkc
      rw [if_neg hkc, if_neg (fun e => hk e.symm)]
      rfl

example : Speech noun (ascii "subst") := ⟨ascii "subst", speechText_iff.2 (by decide +kernel), by decide⟩

/-- **C88** If the tag has a part of speech, without alternatives, each category of the tag belongs to the lexeme or to the
forms, and none to both.  Missing: tags without the category `pos`, see `C88_participle_false`. -/
theorem C88_split_partial {t : Tag} (hp : Proper t) (hc : Clean t) {p : Str} (h : First t (ascii "pos") [p]) :
    ∃ ds, getFormAttributes (written t) = some ds ∧ ds ≠ [] ∧
      (∀ d ∈ ds, ∀ c, (read (getLexemeAttributes (written t)) c).isSome → read d c = none) ∧
      ∀ c attr, First t c attr → (read (getLexemeAttributes (written t)) c).isSome ∨ ∀ d ∈ ds, (read d c).isSome := by
  have hf := first_iff.1 h
  have hsp : Speech t p := by
    refine ⟨p, Or.inl ⟨[], ascii "pos", _, [p], rfl, h, rfl, by simp⟩, ?_⟩
    rw [if_neg]
    intro hm
    have hcat := List.find?_some hf
    simp only [decide_eq_true_eq, catOf, List.head?_cons, Option.bind_some] at hcat
    simp only [List.mem_cons, List.not_mem_nil, or_false] at hm
    rcases hm with rfl | rfl | rfl | rfl <;> revert hcat <;> decide +kernel
  obtain ⟨l1, l2, l3, l4⟩ := C88_lexeme hp hsp
  obtain ⟨ds, h1, h2, _⟩ := C88_forms_partial hp hc (Or.inl h)
  refine ⟨ds, h1, ?_, ?_, ?_⟩
  · rintro rfl
    have hd : Describes t (fun c => c ≠ ascii "pos" ∧ c ∉ lexical p)
        (fun c => if c ≠ ascii "pos" ∧ c ∉ lexical p then (firstOf t c).bind (·.head?) else none) := by
      intro c
      by_cases hC : c ≠ ascii "pos" ∧ c ∉ lexical p
      · simp only [if_pos hC]
        cases e : firstOf t c with
        | none => exact Or.inr ⟨fun _ => no_first.2 e, rfl⟩
        | some a =>
          obtain ⟨x, as, rfl⟩ := List.exists_cons_of_ne_nil (hp.2 a (firstOf_mem e)).1
          exact Or.inl ⟨_, x, hC, first_iff.2 e, by simp, rfl⟩
      · simp only [if_neg hC]
        exact Or.inr ⟨fun h => absurd h hC, trivial⟩
    obtain ⟨d, hd, _⟩ := (h2 _).1 hd
    cases hd
  · intro d hd c hl
    have hdesc := (h2 (read d)).2 ⟨d, hd, rfl⟩ c
    rcases hdesc with ⟨_, _, hC, _⟩ | ⟨_, hn⟩
    · rw [l4 c hC.1 hC.2] at hl; cases hl
    · exact hn
  · intro c a ha
    by_cases hC : c ≠ ascii "pos" ∧ c ∉ lexical p
    · right
      intro d hd
      rcases (h2 (read d)).2 ⟨d, hd, rfl⟩ c with ⟨_, x, _, _, _, hx⟩ | ⟨hn, _⟩
      · rw [hx]; rfl
      · exact absurd ha (hn hC a)
    · left
      by_cases hpos : c = ascii "pos"
      · rw [hpos, l1]; rfl
      · have : c ∈ lexical p := Classical.byContradiction fun h => hC ⟨hpos, h⟩
        rw [l2 c this a ha]; rfl

/-- **C88** A participle is a verb with an aspect as a lexeme, yet its forms have the aspect too. -/
theorem C88_participle_false :
    getLexemeAttributes (ascii "ppas:sg:nom:m1:perf") = [(ascii "aspect", ascii "perf"), (ascii "pos", ascii "verb")] ∧
    getFormAttributes (ascii "ppas:sg:nom:m1:perf") = some [[(ascii "aspect", ascii "perf"), (ascii "case", ascii "nom"),
      (ascii "gender", ascii "m1"), (ascii "number", ascii "sg"), (ascii "tense", ascii "ppas")]] ∧
    getFormAttributes (ascii "verb:fin:sg:ter:perf") =
      some [[(ascii "number", ascii "sg"), (ascii "person", ascii "ter"), (ascii "tense", ascii "fin")]] := by decide +kernel

end Verif.Morfologik
