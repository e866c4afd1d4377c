import Verif.IterWriter.Outputs
import Verif.Server.Handler

/-!
C66-C69: what writers that go from vertex to vertex print.
-/
set_option linter.unusedSimpArgs false
set_option linter.unusedVariables false
namespace Verif.IterWriter
open Verif
open Verif.Server (ascii)

variable {I : Type}

/-! ### Examples -/

/-- A token. -/
def tok (target : Int) (text : String) : Edge Str := ⟨target, [ascii "token"], text == " ", false, true, ascii text⟩

/-- An edge with a tag that is not the basic one. -/
def span (target : Int) (tag : String) : Edge Str := ⟨target, [ascii tag], false, false, false, ascii tag⟩

/-- Two sentences: `a|b c` and `d`; vertices 0-4. -/
def twoSentences : Int → List (Edge Str) := fun v =>
  if v = 0 then [tok 1 "a", tok 1 "b", span 3 "s"] else if v = 1 then [tok 2 " "] else if v = 2 then [tok 3 "c"]
  else if v = 3 then [tok 4 "d", span 4 "s"] else []

/-- A blank before the sentence. -/
def blankFirst : Int → List (Edge Str) := fun v =>
  if v = 0 then [tok 1 " "] else if v = 1 then [tok 2 "a", span 2 "s"] else []

/-- A blank between two sentences. -/
def blankBetween : Int → List (Edge Str) := fun v =>
  if v = 0 then [tok 1 "a", span 1 "s"] else if v = 1 then [tok 2 " "] else if v = 2 then [tok 3 "b", span 3 "s"] else []

/-- Two paragraphs of one sentence each; the second time the tags are met in the given order. -/
def twoLevels (first second : String) : Int → List (Edge Str) := fun v =>
  if v = 0 then [tok 1 "a", span 1 "p", span 1 "s"] else if v = 1 then [tok 2 "b", span 2 first, span 2 second] else []

def plain : Config := ⟨false, false, [], []⟩
def bySentence : Config := ⟨false, false, [ascii "s"], []⟩
def byBoth : Config := ⟨false, false, [ascii "p", ascii "s"], []⟩

theorem clean_of {out : Int → List (Edge Str)} {l : List Int} (h : ∀ v ∈ l, ∀ e ∈ out v, e.tags.Nodup) (h' : ∀ v, v ∉ l → out v = []) :
    CleanTags out := by
  intro v e he
  by_cases hv : v ∈ l
  · exact h v hv e he
  · rw [h' v hv] at he; cases he

theorem twoSentences_clean : CleanTags twoSentences := by
  refine clean_of (l := [0, 1, 2, 3]) (by decide) ?_
  intro v hv
  simp only [List.mem_cons, List.not_mem_nil, or_false, not_or] at hv
  simp [twoSentences, hv]

theorem blankFirst_clean : CleanTags blankFirst := by
  refine clean_of (l := [0, 1]) (by decide) ?_
  intro v hv
  simp only [List.mem_cons, List.not_mem_nil, or_false, not_or] at hv
  simp [blankFirst, hv]

theorem twoSentences_chain : Chain twoSentences (ascii "s") 0 [[0, 1, 2], [3]] := by
  refine .cons (w := 3) (by decide +kernel) (by decide) (.cons (w := 4) (by decide +kernel) (by decide) (.nil 4))

/-! ### C66 -/

/-- Without groups: for each vertex in turn the chosen edges are printed as one alternative. -/
theorem C66_plain (cfg : Config) (hh : cfg.handled = []) (out : Int → List (Edge I)) (hc : CleanTags out) (vs : List Int) :
    run cfg out vs = vs.flatMap (altOf cfg out) := by
  obtain ⟨h1, h2⟩ := fold_plain hh hc vs (idle_start (I := I) cfg)
  unfold run
  simp only
  rw [h1, h2]
  simp [start]

example : plain.handled = [] ∧ CleanTags twoSentences ∧ [0, 1, 2, 3].flatMap (altOf plain twoSentences) =
    [.openAlt, .put (ascii "a"), .put (ascii "b"), .closeAlt, .openAlt, .put (ascii "c"), .closeAlt,
      .openAlt, .put (ascii "d"), .closeAlt] :=
  ⟨rfl, twoSentences_clean, by decide +kernel⟩

/-- With groups: the chosen edges are printed in the same way, but only from the first vertex on where some group is opened. -/
theorem C66_grouped_partial (cfg : Config) (hh : cfg.handled ≠ []) (out : Int → List (Edge I)) (hc : CleanTags out) (vs : List Int) :
    ∃ vs1 vs2, vs = vs1 ++ vs2 ∧ (run cfg out vs).filter (fun e => !e.isGroup) = vs2.flatMap (altOf cfg out) ∧
      (∀ t, Ev.openGroup t ∉ run cfg out vs1) ∧
      (vs2 = [] ∨ ∃ v rest, vs2 = v :: rest ∧ ∃ t ∈ cfg.handled, Ev.openGroup t ∈ run cfg out (vs1 ++ [v])) := by
  have hp : printing cfg (start : St I) = false := by
    unfold printing start
    have : cfg.handled.isEmpty = false := by cases h : cfg.handled; exact absurd h hh; rfl
    rw [this]
    simp
  obtain ⟨vs1, vs2, h1, h2, h3, h4⟩ := fold_split hc vs (idle_start (I := I) cfg) hp
  have hO : ∀ l : List Int, OInv cfg (l.foldl (vertexStep cfg out) start) := fun l => fold_oInv hc l (idle_start cfg) (oInv_start cfg)
  refine ⟨vs1, vs2, h1, ?_, ?_, ?_⟩
  · unfold run
    simp only [List.filter_append]
    have hk : ∀ l : List Str, (l.map (Ev.closeGroup (I := I))).filter (fun e => !e.isGroup) = [] := by
      intro l
      induction l with
      | nil => rfl
      | cons a l ih => simp [Ev.isGroup]
    rw [hk, List.append_nil]
    exact h2.trans (by simp [elems, start])
  · intro t ht
    unfold run at ht
    simp only [List.mem_append, List.mem_map] at ht
    rcases ht with ht | ⟨x, _, hx⟩
    · have ho := ((hO vs1) t).1.mpr ht
      have hm := ((hO vs1) t).2 ho
      unfold printing at h3
      rw [Bool.or_eq_false_iff, List.any_eq_false] at h3
      exact h3.2 t hm ho
    · cases hx
  · rcases h4 with h4 | ⟨v, rest, h5, h6⟩
    · exact .inl h4
    · refine .inr ⟨v, rest, h5, ?_⟩
      unfold printing at h6
      rw [Bool.or_eq_true, List.any_eq_true] at h6
      rcases h6 with h6 | ⟨t, ht, h6⟩
      · exact absurd (List.isEmpty_iff.mp h6) hh
      · refine ⟨t, ht, ?_⟩
        unfold run
        simp only
        exact List.mem_append_left _ (((hO (vs1 ++ [v])) t).1.mp h6)

example : bySentence.handled ≠ [] ∧ CleanTags twoSentences ∧ ((run bySentence twoSentences [0, 1, 2, 3]).filter (fun e => !e.isGroup)) =
    [0, 1, 2, 3].flatMap (altOf bySentence twoSentences) ∧ Ev.openGroup (ascii "s") ∈ run bySentence twoSentences [0] :=
  ⟨by decide, twoSentences_clean, by decide +kernel, by decide +kernel⟩

/-- A token of a sentence is not printed if the first sentence does not begin at vertex 0, although the lattice has it. -/
theorem C66_lost_false : chosen bySentence (blankFirst 1) ≠ [] ∧
    (run bySentence blankFirst [0, 1]).filter (fun e => !e.isGroup) = [] ∧ simple ⟨[], ascii " ", fun _ => some (ascii "\n")⟩ (run bySentence blankFirst [0, 1]) = [] := by
  refine ⟨?_, by decide +kernel, by decide +kernel⟩
  intro h
  have : (chosen bySentence (blankFirst 1)).length = 1 := by decide +kernel
  rw [h] at this
  cases this

/-! ### C67 -/

/-- Groups of a tag are opened and closed in turn; or there is one call only, which closes a group that was never opened. -/
theorem C67_turns_partial (cfg : Config) (out : Int → List (Edge I)) (vs : List Int) (t : Str) :
    (∃ k, groupCalls t (run cfg out vs) = pairs k) ∨ (groupCalls t (run cfg out vs) = [false] ∧ t ∈ cfg.handled) := by
  rcases run_calls cfg out vs t with ⟨k, h, _⟩ | ⟨h1, h2, _⟩
  · exact .inl ⟨k, h⟩
  · exact .inr ⟨h1, h2⟩

/-- Groups of a tag are opened and closed in turn, at least once, if the first vertex is 0 and an edge with the tag begins there. -/
theorem C67_first (cfg : Config) (out : Int → List (Edge I)) (vs : List Int) (t : Str) (ht : t ∈ cfg.handled)
    (he : ∃ e ∈ out 0, e.discarded = false ∧ t ∈ e.tags) :
    ∃ k, 1 ≤ k ∧ groupCalls t (run cfg out (0 :: vs)) = pairs k := by
  have ho : ((0 :: vs).foldl (vertexStep cfg out) start).opened t = true := by
    rw [List.foldl_cons]
    refine fold_opened vs ?_
    exact open_edges ht 0 (out 0) start (.inr rfl) he
  rcases run_calls cfg out (0 :: vs) t with ⟨k, h, hk⟩ | ⟨_, _, h3⟩
  · refine ⟨k, ?_, h⟩
    rcases Nat.eq_zero_or_pos k with h0 | h0
    · rw [hk.mp h0] at ho; cases ho
    · exact h0
  · rw [h3] at ho; cases ho

example : ascii "s" ∈ bySentence.handled ∧ (∃ e ∈ twoSentences 0, e.discarded = false ∧ ascii "s" ∈ e.tags) ∧
    groupCalls (ascii "s") (run bySentence twoSentences [0, 1, 2, 3]) = pairs 2 :=
  ⟨by decide, by decide, by decide +kernel⟩

/-- With one tag whose edges follow each other from vertex 0 on: a group for each, with all that is within. -/
theorem C67_segments_partial (cfg : Config) (t : Str) (hh : cfg.handled = [t]) (out : Int → List (Edge I)) (hc : CleanTags out)
    (segs : List (List Int)) (h : Chain out t 0 segs) :
    run cfg out segs.flatten = segs.flatMap (groupOf cfg out t) := by
  have := chain_fold hh hc h (idle_start cfg) rfl (.inl ⟨rfl, rfl⟩)
  unfold run
  simp only at this ⊢
  rw [this]
  cases segs <;> simp [start]

example : bySentence.handled = [ascii "s"] ∧ CleanTags twoSentences ∧ Chain twoSentences (ascii "s") 0 [[0, 1, 2], [3]] ∧
    run bySentence twoSentences [0, 1, 2, 3] = [.openGroup (ascii "s"), .openAlt, .put (ascii "a"), .put (ascii "b"), .closeAlt,
      .openAlt, .put (ascii "c"), .closeAlt, .closeGroup (ascii "s"), .openGroup (ascii "s"), .openAlt, .put (ascii "d"), .closeAlt,
      .closeGroup (ascii "s")] :=
  ⟨rfl, twoSentences_clean, twoSentences_chain, by decide +kernel⟩

/-- A group can be closed that was never opened. -/
theorem C67_unopened_false : groupCalls (ascii "s") (run bySentence blankFirst [0, 1]) = [false] := by decide +kernel

/-- After a gap no group is opened, though there is an edge with the tag. -/
theorem C67_gap_false : firstTarget (ascii "s") (blankBetween 0) = some 1 ∧ firstTarget (ascii "s") (blankBetween 2) = some 3 ∧
    run bySentence blankBetween [0, 1, 2] = [.openGroup (ascii "s"), .openAlt, .put (ascii "a"), .closeAlt, .openAlt, .put (ascii "b"),
      .closeAlt, .closeGroup (ascii "s")] :=
  ⟨by decide +kernel, by decide +kernel, by decide +kernel⟩

/-! ### C68 -/

/-- No text that should be printed is empty. -/
def Texts (cfg : Config) (out : Int → List (Edge Str)) (vs : List Int) : Prop := ∀ v ∈ vs, ∀ e ∈ chosen cfg (out v), e.item ≠ []

/-- The line for some vertices: alternatives, with the separator between. -/
def line (c : Seps) (cfg : Config) (out : Int → List (Edge Str)) (vs : List Int) : Str :=
  between c.sep (((vs.map (fun v => chosen cfg (out v))).filter (fun l => !l.isEmpty)).map (fun l => between c.altSep (l.map Edge.item)))

/-- Without groups: one line. -/
theorem C68_plain_partial (c : Seps) (cfg : Config) (hh : cfg.handled = []) (out : Int → List (Edge Str)) (hc : CleanTags out)
    (vs : List Int) (ht : Texts cfg out vs) : simple c (run cfg out vs) = line c cfg out vs := by
  rw [C66_plain cfg hh out hc vs]
  have hm : vs.flatMap (altOf cfg out) = (vs.map (fun v => chosen cfg (out v))).flatMap alternative := by
    rw [List.flatMap_map]; rfl
  have hi : ∀ l ∈ vs.map (fun v => chosen cfg (out v)), ∀ e ∈ l, e.item ≠ [] := by
    intro l hl e he
    obtain ⟨v, hv, rfl⟩ := List.mem_map.mp hl
    exact ht v hv e he
  unfold simple
  simp only
  rw [hm, alts_simple c _ hi _ rfl rfl]
  simp only [List.nil_append, List.append_nil]
  rw [glue_between _ _ (altTexts_ne c _ hi)]
  rfl

example : plain.handled = [] ∧ CleanTags twoSentences ∧ (∀ v ∈ [0, 1, 2, 3], ∀ e ∈ chosen plain (twoSentences v), e.item ≠ []) ∧
    simple ⟨ascii "|", ascii " ", fun _ => none⟩ (run plain twoSentences [0, 1, 2, 3]) = ascii "a|b c d" :=
  ⟨rfl, twoSentences_clean, by decide +kernel, by decide +kernel⟩

/-- With one tag whose edges follow each other: one line for each, those that are empty left out, with the separator of the tag between. -/
theorem C68_lines_partial (c : Seps) (cfg : Config) (t sep : Str) (hs : c.of t = some sep) (hh : cfg.handled = [t])
    (out : Int → List (Edge Str)) (hc : CleanTags out) (segs : List (List Int)) (h : Chain out t 0 segs)
    (ht : Texts cfg out segs.flatten) :
    simple c (run cfg out segs.flatten) = between sep ((segs.map (line c cfg out)).filter (fun w => !w.isEmpty)) := by
  rw [C67_segments_partial cfg t hh out hc segs h]
  have hm : segs.flatMap (groupOf cfg out t) = (segs.map (fun vs => vs.map (fun v => chosen cfg (out v)))).flatMap
      (fun ls => [Ev.openGroup t] ++ ls.flatMap alternative ++ [Ev.closeGroup t]) := by
    rw [List.flatMap_map]
    unfold groupOf
    congr 1
    funext vs
    rw [List.flatMap_map]
    rfl
  have hi : ∀ ls ∈ segs.map (fun vs => vs.map (fun v => chosen cfg (out v))), ∀ l ∈ ls, ∀ e ∈ l, e.item ≠ [] := by
    intro ls hls l hl e he
    obtain ⟨vs, hvs, rfl⟩ := List.mem_map.mp hls
    obtain ⟨v, hv, rfl⟩ := List.mem_map.mp hl
    exact ht v (List.mem_flatten.mpr ⟨vs, hvs, hv⟩) e he
  unfold simple
  simp only
  rw [hm]
  obtain ⟨a, b⟩ := groups_simple c hs _ hi ⟨[], false, [], [], [], fun _ => false⟩ ⟨rfl, rfl, rfl, rfl, fun _ => rfl, .inl rfl⟩
  rw [a.block, a.alt, b]
  simp only [List.nil_append, List.append_nil]
  rw [List.map_map]
  rw [glue_between]
  · rfl
  · intro w hw
    rw [List.mem_filter] at hw
    simpa using hw.2

example : bySentence.handled = [ascii "s"] ∧ CleanTags twoSentences ∧ Chain twoSentences (ascii "s") 0 [[0, 1, 2], [3]] ∧
    (∀ v ∈ [0, 1, 2, 3], ∀ e ∈ chosen bySentence (twoSentences v), e.item ≠ []) ∧
    simple ⟨ascii "|", ascii " ", fun _ => some (ascii "\n")⟩ (run bySentence twoSentences [0, 1, 2, 3]) = ascii "a|b c\nd" :=
  ⟨rfl, twoSentences_clean, twoSentences_chain, by decide +kernel, by decide +kernel⟩

/-- What stands between two paragraphs depends on the order in which the edges are met. -/
theorem C68_order_false :
    let c : Seps := ⟨[], [], fun t => if t = ascii "p" then some (ascii "\n\n") else some (ascii "\n")⟩
    simple c (run byBoth (twoLevels "p" "s") [0, 1]) = ascii "a\n\nb" ∧ simple c (run byBoth (twoLevels "s" "p") [0, 1]) = ascii "a\n\n\nb" :=
  ⟨by decide +kernel, by decide +kernel⟩

/-- Alternatives with an empty text: the separator is left out. -/
theorem C68_empty_false : simple ⟨ascii "|", [], fun _ => none⟩ [.openAlt, .put [], .put (ascii "a"), .closeAlt] = ascii "a" ∧
    between (ascii "|") [[], ascii "a"] = ascii "|a" := ⟨by decide +kernel, by decide +kernel⟩

/-! ### C69 -/

/-- A string is written so that it is JSON for this string and nothing else; it is JSON only if it has no control characters. -/
theorem C69_string (s : Str) (v : Val) : IsJson v (quote s) ↔ NoControl s ∧ v = .str s := by
  constructor
  · intro h
    unfold quote at h
    generalize hy : [34] ++ escapeByte 34 (escapeByte 92 s) ++ [34] = y at h
    cases h with
    | @str a t h =>
      have : escapeByte 34 (escapeByte 92 s) = t := by
        have h1 : escapeByte 34 (escapeByte 92 s) ++ [34] = t ++ [34] := by
          have := hy; simp only [List.cons_append, List.nil_append] at this
          injection this
        exact List.append_cancel_right h1
      subst this
      obtain ⟨h1, rfl⟩ := escape_chars s a h
      exact ⟨h1, rfl⟩
    | arr _ => simp at hy
    | obj _ => simp at hy
  · rintro ⟨h, rfl⟩
    exact .str (chars_escape s h)

example : NoControl (ascii "say \"\\\"") ∧ quote (ascii "say \"\\\"") = ascii "\"say \\\"\\\\\\\"\"" :=
  ⟨by unfold NoControl; decide +kernel, by decide +kernel⟩

/-- A text with a line break is not written as JSON. -/
theorem C69_control_false : ¬ ∃ v, IsJson v (quote (ascii "a\nb")) := by
  rintro ⟨v, h⟩
  have := ((C69_string _ v).mp h).1 10 (by decide)
  revert this
  decide

/-- An annotation item is written as an object with its category, its text and its values. -/
theorem C69_item_partial (category text : Str) (values : List (Str × Str)) (h1 : NoControl category) (h2 : NoControl text)
    (h3 : ∀ p ∈ values, NoControl p.1 ∧ NoControl p.2) :
    IsJson (.obj [(ascii "category", .str category), (ascii "text", .str text),
      (ascii "values", .obj (values.map (fun p => (p.1, .str p.2))))]) (hash category text values) := by
  have hc : Chars (ascii "category") (ascii "category") := chars_escape (ascii "category") (by unfold NoControl; decide)
  have ht : Chars (ascii "text") (ascii "text") := chars_escape (ascii "text") (by unfold NoControl; decide)
  have hv : Chars (ascii "values") (ascii "values") := chars_escape (ascii "values") (by unfold NoControl; decide)
  have hb : Blank [32] := by
    intro b hb
    rw [List.mem_singleton.mp hb]
    exact .inl rfl
  have f3 := Fields.one blank_nil hb hb blank_nil hv (.obj (fields_commas values h3))
  have f2 := Fields.cons blank_nil blank_nil blank_nil blank_nil ht ((C69_string text _).mpr ⟨h2, rfl⟩) f3
  have f1 := Fields.cons blank_nil blank_nil blank_nil blank_nil hc ((C69_string category _).mpr ⟨h1, rfl⟩) f2
  have := IsJson.obj f1
  have e1 : ascii "category" = [99, 97, 116, 101, 103, 111, 114, 121] := by decide
  have e2 : ascii "text" = [116, 101, 120, 116] := by decide
  have e3 : ascii "values" = [118, 97, 108, 117, 101, 115] := by decide
  have q1 : quote [99, 97, 116, 101, 103, 111, 114, 121] = [34, 99, 97, 116, 101, 103, 111, 114, 121, 34] := by decide
  have q2 : quote [116, 101, 120, 116] = [34, 116, 101, 120, 116, 34] := by decide
  rw [e1, e2, e3] at this ⊢
  unfold hash hashValue
  rw [q1, q2]
  simpa [hashValue] using this

example : NoControl (ascii "N") ∧ NoControl (ascii "a\"b") ∧ (∀ p ∈ [(ascii "case", ascii "nom")], NoControl p.1 ∧ NoControl p.2) ∧
    hash (ascii "N") (ascii "a\"b") [(ascii "case", ascii "nom")] =
      ascii "{\"category\":\"N\",\"text\":\"a\\\"b\",\"values\" : {\"case\":\"nom\"}}" :=
  ⟨by unfold NoControl; decide, by unfold NoControl; decide, by unfold NoControl; decide, by decide +kernel⟩

/-- Without groups: an array of alternatives; those of one element are that element. -/
theorem C69_plain (val : Str → Val) (cfg : Config) (hh : cfg.handled = []) (out : Int → List (Edge Str)) (hc : CleanTags out)
    (vs : List Int) (hj : ∀ v ∈ vs, ∀ e ∈ chosen cfg (out v), IsJson (val e.item) e.item) :
    IsJson (.arr (vs.flatMap (fun v => altVal val (chosen cfg (out v))))) (json (run cfg out vs)) := by
  rw [C66_plain cfg hh out hc vs]
  have hm : vs.flatMap (altOf cfg out) = (vs.map (fun v => chosen cfg (out v))).flatMap alternative := by
    rw [List.flatMap_map]; rfl
  have hj' : ∀ l ∈ vs.map (fun v => chosen cfg (out v)), ∀ e ∈ l, IsJson (val e.item) e.item := by
    intro l hl e he
    obtain ⟨v, hv, rfl⟩ := List.mem_map.mp hl
    exact hj v hv e he
  unfold json
  rw [hm, alts_json _ (fun l hl e he => isJson_ne (hj' l hl e he)) _ (fun _ => rfl), push_none _ _ rfl, main_fold0 _ _ rfl]
  have hb := both_items (both_alt val _ hj')
  rw [List.flatMap_map] at hb
  exact .arr hb

/-- The values of the tokens of the examples. -/
def strVal : Str → Val := fun s => .str (s.drop 1).dropLast

/-- Tokens as strings. -/
def quoted (out : Int → List (Edge Str)) : Int → List (Edge Str) := fun v => (out v).map (fun e => { e with item := quote e.item })

example : plain.handled = [] ∧ (∀ v ∈ [0, 1, 2, 3], ∀ e ∈ chosen plain (quoted twoSentences v), IsJson (strVal e.item) e.item) ∧
    json (run plain (quoted twoSentences) [0, 1, 2, 3]) = ascii "[[\"a\",\"b\"],\"c\",\"d\"]" := by
  refine ⟨rfl, ?_, by decide +kernel⟩
  have h : ∀ v ∈ [0, 1, 2, 3], ∀ e ∈ chosen plain (quoted twoSentences v),
      e.item = quote (ascii "a") ∨ e.item = quote (ascii "b") ∨ e.item = quote (ascii "c") ∨ e.item = quote (ascii "d") := by decide +kernel
  intro v hv e he
  rcases h v hv e he with h | h | h | h <;> rw [h] <;> exact (C69_string _ _).mpr ⟨by unfold NoControl; decide, congrArg Val.str (by decide +kernel)⟩

/-- With one tag whose edges follow each other: an array of arrays, those that are empty left out. -/
theorem C69_groups_partial (val : Str → Val) (cfg : Config) (t : Str) (hh : cfg.handled = [t]) (out : Int → List (Edge Str))
    (hc : CleanTags out) (segs : List (List Int)) (h : Chain out t 0 segs)
    (hj : ∀ vs ∈ segs, ∀ v ∈ vs, ∀ e ∈ chosen cfg (out v), IsJson (val e.item) e.item) :
    IsJson (.arr (segs.flatMap (groupVal cfg out val))) (json (run cfg out segs.flatten)) := by
  rw [C67_segments_partial cfg t hh out hc segs h]
  have hm : segs.flatMap (groupOf cfg out t) = (segs.map (fun vs => vs.map (fun v => chosen cfg (out v)))).flatMap
      (fun ls => [Ev.openGroup t] ++ ls.flatMap alternative ++ [Ev.closeGroup t]) := by
    rw [List.flatMap_map]
    unfold groupOf
    congr 1
    funext vs
    rw [List.flatMap_map]
    rfl
  have hi : ∀ ls ∈ segs.map (fun vs => vs.map (fun v => chosen cfg (out v))), ∀ l ∈ ls, ∀ e ∈ l, e.item ≠ [] := by
    intro ls hls l hl e he
    obtain ⟨vs, hvs, rfl⟩ := List.mem_map.mp hls
    obtain ⟨v, hv, rfl⟩ := List.mem_map.mp hl
    exact isJson_ne (hj vs hvs v hv e he)
  unfold json
  rw [hm, groups_json t _ hi _ rfl rfl, main_fold0 _ _ rfl, List.flatMap_map]
  exact .arr (both_items (both_groups cfg out val segs hj))

example : bySentence.handled = [ascii "s"] ∧ Chain (quoted twoSentences) (ascii "s") 0 [[0, 1, 2], [3]] ∧
    json (run bySentence (quoted twoSentences) [0, 1, 2, 3]) = ascii "[[[\"a\",\"b\"],\"c\"],[\"d\"]]" :=
  ⟨rfl, .cons (w := 3) (by decide +kernel) (by decide) (.cons (w := 4) (by decide +kernel) (by decide) (.nil 4)), by decide +kernel⟩

/-- With two tags arrays are not closed by name: two paragraphs of one sentence each become one paragraph. -/
theorem C69_two_false : json (run byBoth (quoted (twoLevels "p" "s")) [0, 1]) = ascii "[[[\"a\"],[\"b\"]]]" ∧
    json (run byBoth (quoted (twoLevels "s" "p")) [0, 1]) = ascii "[[[\"a\"],[\"b\"]]]" := ⟨by decide +kernel, by decide +kernel⟩

end Verif.IterWriter
