import Verif.Srx.Cut
import Verif.Srx.Patterns
import Verif.Server.Handler

/-!
Properties C70-C73: the SRX segmenter.
-/
set_option linter.unusedSimpArgs false
set_option linter.unusedVariables false

namespace Verif.Srx
open Verif Utf8
open Verif.Server (ascii)

/-! ### Helpers -/

theorem sane_fine {ex : Prop} {text : Str} {rules : List Rule} (hs : ∀ r ∈ rules, Sane text r)
    (h1 : ex → ∀ r ∈ rules, Single r) (h2 : ex → ∀ r ∈ rules, Monotone r) : AllFine ex text (process rules) := by
  have key : ∀ r ∈ rules, Fine ex text r.breaks := by
    intro r hr
    refine ⟨hs r hr, fun e => h1 e r hr, ?_⟩
    intro e m m' p p' hm hp hp'
    rcases Nat.eq_or_lt_of_le hm with rfl | hlt
    · have hl := h1 e r hr m
      cases hb : r.breaks m with
      | nil => rw [hb] at hp; simp at hp
      | cons x l =>
        rw [hb] at hp hp' hl
        simp at hl
        subst hl
        simp at hp hp'
        omega
    · exact h2 e r hr m m' p p' hlt hp hp'
  constructor
  · intro x hx
    obtain ⟨r, hr, e⟩ := process_mem.1 x hx
    exact e ▸ key r hr
  · intro x hx
    obtain ⟨r, hr, e⟩ := process_mem.2 x hx
    exact e ▸ key r hr

theorem ascii_wf (s : Str) (h : ∀ b ∈ s, b.toNat < 128) : Spec.WellFormed s := by
  refine ⟨s.map (fun b => b.toNat), ?_, ?_⟩
  · intro c hc
    obtain ⟨b, hb, rfl⟩ := List.mem_map.1 hc
    have := h b hb
    simp only [Spec.Scalar]
    omega
  · induction s with
    | nil => rfl
    | cons b s ih =>
      have hb := h b (by simp)
      have ih := ih (fun x hx => h x (by simp [hx]))
      simp only [Spec.encodeAll, List.map_cons, List.flatMap_cons] at ih ⊢
      rw [← ih, Spec.encode, if_pos hb]
      simp [Spec.byte]

theorem ascii_boundary (s : Str) (h : ∀ b ∈ s, b.toNat < 128) {k : Nat} (hk : k ≤ s.length) : Boundary s k :=
  ⟨hk, ascii_wf _ (fun b hb => h b (List.mem_of_mem_take hb)), ascii_wf _ (fun b hb => h b (List.mem_of_mem_drop hb))⟩

theorem ascii_sane (s : Str) (h : ∀ b ∈ s, b.toNat < 128) (r : Rule) (hr : ∀ m, ∀ p ∈ r.breaks m, m ≤ p ∧ p ≤ s.length) : Sane s r :=
  fun m p hp => ⟨(hr m p hp).1, ascii_boundary s h (by have := hr m p hp; omega), ascii_boundary s h (hr m p hp).2⟩

/-- A rule with these matches: where they begin and where they break. -/
def rule (breaking : Bool) (l : List (Nat × Nat)) : Rule := ⟨breaking, fun m => (l.filter (fun x => decide (x.1 = m))).map Prod.snd⟩

theorem mem_rule {b : Bool} {l : List (Nat × Nat)} {m p : Nat} : p ∈ (rule b l).breaks m ↔ (m, p) ∈ l := by
  simp only [rule, List.mem_map, List.mem_filter, decide_eq_true_eq]
  constructor
  · rintro ⟨x, ⟨hx, rfl⟩, rfl⟩
    exact hx
  · intro h
    exact ⟨(m, p), ⟨h, rfl⟩, rfl⟩

theorem rule_sane (s : Str) (h : ∀ b ∈ s, b.toNat < 128) (b : Bool) (l : List (Nat × Nat)) (hl : ∀ x ∈ l, x.1 ≤ x.2 ∧ x.2 ≤ s.length) :
    Sane s (rule b l) :=
  ascii_sane s h _ (fun m p hp => hl (m, p) (mem_rule.1 hp))

/-! ### C70 -/

/-- **C70.** On well-formed text, whatever the rules, the segmenter comes to an end; the pieces follow each other from the beginning of the text to its end,
none is empty, and all begin and end at characters. -/
theorem C70_pieces (text : Str) (hw : Spec.WellFormed text) (rules : List Rule) (hs : ∀ r ∈ rules, Sane text r) (fuel : Nat)
    (hf : text.length + 1 < fuel) :
    ∃ l, cutAll fuel text (process rules) fuel 0 (Apps.fresh (process rules)) = some l ∧
      Tiles text.length 0 l ∧ ∀ x ∈ l, Boundary text x.1 ∧ Boundary text x.2 := by
  have hR : AllFine False text (process rules) := sane_fine hs (fun h => h.elim) (fun h => h.elim)
  obtain ⟨l, e, h⟩ := cutAll_spec hw hR hf (fun h => h.elim) fuel 0 _ (Or.inl ⟨fun _ _ h => h.elim, fun _ _ h => h.elim⟩)
    (boundary_zero hw) (fresh_invs hw _) (by omega)
  exact ⟨l, e, h.tiles, h.bound⟩

/-- "Ala. Etc. b": two breaks, the second one forbidden. -/
example : let text := ascii "Ala. Etc. b"
    let rules := [rule false [(5, 9)], rule true [(3, 4), (8, 9)]]
    Spec.WellFormed text ∧ (∀ r ∈ rules, Sane text r) ∧
    cutAll 13 text (process rules) 13 0 (Apps.fresh (process rules)) = some [(0, 4), (4, 11)] := by
  have h : ∀ b ∈ ascii "Ala. Etc. b", b.toNat < 128 := by decide
  refine ⟨ascii_wf _ h, ?_, by decide +kernel⟩
  intro r hr
  simp only [List.mem_cons, List.not_mem_nil, or_false] at hr
  rcases hr with rfl | rfl
  · exact rule_sane _ h _ _ (by decide)
  · exact rule_sane _ h _ _ (by decide)

/-- The text `a`, a byte that cannot begin a character, `. B`. -/
def brokenText : Str := [97, 128, 46, 32, 66]

def brokenRules : List Rule := [rule false [(2, 3)], rule true [(2, 3)]]

theorem broken_loop (fuel : Nat) : loop brokenText (rule true [(2, 3)]).breaks 4 fuel ⟨1, some 3⟩ = none := by
  induction fuel with
  | zero => rfl
  | succ fuel ih => exact ih

/-- **C70 fails on text that is not UTF-8.** `sequence_length` is 0 for a byte that cannot begin a character; if a break was refused the search never gets past
such a byte. -/
theorem C70_invalid_false : ∃ (text : Str) (rules : List Rule), (∀ r ∈ rules, ∀ m, ∀ p ∈ r.breaks m, m ≤ p ∧ p ≤ text.length) ∧
    ∀ fuel, cutAll fuel text (process rules) fuel 0 (Apps.fresh (process rules)) = none := by
  refine ⟨brokenText, brokenRules, ?_, ?_⟩
  · intro r hr m p hp
    simp only [brokenRules, List.mem_cons, List.not_mem_nil, or_false] at hr
    rcases hr with rfl | rfl
    · have := mem_rule.1 hp; simp at this; simp [this, brokenText]
    · have := mem_rule.1 hp; simp at this; simp [this, brokenText]
  · intro fuel
    match fuel with
    | 0 => rfl
    | 1 => decide +kernel
    | k + 2 =>
      have e1 : scan (k + 2) brokenText 1 0 (process brokenRules).breaking (Apps.fresh (process brokenRules)).breaking none =
          some (some (3, 1), [⟨1, some 3⟩]) := rfl
      have e2 : check (k + 2) brokenText 3 0 1 (process brokenRules).nonBreaking (Apps.fresh (process brokenRules)).nonBreaking =
          some (false, [⟨1, some 3⟩]) := rfl
      have e3 : scan (k + 2) brokenText 4 0 (process brokenRules).breaking [⟨1, some 3⟩] none = none := by
        have e : (process brokenRules).breaking = [((rule true [(2, 3)]).breaks, 1)] := rfl
        rw [e]
        simp only [scan, update]
        have : (if (1 : Nat) < 0 then 0 else 1) = 1 := rfl
        simp only [this]
        rw [broken_loop]
        rfl
      have e4 : cutLoop (k + 2) brokenText (process brokenRules) 0 (k + 2) 1 (Apps.fresh (process brokenRules)) = none := by
        rw [cutLoop, e1]
        simp only [Option.bind_eq_bind, Option.bind_some]
        rw [e2]
        simp only [Option.bind_some]
        have : brokenText[3]? = some 32 := rfl
        have hs : 3 + symAt brokenText 3 = 4 := rfl
        rw [hs, cutLoop]
        simp only [Option.bind_eq_bind]
        rw [e3]
        rfl
      have e5 : cutOff (k + 2) brokenText (process brokenRules) 0 (Apps.fresh (process brokenRules)) = none := e4
      rw [cutAll, if_pos (by decide), e5]
      rfl

/-! ### C71 -/

/-- **C71 (partial).** The pieces are as the SRX standard has it: the text is broken exactly at those positions at which the first rule that matches is a
breaking rule.  For rules with matches that break at one place only and later if they begin later, when no break falls inside a match. -/
theorem C71_standard_partial (text : Str) (hw : Spec.WellFormed text) (rules : List Rule) (hs : ∀ r ∈ rules, Sane text r)
    (h1 : ∀ r ∈ rules, Single r) (h2 : ∀ r ∈ rules, Monotone r) (h3 : NoStraddle text rules) (fuel : Nat) (hf : text.length + 1 < fuel) :
    ∃ l, cutAll fuel text (process rules) fuel 0 (Apps.fresh (process rules)) = some l ∧ Tiles text.length 0 l ∧
      ∀ p, 0 < p → p < text.length → ((∃ x ∈ l, x.1 = p) ↔ BreakAt rules p) := by
  have hR : AllFine True text (process rules) := sane_fine hs (fun _ => h1) (fun _ => h2)
  have hclean : ∀ p, (∀ r ∈ rules, Clean True p r.breaks) → AllClean True p (process rules) := by
    intro p h
    constructor
    · intro x hx
      obtain ⟨r, hr, e⟩ := process_mem.1 x hx
      exact e ▸ h r hr
    · intro x hx
      obtain ⟨r, hr, e⟩ := process_mem.2 x hx
      exact e ▸ h r hr
  obtain ⟨l, e, h⟩ := cutAll_spec hw hR hf
    (fun _ p hp hv => hclean p (fun r hr _ m hm q hq => h3 p hp ((verdict_iff rules p).1 hv) r hr m hm q hq))
    fuel 0 _ (Or.inl (hclean 0 (fun r hr _ m hm => by omega))) (boundary_zero hw) (fresh_invs hw _) (by omega)
  refine ⟨l, e, h.tiles, ?_⟩
  intro p hp1 hp2
  rw [h.exact trivial p hp1 hp2]
  exact verdict_iff rules p

theorem rule_single (b : Bool) {l : List (Nat × Nat)} (h : (l.map Prod.fst).Nodup) : Single (rule b l) := by
  intro m
  simp only [rule, List.length_map]
  induction l with
  | nil => simp
  | cons x l ih =>
    rw [List.map_cons, List.nodup_cons] at h
    rw [List.filter_cons]
    split
    · rename_i hx
      simp only [decide_eq_true_eq] at hx
      subst hx
      have : l.filter (fun y => decide (y.1 = x.1)) = [] := by
        rw [List.filter_eq_nil_iff]
        intro y hy e
        simp only [decide_eq_true_eq] at e
        exact h.1 (List.mem_map.2 ⟨y, hy, e⟩)
      simp [this]
    · exact ih h.2

theorem rule_monotone (b : Bool) {l : List (Nat × Nat)} (h : ∀ x ∈ l, ∀ y ∈ l, x.1 < y.1 → x.2 ≤ y.2) : Monotone (rule b l) :=
  fun m m' p p' hm hp hp' => h _ (mem_rule.1 hp) _ (mem_rule.1 hp') hm

/-- "a. b. c D": a break at a full stop, but not before a small letter. -/
example : let text := ascii "a. b. D"
    let rules := [rule false [(1, 2)], rule true [(1, 2), (4, 5)]]
    Spec.WellFormed text ∧ (∀ r ∈ rules, Sane text r) ∧ (∀ r ∈ rules, Single r) ∧ (∀ r ∈ rules, Monotone r) ∧ NoStraddle text rules ∧
    BreakAt rules 5 ∧ ¬ BreakAt rules 2 := by
  have h : ∀ b ∈ ascii "a. b. D", b.toNat < 128 := by decide
  refine ⟨ascii_wf _ h, ?_, ?_, ?_, ?_, ?_, ?_⟩
  · intro r hr
    simp only [List.mem_cons, List.not_mem_nil, or_false] at hr
    rcases hr with rfl | rfl
    · exact rule_sane _ h _ _ (by decide)
    · exact rule_sane _ h _ _ (by decide)
  · intro r hr
    simp only [List.mem_cons, List.not_mem_nil, or_false] at hr
    rcases hr with rfl | rfl
    · exact rule_single _ (by decide)
    · exact rule_single _ (by decide)
  · intro r hr
    simp only [List.mem_cons, List.not_mem_nil, or_false] at hr
    rcases hr with rfl | rfl
    · exact rule_monotone _ (by decide)
    · exact rule_monotone _ (by decide)
  · intro q hq _ r hr m hm p hp
    simp only [List.mem_cons, List.not_mem_nil, or_false] at hr
    rcases hr with rfl | rfl
    · have := mem_rule.1 hp; simp at this; omega
    · have := mem_rule.1 hp; simp at this; omega
  · refine ⟨[rule false [(1, 2)]], rule true [(1, 2), (4, 5)], [], rfl, rfl, ⟨4, mem_rule.2 (by decide)⟩, ?_⟩
    intro x hx
    simp only [List.mem_singleton] at hx
    subst hx
    rintro ⟨m, hm⟩
    have := mem_rule.1 hm; simp at this
  · rintro ⟨l, r, l', e, h1, h2, h3⟩
    match l with
    | [] => simp at e; rw [← e.1] at h1; simp [rule] at h1
    | [x] =>
      simp at e
      exact h3 x (by simp) ⟨1, by rw [← e.1]; exact mem_rule.2 (by decide)⟩
    | x :: y :: l => simp at e

/-- A non-breaking rule before a breaking one that matches at 2: no break at 2, nor anywhere. -/
theorem vetoed {l : List (Nat × Nat)} (hl : ∃ m, (m, 2) ∈ l) (q : Nat) : ¬ BreakAt [rule false l, rule true [(1, 2)]] q := by
  rintro ⟨a, r, b, e, h1, h2, h3⟩
  match a with
  | [] => simp at e; rw [← e.1] at h1; simp [rule] at h1
  | [x] =>
    simp at e
    obtain ⟨m, hm⟩ := h2
    rw [← e.2.1] at hm
    have := mem_rule.1 hm
    simp at this
    obtain ⟨m', hm'⟩ := hl
    exact h3 x (by simp) ⟨m', by rw [← e.1, this.2]; exact mem_rule.2 hm'⟩
  | x :: y :: l => simp at e

/-- **C71 fails** when a match can break at two places: the engine takes one of them, and the other is not seen.  A break is made that a rule forbids. -/
theorem C71_single_false : ∃ (text : Str) (rules : List Rule), Spec.WellFormed text ∧ (∀ r ∈ rules, Sane text r) ∧ (∀ r ∈ rules, Monotone r) ∧
    NoStraddle text rules ∧
    ∃ l, cutAll 9 text (process rules) 9 0 (Apps.fresh (process rules)) = some l ∧ ∃ p, 0 < p ∧ p < text.length ∧ (∃ x ∈ l, x.1 = p) ∧
      ¬ BreakAt rules p := by
  have h : ∀ b ∈ ascii "abcd", b.toNat < 128 := by decide
  have hv := vetoed (l := [(0, 3), (0, 2)]) ⟨0, by decide⟩
  refine ⟨ascii "abcd", [rule false [(0, 3), (0, 2)], rule true [(1, 2)]], ascii_wf _ h, ?_, ?_, fun q _ hb => absurd hb (hv q),
    [(0, 2), (2, 4)], by decide +kernel, 2, by decide, by decide, ⟨(2, 4), by decide, rfl⟩, hv 2⟩
  · intro r hr
    simp only [List.mem_cons, List.not_mem_nil, or_false] at hr
    rcases hr with rfl | rfl
    · exact rule_sane _ h _ _ (by decide)
    · exact rule_sane _ h _ _ (by decide)
  · intro r hr
    simp only [List.mem_cons, List.not_mem_nil, or_false] at hr
    rcases hr with rfl | rfl
    · exact rule_monotone _ (by decide)
    · exact rule_monotone _ (by decide)

/-- **C71 fails** when a match that begins later breaks earlier: only the leftmost match is seen.  A break is made that a rule forbids. -/
theorem C71_monotone_false : ∃ (text : Str) (rules : List Rule), Spec.WellFormed text ∧ (∀ r ∈ rules, Sane text r) ∧ (∀ r ∈ rules, Single r) ∧
    NoStraddle text rules ∧
    ∃ l, cutAll 9 text (process rules) 9 0 (Apps.fresh (process rules)) = some l ∧ ∃ p, 0 < p ∧ p < text.length ∧ (∃ x ∈ l, x.1 = p) ∧
      ¬ BreakAt rules p := by
  have h : ∀ b ∈ ascii "abcd", b.toNat < 128 := by decide
  have hv := vetoed (l := [(0, 3), (1, 2)]) ⟨1, by decide⟩
  refine ⟨ascii "abcd", [rule false [(0, 3), (1, 2)], rule true [(1, 2)]], ascii_wf _ h, ?_, ?_, fun q _ hb => absurd hb (hv q),
    [(0, 2), (2, 4)], by decide +kernel, 2, by decide, by decide, ⟨(2, 4), by decide, rfl⟩, hv 2⟩
  · intro r hr
    simp only [List.mem_cons, List.not_mem_nil, or_false] at hr
    rcases hr with rfl | rfl
    · exact rule_sane _ h _ _ (by decide)
    · exact rule_sane _ h _ _ (by decide)
  · intro r hr
    simp only [List.mem_cons, List.not_mem_nil, or_false] at hr
    rcases hr with rfl | rfl
    · exact rule_single _ (by decide)
    · exact rule_single _ (by decide)

/-- **C71 fails** when a break falls inside a match: what begins before a break is not found after it.  A break is missed. -/
theorem C71_straddle_false : ∃ (text : Str) (rules : List Rule), Spec.WellFormed text ∧ (∀ r ∈ rules, Sane text r) ∧ (∀ r ∈ rules, Single r) ∧
    (∀ r ∈ rules, Monotone r) ∧
    ∃ l, cutAll 9 text (process rules) 9 0 (Apps.fresh (process rules)) = some l ∧ ∃ p, 0 < p ∧ p < text.length ∧ (¬ ∃ x ∈ l, x.1 = p) ∧
      BreakAt rules p := by
  have h : ∀ b ∈ ascii "..abc", b.toNat < 128 := by decide
  refine ⟨ascii "..abc", [rule true [(0, 2), (1, 3)]], ascii_wf _ h, ?_, ?_, ?_, [(0, 2), (2, 5)], by decide +kernel, 3, by decide, by decide,
    by decide, ⟨[], _, [], rfl, rfl, ⟨1, mem_rule.2 (by decide)⟩, by simp⟩⟩
  · intro r hr
    simp only [List.mem_singleton] at hr
    subst hr
    exact rule_sane _ h _ _ (by decide)
  · intro r hr
    simp only [List.mem_singleton] at hr
    subst hr
    exact rule_single _ (by decide)
  · intro r hr
    simp only [List.mem_singleton] at hr
    subst hr
    exact rule_monotone _ (by decide)

/-! ### C72 -/

/-- **C72.** Every opening parenthesis that is neither escaped nor followed by `?` becomes `(?:`, and nothing else is changed. -/
theorem C72_parens (pattern : Str) : makeAllParensNonCapturing pattern = some (nonCapturing (tokens pattern)) := parens_eq pattern

/-- `(a\(b)(?=c)\\(d)`. -/
example : makeAllParensNonCapturing (ascii "(a\\(b)(?=c)\\\\(d)") = some (ascii "(?:a\\(b)(?=c)\\\\(?:d)") := by decide +kernel

/-- **C72.** Afterwards no group captures, unless it has a name. -/
theorem C72_captures_partial (pattern out : Str) (h : makeAllParensNonCapturing pattern = some out) (hn : hasNamed (tokens pattern) = false) :
    captures (tokens out) = false := by
  rw [parens_eq] at h
  simp only [Option.some.injEq] at h
  rw [← h, captures_nonCapturing, hn]

example : hasNamed (tokens (ascii "(a)(?=b)(?<=c)")) = false ∧ captures (tokens (ascii "(a)(?=b)(?<=c)")) = true := by decide +kernel

/-- **C72 fails** for groups with a name: they are left as they are, and capture. -/
theorem C72_named_false : ∃ pattern out, makeAllParensNonCapturing pattern = some out ∧ captures (tokens out) = true :=
  ⟨ascii "(?<x>a)", ascii "(?<x>a)", by decide +kernel, by decide +kernel⟩

/-- **C72.** Character classes are left as they are, if there is no plain opening parenthesis in one. -/
theorem C72_classes_partial (pattern : Str) (h : ClassesPlain false (tokens pattern)) :
    makeAllParensNonCapturing pattern = some (nonCapturingOutside false (tokens pattern)) := by
  rw [parens_eq, classes_plain false _ h]

example : ClassesPlain false (tokens (ascii "([a-z\\(])")) ∧
    nonCapturingOutside false (tokens (ascii "([a-z\\(])")) = ascii "(?:[a-z\\(])" := by
  constructor
  · simp [ascii, tokens, ClassesPlain]
  · decide +kernel

/-- **C72 fails** in a character class: `[(]` becomes `[(?:]`, which matches `?` and `:` too. -/
theorem C72_classes_false : ∃ pattern, makeAllParensNonCapturing pattern = some (ascii "[(?:]") ∧
    nonCapturingOutside false (tokens pattern) = ascii "[(]" :=
  ⟨ascii "[(]", by decide +kernel, by decide +kernel⟩

/-! ### C73 -/

/-- **C73.** The rules taken are those of the lists named by the maps that count, in the order of the document: with cascade all maps that match count,
without it the first one. -/
theorem C73_rules {R : Type} (cascade : Bool) (body : List (BodyItem R)) :
    getRules cascade body =
      ((allRules body).filter (fun r => decide (r.1 ∈ (chosen cascade (allMaps body)).map LanguageMap.name))).flatMap Prod.snd :=
  getRules_eq cascade body

/-- Two lists of rules and three maps, one of which does not match. -/
def sampleBody : List (BodyItem Nat) :=
  [.languagerules [(ascii "default", [1, 2]), (ascii "en", [3]), (ascii "pl", [4])],
    .maprules [.languagemap ⟨true, ascii "pl"⟩, .maprule [none, some ⟨false, ascii "en"⟩], .other, .languagemap ⟨true, ascii "default"⟩]]

example : getRules true sampleBody = [1, 2, 4] ∧ getRules false sampleBody = [4] := by decide +kernel

/-- **C73.** Without cascade these are the rules that the standard wants. -/
theorem C73_first {R : Type} (body : List (BodyItem R)) : getRules false body = standardRules false body := by
  rw [getRules_eq, standardRules]
  cases h : (allMaps body).find? LanguageMap.matches_ with
  | none => simp [chosen, h]
  | some m => simp [chosen, h]

/-- **C73 (partial).** With cascade too, if the lists come in the order of the maps, and no map names a list that was named before or does not exist. -/
theorem C73_cascade_partial {R : Type} (body : List (BodyItem R)) (hn : ((chosen true (allMaps body)).map LanguageMap.name).Nodup)
    (ho : ((allRules body).map Prod.fst).filter (fun n => decide (n ∈ (chosen true (allMaps body)).map LanguageMap.name)) =
      (chosen true (allMaps body)).map LanguageMap.name) :
    getRules true body = standardRules true body := by
  rw [getRules_eq, standardRules, ← in_order hn ho, List.flatMap_map]

example : let body : List (BodyItem Nat) := [.languagerules [(ascii "pl", [4]), (ascii "en", [3]), (ascii "default", [1, 2])],
      .maprules [.languagemap ⟨true, ascii "pl"⟩, .languagemap ⟨false, ascii "en"⟩, .languagemap ⟨true, ascii "default"⟩]]
    ((chosen true (allMaps body)).map LanguageMap.name).Nodup ∧
    ((allRules body).map Prod.fst).filter (fun n => decide (n ∈ (chosen true (allMaps body)).map LanguageMap.name)) =
      (chosen true (allMaps body)).map LanguageMap.name ∧ standardRules true body = [4, 1, 2] := by
  refine ⟨by decide +kernel, by decide +kernel, by decide +kernel⟩

/-- **C73 fails** in general: with cascade the order is that of the lists, not that of the maps; as the first rule that matches decides, a break is refused
that the standard wants. -/
theorem C73_order_false : ∃ body : List (BodyItem Nat), getRules true body = [1, 2, 4] ∧ standardRules true body = [4, 1, 2] :=
  ⟨sampleBody, by decide +kernel, by decide +kernel⟩

end Verif.Srx
