import Verif.Lexicon.Model
import Verif.Lexicon.Spec
import Verif.Quoter.Props

/-! Lemmas on strings and the reading of a lexicon. -/
set_option linter.unusedVariables false
set_option linter.unusedSimpArgs false

namespace Verif.Lexicon
open Verif

theorem split_eq (f : Byte → Bool) (s : Str) : split f s = s.splitOnP f := by
  induction s with
  | nil => simp [split]
  | cons c s ih =>
    rw [split, List.splitOnP_cons, ih]
    split
    · rfl
    · have := List.splitOnP_ne_nil f s
      cases h : s.splitOnP f with
      | nil => exact absurd h this
      | cons w ws => simp

theorem join_eq (sep : Str) (ws : List Str) : join sep ws = sep.intercalate ws := by
  fun_induction join sep ws with
  | case1 => rfl
  | case2 => simp [List.intercalate]
  | case3 w ws h ih =>
    cases ws with
    | nil => exact absurd rfl h
    | cons v vs =>
      rw [ih]
      simp [List.intercalate]

theorem intercalate_cons {sep w : Str} {ws : List Str} (h : ws ≠ []) :
    sep.intercalate (w :: ws) = w ++ sep ++ sep.intercalate ws := by
  cases ws with
  | nil => exact absurd rfl h
  | cons v vs => simp [List.intercalate]

theorem intercalate_snoc {sep w : Str} {ws : List Str} (h : ws ≠ []) :
    sep.intercalate (ws ++ [w]) = sep.intercalate ws ++ sep ++ w := by
  induction ws with
  | nil => exact absurd rfl h
  | cons v vs ih =>
    cases vs with
    | nil => simp [List.intercalate]
    | cons u us =>
      rw [List.cons_append, intercalate_cons (by simp), ih (by simp), intercalate_cons (w := v) (by simp)]
      simp [-List.intercalate_cons_cons]

theorem splitOnP_sep (f : Byte → Bool) {c : Byte} (hc : f c = true) (s t : Str) :
    (s ++ c :: t).splitOnP f = s.splitOnP f ++ t.splitOnP f := by
  induction s with
  | nil => simp [List.splitOnP_cons, hc]
  | cons d s ih =>
    rw [List.cons_append, List.splitOnP_cons, List.splitOnP_cons, ih]
    split
    · simp
    · have := List.splitOnP_ne_nil f s
      cases h : s.splitOnP f with
      | nil => exact absurd h this
      | cons w ws => simp

theorem splitOnP_intercalate (f : Byte → Bool) {c : Byte} (hc : f c = true) {ws : List Str} (h : ws ≠ []) :
    ([c].intercalate ws).splitOnP f = ws.flatMap (·.splitOnP f) := by
  induction ws with
  | nil => exact absurd rfl h
  | cons w ws ih =>
    cases ws with
    | nil => simp [List.intercalate]
    | cons v vs =>
      rw [intercalate_cons (by simp), List.append_assoc, List.singleton_append, splitOnP_sep f hc, ih (by simp)]
      simp

theorem splitOnP_none (f : Byte → Bool) {s : Str} (h : ∀ c ∈ s, f c = false) : s.splitOnP f = [s] :=
  List.splitOnP_eq_singleton (by simpa using h)

/-! ### Lines -/

theorem getlines_line {l : Str} (h : (10 : Byte) ∉ l) (rest : Str) : getlines (l ++ 10 :: rest) = l :: getlines rest := by
  induction l with
  | nil => simp [getlines]
  | cons c l ih =>
    rw [List.cons_append, getlines]
    have hc : c ≠ 10 := by rintro rfl; exact h (by simp)
    rw [if_neg hc, ih (fun hh => h (by simp [hh]))]

theorem getlines_text {ls : List Str} (h : ∀ l ∈ ls, (10 : Byte) ∉ l) : getlines (Spec.text ls) = ls := by
  induction ls with
  | nil => rfl
  | cons l ls ih =>
    have : Spec.text (l :: ls) = l ++ 10 :: Spec.text ls := by simp [Spec.text]
    rw [this, getlines_line (h l (by simp)), ih (fun m hm => h m (by simp [hm]))]

theorem getlines_final {s : Str} (h : s ≠ []) (hl : s.getLast? ≠ some 10) : getlines (s ++ [10]) = getlines s := by
  induction s with
  | nil => exact absurd rfl h
  | cons c s ih =>
    cases s with
    | nil =>
      have hc : c ≠ 10 := by rintro rfl; simp at hl
      simp [getlines, hc]
    | cons d s =>
      have := ih (by simp) (by simpa using hl)
      rw [List.cons_append, getlines, this, ← getlines.eq_2]

theorem getlines_no_newline (s : Str) : ∀ l ∈ getlines s, (10 : Byte) ∉ l := by
  fun_induction getlines s with
  | case1 => simp
  | case2 s ih => simpa using ih
  | case3 c s hc h ih => intro l hl; simp at hl; subst hl; simpa using fun h => hc h.symm
  | case4 c s hc l ls h ih =>
    rw [h] at ih
    intro m hm
    rcases List.mem_cons.1 hm with rfl | hm
    · have := ih l (by simp)
      simp only [List.mem_cons, not_or]
      exact ⟨fun h => hc h.symm, this⟩
    · exact ih m (by simp [hm])

theorem getlines_text_again (s : Str) : s ≠ [] → s.getLast? = some 10 → Spec.text (getlines s) = s := by
  induction s with
  | nil => intro h; exact absurd rfl h
  | cons c s ih =>
    intro _ hl
    cases s with
    | nil => simp at hl; subst hl; simp [getlines, Spec.text]
    | cons d s =>
      have hi := ih (by simp) (by simpa using hl)
      rw [getlines]
      split
      · rename_i h; subst h
        have : Spec.text ([] :: getlines (d :: s)) = 10 :: Spec.text (getlines (d :: s)) := by simp [Spec.text]
        rw [this, hi]
      · split
        · rename_i h; rw [h] at hi; simp [Spec.text] at hi
        · rename_i l ls h
          rw [h] at hi
          have : Spec.text ((c :: l) :: ls) = c :: Spec.text (l :: ls) := by simp [Spec.text]
          rw [this, hi]

/-! ### A line -/

theorem isSep_eq : isSep = fun c => decide (Spec.Separator c) := by
  funext c
  simp only [isSep, Spec.Separator]
  rw [Bool.eq_iff_iff]; simp only [Bool.or_eq_true, beq_iff_eq]
  exact (@decide_eq_true_iff _ _).symm

theorem words_eq (line : Str) : (split isSep (removeComment line)).filter (fun f => !f.isEmpty) = Spec.words (Spec.content line) := by
  rw [split_eq, isSep_eq]
  unfold Spec.words Spec.content removeComment
  have h1 : (fun c : Byte => c != 35) = (fun c => decide (c ≠ 35)) := by funext c; rw [Bool.eq_iff_iff]; simp
  have h2 : (fun f : Str => !f.isEmpty) = (fun f => decide (f ≠ [])) := by
    funext f; rw [Bool.eq_iff_iff]; simp
  rw [h1, h2]

theorem unescapeAll_ok {ws fs : List Str} : unescapeAll ws = .ok fs ↔ List.Forall₂ (Quoter.Spec.Reads []) ws fs := by
  induction ws generalizing fs with
  | nil => cases fs <;> simp [unescapeAll]
  | cons w ws ih =>
    rw [unescapeAll]
    cases h : Quoter.unescape [] w with
    | none =>
      simp only [reduceCtorEq, false_iff]
      intro hf
      cases hf with
      | cons h1 h2 => rw [← Quoter.unescape_iff, h] at h1; simp at h1
    | some g =>
      simp only
      rw [Quoter.unescape_iff] at h
      cases h2 : unescapeAll ws with
      | error x =>
        simp only [reduceCtorEq, false_iff]
        intro hf
        cases hf with
        | cons h3 h4 => rw [← ih, h2] at h4; simp at h4
      | ok gs =>
        simp only [Except.ok.injEq]
        constructor
        · rintro rfl; exact .cons h (ih.1 h2)
        · intro hf
          cases hf with
          | cons h3 h4 =>
            rw [← ih, h2] at h4
            simp only [Except.ok.injEq] at h4
            rw [← Quoter.unescape_iff] at h h3
            rw [h] at h3; simp at h3
            rw [h3, h4]

theorem words_nil {s : Str} : Spec.words s = [] ↔ ∀ c ∈ s, Spec.Separator c := by
  unfold Spec.words
  induction s with
  | nil => simp
  | cons c s ih =>
    rw [List.splitOnP_cons]
    by_cases hc : Spec.Separator c
    · simp only [hc, decide_true, if_true]
      rw [List.filter_cons_of_neg (by simp), ih]
      simp [hc]
    · simp only [hc, decide_false, Bool.false_eq_true, if_false, List.mem_cons, forall_eq_or_imp, false_and, iff_false]
      have := List.splitOnP_ne_nil (fun c => decide (Spec.Separator c)) s
      cases h : s.splitOnP (fun c => decide (Spec.Separator c)) with
      | nil => exact absurd h this
      | cons w ws => simp

theorem firstNotSep_none {s : Str} : firstNotSep s = none ↔ ∀ c ∈ s, Spec.Separator c := by
  induction s with
  | nil => simp [firstNotSep]
  | cons c s ih =>
    have hc : isSep c = true ↔ Spec.Separator c := by simp [isSep, Spec.Separator]
    rw [firstNotSep]
    by_cases h : isSep c = true
    · simp [h, ih, hc.1 h]
    · simp only [h, Bool.false_eq_true, if_false, reduceCtorEq, false_iff]
      exact fun hh => h (hc.2 (hh c (by simp)))

theorem firstNotSep_zero {s : Str} : firstNotSep s = some 0 ↔ ∃ c t, s = c :: t ∧ ¬ Spec.Separator c := by
  cases s with
  | nil => simp [firstNotSep]
  | cons c s =>
    have hc : isSep c = true ↔ Spec.Separator c := by simp [isSep, Spec.Separator]
    rw [firstNotSep]
    by_cases h : isSep c = true
    · have hs := hc.1 h
      simp only [h, if_true, Option.map_eq_some_iff, Nat.add_eq_zero_iff, Nat.succ_ne_zero, and_false, exists_false, List.cons.injEq,
        false_iff, not_exists, not_and, Decidable.not_not]
      rintro d t ⟨rfl, rfl⟩
      exact hs
    · simp only [h, Bool.false_eq_true, if_false, true_iff]
      exact ⟨c, s, rfl, fun x => h (hc.2 x)⟩

/-- A line counts as empty when it is indented or has no words. -/
theorem isEmptyLine_iff (line : Str) : isEmptyLine (removeComment line) = true ↔
    Spec.Indented line ∨ Spec.words (Spec.content line) = [] := by
  have hrc : removeComment line = Spec.content line := by
    unfold Spec.content removeComment
    congr 1
    funext c; rw [Bool.eq_iff_iff]; simp
  rw [words_nil, hrc, isEmptyLine]
  cases h : firstNotSep (Spec.content line) with
  | none => simp only [true_iff]; exact .inr (firstNotSep_none.1 h)
  | some p =>
    have hn : ¬ ∀ c ∈ Spec.content line, Spec.Separator c := fun hh => by rw [firstNotSep_none.2 hh] at h; simp at h
    simp only [hn, or_false, decide_eq_true_eq]
    have hz : p = 0 ↔ ¬ Spec.Indented line := by
      constructor
      · rintro rfl
        obtain ⟨c, t, h1, h2⟩ := firstNotSep_zero.1 h
        rintro ⟨d, u, rfl, h4⟩
        unfold Spec.content at h1
        rw [List.takeWhile_cons] at h1
        split at h1
        · simp at h1; rw [← h1.1] at h2; exact h2 h4
        · simp at h1
      · intro hi
        cases hl : line with
        | nil => rw [hl] at h; simp [Spec.content, firstNotSep] at h
        | cons c s =>
          have hs : ¬ Spec.Separator c := fun hs => hi ⟨c, s, hl, hs⟩
          rw [hl] at h
          unfold Spec.content at h
          rw [List.takeWhile_cons] at h
          split at h
          · rw [firstNotSep_zero.2 ⟨c, _, rfl, hs⟩] at h; simpa using h.symm
          · simp [firstNotSep] at h
    rw [Ne, hz, Classical.not_not]

theorem fieldsOf_ok {line : Str} {e : Spec.Entry} : fieldsOf (removeComment line) = .ok e ↔ Spec.Means line (some e) := by
  unfold fieldsOf
  rw [words_eq]
  constructor
  · intro h
    split at h
    · simp at h
    · rename_i k f fs h2
      simp only [Except.ok.injEq] at h
      subst h
      exact .entry (unescapeAll_ok.1 h2)
    · simp at h
  · intro h
    cases h with
    | entry h => ?_
    simp only [unescapeAll_ok.2 h]

/-- The loop does nothing with a line that says nothing. -/
theorem skipped_iff {line : Str} : isEmptyLine (removeComment line) = true ↔ Spec.Taken line none := by
  rw [isEmptyLine_iff]
  unfold Spec.Taken
  constructor
  · intro h
    by_cases hi : Spec.Indented line
    · exact .inl ⟨hi, rfl⟩
    · exact .inr ⟨hi, .nothing (h.resolve_left hi)⟩
  · rintro (⟨h, _⟩ | ⟨_, ⟨h⟩⟩)
    · exact .inl h
    · exact .inr h

theorem taken_some {line : Str} {e : Spec.Entry} : Spec.Taken line (some e) ↔
    isEmptyLine (removeComment line) = false ∧ fieldsOf (removeComment line) = .ok e := by
  rw [fieldsOf_ok]
  constructor
  · rintro (⟨_, h⟩ | ⟨hi, hm⟩)
    · simp at h
    · refine ⟨?_, hm⟩
      rw [← Bool.not_eq_true, isEmptyLine_iff]
      rintro (h | h)
      · exact hi h
      · cases hm with
        | entry hf => rw [h] at hf; cases hf
  · rintro ⟨h1, h2⟩
    right
    refine ⟨fun hi => ?_, h2⟩
    rw [(isEmptyLine_iff line).2 (.inl hi)] at h1
    simp at h1

theorem taken_unique {line : Str} {a b : Option Spec.Entry} (ha : Spec.Taken line a) (hb : Spec.Taken line b) : a = b := by
  cases a with
  | none =>
    cases b with
    | none => rfl
    | some e => rw [← skipped_iff, (taken_some.1 hb).1] at ha; simp at ha
  | some d =>
    cases b with
    | none => rw [← skipped_iff, (taken_some.1 ha).1] at hb; simp at hb
    | some e =>
      have h1 := (taken_some.1 ha).2
      have h2 := (taken_some.1 hb).2
      rw [h1] at h2
      simpa using h2

/-! ### The loop -/

theorem group_head (e : Spec.Entry) (es : List Spec.Entry) : ∃ rs gs, Spec.group (e :: es) = (e.1, rs) :: gs := by
  rw [Spec.group]
  split
  · exact ⟨_, _, rfl⟩
  · split
    · rename_i h; exact ⟨_, _, by rw [h]⟩
    · exact ⟨_, _, rfl⟩

theorem group_run {k : Str} {fss : List (List Str)} (h : fss ≠ []) (es : List Spec.Entry) (hk : ∀ e, es.head? = some e → e.1 ≠ k) :
    Spec.group (fss.map (fun f => (k, f)) ++ es) = (k, fss.map (fun f => Spec.record (k, f))) :: Spec.group es := by
  induction fss with
  | nil => exact absurd rfl h
  | cons f fss ih =>
    rw [List.map_cons, List.cons_append, Spec.group]
    cases fss with
    | nil =>
      simp only [List.map_nil, List.nil_append]
      cases es with
      | nil => simp [Spec.group]
      | cons e es =>
        obtain ⟨rs, gs, hg⟩ := group_head e es
        rw [hg]
        simp only
        rw [if_neg (fun hh => hk e rfl hh.symm)]
        rfl
    | cons g fss =>
      rw [ih (by simp)]
      simp

theorem readLoop_some {ls : List Str} {adds : List (Str × Str)} {k : Str} {fss : List (List Str)} (h : fss ≠ []) :
    readLoop ls (some (k, [59].intercalate (fss.map (fun f => Spec.record (k, f))))) = .ok adds ↔
      ∃ es, List.Forall₂ Spec.Taken ls es ∧
        adds = (Spec.group (fss.map (fun f => (k, f)) ++ es.filterMap id)).map Spec.value := by
  induction ls generalizing adds k fss with
  | nil =>
    simp only [readLoop, Except.ok.injEq]
    have hr := group_run h (k := k) [] (by simp)
    constructor
    · rintro rfl; exact ⟨[], .nil, by rw [List.filterMap_nil, hr]; simp [Spec.value, Spec.group]⟩
    · rintro ⟨es, h1, h2⟩
      cases h1
      rw [h2, List.filterMap_nil, hr]
      simp [Spec.value, Spec.group]
  | cons l ls ih =>
    rw [readLoop]
    simp only
    split
    · rename_i hs
      rw [skipped_iff] at hs
      rw [ih h]
      constructor
      · rintro ⟨es, h1, h2⟩; exact ⟨none :: es, .cons hs h1, by simpa using h2⟩
      · rintro ⟨es, h1, h2⟩
        cases h1 with
        | cons h3 h4 => rw [← taken_unique hs h3] at h2; exact ⟨_, h4, by simpa using h2⟩
    · rename_i hs
      have hs : isEmptyLine (removeComment l) = false := by simpa using hs
      cases hf : fieldsOf (removeComment l) with
      | error x =>
        simp only [reduceCtorEq, false_iff, not_exists, not_and]
        intro es h1
        cases h1 with
        | cons h3 h4 =>
          rename_i e es
          cases e with
          | none => rw [← skipped_iff, hs] at h3; simp at h3
          | some e => rw [taken_some, hf] at h3; simp at h3
      | ok e =>
        obtain ⟨k', fs⟩ := e
        have ht : Spec.Taken l (some (k', fs)) := taken_some.2 ⟨hs, hf⟩
        simp only
        rw [join_eq]
        have hback : ∀ es0, List.Forall₂ Spec.Taken (l :: ls) es0 → ∃ es, es0 = some (k', fs) :: es ∧ List.Forall₂ Spec.Taken ls es := by
          intro es0 h1
          cases h1 with
          | cons h3 h4 => exact ⟨_, by rw [← taken_unique ht h3], h4⟩
        split
        · rename_i hk
          subst hk
          have := ih (adds := adds) (k := k') (fss := fss ++ [fs]) (by simp)
          rw [List.map_append, List.map_singleton, intercalate_snoc (by simpa using h)] at this
          rw [show [9].intercalate fs = Spec.record (k', fs) from rfl, this]
          constructor
          · rintro ⟨es, h1, h2⟩; exact ⟨_, .cons ht h1, by simpa using h2⟩
          · rintro ⟨es0, h1, h2⟩
            obtain ⟨es, rfl, h4⟩ := hback _ h1
            exact ⟨_, h4, by simpa using h2⟩
        · rename_i hk
          have ih2 := fun adds => ih (adds := adds) (k := k') (fss := [fs]) (by simp)
          simp only [List.map_cons, List.map_nil] at ih2
          rw [show [59].intercalate [Spec.record (k', fs)] = [9].intercalate fs from by simp [List.intercalate, Spec.record]] at ih2
          have hr := fun es => group_run h (k := k) ((k', fs) :: es) (by simpa using hk)
          cases hl : readLoop ls (some (k', [9].intercalate fs)) with
          | error x =>
            simp only [reduceCtorEq, false_iff, not_exists, not_and]
            intro es0 h1
            obtain ⟨es, rfl, h4⟩ := hback _ h1
            have := (ih2 _).2 ⟨es, h4, rfl⟩
            rw [hl] at this; simp at this
          | ok adds' =>
            obtain ⟨es', h5, h6⟩ := (ih2 _).1 hl
            simp only [Except.ok.injEq]
            constructor
            · rintro rfl
              refine ⟨_, .cons ht h5, ?_⟩
              rw [List.filterMap_cons_some (by rfl), hr, List.map_cons, h6]
              rfl
            · rintro ⟨es0, h1, h2⟩
              obtain ⟨es, rfl, h4⟩ := hback _ h1
              have := (ih2 _).2 ⟨es, h4, rfl⟩
              rw [hl] at this
              simp only [Except.ok.injEq] at this
              rw [h2, List.filterMap_cons_some (by rfl), hr, List.map_cons, this]
              rfl

theorem readLoop_none {ls : List Str} {adds : List (Str × Str)} :
    readLoop ls none = .ok adds ↔ ∃ es, List.Forall₂ Spec.Taken ls es ∧ adds = (Spec.group (es.filterMap id)).map Spec.value := by
  induction ls generalizing adds with
  | nil =>
    simp only [readLoop, Except.ok.injEq]
    constructor
    · rintro rfl; exact ⟨[], .nil, rfl⟩
    · rintro ⟨es, h1, h2⟩; cases h1; exact h2.symm
  | cons l ls ih =>
    rw [readLoop]
    simp only
    split
    · rename_i hs
      rw [skipped_iff] at hs
      rw [ih]
      constructor
      · rintro ⟨es, h1, h2⟩; exact ⟨none :: es, .cons hs h1, by simpa using h2⟩
      · rintro ⟨es, h1, h2⟩
        cases h1 with
        | cons h3 h4 => rw [← taken_unique hs h3] at h2; exact ⟨_, h4, by simpa using h2⟩
    · rename_i hs
      have hs : isEmptyLine (removeComment l) = false := by simpa using hs
      cases hf : fieldsOf (removeComment l) with
      | error x =>
        simp only [reduceCtorEq, false_iff, not_exists, not_and]
        intro es h1
        cases h1 with
        | cons h3 h4 =>
          rename_i e es
          cases e with
          | none => rw [← skipped_iff, hs] at h3; simp at h3
          | some e => rw [taken_some, hf] at h3; simp at h3
      | ok e =>
        obtain ⟨k', fs⟩ := e
        have ht : Spec.Taken l (some (k', fs)) := taken_some.2 ⟨hs, hf⟩
        simp only
        have ih2 := readLoop_some (ls := ls) (adds := adds) (k := k') (fss := [fs]) (by simp)
        simp only [List.map_cons, List.map_nil] at ih2
        rw [show [59].intercalate [Spec.record (k', fs)] = join [9] fs from by simp [List.intercalate, Spec.record, join_eq]] at ih2
        rw [ih2]
        constructor
        · rintro ⟨es, h1, h2⟩; exact ⟨_, .cons ht h1, by simpa using h2⟩
        · rintro ⟨es0, h1, h2⟩
          cases h1 with
          | cons h3 h4 => rw [← taken_unique ht h3] at h2; exact ⟨_, h4, by simpa using h2⟩

/-! ### Groups -/

theorem group_keys_cons (e : Spec.Entry) (es : List Spec.Entry) : (Spec.group (e :: es)).map (·.1) =
    if ((Spec.group es).map (·.1)).head? = some e.1 then (Spec.group es).map (·.1) else e.1 :: (Spec.group es).map (·.1) := by
  rw [Spec.group]
  cases h : Spec.group es with
  | nil => simp
  | cons g gs =>
    obtain ⟨k, rs⟩ := g
    by_cases hk : e.1 = k
    · subst hk; simp
    · simp only [hk, if_false]
      rw [if_neg (by simpa using fun h => hk h.symm)]
      simp

theorem group_keys_head (es : List Spec.Entry) : ((Spec.group es).map (·.1)).head? = (es.map (·.1)).head? := by
  cases es with
  | nil => rfl
  | cons e es => obtain ⟨rs, gs, h⟩ := group_head e es; rw [h]; simp

theorem group_keys_mem (es : List Spec.Entry) (k : Str) : k ∈ (Spec.group es).map (·.1) ↔ k ∈ es.map (·.1) := by
  induction es with
  | nil => simp [Spec.group]
  | cons e es ih =>
    rw [group_keys_cons, List.map_cons, List.mem_cons, ← ih]
    split
    · rename_i h
      constructor
      · exact .inr
      · rintro (rfl | h2)
        · exact List.mem_of_head? h
        · exact h2
    · rw [List.mem_cons]

theorem group_nodup (es : List Spec.Entry) : ((Spec.group es).map (·.1)).Nodup ↔ Spec.Together (es.map (·.1)) := by
  induction es with
  | nil => simp [Spec.group, Spec.Together]
  | cons e es ih =>
    rw [group_keys_cons, group_keys_head]
    rw [List.map_cons]
    generalize hks : es.map (·.1) = ks at *
    split
    · rename_i h
      rw [ih]
      obtain ⟨t, rfl⟩ : ∃ t, ks = e.1 :: t := by cases ks with
        | nil => simp at h
        | cons a t => simp at h; exact ⟨t, by rw [h]⟩
      constructor
      · intro ht a b hs
        rw [List.cons_sublist_cons'] at hs
        rcases hs with hs | ⟨rfl, hs⟩
        · exact ht a b hs
        · rw [List.cons_sublist_cons'] at hs
          rcases hs with hs | ⟨rfl, hs⟩
          · exact ht e.1 b (hs.cons_cons e.1)
          · rfl
      · intro ht a b hs
        exact ht a b (hs.cons _)
    · rename_i h
      rw [List.nodup_cons, ih, group_keys_mem, hks]
      constructor
      · rintro ⟨h1, h2⟩ a b hs
        rw [List.cons_sublist_cons'] at hs
        rcases hs with hs | ⟨rfl, hs⟩
        · exact h2 a b hs
        · exact absurd (hs.subset (by simp)) h1
      · intro ht
        refine ⟨fun hm => ?_, fun a b hs => ht a b (hs.cons _)⟩
        cases ks with
        | nil => simp at hm
        | cons b t =>
          simp only [List.head?_cons, Option.some.injEq] at h
          have hm' : e.1 ∈ t := (List.mem_cons.1 hm).resolve_left (fun hh => h hh.symm)
          exact h (ht e.1 b (((List.singleton_sublist.2 hm').cons_cons b).cons_cons e.1))

theorem group_records {es : List Spec.Entry} (hn : ((Spec.group es).map (·.1)).Nodup) {k : Str} {rs : List Str}
    (h : (k, rs) ∈ Spec.group es) : rs = (es.filter (fun e => e.1 = k)).map Spec.record := by
  induction es generalizing k rs with
  | nil => simp [Spec.group] at h
  | cons e es ih =>
    have hkm := group_keys_mem es
    rw [Spec.group] at hn h
    cases hg : Spec.group es with
    | nil =>
      have hes : es = [] := by
        cases es with
        | nil => rfl
        | cons d es => obtain ⟨_, _, h2⟩ := group_head d es; rw [h2] at hg; simp at hg
      rw [hg] at h
      simp only [List.mem_singleton, Prod.mk.injEq] at h
      rw [h.1, h.2, hes]; simp
    | cons g gs =>
      obtain ⟨k', rs'⟩ := g
      rw [hg] at hn h ih hkm
      simp only at hn h
      by_cases hk : e.1 = k'
      · subst hk
        simp only [if_true] at hn h
        have hn' : (((e.1, rs') :: gs).map (·.1)).Nodup := by simpa using hn
        rcases List.mem_cons.1 h with h | h
        · simp only [Prod.mk.injEq] at h
          have h2 := ih hn' (k := e.1) (rs := rs') (by simp)
          rw [h.2, h2, h.1]; simp
        · have h2 := ih hn' (List.mem_cons_of_mem _ h)
          have hne : e.1 ≠ k := by
            rintro rfl
            simp only [List.map_cons, List.nodup_cons] at hn'
            exact hn'.1 (List.mem_map.2 ⟨_, h, rfl⟩)
          rw [h2]; simp [hne]
      · simp only [hk, if_false] at hn h
        rw [List.map_cons, List.nodup_cons] at hn
        rcases List.mem_cons.1 h with h | h
        · simp only [Prod.mk.injEq] at h
          have hnone : es.filter (fun d => d.1 = k) = [] := by
            rw [List.filter_eq_nil_iff]
            intro d hd hdk
            simp only [decide_eq_true_eq] at hdk
            apply hn.1
            rw [hkm]
            rw [← h.1, ← hdk]
            exact List.mem_map.2 ⟨d, hd, rfl⟩
          rw [h.2, List.filter_cons, hnone]
          simp [h.1]
        · have h2 := ih hn.2 h
          have hne : e.1 ≠ k := by
            rintro rfl
            exact hn.1 (List.mem_map.2 ⟨_, h, rfl⟩)
          rw [h2]; simp [hne]

theorem group_nonempty {es : List Spec.Entry} {g : Str × List Str} (h : g ∈ Spec.group es) : g.2 ≠ [] := by
  induction es generalizing g with
  | nil => simp [Spec.group] at h
  | cons e es ih =>
    rw [Spec.group] at h
    split at h
    · simp at h; subst h; simp
    · rename_i k rs gs hg
      rw [hg] at ih
      split at h
      · rcases List.mem_cons.1 h with rfl | h
        · simp
        · exact ih (by simp [h])
      · rcases List.mem_cons.1 h with rfl | h
        · simp
        · exact ih h

end Verif.Lexicon
