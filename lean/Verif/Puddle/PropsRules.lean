import Verif.Puddle.TextLemmas
import Verif.Puddle.RangesLemmas

/-! # Escaping, elements and tokens, lists of rules -/

namespace Verif.Puddle

open Verif.Numconv Spec

/-! ## C175: escaping -/

/-- Nothing in an escaped text is taken for a part of a pattern. -/
theorem C175_clean (s : Str) : ∀ c ∈ escape s, c ∉ marks := by
  intro c hc
  rw [escape_eq] at hc
  obtain ⟨t, ht, hct⟩ := List.mem_flatMap.1 hc
  obtain ⟨d, _, rfl⟩ := List.mem_map.1 ht
  rw [escTok] at hct
  split at hct
  · simp only [Tok.text] at hct
    unfold entity at hct
    split_ifs at hct <;>
      (simp only [List.mem_cons, List.not_mem_nil, or_false] at hct
       rcases hct with rfl | rfl | rfl | rfl | rfl | rfl <;> decide)
  · rename_i hn
    simp only [Tok.text, List.mem_singleton] at hct
    subst hct
    intro hm
    simp only [marks, List.mem_cons, List.not_mem_nil, or_false] at hm
    rcases hm with rfl | rfl | rfl | rfl | rfl | rfl | rfl | rfl <;> exact hn (by decide)

/-- Different texts stay different. -/
theorem C175_injective (s t : Str) (h : escape s = escape t) : s = t := by
  rw [escape_eq, escape_eq] at h
  have e := text_inj (good_esc s) (good_esc t) (noAmp_esc s) (noAmp_esc t) h
  have c := congrArg chars e
  rw [chars_esc, chars_esc] at c
  exact List.map_injective_iff.2 (fun _ _ h => swapChar_inj h) c

/-- Each character is escaped for itself; those without a meaning stay, the others get their
references — but plus and asterisk each that of the other. -/
theorem C175_references_partial (s : Str) : escape s = (exchanged s).flatMap reference := by
  have h : ∀ c : Byte, (escTok c).text = reference (swapChar c) := by
    intro c
    rw [escTok]
    by_cases hs : swapChar c ∈ specials
    · rw [if_pos hs]
      simp only [specials, List.mem_cons, List.not_mem_nil, or_false] at hs
      rcases hs with e | e | e | e | e | e | e | e | e <;> rw [e] <;> rfl
    · rw [if_neg hs]
      have e : swapChar c = c := by
        unfold swapChar at hs ⊢
        split_ifs at hs ⊢ <;> first | rfl | exact absurd (by decide) hs
      rw [e] at hs ⊢
      simp only [specials, List.mem_cons, List.not_mem_nil, or_false, not_or] at hs
      unfold reference
      split <;> simp_all [Tok.text]
  rw [escape_eq]
  unfold exchanged text
  rw [List.flatMap_map, List.flatMap_map]
  exact List.flatMap_congr fun c _ => h c

/-- The escaped text is not that with the references of its characters: those of plus and of
asterisk are exchanged. -/
theorem C175_references_false : ¬ ∀ s, escape s = s.flatMap reference := by
  intro h
  exact absurd (h b!"+") (by decide)

/-- Unescaping does not give the text again: a plus becomes an asterisk, and a reference that is in
the text itself is replaced although it has been escaped. -/
theorem C175_back_false :
    unescape (escape b!"a+b") = b!"a*b" ∧ unescape (escape b!"a*b") = b!"a+b" ∧
    unescape (escape b!"&lt;") = b!"<" := by decide +kernel

/-- Unescaping gives the text again, with plus and asterisk exchanged, unless it contains one of the
four references that are replaced after that of the ampersand. -/
theorem C175_back_partial (s : Str)
    (h : ∀ r ∈ [b!"&lt;", b!"&gt;", b!"&#63;", b!"&#124;"], ¬ r <:+: s) :
    unescape (escape s) = exchanged s := by
  have := unescape_escape (s := s) (by
    intro c hc
    apply h
    simp only [List.mem_cons, List.not_mem_nil, or_false] at hc
    rcases hc with rfl | rfl | rfl | rfl <;> decide)
  rw [this]; rfl

/-- A text without ampersands is not changed by unescaping. -/
theorem C175_plain (s : Str) (h : (38 : Byte) ∉ s) : unescape s = s := unescape_noAmp h

example : unescape (escape b!"(R&D) <a|b?> &amp; &#40;") = b!"(R&D) <a|b?> &amp; &#40;" := by
  decide +kernel

example : ∀ r ∈ [b!"&lt;", b!"&gt;", b!"&#63;", b!"&#124;"], ¬ r <:+: b!"(R&D) <a|b?> &amp; &#40;" := by
  decide +kernel

/-! ## C176: the tokens of elements -/

/-- The range of some elements of a rule is that of the tokens they have matched. -/
theorem C176_span (sizes : List Nat) (start stop : Nat) (h : start ≤ stop) (p : Nat) :
    ((spanParams sizes start stop).1 ≤ p ∧ (p : Int) ≤ (spanParams sizes start stop).2) ↔
      ∃ e, start ≤ e ∧ e ≤ stop ∧ Belongs sizes p e := by
  rw [← between h]
  unfold spanParams
  rw [spanLoop_eq _ _ _ _ _ _ (by omega)]
  simp only [Nat.sub_zero, Nat.zero_add]
  omega

/-- What the delete, add and transform actions take for the number of tokens before their element is
that number, and the unify action has that of the tokens of the element besides. -/
theorem C176_before (sizes : List Nat) (index : Nat) (h1 : 1 ≤ index) (h2 : index ≤ sizes.length) :
    beforeParams sizes index = some (upTo sizes (index - 1)) ∧
    ∃ r, unifyParams sizes index = some r ∧
      (r = none ↔ ∀ p, ¬ Belongs sizes p (index - 1)) ∧
      (∀ c b, r = some (c, b) → ∀ p, b ≤ p ∧ p < b + c ↔ Belongs sizes p (index - 1)) := by
  have hl : index - 1 < sizes.length := by omega
  refine ⟨beforeLoop_eq (by omega), ?_⟩
  have hs := upTo_succ hl
  unfold unifyParams
  rw [if_neg (by omega), List.getElem?_eq_getElem hl]
  cases hn : sizes[index - 1] with
  | zero =>
    refine ⟨none, rfl, ⟨fun _ p hp => ?_, fun _ => rfl⟩, by simp⟩
    unfold Belongs at hp; omega
  | succ n =>
    simp only [beforeLoop_eq (show index - 1 ≤ sizes.length by omega), Option.map_some]
    refine ⟨_, rfl, ⟨fun h => by simp at h, fun h => ?_⟩, ?_⟩
    · exact absurd (show Belongs sizes (upTo sizes (index - 1)) (index - 1) from ⟨Nat.le_refl _, by omega⟩)
        (h _)
    · rintro c b he p
      cases he
      unfold Belongs
      omega

/-- An action on an element that the rule does not have reads behind the end of the sizes. -/
theorem C176_outside (sizes : List Nat) (index : Nat) (h : sizes.length < index) :
    unifyParams sizes index = none := by
  unfold unifyParams
  rw [if_neg (by omega), List.getElem?_eq_none (by omega)]

/-- The range of a group: there is none if the head has matched nothing; otherwise it is that of the
tokens of its elements, and the head begins as many tokens after its start as is said. -/
theorem C176_group (sizes : List Nat) (start head stop : Nat) (h1 : start < head)
    (h2 : head ≤ stop + 1) (h3 : stop < sizes.length) (h4 : sizes.length < 4294967296) :
    (groupParams sizes start head stop = none ↔ ∀ p, ¬ Belongs sizes p (head - 1)) ∧
    ∀ rs rh re, groupParams sizes start head stop = some (rs, rh, re) →
      (∀ p : Nat, (rs ≤ p ∧ (p : Int) ≤ re) ↔ ∃ e, start ≤ e ∧ e ≤ stop ∧ Belongs sizes p e) ∧
      Belongs sizes (rs + rh) (head - 1) ∧ ∀ p, Belongs sizes p (head - 1) → rs + rh ≤ p := by
  rw [groupParams_eq h1 h2 h3 h4]
  have hl : head - 1 < sizes.length := by omega
  have hs := upTo_succ hl
  rw [List.getD_eq_getElem _ _ hl]
  have m1 := upTo_mono sizes (show start ≤ head - 1 by omega)
  by_cases h : sizes[head - 1] = 0
  · rw [if_pos h]
    refine ⟨⟨fun _ p hp => ?_, fun _ => rfl⟩, by simp⟩
    unfold Belongs at hp; omega
  · rw [if_neg h]
    refine ⟨⟨fun h => by simp at h, fun hn => ?_⟩, ?_⟩
    · exact absurd (show Belongs sizes (upTo sizes (head - 1)) (head - 1) from ⟨Nat.le_refl _, by omega⟩)
        (hn _)
    · rintro rs rh re he
      cases he
      refine ⟨fun p => ?_, ⟨by omega, by omega⟩, fun p hp => ?_⟩
      · rw [← between (show start ≤ stop by omega)]; omega
      · unfold Belongs at hp; omega

example : groupParams [2, 0, 3, 1] 2 3 3 = some (2, 0, 5) := by decide

/-- The place at which the edges of the head are looked for is that of the head, if the rule has no
left context. -/
theorem C176_head_partial (sizes : List Nat) (head stop : Nat) (h1 : 0 < head)
    (h2 : head ≤ stop + 1) (h3 : stop < sizes.length) (h4 : sizes.length < 4294967296)
    (rs rh : Nat) (re : Int) (h : groupPlaces sizes 0 head stop = some (rs, rh, re)) :
    Belongs sizes rh (head - 1) := by
  have g := (C176_group sizes 0 head stop h1 h2 h3 h4).2 rs rh re h
  have : rs = 0 := by
    have e := groupParams_eq (sizes := sizes) (start := 0) h1 h2 h3 h4
    unfold groupPlaces at h
    rw [e] at h
    split at h
    · cases h
    · cases h; exact upTo_zero _
  rw [this, Nat.zero_add] at g
  exact g.2.1

/-- With a left context it is not: the place is counted from the start of the group, and used from
the start of the context. -/
theorem C176_head_false : ∃ sizes rs rh re, groupPlaces sizes 1 2 2 = some (rs, rh, re) ∧
    ¬ Belongs sizes rh 1 := by
  refine ⟨[1, 1, 1], 1, 0, 2, by decide, ?_⟩
  unfold Belongs upTo
  decide

/-- A head among the elements of the group is kept, and tested for having matched something. -/
theorem C176_kept (last start stop head : Nat) (sizes : List Nat) (h1 : start < head)
    (h2 : head ≤ stop + 1) (h3 : stop < sizes.length) (h4 : sizes.length < 4294967296)
    (h5 : head ≤ last) :
    initHead start stop head = head ∧
    (groupTest last sizes head = .answer true ↔ ∃ p, Belongs sizes p (head - 1)) ∧
    (groupTest last sizes head = .thrown ↔ ∀ p, ¬ Belongs sizes p (head - 1)) := by
  have hl : head - 1 < sizes.length := by omega
  have hs := upTo_succ hl
  refine ⟨by unfold initHead; rw [if_neg (by omega)], ?_⟩
  unfold groupTest
  rw [if_neg (by omega), pred32_eq (by omega) (by unfold wrap; omega), List.getElem?_eq_getElem hl]
  cases hn : sizes[head - 1] with
  | zero =>
    simp only [reduceCtorEq, false_iff, true_iff]
    constructor
    · rintro ⟨p, hp⟩; unfold Belongs at hp; omega
    · intro p hp; unfold Belongs at hp; omega
  | succ n =>
    simp only [reduceCtorEq, false_iff, true_iff]
    have : Belongs sizes (upTo sizes (head - 1)) (head - 1) := ⟨Nat.le_refl _, by omega⟩
    exact ⟨⟨_, this⟩, fun h => h _ this⟩

/-- A head that is no element of a group of one element is not refused: it becomes 0, and the test
reads before the beginning of the sizes. -/
theorem C176_kept_false (last start head : Nat) (sizes : List Nat)
    (h1 : head ≤ start ∨ start + 1 < head) (h4 : sizes.length < 4294967296) :
    groupTest last sizes (initHead start start head) = .undefined := by
  have e : initHead start start head = 0 := by
    unfold initHead
    rw [if_pos (by omega), if_pos rfl]
  rw [e]
  unfold groupTest
  rw [if_neg (by omega), List.getElem?_eq_none (by unfold pred32 wrap; omega)]

example : groupTest 9 [1, 2, 1] (initHead 1 1 1) = .undefined := by decide

/-! ## C177: the list of the rules -/

/-- A rule that is moved gets the place, and the others keep their order. -/
theorem C177_move {α : Type} (rules : List α) (f t : Nat) (h1 : f < rules.length)
    (h2 : t < rules.length) :
    ∃ r, moveRule rules f t = some r ∧ r.length = rules.length ∧ r[t]? = rules[f]? ∧
      r.eraseIdx t = rules.eraseIdx f := by
  refine ⟨_, moveRule_eq h1 h2, ?_, ?_, ?_⟩
  · simp [List.length_eraseIdx, h1]; try omega
  · rw [List.getElem?_append_right (by simp)]
    have : t - ((rules.eraseIdx f).take t).length = 0 := by
      simp [List.length_eraseIdx, h1]; try omega
    rw [this]; simp [h1]
  · rw [List.eraseIdx_append_of_length_le (by simp)]
    have : t - ((rules.eraseIdx f).take t).length = 0 := by
      simp [List.length_eraseIdx, h1]; try omega
    rw [this, List.eraseIdx_cons_zero, List.take_append_drop]

/-- Moving a rule behind the last one is not possible: it is put behind the end of the list. -/
theorem C177_end {α : Type} (rules : List α) (f : Nat) (h : f < rules.length) :
    moveRule rules f rules.length = none := by
  unfold moveRule
  rw [List.getElem?_eq_getElem h]
  simp only
  have a : ¬ rules.length < f := by omega
  have b : ¬ rules.length + 1 ≤ rules.length := by omega
  rw [if_neg a, if_pos h, if_neg b]

/-- A rule that is moved can be moved back. -/
theorem C177_back {α : Type} (rules r : List α) (f t : Nat) (h1 : f < rules.length)
    (h2 : t < rules.length) (h : moveRule rules f t = some r) : moveRule r t f = some rules := by
  obtain ⟨r', e, hl, hg, he⟩ := C177_move rules f t h1 h2
  rw [h] at e; cases e
  rw [moveRule_eq (by omega) (by omega), he]
  congr 1
  have hg' : r[t]'(by omega) = rules[f] := by
    have a : t < r.length := by omega
    rw [List.getElem?_eq_getElem h1, List.getElem?_eq_getElem a] at hg
    exact Option.some.inj hg
  rw [hg']
  have e1 : (rules.eraseIdx f).take f = rules.take f := by
    rw [List.eraseIdx_eq_take_drop_succ]
    simp [List.take_append, List.take_take]
    omega
  have e2 : (rules.eraseIdx f).drop f = rules.drop (f + 1) := by
    rw [List.eraseIdx_eq_take_drop_succ, List.drop_append]
    simp [Nat.min_eq_left (Nat.le_of_lt h1)]
  rw [e1, e2]
  conv_rhs => rw [← List.take_append_drop f rules, List.drop_eq_getElem_cons h1]

/-- A rule that is deleted is gone, the others keep their order; a wrong number changes nothing. -/
theorem C177_delete {α : Type} (rules : List α) (i : Nat) :
    (i < rules.length →
      ∀ j, (deleteRule rules i)[j]? = if j < i then rules[j]? else rules[j + 1]?) ∧
    (rules.length ≤ i → deleteRule rules i = rules) := by
  unfold deleteRule
  refine ⟨fun h j => ?_, fun h => ?_⟩
  · rw [if_pos h, List.getElem?_eraseIdx]
  · rw [if_neg (by omega)]

example : moveRule [1, 2, 3, 4] 0 2 = some [2, 3, 1, 4] ∧ moveRule [1, 2, 3, 4] 3 1 = some [1, 4, 2, 3] := by
  decide

/-! ## C178: whether a rule is applied -/

/-- A rule whose actions all agree is applied, with the sizes as they are. -/
theorem C178_agree (modifier : Str) (last : Nat) (acts : List Act) (sizes : List Nat)
    (h : ∀ a ∈ acts, a sizes = true) : ruleTest modifier last acts sizes = (true, sizes) :=
  testLoop_all h

/-- A rule is not only applied if its actions agree: if the last element has tokens to spare, an
action that refuses makes it shorter, and is not asked again. -/
theorem C178_agree_false : ∃ modifier last acts sizes sizes',
    ruleTest modifier last acts sizes = (true, sizes') ∧ ∀ a ∈ acts, ∀ s, a s = false :=
  ⟨[], 0, [fun _ => false], [2], [1], by decide, by
    intro a ha s
    simp only [List.mem_singleton] at ha
    rw [ha]⟩

/-- If the last element has none to spare, the rule is applied if and only if all actions agree. -/
theorem C178_agree_partial (modifier : Str) (last : Nat) (acts : List Act) (sizes : List Nat)
    (h : sizes.getD last 0 ≤ 1) (hm : modifier = [] ∨ modifier = b!"+") :
    (ruleTest modifier last acts sizes).1 = true ↔ ∀ a ∈ acts, a sizes = true := by
  apply testLoop_strict
  unfold testLimit
  rw [if_pos (by tauto)]
  exact h

/-- The sizes stay as they are but for the last element, which only gets shorter, and keeps a token
unless it may be left out. -/
theorem C178_sizes (modifier : Str) (last : Nat) (acts : List Act) (sizes : List Nat) :
    (ruleTest modifier last acts sizes).2.length = sizes.length ∧
    (∀ e, e ≠ last → (ruleTest modifier last acts sizes).2.getD e 0 = sizes.getD e 0) ∧
    (ruleTest modifier last acts sizes).2.getD last 0 ≤ sizes.getD last 0 ∧
    (modifier = [] ∨ modifier = b!"+" → 1 ≤ sizes.getD last 0 →
      1 ≤ (ruleTest modifier last acts sizes).2.getD last 0) := by
  have hlim : testLimit modifier ≤ 1 := by unfold testLimit; split <;> omega
  obtain ⟨h1, h2, h3, h4⟩ := testLoop_sizes (last := last) hlim (acts := acts) (sizes := sizes)
  refine ⟨h1, h2, h3, fun hm hs => ?_⟩
  have e : testLimit modifier = 1 := by unfold testLimit; rw [if_pos (by tauto)]
  rw [e] at h4
  have := h4 hs
  unfold ruleTest
  rw [e]
  exact this

/-- All actions of a rule are run, in their order, whatever they return; the rule has been applied if
one of them returns true. -/
theorem C178_all {σ : Type} (acts : List (σ → σ × Bool)) (s : σ) :
    (ruleApply acts s).1 = acts.foldl (fun t a => (a t).1) s ∧
    ((ruleApply acts s).2 = true ↔
      ∃ before a after, acts = before ++ a :: after ∧
        (a (before.foldl (fun t a => (a t).1) s)).2 = true) :=
  ⟨ruleApply_state acts s false, by
    unfold ruleApply
    rw [ruleApply_answer]
    simp⟩

example : ruleTest b!"*" 1 [fun s => s.getD 1 0 ≤ 1, fun s => s.getD 1 0 ≤ 1] [1, 3] = (true, [1, 1]) := by
  decide

end Verif.Puddle
