import Verif.Srx.Spec
import Mathlib.Data.List.Nodup
import Mathlib.Data.List.Induction

set_option linter.unusedSimpArgs false
set_option linter.unusedVariables false

namespace Verif.Srx
open Verif

/-! ### Parentheses -/

theorem tokens_cons {a : Byte} (h : a ≠ 92) (s : Str) : tokens (a :: s) = [a] :: tokens s := by
  cases s with
  | nil => rfl
  | cons b s => rw [tokens, if_neg h]

theorem tokens_flatten (s : Str) : (tokens s).flatten = s := by
  fun_induction tokens s with
  | case1 => rfl
  | case2 b => rfl
  | case3 b s ih => simp [ih]
  | case4 a b s h ih => simp [ih]

/-- The rewriting byte by byte; `esc`: the byte is escaped. -/
def go : Bool → Str → Str
  | _, [] => []
  | true, b :: s => b :: go false s
  | false, b :: s =>
    if b = 92 then b :: go true s
    else if b = 40 ∧ s.head? ≠ some 63 then [40, 63, 58] ++ go false s
    else b :: go false s

theorem nonCapturing_go (s : Str) : nonCapturing (tokens s) = go false s := by
  fun_induction tokens s with
  | case1 => rfl
  | case2 b =>
    by_cases h1 : b = 92
    · subst h1; decide
    · by_cases h2 : b = 40
      · subst h2; decide
      · simp [nonCapturing, go, h1, h2]
  | case3 b s ih =>
    simp [nonCapturing, go, ih]
  | case4 a b s h ih =>
    rw [nonCapturing, tokens_flatten, ih]
    by_cases h2 : a = 40
    · subst h2
      by_cases h3 : b = 63
      · subst h3; simp [go]
      · simp [go, h3]
    · simp [go, h, h2]

/-- After these bytes, is the next one escaped? -/
def escAfter (e : Bool) (s : Str) : Bool := s.foldl (fun e b => !e && decide (b = 92)) e

theorem go_append (pre : Str) (h : ∀ b ∈ pre, b ≠ 40) (e : Bool) (s : Str) : go e (pre ++ s) = pre ++ go (escAfter e pre) s := by
  induction pre generalizing e with
  | nil => rfl
  | cons b pre ih =>
    have hb := h b (by simp)
    have ih := ih (fun x hx => h x (by simp [hx]))
    cases e with
    | true => simp [go, ih, escAfter]
    | false =>
      by_cases h1 : b = 92
      · subst h1; simp [go, ih, escAfter]
      · simp [go, h1, hb, ih, escAfter]

def trailing (s : Str) : Nat := (s.reverse.takeWhile (fun b => b = 92)).length

theorem escAfter_trailing (s : Str) : escAfter false s = decide (trailing s % 2 = 1) := by
  induction s using List.reverseRecOn with
  | nil => rfl
  | append_singleton l b ih =>
    simp only [escAfter, List.foldl_append, List.foldl_cons, List.foldl_nil]
    rw [show List.foldl (fun e b => !e && decide (b = 92)) false l = escAfter false l from rfl, ih]
    by_cases h : b = 92
    · subst h
      have : trailing (l ++ [92]) = trailing l + 1 := by simp [trailing, List.takeWhile_cons]
      rw [this]
      by_cases h2 : trailing l % 2 = 1
      · simp [h2]; omega
      · simp [h2]; omega
    · have : trailing (l ++ [b]) = 0 := by simp [trailing, List.takeWhile_cons, h]
      simp [this, h]

theorem trailing_append {s t : Str} (h : s.getLast? ≠ some 92) : trailing (s ++ t) = trailing t := by
  simp only [trailing, List.reverse_append]
  rw [List.takeWhile_append]
  split
  · rename_i hl
    cases hs : s.reverse with
    | nil => simpa using hl.symm
    | cons b r =>
      have hb : b ≠ 92 := by
        intro e
        apply h
        rw [List.getLast?_eq_head?_reverse, hs, e]
        rfl
      simp [List.takeWhile_cons, hb] at hl ⊢
      exact hl ▸ rfl
  · rfl

theorem trailing_le (s : Str) : trailing s ≤ s.length := by
  have := (List.takeWhile_sublist (fun b : Byte => decide (b = 92)) (l := s.reverse)).length_le
  simpa [trailing] using this

theorem isEscaped_eq {s : Str} {pos : Nat} (h : pos ≤ s.length) : isEscaped s pos = decide (trailing (s.take pos) % 2 = 1) := by
  rw [isEscaped]
  have e : slashes s pos = trailing (s.take pos) := rfl
  have hl : (s.take pos).length = pos := by simp [h]
  rw [e, hl]
  split
  · subst_vars; simp [trailing]
  · have hle := trailing_le (s.take pos)
    rw [hl] at hle
    split
    · rename_i h1 h2; rw [h2]
    · have : (pos - (pos - 1 - trailing (s.take pos))) % 2 = 0 ↔ trailing (s.take pos) % 2 = 1 := by omega
      simp only [this]

theorem parens_go (fuel : Nat) : ∀ (done rest : Str), done.getLast? ≠ some 92 → rest.length < fuel →
    parens fuel (done ++ rest) done.length = some (done ++ go false rest) := by
  induction fuel with
  | zero => intro _ _ _ h; omega
  | succ fuel ih =>
    intro done rest hd hf
    rw [parens]
    rw [List.drop_left]
    cases hi : rest.findIdx? (fun b => decide (b = 40)) with
    | none =>
      simp only
      have hno : ∀ b ∈ rest, b ≠ 40 := by
        have := List.findIdx?_eq_none_iff.1 hi
        intro b hb e
        have := this b hb
        simp [e] at this
      have := go_append rest hno false []
      simp only [List.append_nil, go] at this
      rw [this]
    | some i =>
      simp only
      obtain ⟨hlt, h1, h2⟩ := List.findIdx?_eq_some_iff_getElem.1 hi
      simp only [decide_eq_true_eq] at h1
      have hsplit : rest = rest.take i ++ 40 :: rest.drop (i + 1) := by
        rw [← h1, ← List.drop_eq_getElem_cons hlt, List.take_append_drop]
      generalize hpre : rest.take i = pre at hsplit
      generalize hpost : rest.drop (i + 1) = post at hsplit
      have hprelen : pre.length = i := by rw [← hpre]; simp; omega
      have hno : ∀ b ∈ pre, b ≠ 40 := by
        intro b hb e
        rw [← hpre, List.mem_take_iff_getElem] at hb
        obtain ⟨j, hj, e2⟩ := hb
        have := h2 j (by omega)
        simp [e2, e] at this
      have hesc : isEscaped (done ++ rest) (done.length + i) = escAfter false pre := by
        rw [isEscaped_eq (by simp; omega), escAfter_trailing, hsplit]
        have : (done ++ (pre ++ 40 :: post)).take (done.length + i) = done ++ pre := by
          rw [List.take_append, List.take_of_length_le (by omega)]
          simp [← hprelen]
        rw [this, trailing_append hd]
      have hnext : (done ++ rest)[done.length + i + 1]? = post.head? := by
        rw [hsplit, List.getElem?_append_right (by omega), List.getElem?_append_right (by omega)]
        have : done.length + i + 1 - done.length - pre.length = 1 := by omega
        rw [this]
        cases post <;> simp
      rw [hesc, hnext]
      have hplen : post.length < fuel := by rw [hsplit] at hf; simp at hf; omega
      rw [hsplit, go_append pre hno]
      by_cases he : escAfter false pre = true
      · rw [he]
        rw [if_neg (by simp)]
        have := ih (done ++ pre ++ [40]) post (by simp) hplen
        have hl : (done ++ pre ++ [40]).length = done.length + i + 1 := by simp; omega
        rw [hl] at this
        simp only [List.append_assoc, List.singleton_append, go] at this ⊢
        exact this
      · simp only [Bool.not_eq_true] at he
        rw [he]
        by_cases hq : post.head? = some 63
        · rw [if_neg (by simp [hq])]
          have := ih (done ++ pre ++ [40]) post (by simp) hplen
          have hl : (done ++ pre ++ [40]).length = done.length + i + 1 := by simp; omega
          rw [hl] at this
          simp only [List.append_assoc, List.singleton_append] at this ⊢
          rw [this]
          simp [go, hq]
        · rw [if_pos ⟨rfl, hq⟩]
          have := ih (done ++ pre ++ [40, 63, 58]) post (by simp) hplen
          have hl : (done ++ pre ++ [40, 63, 58]).length = done.length + i + 3 := by simp; omega
          rw [hl] at this
          have ht : (done ++ (pre ++ 40 :: post)).take (done.length + i + 1) = done ++ pre ++ [40] := by
            have e : done ++ (pre ++ 40 :: post) = (done ++ pre ++ [40]) ++ post := by simp
            have hl : done.length + i + 1 = (done ++ pre ++ [40]).length := by simp; omega
            rw [e, hl, List.take_left]
          have hdr : (done ++ (pre ++ 40 :: post)).drop (done.length + i + 1) = post := by
            have e : done ++ (pre ++ 40 :: post) = (done ++ pre ++ [40]) ++ post := by simp
            have hl : done.length + i + 1 = (done ++ pre ++ [40]).length := by simp; omega
            rw [e, hl, List.drop_left]
          rw [ht, hdr]
          have e2 : done ++ pre ++ [40] ++ [63, 58] ++ post = done ++ pre ++ [40, 63, 58] ++ post := by simp
          rw [e2, this]
          simp [go, hq]

theorem parens_eq (pattern : Str) : makeAllParensNonCapturing pattern = some (nonCapturing (tokens pattern)) := by
  have := parens_go (pattern.length + 1) [] pattern (by simp) (by omega)
  rw [makeAllParensNonCapturing, nonCapturing_go]
  exact this

theorem classes_plain : ∀ (cls : Bool) (ts : List Str), ClassesPlain cls ts → nonCapturing ts = nonCapturingOutside cls ts
  | _, [], _ => by simp [nonCapturing, nonCapturingOutside]
  | true, t :: ts, h => by
    obtain ⟨h1, h2⟩ := h
    rw [nonCapturing, nonCapturingOutside, if_neg (by simp [h1]), classes_plain _ ts h2]
  | false, t :: ts, h => by
    have h : ClassesPlain (decide (t = [91])) ts := h
    have ih := classes_plain _ ts h
    rw [nonCapturing, nonCapturingOutside]
    split
    · rename_i hc
      have : decide (t = [91]) = false := by rw [hc.1]; decide
      rw [this] at ih
      rw [ih]
    · rw [ih]

theorem head_nonCapturing (s : Str) : (nonCapturing (tokens s)).head? = s.head? := by
  rw [nonCapturing_go]
  cases s with
  | nil => rfl
  | cons b s =>
    rw [go]
    split
    · rfl
    · split
      · rename_i h; simp [h.1]
      · rfl

theorem head?_tokens (s : Str) : ((tokens s).flatten).head? = s.head? := by rw [tokens_flatten]

theorem namedAfter_nonCapturing (s : Str) : namedAfter (nonCapturing (tokens s)) = namedAfter s := by
  rw [nonCapturing_go]
  match s with
  | [] => rfl
  | [b] =>
    by_cases h1 : b = 92
    · subst h1; decide
    · by_cases h2 : b = 40
      · subst h2; decide
      · simp [go, h1, h2]
  | a :: b :: s =>
    by_cases h1 : a = 63
    · subst h1
      by_cases h2 : b = 60
      · subst h2
        cases s with
        | nil => decide
        | cons c s =>
          have : (go false (c :: s)).head? = some c := by rw [← nonCapturing_go, head_nonCapturing]; rfl
          have hg : go false (63 :: 60 :: c :: s) = 63 :: 60 :: go false (c :: s) := by simp [go]
          rw [hg]
          generalize go false (c :: s) = g at this
          cases g with
          | nil => simp at this
          | cons d g =>
            simp at this
            subst this
            by_cases h3 : d = 61
            · subst h3; rfl
            · by_cases h4 : d = 33
              · subst h4; rfl
              · simp [namedAfter, h3, h4]
      · by_cases h5 : b = 80
        · subst h5
          cases s with
          | nil => decide
          | cons c s =>
            have : (go false (c :: s)).head? = some c := by rw [← nonCapturing_go, head_nonCapturing]; rfl
            have hg : go false (63 :: 80 :: c :: s) = 63 :: 80 :: go false (c :: s) := by simp [go]
            rw [hg]
            generalize go false (c :: s) = g at this
            cases g with
            | nil => simp at this
            | cons d g =>
              simp at this
              subst this
              by_cases h3 : d = 60
              · subst h3; rfl
              · simp [namedAfter, h3]
        · by_cases h6 : b = 39
          · subst h6; simp [go, namedAfter]
          · have : (go false (b :: s)).head? = some b := by rw [← nonCapturing_go, head_nonCapturing]; rfl
            have hg : go false (63 :: b :: s) = 63 :: go false (b :: s) := by simp [go]
            rw [hg]
            generalize go false (b :: s) = g at this
            cases g with
            | nil => simp at this
            | cons d g =>
              simp at this
              subst this
              simp [namedAfter, h2, h5, h6]
    · have : (go false (a :: b :: s)).head? = some a := by rw [← nonCapturing_go, head_nonCapturing]; rfl
      generalize go false (a :: b :: s) = g at this
      cases g with
      | nil => simp at this
      | cons d g =>
        simp at this
        subst this
        simp [namedAfter, h1]

theorem captures_nonCapturing (s : Str) : captures (tokens (nonCapturing (tokens s))) = hasNamed (tokens s) := by
  fun_induction tokens s with
  | case1 => rfl
  | case2 b =>
    by_cases h1 : b = 92
    · subst h1; decide
    · by_cases h2 : b = 40
      · subst h2; decide
      · simp [nonCapturing, tokens, captures, hasNamed, h2]
  | case3 b s ih =>
    simp [nonCapturing, tokens, captures, hasNamed, ih]
  | case4 a b s h ih =>
    by_cases h2 : a = 40
    · subst h2
      by_cases h3 : b = 63
      · subst h3
        rw [nonCapturing, tokens_flatten, if_neg (by simp)]
        rw [List.singleton_append, tokens_cons (by decide), captures, hasNamed, ih, tokens_flatten, tokens_flatten, namedAfter_nonCapturing,
          head_nonCapturing]
        simp
      · rw [nonCapturing, tokens_flatten, if_pos (by simp [h3])]
        rw [List.cons_append, List.cons_append, List.singleton_append, tokens_cons (by decide), tokens_cons (by decide), tokens_cons (by decide)]
        have hn : namedAfter (b :: s) = false := by simp [namedAfter, h3]
        have hn2 : namedAfter (63 :: 58 :: nonCapturing (tokens (b :: s))) = false := rfl
        simp [captures, hasNamed, ih, tokens_flatten, hn, hn2]
    · rw [nonCapturing, if_neg (by simp [h2]), List.singleton_append, tokens_cons h, captures, hasNamed, ih]
      simp [h2]

/-! ### Which rules -/

theorem names_map {cascade : Bool} (names : List Str) (m : LanguageMap) :
    processLanguageMap cascade names m = (names ++ (chosen cascade [m]).map LanguageMap.name, !cascade && m.matches_) := by
  cases h : m.matches_ <;> cases cascade <;> simp [processLanguageMap, chosen, h, List.find?_cons]

theorem chosen_append (cascade : Bool) (a b : List LanguageMap) :
    chosen cascade (a ++ b) = chosen cascade a ++ (if !cascade && a.any LanguageMap.matches_ then [] else chosen cascade b) := by
  cases cascade with
  | true => simp [chosen]
  | false =>
    simp only [chosen, Bool.false_eq_true, if_false, List.find?_append, Bool.not_false, Bool.true_and]
    cases h : a.find? LanguageMap.matches_ with
    | none =>
      have : a.any LanguageMap.matches_ = false := by
        rw [List.find?_eq_none] at h
        simpa using h
      simp [this]
    | some x =>
      have : a.any LanguageMap.matches_ = true := by
        rw [List.any_eq_true]
        exact ⟨x, List.mem_of_find?_eq_some h, List.find?_some h⟩
      simp [this]

theorem names_maprule {cascade : Bool} (l : List (Option LanguageMap)) : ∀ names,
    processMapRule cascade names l = (names ++ (chosen cascade (l.filterMap id)).map LanguageMap.name, !cascade && (l.filterMap id).any LanguageMap.matches_) := by
  induction l with
  | nil => intro names; cases cascade <;> simp [processMapRule, chosen]
  | cons x l ih =>
    intro names
    cases x with
    | none => rw [processMapRule, ih]; simp
    | some m =>
      rw [processMapRule, names_map]
      rw [show (some m :: l).filterMap id = m :: l.filterMap id from rfl]
      have e : chosen cascade (m :: l.filterMap id) = _ := chosen_append cascade [m] (l.filterMap id)
      rw [e]
      simp only [List.any_cons, List.any_nil, Bool.or_false]
      cases h : (!cascade && m.matches_) with
      | true => simp [h, Bool.and_or_distrib_left]
      | false => simp [h, ih, Bool.and_or_distrib_left]

/-- The maps of one item. -/
def MapItem.maps : MapItem → List LanguageMap
  | .languagemap m => [m]
  | .maprule l => l.filterMap id
  | .other => []

theorem names_item {cascade : Bool} (names : List Str) (i : MapItem) :
    processMapItem cascade names i = (names ++ (chosen cascade i.maps).map LanguageMap.name, !cascade && i.maps.any LanguageMap.matches_) := by
  cases i with
  | languagemap m => rw [processMapItem, names_map]; simp [MapItem.maps]
  | maprule l => rw [processMapItem, names_maprule]; rfl
  | other => cases cascade <;> simp [processMapItem, MapItem.maps, chosen]

theorem names_maprules {cascade : Bool} (l : List MapItem) : ∀ names,
    processMapRules cascade names l = (names ++ (chosen cascade (l.flatMap MapItem.maps)).map LanguageMap.name,
      !cascade && (l.flatMap MapItem.maps).any LanguageMap.matches_) := by
  induction l with
  | nil => intro names; cases cascade <;> simp [processMapRules, chosen]
  | cons x l ih =>
    intro names
    rw [processMapRules, names_item, List.flatMap_cons, chosen_append, List.any_append]
    cases h : (!cascade && x.maps.any LanguageMap.matches_) with
    | true => simp [h, Bool.and_or_distrib_left]
    | false => simp [h, ih, Bool.and_or_distrib_left]

variable {R : Type}

theorem findNames_eq {cascade : Bool} (body : List (BodyItem R)) : ∀ names,
    findNames cascade names body = names ++ (chosen cascade (allMaps body)).map LanguageMap.name := by
  induction body with
  | nil => intro names; cases cascade <;> simp [findNames, allMaps, chosen]
  | cons x l ih =>
    intro names
    cases x with
    | maprules ms =>
      have e : allMaps (.maprules ms :: l) = ms.flatMap MapItem.maps ++ allMaps l := by
        simp only [allMaps, List.flatMap_cons]
        congr 1
      rw [e, findNames, names_maprules, chosen_append]
      cases h : (!cascade && (ms.flatMap MapItem.maps).any LanguageMap.matches_) with
      | true => simp [h]
      | false => simp [h, ih]
    | languagerules rs => rw [findNames, ih]; rfl; simp
    | other => rw [findNames, ih]; rfl; simp

theorem getRules_eq (cascade : Bool) (body : List (BodyItem R)) :
    getRules cascade body =
      ((allRules body).filter (fun r => decide (r.1 ∈ (chosen cascade (allMaps body)).map LanguageMap.name))).flatMap Prod.snd := by
  rw [getRules, findNames_eq, List.nil_append]
  generalize (chosen cascade (allMaps body)).map LanguageMap.name = names
  induction body with
  | nil => rfl
  | cons x l ih =>
    rw [List.flatMap_cons, ih]
    cases x with
    | maprules ms => rfl
    | other => rfl
    | languagerules rs =>
      have e : allRules (.languagerules rs :: l) = rs ++ allRules l := rfl
      rw [e, List.filter_append, List.flatMap_append]
      congr 1
      simp only [languageRules]
      clear ih e
      induction rs with
      | nil => rfl
      | cons r rs ih =>
        rw [List.flatMap_cons, ih, List.filter_cons]
        by_cases h : r.1 ∈ names
        · simp [h]
        · simp [h]

theorem filter_key {K : List (Str × List R)} (h : (K.map Prod.fst).Nodup) {k : Str × List R} (hk : k ∈ K) :
    K.filter (fun r => decide (r.1 = k.1)) = [k] := by
  induction K with
  | nil => simp at hk
  | cons x K ih =>
    rw [List.map_cons, List.nodup_cons] at h
    rw [List.mem_cons] at hk
    rw [List.filter_cons]
    rcases hk with rfl | hk
    · rw [if_pos (by simp), List.filter_eq_nil_iff.2]
      intro y hy e
      simp only [decide_eq_true_eq] at e
      exact h.1 (List.mem_map.2 ⟨y, hy, e⟩)
    · rw [if_neg, ih h.2 hk]
      simp only [decide_eq_true_eq]
      intro e
      exact h.1 (List.mem_map.2 ⟨k, hk, e.symm⟩)

theorem in_order {L : List (Str × List R)} {names : List Str} (hn : names.Nodup)
    (ho : (L.map Prod.fst).filter (fun n => decide (n ∈ names)) = names) :
    names.flatMap (fun n => (L.filter (fun r => decide (r.1 = n))).flatMap Prod.snd) =
      (L.filter (fun r => decide (r.1 ∈ names))).flatMap Prod.snd := by
  generalize hK : L.filter (fun r => decide (r.1 ∈ names)) = K
  have hmap : K.map Prod.fst = names := by
    rw [← hK]
    refine Eq.trans ?_ ho
    rw [List.filter_map]
    rfl
  have hsame : ∀ n ∈ names, L.filter (fun r => decide (r.1 = n)) = K.filter (fun r => decide (r.1 = n)) := by
    intro n hn'
    rw [← hK, List.filter_filter]
    apply List.filter_congr
    intro x _
    by_cases h : x.1 = n
    · simp [h, hn']
    · simp [h]
  have h1 : names.flatMap (fun n => (L.filter (fun r => decide (r.1 = n))).flatMap Prod.snd) =
      names.flatMap (fun n => (K.filter (fun r => decide (r.1 = n))).flatMap Prod.snd) := by
    apply List.flatMap_congr
    intro n hn'
    rw [hsame n hn']
  have hnd : (K.map Prod.fst).Nodup := hmap ▸ hn
  have h2 : K.flatMap (fun k => (K.filter (fun r => decide (r.1 = k.1))).flatMap Prod.snd) = K.flatMap Prod.snd := by
    apply List.flatMap_congr
    intro k hk
    rw [filter_key hnd hk]
    simp
  rw [h1]
  refine Eq.trans ?_ h2
  conv_lhs => rw [← hmap]
  rw [List.flatMap_map]

end Verif.Srx
