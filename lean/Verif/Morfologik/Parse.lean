import Verif.Morfologik.Lemmas
import Mathlib.Data.List.Induction
set_option linter.unusedSimpArgs false
set_option linter.unusedVariables false

namespace Verif.Morfologik
open Verif
open Verif.Server (ascii)

/-! ### Tags as they are written -/

theorem mem_joined {c : Byte} {p q : Str} {ps : List Str} : c ∈ joined c (p :: q :: ps) := by simp [joined]

theorem text_outer {a : List Str} (h : ∀ x ∈ a, 58 ∉ x ∧ 46 ∉ x) : (58 : Byte) ∉ text a := by
  intro hm
  rcases joined_mem hm with h1 | ⟨p, hp, h1⟩
  · exact absurd h1 (by decide)
  · exact (h p hp).1 h1

theorem split_text {a : List Str} (hn : a ≠ []) (h : ∀ x ∈ a, 58 ∉ x ∧ 46 ∉ x) : split innerSep (text a) = a :=
  split_joined hn fun x hx => (h x hx).2

theorem split_written {t : Tag} (h : Proper t) : split outerSep (written t) = t.map text :=
  split_joined (by simpa using h.1) (by
    intro p hp
    obtain ⟨a, ha, rfl⟩ := List.mem_map.1 hp
    exact text_outer (h.2 a ha).2)

theorem complex_text {a : List Str} (hn : a ≠ []) (h : ∀ x ∈ a, 58 ∉ x ∧ 46 ∉ x) : complex (text a) = decide (2 ≤ a.length) := by
  match a, hn with
  | [x], _ =>
    have : complex (text [x]) = false := complex_false.2 (h x (by simp)).2
    simp [this]
  | x :: y :: as, _ =>
    have : complex (text (x :: y :: as)) = true := by
      simp only [complex, decide_eq_true_eq]
      exact mem_joined
    simp [this]

theorem sought {x : Str} {as : List Str} (h : ∀ y ∈ x :: as, 58 ∉ y ∧ 46 ∉ y) (n : Int) :
    getAttributeToSeek (text (x :: as)) n = (x, if 2 ≤ (x :: as).length then n + 1 else n) := by
  rw [getAttributeToSeek, complex_text (by simp) h]
  cases as with
  | nil => simp [text, joined]
  | cons y as =>
    simp only [List.length_cons, text, joined]
    have h1 : (46 : Byte) ∉ x := (h x (by simp)).2
    rw [List.takeWhile_append_of_pos (by
      intro z hz
      have : z ≠ 46 := by rintro rfl; exact h1 hz
      exact decide_eq_true this)]
    simp [innerSep]

/-! ### Categories -/

/-- The category of an attribute. -/
def catOf (a : List Str) : Option Str := a.head?.bind fun x => mapFind x predefinedTags

theorem table_sound : ∀ e ∈ predefinedTags, ∃ p ∈ categories, e.2 = ascii p.1 ∧ ∃ v ∈ p.2, e.1 = ascii v := by decide +kernel

theorem table_complete : ∀ p ∈ categories, ∀ v ∈ p.2, mapFind (ascii v) predefinedTags = some (ascii p.1) := by decide +kernel

theorem hasCategory_iff {a : List Str} {c : Str} : HasCategory a c ↔ catOf a = some c := by
  constructor
  · rintro ⟨k, vs, v, as, h1, rfl, h2, rfl⟩
    simp only [catOf, List.head?_cons, Option.bind_some]
    exact table_complete _ h1 v h2
  · intro h
    cases a with
    | nil => simp [catOf] at h
    | cons x as =>
      simp only [catOf, List.head?_cons, Option.bind_some, mapFind, Option.map_eq_some_iff] at h
      obtain ⟨e, he, rfl⟩ := h
      have hm := List.mem_of_find?_eq_some he
      have hx := List.find?_some he
      simp only [decide_eq_true_eq] at hx
      obtain ⟨⟨k, vs⟩, hp, hc, v, hv, hx'⟩ := table_sound e hm
      exact ⟨k, vs, v, as, hp, hc, hv, by rw [← hx', hx]⟩

/-- The first attribute of a category. -/
def firstOf (t : Tag) (c : Str) : Option (List Str) := t.find? fun a => decide (catOf a = some c)

theorem first_iff {t : Tag} {c : Str} {a : List Str} : First t c a ↔ firstOf t c = some a := by
  unfold First firstOf
  rw [List.find?_eq_some_iff_append]
  simp only [hasCategory_iff, decide_eq_true_eq, Bool.not_eq_true', decide_eq_false_iff_not]
  constructor
  · rintro ⟨b, r, h1, h2, h3⟩; exact ⟨h2, b, r, h1, h3⟩
  · rintro ⟨h2, b, r, h1, h3⟩; exact ⟨b, r, h1, h2, h3⟩

theorem firstOf_mem {t : Tag} {c : Str} {a : List Str} (h : firstOf t c = some a) : a ∈ t := List.mem_of_find?_eq_some h

theorem firstOf_none {t : Tag} {c : Str} : firstOf t c = none ↔ ∀ b ∈ t, ¬ HasCategory b c := by
  unfold firstOf
  simp [hasCategory_iff]

theorem no_first {t : Tag} {c : Str} : (∀ a, ¬ First t c a) ↔ firstOf t c = none := by
  simp only [first_iff]
  cases firstOf t c <;> simp

theorem clean_snoc {t : Tag} {a : List Str} : Clean (t ++ [a]) ↔
    Clean t ∧ (2 ≤ a.length → ∃ c, catOf a = some c ∧ firstOf t c = none) := by
  simp only [Clean, firstOf_none, ← hasCategory_iff]
  constructor
  · intro h
    refine ⟨?_, ?_⟩
    · rintro b x r rfl hx
      exact h b x (r ++ [a]) (by simp) hx
    · intro ha
      exact h t a [] rfl ha
  · rintro ⟨h1, h2⟩ b x r e hx
    rcases List.eq_nil_or_concat r with rfl | ⟨r', y, rfl⟩
    · have := List.append_inj' e rfl
      obtain ⟨rfl, e2⟩ := this
      simp only [List.cons.injEq, and_true] at e2
      subst e2
      exact h2 hx
    · have e' : t ++ [a] = (b ++ x :: r') ++ [y] := by simpa using e
      obtain ⟨rfl, _⟩ := List.append_inj' e' rfl
      exact h1 b x r' rfl hx

/-! ### The loop of `parseSimple` -/

theorem complexCount_insert {k v : Str} {d : Attrs} (hs : Sorted d) (h : mapFind k d = none) :
    complexCount (mapInsert k v d) = complexCount d + if complex v then 1 else 0 := by
  induction d with
  | nil => simp [mapInsert, complexCount, List.countP_cons]
  | cons e d ih =>
    obtain ⟨k', v'⟩ := e
    have hs' := List.pairwise_cons.1 hs
    rw [mapFind_cons] at h
    have hk : k' ≠ k := by rintro rfl; simp at h
    simp only [if_neg hk] at h
    rw [mapInsert]
    split
    · simp only [complexCount, List.countP_cons]
    · split
      · have := ih hs'.2 h
        simp only [complexCount, List.countP_cons] at this ⊢
        omega
      · rename_i h1 h2
        exact absurd (lt_tri h1 h2).symm hk

theorem complexCount_erase {k : Str} {d : Attrs} (hs : Sorted d) :
    complexCount d = complexCount (mapErase k d) + if complex ((mapFind k d).getD []) then 1 else 0 := by
  induction d with
  | nil => simp [mapErase, complexCount, mapFind, complex]
  | cons e d ih =>
    obtain ⟨k', v'⟩ := e
    have hs' := List.pairwise_cons.1 hs
    rw [mapFind_cons]
    by_cases hk : k' = k
    · subst hk
      have hn : mapFind k' d = none := by
        rw [mapFind_none]; rintro e he rfl
        exact lt_irrefl' _ (hs'.1 e he)
      have he : mapErase k' ((k', v') :: d) = d := by
        unfold mapErase
        rw [List.filter_cons]
        simp only [ne_eq, not_true_eq_false, decide_false, Bool.false_eq_true, if_false]
        rw [List.filter_eq_self]
        intro e he
        simp only [decide_eq_true_eq]
        exact (mapFind_none.1 hn) e he
      rw [he]
      simp [complexCount, List.countP_cons]
    · have he : mapErase k ((k', v') :: d) = (k', v') :: mapErase k d := by
        unfold mapErase
        rw [List.filter_cons]
        simp [hk]
      rw [he]
      have := ih hs'.2
      simp only [complexCount, List.countP_cons, if_neg hk] at this ⊢
      omega

/-- What the loop of `parseSimple` knows. -/
structure Inv (t : Tag) (st : Attrs × Int) (extra : Nat) : Prop where
  sorted : Sorted st.1
  find : ∀ c, mapFind c st.1 = (firstOf t c).map text
  count : st.2 = complexCount st.1 + extra
  clean : extra = 0 ↔ Clean t

theorem firstOf_snoc (t : Tag) (a : List Str) (c : Str) :
    firstOf (t ++ [a]) c = (firstOf t c).or (if catOf a = some c then some a else none) := by
  unfold firstOf
  rw [List.find?_append]
  congr 1
  by_cases h : catOf a = some c <;> simp [h]

theorem parse_inv {t : Tag} (h : ∀ a ∈ t, a ≠ [] ∧ ∀ x ∈ a, 58 ∉ x ∧ 46 ∉ x) :
    ∃ extra, Inv t ((t.map text).foldl parseAttribute ([], 0)) extra := by
  induction t using List.reverseRecOn with
  | nil =>
    refine ⟨0, List.Pairwise.nil, ?_, rfl, ?_⟩
    · intro c; simp [mapFind, firstOf]
    · simp [Clean]
  | append_singleton t a ih =>
    obtain ⟨extra, hi⟩ := ih (fun b hb => h b (by simp [hb]))
    rw [List.map_append, List.foldl_append]
    generalize (t.map text).foldl parseAttribute ([], 0) = st at hi
    obtain ⟨ha, hx⟩ := h a (by simp)
    obtain ⟨x, as, rfl⟩ := List.exists_cons_of_ne_nil ha
    simp only [List.map_cons, List.map_nil, List.foldl_cons, List.foldl_nil, parseAttribute, sought hx]
    have hcat : catOf (x :: as) = mapFind x predefinedTags := rfl
    rw [← hcat]
    cases e : catOf (x :: as) with
    | none =>
      simp only
      refine ⟨if 2 ≤ (x :: as).length then extra + 1 else extra, hi.sorted, ?_, ?_, ?_⟩
      · intro c
        rw [hi.find, firstOf_snoc, e]; simp
      · simp only [hi.count]
        split <;> omega
      · rw [clean_snoc, ← hi.clean, e]
        split
        · rename_i h2
          exact ⟨fun h => absurd h (by omega), fun h => absurd (h.2 h2) (by simp)⟩
        · rename_i h2
          exact ⟨fun h => ⟨h, fun h' => absurd h' h2⟩, fun h => h.1⟩
    | some c =>
      simp only
      cases e2 : firstOf t c with
      | some b =>
        have hd : mapInsert c (text (x :: as)) st.1 = st.1 := mapInsert_old hi.sorted (by rw [hi.find, e2]; rfl)
        rw [hd]
        refine ⟨if 2 ≤ (x :: as).length then extra + 1 else extra, hi.sorted, ?_, ?_, ?_⟩
        · intro c'
          rw [hi.find, firstOf_snoc, e]
          by_cases hc : c = c'
          · subst hc; rw [e2]; rfl
          · simp [hc]
        · simp only [hi.count]
          split <;> omega
        · rw [clean_snoc, ← hi.clean, e]
          split
          · rename_i h2
            exact ⟨fun h => absurd h (by omega), fun h => absurd (h.2 h2) (by
              rintro ⟨c', h1, h3⟩
              cases h1; rw [e2] at h3; cases h3)⟩
          · rename_i h2
            exact ⟨fun h => ⟨h, fun h' => absurd h' h2⟩, fun h => h.1⟩
      | none =>
        have hf : mapFind c st.1 = none := by rw [hi.find, e2]; rfl
        refine ⟨extra, mapInsert_sorted hi.sorted, ?_, ?_, ?_⟩
        · intro c'
          rw [mapFind_insert hi.sorted, hi.find, firstOf_snoc, e]
          by_cases hc : c' = c
          · subst hc; rw [e2]; simp
          · rw [if_neg hc, if_neg (by rintro h; cases h; exact hc rfl)]; simp
        · simp only [hi.count, complexCount_insert hi.sorted hf, complex_text ha hx]
          by_cases h2 : 2 ≤ (x :: as).length
          · simp only [h2, if_true, decide_true]; omega
          · simp only [h2, if_false, decide_false, Bool.false_eq_true]; omega
        · rw [clean_snoc, ← hi.clean, e]
          simp [e2]

theorem parseSimple_inv {t : Tag} (h : Proper t) : ∃ extra, Inv t (parseSimple (written t) 0) extra := by
  unfold parseSimple
  rw [split_written h]
  exact parse_inv h.2

/-! ### Descriptions -/

/-- What a map says. -/
def read (d : Attrs) : Description := fun c => mapFind c d

theorem describes_iff {t : Tag} (hp : Proper t) {C : Str → Prop} [DecidablePred C] {d : Attrs} (hs : Sorted d)
    (hd : ∀ c, mapFind c d = if C c then (firstOf t c).map text else none) (f : Description) :
    Describes t C f ↔ ∃ m ∈ choices d, f = read m := by
  have hsp : ∀ c a, firstOf t c = some a → split innerSep (text a) = a := by
    intro c a ha
    obtain ⟨h1, h2⟩ := hp.2 a (firstOf_mem ha)
    exact split_text h1 h2
  constructor
  · intro h
    refine ⟨d.map fun e => (e.1, (f e.1).getD []), ?_, ?_⟩
    all_goals
      have hsm : Sorted (d.map fun e => (e.1, (f e.1).getD [])) := by
        unfold Sorted; rw [List.pairwise_map]; exact hs
      have hf : ∀ c, mapFind c (d.map fun e => (e.1, (f e.1).getD [])) = f c := by
        intro c
        cases e : mapFind c d with
        | some v =>
          have hfc : ∃ a, f c = some a := by
            rcases h c with ⟨_, a, _, _, _, h4⟩ | ⟨h1, h2⟩
            · exact ⟨a, h4⟩
            · rw [hd] at e
              by_cases hC : C c
              · rw [if_pos hC, no_first.1 (h1 hC)] at e; cases e
              · rw [if_neg hC] at e; cases e
          obtain ⟨a, ha⟩ := hfc
          rw [ha]
          rw [mapFind_some hsm]
          exact List.mem_map.2 ⟨(c, v), (mapFind_some hs).1 e, by simp [ha]⟩
        | none =>
          have hfc : f c = none := by
            rcases h c with ⟨b, a, hC, h2, _, _⟩ | ⟨_, h2⟩
            · rw [hd, if_pos hC, first_iff.1 h2] at e; cases e
            · exact h2
          rw [hfc, mapFind_none]
          intro e' he'
          obtain ⟨e'', he'', rfl⟩ := List.mem_map.1 he'
          exact mapFind_none.1 e e'' he''
    · rw [choices_mem hs]
      refine ⟨hsm, ?_⟩
      intro c
      rw [hf]
      rcases h c with ⟨b, a, hC, h2, h3, h4⟩ | ⟨h1, h2⟩
      · left
        refine ⟨text b, a, ?_, ?_, h4⟩
        · rw [hd, if_pos hC, first_iff.1 h2]; rfl
        · rw [hsp c b (first_iff.1 h2)]; exact h3
      · right
        refine ⟨?_, h2⟩
        rw [hd]
        by_cases hC : C c
        · rw [if_pos hC, no_first.1 (h1 hC)]; rfl
        · rw [if_neg hC]
    · funext c; exact (hf c).symm
  · rintro ⟨m, hm, rfl⟩ c
    obtain ⟨_, h⟩ := (choices_mem hs).1 hm
    rcases h c with ⟨v, a, h1, h2, h3⟩ | ⟨h1, h3⟩
    · left
      rw [hd] at h1
      by_cases hC : C c
      · rw [if_pos hC] at h1
        obtain ⟨b, hb, rfl⟩ := Option.map_eq_some_iff.1 h1
        rw [hsp c b hb] at h2
        exact ⟨b, a, hC, first_iff.2 hb, h2, h3⟩
      · rw [if_neg hC] at h1; cases h1
    · right
      refine ⟨?_, h3⟩
      intro hC
      rw [hd, if_pos hC] at h1
      exact no_first.2 (by simpa using h1)

theorem choices_distinct {t : Tag} (hp : Proper t) {C : Str → Prop} [DecidablePred C] {d : Attrs} (hs : Sorted d)
    (hd : ∀ c, mapFind c d = if C c then (firstOf t c).map text else none) (hn : ∀ a ∈ t, a.Nodup) :
    (choices d).Pairwise fun m m' => read m ≠ read m' := by
  have h1 : (choices d).Nodup := choices_nodup (by
    rintro ⟨k, v⟩ he
    have := (mapFind_some hs).2 he
    rw [hd] at this
    split at this
    · obtain ⟨b, hb, rfl⟩ := Option.map_eq_some_iff.1 this
      obtain ⟨g1, g2⟩ := hp.2 b (firstOf_mem hb)
      simp only
      rw [split_text g1 g2]
      exact hn b (firstOf_mem hb)
    · cases this)
  refine h1.imp_of_mem ?_
  intro a b ha hb hab he
  exact hab (sorted_ext ((choices_mem hs).1 ha).1 ((choices_mem hs).1 hb).1 fun c => congrFun he c)

/-- The description, expanded as often as the counter says. -/
theorem expand_result {d : Attrs} (hs : Sorted d) {n : Int} {extra : Nat} (hc : n = complexCount d + extra) :
    (if n = 0 then some [d] else expandDescriptions d n) = some (if extra = 0 then choices d else []) := by
  have h : (if n = 0 then some [d] else expandDescriptions d n) = expandTimes n.toNat [d] := by
    split
    · rename_i h; rw [h]; rfl
    · rfl
  rw [h]
  have hn : n.toNat = complexCount d + extra := by omega
  rw [hn, expandTimes_single hs (by omega)]
  by_cases h0 : extra = 0
  · simp [h0]
  · rw [if_neg h0, if_neg (by omega)]

/-! ### Lexemes and forms -/

theorem mapErase_at {c : Str} {d : Attrs} (hs : Sorted d) : mapErase c (mapInsert c [] d) = mapErase c d := by
  apply sorted_ext (mapErase_sorted (mapInsert_sorted hs)) (mapErase_sorted hs)
  intro k
  rw [mapFind_erase, mapFind_erase, mapFind_insert hs]
  by_cases h : k = c <;> simp [h]

theorem removeLoop_cons (p c : Str) (es d : Attrs) (n : Int) : removeLoop ((p, c) :: es) (d, n) =
    removeLoop es (mapErase c (mapInsert c [] d), if complex ((mapFind c d).getD []) = true then n - 1 else n) := rfl

theorem removeLoop_spec : ∀ {es : Attrs} {d : Attrs} {n : Int}, Sorted d → Sorted (removeLoop es (d, n)).1 ∧
    (∀ c, mapFind c (removeLoop es (d, n)).1 = if c ∈ es.map (·.2) then none else mapFind c d) ∧
    (removeLoop es (d, n)).2 - complexCount (removeLoop es (d, n)).1 = n - complexCount d
  | [], d, n, hs => ⟨hs, by simp [removeLoop], rfl⟩
  | (p, c) :: es, d, n, hs => by
    rw [removeLoop_cons, mapErase_at hs]
    obtain ⟨h1, h2, h3⟩ := removeLoop_spec (es := es) (d := mapErase c d)
      (n := if complex ((mapFind c d).getD []) = true then n - 1 else n) (mapErase_sorted hs)
    refine ⟨h1, ?_, ?_⟩
    · intro k
      rw [h2, mapFind_erase, List.map_cons]
      by_cases hk : k = c
      · simp [hk]
      · have : k ∈ c :: es.map (·.2) ↔ k ∈ es.map (·.2) := by rw [List.mem_cons]; exact ⟨fun h => h.resolve_left hk, Or.inr⟩
        simp only [if_neg hk]
        by_cases hm : k ∈ es.map (·.2)
        · rw [if_pos hm, if_pos (this.2 hm)]
        · rw [if_neg hm, if_neg (fun h => hm (this.1 h))]
    · rw [h3, complexCount_erase (k := c) hs]
      split
      · push_cast; omega
      · push_cast; omega

theorem lexemeTags_lexical (p : Str) : ((lexemeTags.filter fun e => decide (e.1 = p)).map (·.2)) = lexical p := by
  unfold lexical lexemeTags
  by_cases h1 : p = ascii "subst"
  · subst h1; decide
  · by_cases h2 : p = ascii "verb"
    · subst h2; decide
    · rw [if_neg h1, if_neg h2]
      have g1 : ¬ ascii "subst" = p := fun e => h1 e.symm
      have g2 : ¬ ascii "verb" = p := fun e => h2 e.symm
      rw [List.filter_cons_of_neg (by simpa using g1), List.filter_cons_of_neg (by simpa using g2)]
      rfl

theorem pos_not_lexical (p : Str) : ascii "pos" ∉ lexical p := by
  unfold lexical
  split
  · decide
  · split
    · decide
    · simp

theorem remove_eq (d : Attrs) (n : Int) : removeLexemeAttributes d n =
    (mapErase (ascii "pos") (removeLoop (lexemeTags.filter fun e => decide (e.1 = (mapFind (ascii "pos") d).getD []))
        (mapInsert (ascii "pos") [] d, n)).1,
      (removeLoop (lexemeTags.filter fun e => decide (e.1 = (mapFind (ascii "pos") d).getD []))
        (mapInsert (ascii "pos") [] d, n)).2) := rfl

theorem remove_spec {d : Attrs} {n : Int} (hs : Sorted d) :
    Sorted (removeLexemeAttributes d n).1 ∧
    (∀ c, mapFind c (removeLexemeAttributes d n).1 =
      if c ≠ ascii "pos" ∧ c ∉ lexical ((mapFind (ascii "pos") d).getD []) then mapFind c d else none) ∧
    (removeLexemeAttributes d n).2 - complexCount (removeLexemeAttributes d n).1 =
      n - complexCount d + if complex ((mapFind (ascii "pos") d).getD []) then 1 else 0 := by
  rw [remove_eq]
  have hs1 := mapInsert_sorted (k := ascii "pos") (v := []) hs
  have hfi : mapFind (ascii "pos") (mapInsert (ascii "pos") [] d) = some ((mapFind (ascii "pos") d).getD []) := by
    rw [mapFind_insert hs, if_pos rfl]
    cases mapFind (ascii "pos") d <;> rfl
  have hcount : complexCount (mapInsert (ascii "pos") [] d) = complexCount d := by
    cases e : mapFind (ascii "pos") d with
    | some v => rw [mapInsert_old hs (by rw [e]; rfl)]
    | none => rw [complexCount_insert hs e]; simp [complex]
  obtain ⟨h1, h2, h3⟩ := removeLoop_spec (es := lexemeTags.filter fun e => decide (e.1 = (mapFind (ascii "pos") d).getD [])) (n := n) hs1
  rw [lexemeTags_lexical] at h2
  generalize removeLoop (lexemeTags.filter fun e => decide (e.1 = (mapFind (ascii "pos") d).getD []))
    (mapInsert (ascii "pos") [] d, n) = r at h1 h2 h3
  refine ⟨mapErase_sorted h1, ?_, ?_⟩
  · intro c
    rw [mapFind_erase, h2, mapFind_insert hs]
    by_cases hc : c = ascii "pos"
    · simp [hc]
    · by_cases hl : c ∈ lexical ((mapFind (ascii "pos") d).getD [])
      · simp [hc, hl]
      · simp [hc, hl]
  · have h4 := complexCount_erase (k := ascii "pos") h1
    rw [h2, if_neg (pos_not_lexical _), hfi] at h4
    rw [hcount] at h3
    simp only [Option.getD_some] at h4
    simp only
    split
    · rename_i hx; rw [if_pos hx] at h4; omega
    · rename_i hx; rw [if_neg hx] at h4; omega

theorem selectPos_cons (d : Attrs) (c : Str) (cs : List Str) : selectPos d (c :: cs) =
    if (mapFind c d).getD [] ≠ [] then (mapFind c d).getD [] else selectPos (mapInsert c [] d) cs := rfl

theorem selectPos_spec : ∀ {cs : List Str} {d : Attrs}, Sorted d → (∀ c v, mapFind c d = some v → c ∈ cs → v ≠ []) → cs.Nodup →
    selectPos d cs = ((cs.findSome? fun c => mapFind c d).getD [])
  | [], d, _, _, _ => rfl
  | c :: cs, d, hs, h, hn => by
    have hn' := List.nodup_cons.1 hn
    rw [selectPos_cons, List.findSome?_cons]
    cases e : mapFind c d with
    | some v => simp [h c v e (by simp)]
    | none =>
      simp only [Option.getD_none, ne_eq, not_true_eq_false, if_false]
      have hf : ∀ k ∈ cs, mapFind k (mapInsert c [] d) = mapFind k d := by
        intro k hk
        rw [mapFind_insert hs, if_neg]
        rintro rfl; exact hn'.1 hk
      rw [selectPos_spec (mapInsert_sorted hs) (by
        intro k v hk hm
        rw [hf k hm] at hk
        exact h k v hk (by simp [hm])) hn'.2]
      congr 1
      have : ∀ ks : List Str, (∀ k ∈ ks, mapFind k (mapInsert c [] d) = mapFind k d) →
          (ks.findSome? fun c' => mapFind c' (mapInsert c [] d)) = ks.findSome? fun c' => mapFind c' d := by
        intro ks
        induction ks with
        | nil => intro _; rfl
        | cons k ks ih =>
          intro hk
          rw [List.findSome?_cons, List.findSome?_cons, hk k (by simp), ih (fun k' h' => hk k' (by simp [h']))]
      exact this cs hf

end Verif.Morfologik
