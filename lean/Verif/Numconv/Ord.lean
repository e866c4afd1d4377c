import Verif.Numconv.Read

/-!
# Writing numbers in words: the ordinal numbers
-/

namespace Verif.Numconv

open Spec

/-- The form for a gender. -/
def genderForm : Gender → Form
  | .masculine => .ORDINAL
  | .feminine => .ORDINAL_F
  | .plural => .ORDINAL_NPL
  | .genitivePlural => .ORDINAL_GPL

/-- What is to be found in a pair, if there is one. -/
def check (o : Option Pair) (f : Pair → Bool) : Bool :=
  match o with
  | none => false
  | some p => f p

theorem check_some {o : Option Pair} {f : Pair → Bool} (h : check o f = true) :
    ∃ p, o = some p ∧ f p = true := by
  cases o with
  | none => simp [check] at h
  | some p => exact ⟨p, rfl, h⟩

theorem ordOk2 : ∀ t u : Fin 10, ∀ f : Fin 4,
    let g : Gender := if f = 0 then .masculine else if f = 1 then .feminine
      else if f = 2 then .plural else .genitivePlural
    check (convertThreeDigitGroup (genderForm g) [dig t, dig u]) (fun p =>
      p.1.head? ≠ some 32 && words p.1 = (parts (10 * t + u)).map (ordinalWord g)
        && (p.2.head? ≠ some 32 && (words p.2).length = (words p.1).length)) = true := by
  decide +kernel

theorem ordOk1 : ∀ u : Fin 10, u ≠ 0 → ∀ f : Fin 4,
    let g : Gender := if f = 0 then .masculine else if f = 1 then .feminine
      else if f = 2 then .plural else .genitivePlural
    check (convertThreeDigitGroup (genderForm g) [dig u]) (fun p =>
      p.1.head? ≠ some 32 && words p.1 = (parts u).map (ordinalWord g)
        && (p.2.head? ≠ some 32 && (words p.2).length = (words p.1).length)) = true := by
  decide +kernel

theorem ordHundred : ∀ h : Fin 10, h ≠ 0 → ∀ f : Fin 4,
    let g : Gender := if f = 0 then .masculine else if f = 1 then .feminine
      else if f = 2 then .plural else .genitivePlural
    let w := ordinalWord g (100 * h)
    let c := cardinalWord (100 * h)
    entry (hundreds (genderForm g)) (dig h) = some w ∧
    entry (hundreds .CARDINAL) (dig h) = some c ∧ w ≠ [] ∧ 32 ∉ w ∧ c ≠ [] ∧ 32 ∉ c ∧
    check ((makeTinfl (genderForm g) (dig h) .HUNDREDS).map fun t => (t, t)) (fun p =>
      p.1 ≠ [] && !p.1.contains 32) = true := by
  decide +kernel

def genderIndex : Gender → Fin 4
  | .masculine => 0
  | .feminine => 1
  | .plural => 2
  | .genitivePlural => 3

theorem gender_forms (g : Gender) : genderForm g ≠ .BEFORE_NOUN ∧ genderForm g ≠ .CARDINAL ∧
    lonehundred (genderForm g) = some .CARDINAL ∧ joiner (genderForm g) = some b!" " := by
  cases g <;> simp [genderForm, lonehundred, joiner]

theorem ord_two (g : Gender) (t u : Fin 10) :
    ∃ p, convertThreeDigitGroup (genderForm g) [dig t, dig u] = some p ∧ Good p.1 ∧
      words p.1 = (parts (10 * t + u)).map (ordinalWord g) ∧ Codes p := by
  have h := ordOk2 t u (genderIndex g)
  have h' : check (convertThreeDigitGroup (genderForm g) [dig t, dig u]) (fun p =>
      p.1.head? ≠ some 32 && words p.1 = (parts (10 * t + u)).map (ordinalWord g)
        && (p.2.head? ≠ some 32 && (words p.2).length = (words p.1).length)) = true := by
    cases g <;> exact h
  obtain ⟨p, hp, hh⟩ := check_some h'
  simp only [ne_eq, decide_not, Bool.and_eq_true, Bool.not_eq_eq_eq_not, Bool.not_true,
    decide_eq_false_iff_not, decide_eq_true_eq] at hh
  exact ⟨p, hp, hh.1.1, hh.1.2, hh.2⟩

theorem ord_one (g : Gender) (u : Fin 10) (hu : u ≠ 0) :
    ∃ p, convertThreeDigitGroup (genderForm g) [dig u] = some p ∧ Good p.1 ∧
      words p.1 = (parts u).map (ordinalWord g) ∧ Codes p := by
  have h := ordOk1 u hu (genderIndex g)
  have h' : check (convertThreeDigitGroup (genderForm g) [dig u]) (fun p =>
      p.1.head? ≠ some 32 && words p.1 = (parts u).map (ordinalWord g)
        && (p.2.head? ≠ some 32 && (words p.2).length = (words p.1).length)) = true := by
    cases g <;> exact h
  obtain ⟨p, hp, hh⟩ := check_some h'
  simp only [ne_eq, decide_not, Bool.and_eq_true, Bool.not_eq_eq_eq_not, Bool.not_true,
    decide_eq_false_iff_not, decide_eq_true_eq] at hh
  exact ⟨p, hp, hh.1.1, hh.1.2, hh.2⟩

theorem parts_zero : parts 0 = [] := rfl

theorem parts_ne {v : Nat} (h : v ≠ 0) : parts v ≠ [] := by
  unfold parts
  split
  · simp [h]
  · intro he
    simp at he
    omega

/-- Putting a text before another with a blank between. -/
theorem prepend_blank {s p : Str} {type : Form} (hj : joiner type = some b!" ") (hs : Good s)
    (hp : Good p) : ∃ t, prepend s p type = some t ∧ words t = words p ++ words s ∧ Good t := by
  have : prepend s p type = prepend s p .CARDINAL := by
    unfold prepend
    split
    · rfl
    · rw [hj]; rfl
  rw [this]
  exact prepend_words hs hp

theorem prepend_total {s p : Str} {type : Form} (hj : (joiner type).isSome) :
    ∃ t, prepend s p type = some t := by
  obtain ⟨j, hj⟩ := Option.isSome_iff_exists.mp hj
  unfold prepend
  rw [hj]
  split
  · exact ⟨_, rfl⟩
  · split
    · split
      · exact ⟨_, rfl⟩
      · exact ⟨_, rfl⟩
    · exact ⟨_, rfl⟩

theorem dig_zero {d : Fin 10} : dig d = 48 ↔ d = 0 := by
  revert d; decide

/-- The last group of an ordinal number. -/
theorem ord_three (g : Gender) (h t u : Fin 10) :
    ∃ p, convertThreeDigitGroup (genderForm g) [dig h, dig t, dig u] = some p ∧ Good p.1 ∧
      (words p.1 = if 100 * h.val + 10 * t + u = 0 then []
        else ordinalTail g (100 * h + 10 * t + u) 0) ∧ Codes p := by
  obtain ⟨q, hq, hgq, hwq, hcq⟩ := ord_two g t u
  obtain ⟨f1, f2, f3, f4⟩ := gender_forms g
  have hstep : convertThreeDigitGroup (genderForm g) [dig h, dig t, dig u]
      = groupHundreds (genderForm g) (dig h) q := by
    simp only [convertThreeDigitGroup, isDigit_dig, groupDone, f1, if_false] at hq ⊢
    simp only [Bool.not_true, Bool.false_eq_true, if_false] at hq ⊢
    cases h1 : groupUnits (genderForm g) (some (dig t)) (dig u) with
    | none => simp [h1] at hq
    | some x =>
      cases h2 : groupTens (genderForm g) (dig t) x with
      | none => simp [h1, h2] at hq
      | some y =>
        simp only [h1, h2, Option.bind_eq_bind, Option.bind_some] at hq ⊢
        simp only [Option.pure_def, Option.some.injEq] at hq
        subst hq
        simp
  rw [hstep]
  have ht := t.isLt
  have hu := u.isLt
  by_cases h0 : h = 0
  · subst h0
    refine ⟨q, by simp [groupHundreds, dig_zero.mpr], hgq, ?_, hcq⟩
    rw [hwq]
    simp only [Fin.val_zero, Nat.mul_zero, Nat.zero_add]
    split <;> rename_i hz
    · rw [hz, parts_zero]; rfl
    · have e1 : (10 * t.val + u) % 100 = 10 * t.val + u := Nat.mod_eq_of_lt (by omega)
      have e2 : 10 * t.val + u < 100 := by omega
      simp [ordinalTail, e1, e2, hz]
      omega
  · have hh := ordHundred h h0 (genderIndex g)
    have hh' : entry (hundreds (genderForm g)) (dig h) = some (ordinalWord g (100 * h)) ∧
        entry (hundreds .CARDINAL) (dig h) = some (cardinalWord (100 * h)) ∧
        ordinalWord g (100 * h) ≠ [] ∧ 32 ∉ ordinalWord g (100 * h) ∧
        cardinalWord (100 * h) ≠ [] ∧ 32 ∉ cardinalWord (100 * h) ∧
        check ((makeTinfl (genderForm g) (dig h) .HUNDREDS).map fun t => (t, t)) (fun p =>
          p.1 ≠ [] && !p.1.contains 32) = true := by
      cases g <;> exact hh
    obtain ⟨a1, a2, a3, a4, a5, a6, a7⟩ := hh'
    have hd : dig h ≠ 48 := fun hx => h0 (dig_zero.mp hx)
    have hv : 100 * h.val + 10 * t + u ≠ 0 := by
      have : h.val ≠ 0 := fun hx => h0 (Fin.ext hx)
      omega
    have hdiv : (100 * h.val + 10 * t + u) / 100 * 100 = 100 * h.val := by omega
    have hmod : (100 * h.val + 10 * t + u) % 100 = 10 * t.val + u := by omega
    have hge : ¬ 100 * h.val + 10 * t + u < 100 := by
      have : h.val ≠ 0 := fun hx => h0 (Fin.ext hx)
      omega
    obtain ⟨⟨ti, ti0⟩, hti0, hti1⟩ := check_some a7
    obtain ⟨ti2, hti, hti3⟩ := Option.map_eq_some_iff.mp hti0
    simp only [Prod.mk.injEq] at hti3
    obtain ⟨rfl, rfl⟩ := hti3
    simp only [ne_eq, decide_not, Bool.and_eq_true, Bool.not_eq_eq_eq_not, Bool.not_true,
      decide_eq_false_iff_not] at hti1
    have hti32 : 32 ∉ ti2 := by
      have := hti1.2
      simpa using this
    have good : ∀ w : Str, 32 ∉ w → Good w := fun w hw he => hw (List.mem_of_mem_head? he)
    unfold groupHundreds
    simp only [hd, if_false]
    by_cases hq0 : q.1 = []
    · -- the hundreds alone
      have hz : 10 * t.val + u = 0 := by
        by_contra hz
        rw [hq0, words_nil] at hwq
        exact parts_ne hz (by simpa using hwq.symm)
      obtain ⟨te, hte, hw, hg⟩ := prepend_blank f4 hgq (good _ a4)
      have hq2 : q.2 = [] := by
        have := hcq.2
        rw [hq0, words_nil] at this
        exact words_eq_nil.mp (List.length_eq_zero_iff.mp this)
      have hti' : prepend q.2 ti2 (genderForm g) = some ti2 := by rw [hq2]; rfl
      have hte2 : te = ordinalWord g (100 * h) := by
        rw [hq0] at hte
        simpa [prepend] using hte.symm
      refine ⟨(te, ti2), ?_, hg, ?_, ?_⟩
      · simp [hq0, a1, f2, hti, hti'] 
        rw [hq0] at hte
        simp [hte]
      · rw [hw, hq0, words_nil, words_one a3 a4]
        simp only [hv, if_false, ordinalTail, if_true, hmod, hz, List.append_nil]
        congr 2
        omega
      · rw [hte2]
        exact codes_one a3 hti1.1 a4 hti32
    · have hz : 10 * t.val + u ≠ 0 := by
        intro hz
        rw [hz, parts_zero] at hwq
        simp [words, hq0, List.splitOn_ne_nil] at hwq
      obtain ⟨te, hte, hw, hg⟩ := prepend_words hgq (good _ a6)
      obtain ⟨ti', hti'⟩ := prepend_some q.2 b!"0"
      refine ⟨(te, ti'), ?_, hg, ?_,
        prepend_codes hgq (good _ a6) hte hti' hcq (codes_one a5 (by simp) a6 (by decide))⟩
      · simp [hq0, f3, a2, hte, f2, hti']
      · rw [hw, hwq, words_one a5 a6]
        simp only [hv, if_false, ordinalTail, if_true, hmod, hz, hge, hdiv]

/-- The last group of an ordinal number. -/
theorem ord_group (g : Gender) {n : Str} (h : Digits n) (hl : n.length ≤ 3)
    (h0 : n.length = 1 → value n ≠ 0) :
    ∃ p, convertThreeDigitGroup (genderForm g) n = some p ∧ Good p.1 ∧
      (words p.1 = if value n = 0 then [] else ordinalTail g (value n) 0) ∧ Codes p := by
  rcases group_cases h hl with ⟨u, rfl⟩ | ⟨t, u, rfl⟩ | ⟨a, t, u, rfl⟩
  · rw [value1] at h0 ⊢
    have hu : u ≠ 0 := by
      rintro rfl; exact h0 rfl rfl
    obtain ⟨p, hp, hg, hw, hc⟩ := ord_one g u hu
    refine ⟨p, hp, hg, ?_, hc⟩
    have := u.isLt
    have hu' : u.val ≠ 0 := fun hx => hu (Fin.ext hx)
    have e1 : u.val % 100 = u.val := Nat.mod_eq_of_lt (by omega)
    have e2 : u.val < 100 := by omega
    rw [hw]
    simp only [hu', if_false, ordinalTail, if_true, e1, e2, List.nil_append]
  · rw [value2]
    obtain ⟨p, hp, hg, hw, hc⟩ := ord_two g t u
    refine ⟨p, hp, hg, ?_, hc⟩
    have := t.isLt
    have := u.isLt
    rw [hw]
    split <;> rename_i hz
    · rw [hz, parts_zero]; rfl
    · have e1 : (10 * t.val + u) % 100 = 10 * t.val + u := Nat.mod_eq_of_lt (by omega)
      have e2 : 10 * t.val + u < 100 := by omega
      simp only [ordinalTail, if_true, e1, e2, hz, if_false, List.nil_append]
  · rw [value3]
    exact ord_three g a t u

/-! ### Compound words -/

theorem compOk2 : ∀ t u : Fin 10,
    check (convertThreeDigitGroup .BEFORE_NOUN [dig t, dig u]) (fun p =>
      p.1 = compound (10 * t + u) && p.2 = b!"0") = true ∧
    check ((groupUnits .BEFORE_NOUN (some (dig t)) (dig u)).bind (groupTens .BEFORE_NOUN (dig t)))
      (fun p => p.1 = compound (10 * t + u) && p.2 = b!"" && p.1.head? ≠ some 32) = true := by
  decide +kernel

theorem compOk1 : ∀ u : Fin 10, u ≠ 0 →
    check (convertThreeDigitGroup .BEFORE_NOUN [dig u]) (fun p =>
      p.1 = compound u && p.2 = b!"0") = true := by
  decide +kernel

theorem compHundred : ∀ h : Fin 10, h ≠ 0 →
    entry (hundreds .BEFORE_NOUN) (dig h) = some ((prefixes.lookup (100 * h.val)).getD []) ∧
    (prefixes.lookup (100 * h.val)).getD [] ≠ [] ∧
    32 ∉ (prefixes.lookup (100 * h.val)).getD [] := by
  decide +kernel

theorem compWord : ∀ v : Fin 100, 32 ∉ compound v ∧ (v.val ≠ 0 → compound v ≠ []) := by
  decide +kernel

theorem compound_cut {h v : Nat} (h0 : h ≠ 0) (hv : v < 100) :
    compound (100 * h + v) = (prefixes.lookup (100 * h)).getD [] ++ compound v := by
  have e1 : (100 * h + v) / 100 * 100 = 100 * h := by omega
  have e2 : (100 * h + v) % 100 = v := by omega
  have e3 : v / 100 * 100 = 0 := by omega
  have e4 : v % 100 = v := by omega
  simp [compound, e1, e2, e3, e4, h0]

theorem compound_word {g : Nat} (hg : g < 1000) : 32 ∉ compound g ∧ (g ≠ 0 → compound g ≠ []) := by
  by_cases h : g < 100
  · exact compWord ⟨g, h⟩
  · have hc := compHundred ⟨g / 100, by omega⟩ (by intro hx; simp at hx; omega)
    have hw := compWord ⟨g % 100, by omega⟩
    have he : g = 100 * (g / 100) + g % 100 := by omega
    rw [he, compound_cut (by omega) (by omega)]
    simp only at hc hw
    refine ⟨?_, fun _ => ?_⟩
    · simp only [List.mem_append, not_or]
      exact ⟨hc.2.2, hw.1⟩
    · simp [hc.2.1]

/-- A group at the start of a compound word. -/
theorem comp_group {n : Str} (h : Digits n) (hl : n.length ≤ 3)
    (h0 : n.length = 1 → value n ≠ 0) :
    convertThreeDigitGroup .BEFORE_NOUN n = some (compound (value n), b!"0") := by
  have fin : ∀ {o : Option Pair} {w : Str},
      check o (fun p => p.1 = w && p.2 = b!"0") = true → o = some (w, b!"0") := by
    intro o w hh
    obtain ⟨p, rfl, hp⟩ := check_some hh
    simp at hp
    rw [← hp.1, ← hp.2]
  rcases group_cases h hl with ⟨u, rfl⟩ | ⟨t, u, rfl⟩ | ⟨a, t, u, rfl⟩
  · rw [value1] at h0 ⊢
    have hu : u ≠ 0 := by
      rintro rfl; exact h0 rfl rfl
    exact fin (compOk1 u hu)
  · rw [value2]
    exact fin (compOk2 t u).1
  · rw [value3]
    obtain ⟨q, hq, hh⟩ := check_some (compOk2 t u).2
    simp at hh
    obtain ⟨⟨hq1, hq2⟩, hq3⟩ := hh
    have ht := t.isLt
    have hu := u.isLt
    have hstep : convertThreeDigitGroup .BEFORE_NOUN [dig a, dig t, dig u]
        = (groupHundreds .BEFORE_NOUN (dig a) q).map (groupDone .BEFORE_NOUN) := by
      simp only [convertThreeDigitGroup, isDigit_dig, Bool.not_true, Bool.false_eq_true, if_false]
      cases h1 : groupUnits .BEFORE_NOUN (some (dig t)) (dig u) with
      | none => simp [h1] at hq
      | some x =>
        simp only [h1, Option.bind_some] at hq
        simp [hq, Option.map_eq_bind, Function.comp_def]
    rw [hstep]
    by_cases ha : a = 0
    · subst ha
      simp [groupHundreds, dig_zero.mpr, groupDone, hq1]
    · have hd : dig a ≠ 48 := fun hx => ha (dig_zero.mp hx)
      obtain ⟨c1, c2, c3⟩ := compHundred a ha
      have ha' : a.val ≠ 0 := fun hx => ha (Fin.ext hx)
      have hcut : compound (100 * a.val + 10 * t + u)
          = (prefixes.lookup (100 * a.val)).getD [] ++ compound (10 * t + u) := by
        rw [Nat.add_assoc]
        exact compound_cut ha' (by omega)
      rw [hcut, ← hq1]
      have hprep : prepend q.1 ((prefixes.lookup (100 * a.val)).getD []) .BEFORE_NOUN
          = some ((prefixes.lookup (100 * a.val)).getD [] ++ q.1) := by
        unfold prepend
        cases hc : q.1 with
        | nil => simp
        | cons x y =>
          have : x ≠ 32 := by
            intro hx
            rw [hc, hx] at hq3
            exact hq3 rfl
          simp [this, c2, joiner]
      unfold groupHundreds
      have hp2 : prepend q.2 b!"" .BEFORE_NOUN = some b!"" := by rw [hq2]; rfl
      simp [hd, lonehundred, c1, makeTinfl, hprep, hp2, groupDone]

theorem ordPower_eq : ∀ r : Fin 220, r.val ≠ 0 →
    thomil .ORDINAL r = some (ordinalPower .masculine r) ∧
    thomil .ORDINAL_F r = some (ordinalPower .feminine r) ∧
    thomil .ORDINAL_NPL r = some (ordinalPower .plural r) ∧
    thomil .ORDINAL_GPL r = some (ordinalPower .genitivePlural r) := by
  decide +kernel

theorem ordStem_word : ∀ r : Fin 220, r.val ≠ 0 → powerStem r ≠ [] ∧ 32 ∉ powerStem r := by
  decide +kernel

theorem ordPower_word (f : Gender) {r : Nat} (hr : 0 < r) (h : r < 220) :
    ordinalPower f r ≠ [] ∧ 32 ∉ ordinalPower f r := by
  have h1 := ordStem_word ⟨r, h⟩ (by simp; omega)
  simp only at h1
  have h2 : 32 ∉ ending .hard f := by cases f <;> decide
  unfold ordinalPower
  split
  · exact ⟨by simp, by simp [h2]⟩
  · refine ⟨by simp, ?_⟩
    simp [h1.2, h2]

theorem large_ord (g : Gender) {r : Nat} (hr : 0 < r) (h : r < 220) :
    ∃ ti, makeLargeUnit (genderForm g) r = some (ordinalPower g r, ti) ∧ ti ≠ [] ∧ 32 ∉ ti := by
  have e := ordPower_eq ⟨r, h⟩ (by simp; omega)
  simp only at e
  obtain ⟨e1, e2, e3, e4⟩ := e
  have hw : 32 ∉ ordinalPower .masculine r ++ b!"_LP-P" := by
    simp [(ordPower_word .masculine hr h).2]
  cases g
  · refine ⟨b!"LP-P", ?_, by simp, by decide⟩
    exact (by simp [makeLargeUnit, genderForm, h, e1, unitTinfl])
  · exact ⟨ordinalPower .masculine r ++ b!"_LP-P",
      by simp [makeLargeUnit, genderForm, h, e1, e2], by simp, hw⟩
  · exact ⟨ordinalPower .masculine r ++ b!"_LP-P",
      by simp [makeLargeUnit, genderForm, h, e1, e3], by simp, hw⟩
  · exact ⟨ordinalPower .masculine r ++ b!"_LP-P",
      by simp [makeLargeUnit, genderForm, h, e1, e4], by simp, hw⟩

/-- The genders whose compound words are made as they should. -/
def Proper (g : Gender) : Prop := g = .masculine ∨ g = .feminine

/-- A part of an ordinal number with groups of zeros after it. -/
theorem ord_part (g : Gender) {n : Str} (h : Digits n) (hl : n.length ≤ 3) {r : Nat} (hr : 0 < r)
    (hv : value n ≠ 0 → r < 220) :
    ∃ p, convertPart (genderForm g) n r = some p ∧
      (value n = 0 → p.1 = []) ∧ (value n ≠ 0 → p.1 ≠ [] ∧ Good p.1) ∧
      (value n ≠ 0 → Proper g ∨ value n = 1 →
        words p.1 = ordinalTail g (value n) r ∧ Codes p) ∧ (value n = 0 → p.2 = []) := by
  have hgov := government_eq h hl
  have hr0 : r ≠ 0 := by omega
  have hform : convertPart (genderForm g) n r = convertNoncardinalPart (genderForm g) n r := by
    unfold convertPart
    cases g <;> simp [genderForm, hr0]
  rw [hform]
  have hnG : genderForm g ≠ .CARDINAL_G := by cases g <;> simp [genderForm]
  -- the text before the power
  obtain ⟨ht, hht⟩ : ∃ x, highType (genderForm g) = some x := by
    cases g <;> exact ⟨_, rfl⟩
  have hp : ∃ q, convertThreeDigitGroup ht n = some q ∧
      (value n ≠ 0 → q.1 ≠ [] ∧ Good q.1) ∧ (Proper g → value n ≠ 0 → q.1 = compound (value n)) := by
    by_cases hP : Proper g
    · have hB : ht = .BEFORE_NOUN := by
        rcases hP with rfl | rfl <;> simpa [genderForm, highType] using hht.symm
      subst hB
      by_cases h0 : value n = 0
      · have : ∃ q, convertThreeDigitGroup .BEFORE_NOUN n = some q := by
          by_cases h1 : n.length = 1
          · rcases group_cases h hl with ⟨u, rfl⟩ | ⟨t, u, rfl⟩ | ⟨a, t, u, rfl⟩
            · rw [value1] at h0
              have : u = 0 := Fin.ext h0
              subst this
              exact ⟨(b!"zero", b!"0"), by decide +kernel⟩
            · simp at h1
            · simp at h1
          · exact ⟨_, comp_group h hl fun hx => absurd hx h1⟩
        obtain ⟨q, hq⟩ := this
        exact ⟨q, hq, fun hx => absurd h0 hx, fun _ hx => absurd h0 hx⟩
      · refine ⟨_, comp_group h hl fun _ => h0, fun _ => ?_, fun _ _ => rfl⟩
        have hlt : value n < 1000 :=
          lt_of_lt_of_le (value_lt n h.2)
            (Nat.pow_le_pow_right (by omega : 0 < 10) (by omega : n.length ≤ 3))
        have := compound_word hlt
        exact ⟨this.2 h0, fun he => this.1 (List.mem_of_mem_head? he)⟩
    · have hB : ht = .CARDINAL := by
        cases g
        · exact absurd (.inl rfl) hP
        · exact absurd (.inr rfl) hP
        · simpa [genderForm, highType] using hht.symm
        · simpa [genderForm, highType] using hht.symm
      subst hB
      by_cases h0 : value n = 0
      · obtain ⟨q, hq⟩ := group_some .nominative h hl
        exact ⟨q, hq, fun hx => absurd h0 hx, fun _ hx => absurd h0 hx⟩
      · obtain ⟨q, hq, hg, hrd, _⟩ := group_ok .nominative h hl fun _ => h0
        refine ⟨q, hq, fun _ => ⟨?_, hg⟩, fun hx => absurd hx hP⟩
        intro he
        rw [he, words_nil] at hrd
        simp at hrd
        omega
  obtain ⟨q, hq, hqn, hqc⟩ := hp
  by_cases h0 : value n = 0
  · have hg : gov (value n) = .ZERO := by simp [gov, h0]
    refine ⟨([], []), ?_, fun _ => rfl, fun hx => absurd h0 hx, fun hx => absurd h0 hx,
      fun _ => rfl⟩
    simp [convertNoncardinalPart, hht, hq, hgov, hg]
  · obtain ⟨ti, hti, hti1, hti2⟩ := large_ord g hr (hv h0)
    obtain ⟨w1, w2⟩ := ordPower_word g hr (hv h0)
    by_cases h1 : value n = 1
    · have hg : gov (value n) = .JEDEN := by simp [gov, h1, agreement_one.mpr]
      refine ⟨(ordinalPower g r, ti), ?_, fun hx => absurd hx h0,
        fun _ => ⟨w1, fun he => w2 (List.mem_of_mem_head? he)⟩,
        fun _ _ => ⟨?_, codes_one w1 hti1 w2 hti2⟩, fun hx => absurd hx h0⟩
      · simp [convertNoncardinalPart, hht, hq, hgov, hg, hti]
      · rw [words_one w1 w2]
        simp [ordinalTail, hr0, h1]
    · have hg : gov (value n) = .DWA ∨ gov (value n) = .PIEC := by
        have ha1 : agreement (value n) ≠ .one := fun h => h1 (agreement_one.mp h)
        unfold gov
        cases ha : agreement (value n) <;> simp_all
      refine ⟨(q.1 ++ ordinalPower g r, ti), ?_, fun hx => absurd hx h0,
        fun _ => ⟨by simp [w1], good_append (hqn h0).1 (hqn h0).2⟩, fun _ hx => ?_,
        fun hx => absurd hx h0⟩
      · rcases hg with hg | hg <;>
        simp [convertNoncardinalPart, hht, hq, hgov, hg, hti, hnG]
      · have hP := hx.resolve_right h1
        have hlt : value n < 1000 :=
          lt_of_lt_of_le (value_lt n h.2)
            (Nat.pow_le_pow_right (by omega : 0 < 10) (by omega : n.length ≤ 3))
        have hc := compound_word hlt
        rw [hqc hP h0]
        have n1 : compound (value n) ++ ordinalPower g r ≠ [] := by simp [w1]
        have n2 : 32 ∉ compound (value n) ++ ordinalPower g r := by simp [hc.1, w2]
        refine ⟨?_, codes_one n1 hti1 n2 hti2⟩
        rw [words_one n1 n2]
        simp [ordinalTail, hr0, h1]

/-- The loop over an ordinal number. -/
theorem loop_ord (g : Gender) : ∀ fuel rank rest, Digits rest → rest.length ≤ fuel →
    value rest ≠ 0 → value rest * 1000 ^ rank < 1000 ^ 220 →
    ∃ p front a b r, integerLoop fuel (genderForm g) rank rest ([], []) = some p ∧
      readWords .nominative front = some a ∧ 0 < b ∧ b < 1000 ∧
      a % 1000 ^ (r + 1) = 0 ∧ value rest * 1000 ^ rank = a + b * 1000 ^ r ∧
      (Proper g ∨ b = 1 ∨ r = 0 → words p.1 = front ++ ordinalTail g b r ∧ Codes p) := by
  intro fuel
  induction fuel with
  | zero =>
    intro rank rest h hl
    have := h.1
    simp at hl
    exact absurd hl this
  | succ fuel ih =>
    intro rank rest h hl h0 hv
    have hhigh : higherUnits (genderForm g) = .CARDINAL := by cases g <;> rfl
    -- what one part gives
    have part : ∀ n, Digits n → n.length ≤ 3 → (rank = 0 → n.length = 1 → value n ≠ 0) →
        (value n ≠ 0 → rank < 220) →
        ∃ p, convertPart (genderForm g) n rank = some p ∧ (value n = 0 → p.1 = []) ∧
          (value n ≠ 0 → p.1 ≠ [] ∧ Good p.1) ∧
          (value n ≠ 0 → Proper g ∨ value n = 1 ∨ rank = 0 →
            words p.1 = ordinalTail g (value n) rank ∧ Codes p) ∧ (value n = 0 → p.2 = []) := by
      intro n hn hln hn1 hn2
      by_cases hr : rank = 0
      · subst hr
        obtain ⟨p, hp, hg, hw, hc⟩ := ord_group g hn hln (hn1 rfl)
        refine ⟨p, by simpa [convertPart] using hp, fun hz => ?_, fun hz => ⟨?_, hg⟩,
          fun hz _ => ⟨by simpa [hz] using hw, hc⟩, fun hz => ?_⟩
        · simp only [hz, if_true] at hw
          by_contra hne
          simp [words, hne, List.splitOn_ne_nil] at hw
        · intro he
          simp only [hz, if_false] at hw
          rw [he, words_nil] at hw
          unfold ordinalTail at hw
          simp only [if_true] at hw
          split at hw
          · simp at hw
          · rename_i hm
            have := parts_ne hm
            simp at hw
            exact this hw.2
        · simp only [hz, if_true] at hw
          have := hc.2
          rw [hw] at this
          exact words_eq_nil.mp (List.length_eq_zero_iff.mp this)
      · obtain ⟨p, hp, h1, h2, h3, h4⟩ := ord_part g hn hln (by omega) hn2
        exact ⟨p, hp, h1, h2, fun hz hx => h3 hz (by simpa [hr] using hx), h4⟩
    unfold integerLoop
    by_cases hlen : 3 < rest.length
    · have hcut := value_cut hlen
      set front := rest.take (rest.length - 3) with hfront
      set sub := rest.drop (rest.length - 3) with hsub
      have hdf : Digits front := take_digits h (by omega) (by omega)
      have hds : Digits sub := drop_digits h (by omega)
      have hls : sub.length = 3 := by simp [hsub]; omega
      have hlf : front.length ≤ fuel := by simp [hfront]; omega
      have hsv : value sub < 1000 := by
        have := value_lt sub hds.2
        rw [hls] at this
        exact this
      have hfe : value front * 1000 ^ (rank + 1) = value front * 1000 * 1000 ^ rank := by ring
      have hfv : value front * 1000 ^ (rank + 1) < 1000 ^ 220 := by
        refine lt_of_le_of_lt ?_ hv
        rw [hfe, hcut, Nat.add_mul]
        omega
      simp only [hlen, if_true]
      have hrank : value sub ≠ 0 → rank < 220 := by
        intro hs
        refine rank_lt hs (lt_of_le_of_lt ?_ hv)
        exact Nat.mul_le_mul_right _ (by omega)
      obtain ⟨p, hp, hp0, hpn, hpw, hpi⟩ := part sub hds (by omega) (by omega) hrank
      have hte' : prepend [] p.1 .CARDINAL = some p.1 := rfl
      have hti' : prepend [] p.2 .CARDINAL = some p.2 := rfl
      by_cases hz : value sub = 0
      · obtain ⟨q, fr, a, b, r, hq, h1, h2, h3, h4, h5, h6⟩ := ih (rank + 1) front hdf hlf
          (by omega) hfv
        refine ⟨q, fr, a, b, r, ?_, h1, h2, h3, h4, ?_, h6⟩
        · have := hp0 hz
          have hi := hpi hz
          rw [this] at hte'
          rw [hi] at hti'
          simp only [hp, this, hi, hte', hti', Option.bind_eq_bind, Option.bind_some, ne_eq,
            not_true_eq_false, if_false]
          exact hq
        · rw [← h5, hfe, hcut, hz, Nat.add_zero]
      · obtain ⟨hne, hgood⟩ := hpn hz
        obtain ⟨q, W, hq, hgq, hwq, hrq, hcq⟩ := loop_card .nominative fuel (rank + 1) front p.1 p.2 hdf
          hlf (by simp) hfv hgood
        refine ⟨q, W, value front * 1000 ^ (rank + 1), value sub, rank, ?_, ?_, by omega, hsv,
          by simp, ?_, fun hx => ?_⟩
        · simp only [hp, hne, hte', hti', Option.bind_eq_bind, Option.bind_some, ne_eq,
            not_false_eq_true, if_true, hhigh]
          exact hq
        · unfold readWords
          rw [hrq]
          simp
        · rw [hfe, hcut, Nat.add_mul]
        · obtain ⟨k1, k2⟩ := hpw hz hx
          exact ⟨by rw [hwq, k1], (hcq k2).1⟩
    · simp only [hlen, if_false]
      obtain ⟨p, hp, hp0, hpn, hpw, _⟩ := part rest h (by omega) (fun _ _ => h0)
        (fun hz => rank_lt hz hv)
      have hti' : prepend [] p.2 .CARDINAL = some p.2 := rfl
      have hlt : value rest < 1000 :=
        lt_of_lt_of_le (value_lt rest h.2)
          (Nat.pow_le_pow_right (by omega : 0 < 10) (by omega : rest.length ≤ 3))
      refine ⟨p, [], 0, value rest, rank, ?_, rfl, by omega, hlt, by simp, by simp,
        fun hx => by simpa using hpw h0 hx⟩
      have hte' : prepend [] p.1 .CARDINAL = some p.1 := rfl
      simp [hp, hte', hti']

/-- The ordinal number of digits. -/
theorem integer_ord (g : Gender) {n : Str} (h : Digits n) (hv : value n < 10 ^ 660) :
    ∃ p, integer2pltext (genderForm g) n = some p ∧
      (Proper g ∨ value n % 1000 ≠ 0 ∨
        (∃ r, value n % 1000 ^ r = 0 ∧ value n / 1000 ^ r % 1000 = 1) ∨ value n = 0 →
        IsOrdinal g (words p.1) (value n) ∧ Codes p) := by
  rw [integer_eq _ h]
  by_cases h0 : value n = 0
  · refine ⟨zero (genderForm g), by simp [h0], fun _ => ⟨.inl ⟨h0, ?_⟩, ?_⟩⟩
    · cases g <;> decide +kernel
    · cases g <;> exact ⟨by decide, by decide +kernel⟩
  · by_cases h1 : value n = 1
    · refine ⟨jeden (genderForm g), by simp [h1], fun _ => ⟨.inr ⟨[], 0, 1, 0, ?_, rfl, by omega,
        by omega, by simp, by simp [h1]⟩, ?_⟩⟩
      · cases g <;> decide +kernel
      · cases g <;> exact ⟨by decide, by decide +kernel⟩
    · have hb : value n * 1000 ^ 0 < 1000 ^ 220 := by
        rw [show (1000 : Nat) ^ 220 = 10 ^ 660 from (Nat.pow_mul 10 3 220).symm]
        simpa using hv
      obtain ⟨p, fr, a, b, r, hp, e1, e2, e3, e4, e5, e6⟩ := loop_ord g n.length 0 n h le_rfl
        h0 hb
      have hff : firstForm (genderForm g) = genderForm g := by cases g <;> rfl
      have hnf : genderForm g ≠ .CARDINAL_F := by cases g <;> simp [genderForm]
      have key : Proper g ∨ value n % 1000 ≠ 0 ∨
          (∃ r, value n % 1000 ^ r = 0 ∧ value n / 1000 ^ r % 1000 = 1) ∨ value n = 0 →
          Proper g ∨ b = 1 ∨ r = 0 := ?_
      · refine ⟨p, by simp [h0, h1, hff, hp, hnf], fun hx => ⟨.inr ⟨fr, a, b, r,
          (e6 (key hx)).1, e1, e2, e3, e4, by simpa using e5⟩, (e6 (key hx)).2⟩⟩
      · intro hx
        rw [Nat.pow_zero, Nat.mul_one] at e5
        rcases hx with hx | hx | ⟨s, hs1, hs2⟩ | hx
        · exact .inl hx
        · right; right
          by_contra hr
          apply hx
          rw [e5]
          obtain ⟨k, hk⟩ := Nat.dvd_of_mod_eq_zero e4
          obtain ⟨r', rfl⟩ := Nat.exists_eq_succ_of_ne_zero hr
          have : a + b * 1000 ^ (r' + 1) = 1000 * (1000 ^ (r' + 1) * k + b * 1000 ^ r') := by
            rw [hk, Nat.succ_eq_add_one]; ring
          simp only [Nat.succ_eq_add_one]
          rw [this]
          simp
        · obtain ⟨k, hk⟩ := Nat.dvd_of_mod_eq_zero e4
          have hpos : ∀ m : Nat, 0 < 1000 ^ m := fun m => Nat.pow_pos (by omega)
          have hvv : value n = (1000 * k + b) * 1000 ^ r := by rw [e5, hk]; ring
          rcases Nat.lt_trichotomy r s with hlt | heq | hgt
          · exfalso
            obtain ⟨j, rfl⟩ := Nat.exists_eq_add_of_lt hlt
            have hd : 1000 ^ (r + 1) ∣ value n :=
              dvd_trans (Nat.pow_dvd_pow 1000 (by omega)) (Nat.dvd_of_mod_eq_zero hs1)
            rw [hvv, Nat.pow_succ, Nat.mul_comm (1000 ^ r)] at hd
            have := Nat.dvd_of_mul_dvd_mul_right (hpos r) hd
            omega
          · right; left
            subst heq
            rw [hvv, Nat.mul_div_cancel _ (hpos r)] at hs2
            omega
          · exfalso
            obtain ⟨j, rfl⟩ := Nat.exists_eq_add_of_lt hgt
            have : value n = ((1000 * k + b) * 1000 ^ j * 1000) * 1000 ^ s := by
              rw [hvv]; ring
            rw [this, Nat.mul_div_cancel _ (hpos s)] at hs2
            simp at hs2
        · exact absurd hx h0

end Verif.Numconv
