import Verif.Numconv.Ord

/-!
# Writing numbers in words: nothing is read out of bounds
-/

namespace Verif.Numconv

open Spec

/-- The forms with a row in every table. -/
def Row (f : Form) : Prop :=
  f = .CARDINAL ∨ f = .ORDINAL ∨ f = .CARDINAL_G ∨ f = .ORDINAL_F ∨ f = .ORDINAL_NPL ∨
    f = .ORDINAL_GPL ∨ f = .BEFORE_NOUN

theorem entry_some : ∀ d : Fin 10, ∀ f : Fin 7,
    let t : Form := [Form.CARDINAL, .ORDINAL, .CARDINAL_G, .ORDINAL_F, .ORDINAL_NPL, .ORDINAL_GPL,
      .BEFORE_NOUN].getD f .CARDINAL
    (entry (units t) (dig d)).isSome ∧ (entry (teens t) (dig d)).isSome ∧
    (entry (tens t) (dig d)).isSome ∧ (entry (hundreds t) (dig d)).isSome ∧
    (makeTinfl t (dig d) .UNITS).isSome ∧ (makeTinfl t (dig d) .TEENS).isSome ∧
    (makeTinfl t (dig d) .TENS).isSome ∧ (makeTinfl t (dig d) .HUNDREDS).isSome ∧
    (joiner t).isSome := by
  decide +kernel

theorem row_some {f : Form} (hf : Row f) (d : Fin 10) :
    (∃ x, entry (units f) (dig d) = some x) ∧ (∃ x, entry (teens f) (dig d) = some x) ∧
    (∃ x, entry (tens f) (dig d) = some x) ∧ (∃ x, entry (hundreds f) (dig d) = some x) ∧
    (∃ x, makeTinfl f (dig d) .UNITS = some x) ∧ (∃ x, makeTinfl f (dig d) .TEENS = some x) ∧
    (∃ x, makeTinfl f (dig d) .TENS = some x) ∧ (∃ x, makeTinfl f (dig d) .HUNDREDS = some x) ∧
    (joiner f).isSome := by
  simp only [← Option.isSome_iff_exists]
  rcases hf with rfl | rfl | rfl | rfl | rfl | rfl | rfl
  · exact entry_some d 0
  · exact entry_some d 1
  · exact entry_some d 2
  · exact entry_some d 3
  · exact entry_some d 4
  · exact entry_some d 5
  · exact entry_some d 6

theorem lone_row {f : Form} (hf : Row f) : ∃ x, lonehundred f = some x ∧ Row x := by
  rcases hf with rfl | rfl | rfl | rfl | rfl | rfl | rfl <;>
    exact ⟨_, rfl, by simp [Row]⟩

theorem group_total {f : Form} (hf : Row f) {n : Str} (h : Digits n) (hl : n.length ≤ 3) :
    ∃ p, convertThreeDigitGroup f n = some p := by
  have hunits : ∀ (t : Option Byte) (u : Fin 10), ∃ p, groupUnits f t (dig u) = some p := by
    intro t u
    obtain ⟨⟨a, ha⟩, ⟨b, hb⟩, _, _, ⟨c, hc⟩, ⟨d, hd⟩, _⟩ := row_some hf u
    unfold groupUnits
    split
    · exact ⟨_, by simp [ha, hc]; rfl⟩
    · split
      · exact ⟨_, by simp [hb, hd]; rfl⟩
      · split
        · exact ⟨_, by simp [ha, hc]; rfl⟩
        · exact ⟨_, by simp [ha, hc]; rfl⟩
  have htens : ∀ (t : Fin 10) (q : Pair), ∃ p, groupTens f (dig t) q = some p := by
    intro t q
    obtain ⟨_, _, ⟨a, ha⟩, _, _, _, ⟨c, hc⟩, _, hj⟩ := row_some hf t
    unfold groupTens
    split
    · obtain ⟨x, hx⟩ := prepend_total (s := q.1) (p := a) hj
      obtain ⟨y, hy⟩ := prepend_total (s := q.2) (p := c) hj
      exact ⟨(x, y), by simp [ha, hc, hx, hy]⟩
    · exact ⟨q, rfl⟩
  have hhund : ∀ (h : Fin 10) (q : Pair), ∃ p, groupHundreds f (dig h) q = some p := by
    intro d q
    unfold groupHundreds
    split
    · exact ⟨q, rfl⟩
    · have key : ∃ nt, (if q.1 ≠ [] then lonehundred f else some f) = some nt ∧ Row nt := by
        split
        · exact lone_row hf
        · exact ⟨f, rfl, hf⟩
      obtain ⟨nt, hnt, hrow⟩ := key
      obtain ⟨_, _, _, ⟨a, ha⟩, _, _, _, ⟨c, hc⟩, hj⟩ := row_some hrow d
      obtain ⟨x, hx⟩ := prepend_total (s := q.1) (p := a) hj
      obtain ⟨y, hy⟩ := prepend_total (s := q.2) (p := c) hj
      obtain ⟨z, hz⟩ := prepend_total (s := q.2) (p := b!"0") hj
      split at hnt
      all_goals
        rename_i hq
        simp only [hq, ne_eq, not_true_eq_false, not_false_eq_true, if_true, if_false, hnt,
          Option.bind_eq_bind, Option.bind_some, ha, hx, hc, hy, hz]
        split <;> exact ⟨_, rfl⟩
  rcases group_cases h hl with ⟨u, rfl⟩ | ⟨t, u, rfl⟩ | ⟨a, t, u, rfl⟩
  · obtain ⟨x, hx⟩ := hunits none u
    exact ⟨groupDone f x, by simp [convertThreeDigitGroup, isDigit_dig, hx]⟩
  · obtain ⟨x, hx⟩ := hunits (some (dig t)) u
    obtain ⟨y, hy⟩ := htens t x
    exact ⟨groupDone f y, by simp [convertThreeDigitGroup, isDigit_dig, hx, hy]⟩
  · obtain ⟨x, hx⟩ := hunits (some (dig t)) u
    obtain ⟨y, hy⟩ := htens t x
    obtain ⟨z, hz⟩ := hhund a y
    exact ⟨groupDone f z, by simp [convertThreeDigitGroup, isDigit_dig, hx, hy, hz]⟩

theorem thomil_some : ∀ r : Fin 220, ∀ f : Fin 9,
    (thomil ([Form.CARDINAL, .ORDINAL, .CARDINAL_G, .ORDINAL_F, .ORDINAL_NPL, .ORDINAL_GPL,
      .BEFORE_NOUN, .CARDINAL_NPL, .CARDINAL_GPL].getD f .CARDINAL) r).isSome := by
  decide +kernel

theorem large_total {f : Form} (hf : Row f ∨ f = .CARDINAL_NPL ∨ f = .CARDINAL_GPL) (r : Nat) :
    ∃ p, makeLargeUnit f r = some p := by
  by_cases h : r < 220
  · have t := fun i => Option.isSome_iff_exists.mp (thomil_some ⟨r, h⟩ i)
    obtain ⟨c, hc⟩ := t 0
    obtain ⟨o, ho⟩ := t 1
    obtain ⟨g, hg⟩ := t 2
    obtain ⟨a1, h1⟩ := t 3
    obtain ⟨a2, h2⟩ := t 4
    obtain ⟨a3, h3⟩ := t 5
    obtain ⟨a4, h4⟩ := t 6
    obtain ⟨a5, h5⟩ := t 7
    obtain ⟨a6, h6⟩ := t 8
    replace hc : thomil .CARDINAL r = some c := hc
    replace ho : thomil .ORDINAL r = some o := ho
    replace hg : thomil .CARDINAL_G r = some g := hg
    replace h1 : thomil .ORDINAL_F r = some a1 := h1
    replace h2 : thomil .ORDINAL_NPL r = some a2 := h2
    replace h3 : thomil .ORDINAL_GPL r = some a3 := h3
    replace h4 : thomil .BEFORE_NOUN r = some a4 := h4
    replace h5 : thomil .CARDINAL_NPL r = some a5 := h5
    replace h6 : thomil .CARDINAL_GPL r = some a6 := h6
    rcases hf with (rfl | rfl | rfl | rfl | rfl | rfl | rfl) | rfl | rfl
    · exact ⟨_, by simp [makeLargeUnit, h, hc, unitTinfl]; rfl⟩
    · exact ⟨_, by simp [makeLargeUnit, h, ho, unitTinfl]; rfl⟩
    · exact ⟨_, by simp [makeLargeUnit, h, hg, unitTinfl]; rfl⟩
    · exact ⟨_, by simp [makeLargeUnit, h, h1, ho]; rfl⟩
    · exact ⟨_, by simp [makeLargeUnit, h, h2, ho]; rfl⟩
    · exact ⟨_, by simp [makeLargeUnit, h, h3, ho]; rfl⟩
    · exact ⟨_, by simp [makeLargeUnit, h, h4, unitTinfl]; rfl⟩
    · exact ⟨_, by simp [makeLargeUnit, h, h5, hc]; rfl⟩
    · exact ⟨_, by simp [makeLargeUnit, h, h6, hc]; rfl⟩
  · exact ⟨(b!"#", b!""), by simp [makeLargeUnit, h]⟩

theorem part_total {f : Form} (hf : Row f) {n : Str} (h : Digits n) (hl : n.length ≤ 3)
    (r : Nat) : ∃ p, convertPart f n r = some p := by
  have card : ∃ p, convertCardinalPart n r = some p := by
    obtain ⟨q, hq⟩ := group_total (f := .CARDINAL) (.inl rfl) h hl
    obtain ⟨a, ha⟩ := large_total (f := .CARDINAL) (.inl (.inl rfl)) r
    obtain ⟨b, hb⟩ := large_total (f := .CARDINAL_NPL) (.inr (.inl rfl)) r
    obtain ⟨c, hc⟩ := large_total (f := .CARDINAL_GPL) (.inr (.inr rfl)) r
    unfold convertCardinalPart
    simp only [hq, ha, hb, hc, Option.bind_eq_bind, Option.bind_some]
    split <;> exact ⟨_, rfl⟩
  have non : ∀ f, Row f → ∃ p, convertNoncardinalPart f n r = some p := by
    intro f hf
    obtain ⟨x, hx, hrow⟩ : ∃ x, highType f = some x ∧ Row x := by
      rcases hf with rfl | rfl | rfl | rfl | rfl | rfl | rfl <;>
        exact ⟨_, rfl, by simp [Row]⟩
    obtain ⟨q, hq⟩ := group_total hrow h hl
    obtain ⟨a, ha⟩ := large_total (.inl hf) r
    obtain ⟨c, hc⟩ := large_total (f := .CARDINAL_GPL) (.inr (.inr rfl)) r
    unfold convertNoncardinalPart
    simp only [hx, hq, ha, hc, Option.bind_eq_bind, Option.bind_some]
    split
    · exact ⟨_, rfl⟩
    · exact ⟨_, rfl⟩
    · split <;> exact ⟨_, rfl⟩
    · split <;> exact ⟨_, rfl⟩
    · exact ⟨_, rfl⟩
  unfold convertPart
  split
  · exact group_total hf h hl
  · split
    · exact card
    · exact card
    · exact non _ hf
    · exact non _ hf
    · exact non _ hf
    · exact non _ hf
    · exact non _ hf
    · exact ⟨_, rfl⟩

theorem loop_total : ∀ fuel (f : Form) rank rest (p : Pair), Row f → Digits rest →
    rest.length ≤ fuel → ∃ q, integerLoop fuel f rank rest p = some q := by
  intro fuel
  induction fuel with
  | zero =>
    intro f rank rest p _ h hl
    simp at hl
    exact absurd hl h.1
  | succ fuel ih =>
    intro f rank rest p hf h hl
    unfold integerLoop
    by_cases hlen : 3 < rest.length
    · simp only [hlen, if_true]
      obtain ⟨s, hs⟩ := part_total hf (drop_digits h (k := rest.length - 3) (by omega))
        (by simp only [List.length_drop]; omega) rank
      obtain ⟨a, ha⟩ := prepend_some p.1 s.1
      obtain ⟨b, hb⟩ := prepend_some p.2 s.2
      simp only [hs, ha, hb, Option.bind_eq_bind, Option.bind_some]
      apply ih
      · split
        · unfold higherUnits
          split <;> simp [Row]
        · exact hf
      · exact take_digits h (by omega) (by omega)
      · simp only [List.length_take]; omega
    · simp only [hlen, if_false]
      obtain ⟨s, hs⟩ := part_total hf h (by omega) rank
      obtain ⟨a, ha⟩ := prepend_some p.1 s.1
      obtain ⟨b, hb⟩ := prepend_some p.2 s.2
      exact ⟨(a, b), by simp [hs, ha, hb]⟩

/-- The forms of a whole number. -/
def Whole (f : Form) : Prop := Row f ∨ f = .CARDINAL_F ∨ f = .CARDINAL_FG

/-- An integer is written unless there is no digit at all. -/
theorem integer_none {f : Form} (hf : Whole f) (n : Str) :
    integer2pltext f n = none ↔ n = [] := by
  constructor
  · intro h
    by_contra hne
    by_cases ha : n.any (fun c => !isDigit c) = true
    · simp [integer2pltext, ha] at h
    · have hd : Digits n := by
        refine ⟨hne, fun c hc => ?_⟩
        by_contra hcon
        apply ha
        rw [List.any_eq_true]
        refine ⟨c, hc, ?_⟩
        simp [isDigit]
        omega
      rw [integer_eq _ hd] at h
      have hrow : Row (firstForm f) := by
        rcases hf with (rfl | rfl | rfl | rfl | rfl | rfl | rfl) | rfl | rfl <;>
          simp [firstForm, Row]
      obtain ⟨q, hq⟩ := loop_total n.length (firstForm f) 0 n (b!"", b!"") hrow hd le_rfl
      rw [hq] at h
      split at h
      · simp at h
      · split at h <;> simp at h
  · rintro rfl
    rfl

end Verif.Numconv
