import Verif.Quoter.Lemmas
import Verif.Quoter.Model
import Verif.Quoter.Spec

/-!
Property theorems C15, C16, C17 (quoters).
-/
namespace Verif.Quoter
open Verif


/-! ### C15: quoting is lossless -/

/-- **C15** For every byte string and every set of additional specials not containing the
escape letters `n`, `t`, `r`, unquoting the quoted text gives the text back. -/
theorem C15_unescape_escape (q : Str) (hq : ∀ b ∈ q, b ≠ 110 ∧ b ≠ 116 ∧ b ≠ 114) (s : Str) :
    unescape q (escape q s) = some s := by
  induction s with
  | nil => simp [escape, unescape]
  | cons b s ih => simp [escape, unescape_escapeByte q hq, ih]

example : (∀ b ∈ psiQuotations, b ≠ 110 ∧ b ≠ 116 ∧ b ≠ 114) ∧
    escape psiQuotations [97, 32, 35, 95, 10, 92] = [97, 95, 92, 35, 92, 95, 92, 110, 92, 92] := by
  decide

/-- **C15** instance for the PSI quoter. -/
theorem C15_psi (s : Str) : unescape psiQuotations (escape psiQuotations s) = some s :=
  C15_unescape_escape _ (by decide) s

/-- **C15** instance for the UTT quoter. -/
theorem C15_utt (s : Str) : unescape uttQuotations (escape uttQuotations s) = some s :=
  C15_unescape_escape _ (by decide) s

/-- **C15** quoting is injective: different texts stay different. -/
theorem C15_injective (q : Str) (hq : ∀ b ∈ q, b ≠ 110 ∧ b ≠ 116 ∧ b ≠ 114) (s t : Str)
    (h : escape q s = escape q t) : s = t := by
  have hs := C15_unescape_escape q hq s
  rw [h, C15_unescape_escape q hq t] at hs
  exact (Option.some.inj hs).symm

/-- The hypothesis of C15 on the additional specials is needed: with `n` as an additional
special the quoter loses the letter `n` (it comes back as a newline). -/
theorem C15_hypothesis_needed : unescape [110] (escape [110] [110]) = some [10] := by decide

/-- **C15** unquoting follows the quoting grammar exactly: it succeeds with `r` precisely
when the quoted text denotes `r`, hence fails (throws) precisely on malformed input. -/
theorem C15_unescape_exact (q s r : Str) : unescape q s = some r ↔ Spec.Reads q s r :=
  unescape_iff q s r

example : Spec.Reads psiQuotations [97, 95, 92, 35] [97, 32, 35] :=
  (unescape_iff ..).1 (by decide)

/-! ### C16: quoted text is safe inside a column of a line -/

/-- **C16** quoted text contains no separator (space, tab, newline, carriage return),
whatever the additional specials are, provided none of them is itself a separator. -/
theorem C16_no_separator (q : Str) (hq : ∀ b ∈ q, ¬ Spec.isSeparator b) (s : Str) :
    ∀ b ∈ escape q s, ¬ Spec.isSeparator b := by
  induction s with
  | nil => simp [escape]
  | cons c s ih =>
    intro b hb
    simp only [escape, List.mem_append] at hb
    rcases hb with hb | hb
    · unfold escapeByte at hb
      repeat' split at hb
      all_goals simp at hb
      all_goals (try rcases hb with hb | hb) <;> subst_vars
      all_goals simp_all [Spec.isSeparator]
    · exact ih b hb

example : (∀ b ∈ psiQuotations, ¬ Spec.isSeparator b) := by
  intro b hb; simp [psiQuotations] at hb; subst hb; simp [Spec.isSeparator]

/-- **C16** quoted text is empty only for the empty text (a column never vanishes). -/
theorem C16_nonempty (q s : Str) : escape q s = [] ↔ s = [] := by
  cases s with
  | nil => simp [escape]
  | cons b s =>
    simp only [escape, List.append_eq_nil_iff, reduceCtorEq, iff_false, not_and]
    intro h
    unfold escapeByte at h
    repeat' split at h
    all_goals simp at h

/-! `Escaping::isEscaped` decides exactly "an odd number of backslashes precedes". -/

/-- **C16** `Escaping::isEscaped` (`common/escaping.cpp`) is exactly the parity test. -/
theorem C16_isEscaped_exact (s : Str) (pos : Nat) :
    isEscaped s pos = true ↔ Spec.Escaped s pos := by
  have h := findLast_spec s pos
  unfold isEscaped Spec.Escaped
  by_cases h0 : pos = 0
  · subst h0; simp [Spec.backslashesBefore]
  · simp only [h0, if_false]
    revert h
    cases findLastNotBackslash s pos with
    | none => intro h; simp only at h; rw [h]; simp
    | some l => intro h; simp only at h; rw [h.2]; simp; omega

example : Spec.Escaped [97, 92, 92, 92, 35] 4 ∧ ¬ Spec.Escaped [97, 92, 92, 35] 3 := by
  simp [Spec.Escaped, Spec.backslashesBefore]

/-- **C16** In quoted text every occurrence of `*` and of every additional special
(`#` for PSI files) is escaped, so a reader looking for an unescaped one never finds it. -/
theorem C16_specials_escaped (q : Str) (c : Byte) (hc : c = 42 ∨ c ∈ q)
    (hn : c ≠ 95 ∧ c ≠ 92 ∧ c ≠ 110 ∧ c ≠ 116 ∧ c ≠ 114) (s : Str) (pos : Nat)
    (h : (escape q s)[pos]? = some c) : Spec.Escaped (escape q s) pos := by
  unfold Spec.Escaped
  induction s generalizing pos with
  | nil => simp [escape] at h
  | cons b s ih =>
    simp only [escape] at h ⊢
    by_cases hp : pos < (escapeByte q b).length
    · rw [List.getElem?_append_left hp] at h
      rw [backslashesBefore_append_left _ _ _ (by omega)]
      exact escapeByte_special q c b hc hn pos h
    · rw [List.getElem?_append_right (by omega)] at h
      have := backslashesBefore_append_right (escapeByte q b) (escape q s)
        (pos - (escapeByte q b).length) (escapeByte_even q b)
      rw [Nat.add_sub_cancel' (by omega)] at this
      rw [this]
      exact ih _ h

example : (escape psiQuotations [97, 92, 35])[4]? = some 35 := by decide

/-- **C16** a quoted PSI column never starts with `#` (so never turns its line into a
comment), and the toolkit's own `isEscaped` finds every `#` of it escaped. -/
theorem C16_psi_hash (s : Str) (pos : Nat) (h : (escape psiQuotations s)[pos]? = some 35) :
    0 < pos ∧ isEscaped (escape psiQuotations s) pos = true := by
  have he := C16_specials_escaped psiQuotations 35 (by decide) (by decide) s pos h
  refine ⟨?_, (C16_isEscaped_exact _ _).2 he⟩
  rcases Nat.eq_zero_or_pos pos with h0 | h0
  · subst h0; simp [Spec.Escaped, Spec.backslashesBefore] at he
  · exact h0

/-! ### C17: the bracketing quoter -/

/-- **C17** the bracketing quoter is lossless on every byte string. -/
theorem C17_unescape_escape (s : Str) : brUnescape (brEscape s) = some s := by
  induction s with
  | nil => simp [brEscape, brUnescape]
  | cons b s ih =>
    simp only [brEscape, brEscapeByte]
    repeat' split
    all_goals subst_vars
    all_goals simp [brUnescape.eq_def (_ :: _ :: _), ih]
    rw [brUnescape_lit] <;> simp_all

example : brEscape [97, 10, 92, 9] = [97, 92, 110, 92, 92, 92, 116] := by decide

/-- **C17** hence injective. -/
theorem C17_injective (s t : Str) (h : brEscape s = brEscape t) : s = t := by
  have hs := C17_unescape_escape s
  rw [h, C17_unescape_escape t] at hs
  exact (Option.some.inj hs).symm

/-- **C17** its output is a single line: no newline, carriage return or tab. -/
theorem C17_single_line (s : Str) : ∀ b ∈ brEscape s, b ≠ 10 ∧ b ≠ 13 ∧ b ≠ 9 := by
  induction s with
  | nil => simp [brEscape]
  | cons c s ih =>
    intro b hb
    simp only [brEscape, List.mem_append] at hb
    rcases hb with hb | hb
    · unfold brEscapeByte at hb
      repeat' split at hb
      all_goals simp at hb
      all_goals (try rcases hb with hb | hb) <;> subst_vars
      all_goals simp_all
    · exact ih b hb

/-- **C17** unquoting throws exactly when the text ends in an unescaped backslash,
i.e. when an odd number of backslashes ends it. -/
theorem C17_throws_iff (s : Str) :
    brUnescape s = none ↔ Spec.Escaped s s.length := by
  have key : ∀ n, ∀ s : Str, s.length = n →
      (brUnescape s = none ↔ Spec.backslashesBefore s s.length % 2 = 1) := by
    intro n
    induction n using Nat.strongRecOn with
    | _ n ih =>
      intro s hn
      match s with
      | [] => simp [brUnescape, Spec.backslashesBefore]
      | b :: s =>
        by_cases h : b = 92
        · subst h
          match s with
          | [] => rw [brUnescape.eq_def]; simp [Spec.backslashesBefore]
          | c :: s =>
            have hs := ih s.length (by simp at hn; omega) s rfl
            have := backslashesBefore_append_right [92, c] s s.length
            have e : brUnescape (92 :: c :: s) = none ↔ brUnescape s = none := by
              rw [brUnescape.eq_def]
              simp
              repeat' split
              all_goals simp
            rw [e, hs]
            by_cases hc : c = 92
            · subst hc
              have := this (by simp [Spec.backslashesBefore])
              simp only [List.length_cons, List.length_nil, List.cons_append, List.nil_append,
                Nat.zero_add] at this ⊢
              rw [show s.length + 1 + 1 = 1 + 1 + s.length by omega, this]
            · have := this (by simp [Spec.backslashesBefore, hc])
              simp only [List.length_cons, List.length_nil, List.cons_append, List.nil_append,
                Nat.zero_add] at this ⊢
              rw [show s.length + 1 + 1 = 1 + 1 + s.length by omega, this]
        · have hs := ih s.length (by simp at hn; omega) s rfl
          have := backslashesBefore_append_right [b] s s.length
            (by simp [Spec.backslashesBefore, h])
          rw [brUnescape_lit b s h, Option.map_eq_none_iff, hs]
          simp only [List.length_cons, List.length_nil, List.cons_append, List.nil_append,
                Nat.zero_add] at this ⊢
          rw [show s.length + 1 = 1 + s.length by omega, this]
  exact key _ s rfl

example : brUnescape [97, 92] = none ∧ brUnescape [97, 92, 92] = some [97, 92] := by decide

end Verif.Quoter
