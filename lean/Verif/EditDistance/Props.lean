import Verif.EditDistance.Lemmas

/-!
Property theorems C24 (edit distance).
-/
namespace Verif.EditDistance
open Spec

variable {α : Type} [DecidableEq α]

/-- **C24** The computed value is the least number of single-symbol edits turning the first
string into the second. -/
theorem C24_is_distance (a b : List α) : IsDistance a b (levenshteinDistance a b) := by
  rw [levenshteinDistance_eq_lev]
  refine ⟨editSeq_of_align (align_lev a b), ?_⟩
  intro n h
  obtain ⟨m, hm, h⟩ := align_of_editSeq h
  exact Nat.le_trans (lev_le_align h) hm

example : levenshteinDistance "kitten".toList "sitting".toList = 3 := by decide +kernel

/-- **C24** distance zero means equality. -/
theorem C24_zero_iff (a b : List α) : levenshteinDistance a b = 0 ↔ a = b := by
  constructor
  · intro h
    have := (C24_is_distance a b).1
    rw [h] at this
    cases this; rfl
  · rintro rfl
    have := (C24_is_distance a a).2 0 (.refl a)
    omega

/-- **C24** symmetry. -/
theorem C24_symm (a b : List α) : levenshteinDistance a b = levenshteinDistance b a := by
  simp only [levenshteinDistance_eq_lev]
  exact Nat.le_antisymm (lev_le_align (align_lev b a).symm) (lev_le_align (align_lev a b).symm)

/-- **C24** triangle inequality. -/
theorem C24_triangle (a b c : List α) :
    levenshteinDistance a c ≤ levenshteinDistance a b + levenshteinDistance b c :=
  (C24_is_distance a c).2 _ (EditSeq.trans (C24_is_distance a b).1 (C24_is_distance b c).1)

/-- **C24 (partial)** the claim "the suggestion is a candidate of minimal distance" is false when
all candidates are at least 99 edits away (see `C24_suggestion_false`). What holds: if some candidate is closer than 99 edits, the suggested string is
the first candidate of minimal distance; otherwise nothing (the empty string) is suggested. -/
theorem C24_most_similar_partial (s : List α) (cs : List (List α)) :
    (∃ pre e post, cs = pre ++ e :: post ∧ findTheMostSimilarString s cs = e ∧
      (∀ c ∈ cs, levenshteinDistance e s ≤ levenshteinDistance c s) ∧
      (∀ c ∈ pre, levenshteinDistance e s < levenshteinDistance c s) ∧
      levenshteinDistance e s < 99) ∨
    (findTheMostSimilarString s cs = [] ∧ ∀ c ∈ cs, 99 ≤ levenshteinDistance c s) := by
  have key : ∀ (cs : List (List α)) (best : List α × Nat),
      (mostSimilarLoop s best cs = best ∧ ∀ c ∈ cs, best.2 ≤ levenshteinDistance c s) ∨
      (∃ pre e post, cs = pre ++ e :: post ∧
        mostSimilarLoop s best cs = (e, levenshteinDistance e s) ∧
        (∀ c ∈ cs, levenshteinDistance e s ≤ levenshteinDistance c s) ∧
        (∀ c ∈ pre, levenshteinDistance e s < levenshteinDistance c s) ∧
        levenshteinDistance e s < best.2) := by
    intro cs
    induction cs with
    | nil => intro best; left; simp [mostSimilarLoop]
    | cons e es ih =>
      intro best
      simp only [mostSimilarLoop]
      split
      · rename_i hlt
        right
        rcases ih (e, levenshteinDistance e s) with ⟨h1, h2⟩ | ⟨pre, e', post, rfl, h1, h2, h3, h4⟩
        · refine ⟨[], e, es, rfl, h1, ?_, by simp, hlt⟩
          intro c hc; simp at hc; rcases hc with rfl | hc
          · exact Nat.le_refl _
          · exact h2 c hc
        · dsimp only at h4
          refine ⟨e :: pre, e', post, rfl, h1, ?_, ?_, by omega⟩
          · intro c hc; simp at hc; rcases hc with rfl | hc
            · omega
            · exact h2 c (by simpa using hc)
          · intro c hc; simp at hc; rcases hc with rfl | hc
            · exact h4
            · exact h3 c hc
      · rename_i hlt
        rcases ih best with ⟨h1, h2⟩ | ⟨pre, e', post, rfl, h1, h2, h3, h4⟩
        · left
          refine ⟨h1, ?_⟩
          intro c hc; simp at hc; rcases hc with rfl | hc
          · omega
          · exact h2 c hc
        · right
          refine ⟨e :: pre, e', post, rfl, h1, ?_, ?_, h4⟩
          · intro c hc; simp at hc; rcases hc with rfl | hc
            · omega
            · exact h2 c (by simpa using hc)
          · intro c hc; simp at hc; rcases hc with rfl | hc
            · omega
            · exact h3 c hc
  unfold findTheMostSimilarString
  rcases key cs ([], 99) with ⟨h1, h2⟩ | ⟨pre, e, post, h, h1, h2, h3, h4⟩
  · right; exact ⟨by rw [h1], h2⟩
  · left; exact ⟨pre, e, post, h, by rw [h1], h2, h3, h4⟩

example : findTheMostSimilarString "tokenzie".toList
    ["tag".toList, "tokenize".toList, "tokenise".toList] = "tokenize".toList := by decide +kernel

/-- **C24 (negation)** with a single candidate that is 99 edits away, the suggestion is the empty
string, which is not a candidate at all. -/
theorem C24_suggestion_false :
    ∃ (s : List Nat) (cs : List (List Nat)), cs ≠ [] ∧ findTheMostSimilarString s cs ∉ cs := by
  refine ⟨[], [List.replicate 99 0], by simp, ?_⟩
  rcases C24_most_similar_partial ([] : List Nat) [List.replicate 99 0] with
    ⟨pre, e, post, h, _, _, _, hlt⟩ | ⟨h, _⟩
  · have he : e = List.replicate 99 0 := by
      have : e ∈ [List.replicate 99 0] := by rw [h]; simp
      simpa using this
    rw [he, levenshteinDistance_eq_lev, lev_nil_right] at hlt
    simp at hlt
  · rw [h]; simp

end Verif.EditDistance
