import Verif.PathGlob.Lemmas
import Verif.Glob.Props

/-!
Property theorems C23 (path globs).
-/
namespace Verif.PathGlob
open Verif Spec

/-- **C23** For every segment matcher that reads a wildcard-free segment literally and lets `*` match
every name, every glob and every directory tree: the files found are exactly the regular files of
the tree whose path matches the glob, `**` standing for any number of directories. -/
theorem C23_exact {m : Str → Str → Bool}
    (hfix : ∀ g n, Glob.isFixed g = true → (m g n = true ↔ n = g)) (hstar : ∀ n, m [42] n = true)
    {root : Node} (hd : Distinct root) (segs p : List Str) :
    p ∈ allMatchingFiles m segs root ↔ At root p .file ∧ Matches m segs p :=
  mem_allMatchingFiles hfix hstar hd segs p

/-- The matcher used by the code. -/
def segmentMatches (g n : Str) : Bool := Glob.matches g n == some true

theorem segmentMatches_fixed (g n : Str) (h : Glob.isFixed g = true) :
    segmentMatches g n = true ↔ n = g := by
  simp [segmentMatches, Glob.matches, h]

theorem segmentMatches_star (n : Str) : segmentMatches [42] n = true := by
  have h1 : Glob.isFixed [42] = false := by decide
  have h2 : Glob.cstr [42] = [42] := by decide
  simp only [segmentMatches, Glob.matches, h1, h2]
  match Glob.cstr n with
  | [] => rw [Glob.loop1.eq_def]; simp [Glob.finish]
  | c :: s => rw [Glob.loop1.eq_def]; simp; rw [Glob.loop2.eq_def]; simp

/-- **C23** The same for the segment matcher of the code. -/
theorem C23_code {root : Node} (hd : Distinct root) (segs p : List Str) :
    p ∈ allMatchingFiles segmentMatches segs root ↔ At root p .file ∧ Matches segmentMatches segs p :=
  C23_exact segmentMatches_fixed segmentMatches_star hd segs p

/-- **C23** A final `**` finds every file below the directory named by the fixed prefix, and no
other file. -/
theorem C23_all_below {root : Node} (hd : Distinct root) (pre p : List Str)
    (hpre : ∀ g ∈ pre, Glob.isFixed g = true) :
    p ∈ allMatchingFiles segmentMatches (pre ++ [[42, 42]]) root ↔
      At root p .file ∧ ∃ q, q ≠ [] ∧ p = pre ++ q := by
  rw [C23_code hd, matches_fixed segmentMatches_fixed _ _ _ hpre]
  constructor
  · rintro ⟨h1, q, rfl, h2⟩
    exact ⟨h1, q, matches_last h2, rfl⟩
  · rintro ⟨h1, q, hq, rfl⟩
    exact ⟨h1, q, rfl, .final hq⟩

/-- A tree `src/{a.c, sub/b.c}`, and the glob `src/**/?.c`. -/
def exampleTree : Node :=
  .dir (.cons [115, 114, 99]
    (.dir (.cons [97, 46, 99] .file (.cons [115, 117, 98] (.dir (.cons [98, 46, 99] .file .nil)) .nil)))
    .nil)

theorem exampleTree_distinct : Distinct exampleTree := by
  refine .dir ?_ ?_
  · intro n a b h1 h2
    cases h1 with
    | here => cases h2 with
      | here => rfl
      | there h => cases h
    | there h => cases h
  · intro n a h
    cases h with
    | there h => cases h
    | here =>
      refine .dir ?_ ?_
      · intro n a b h1 h2
        cases h1 with
        | here => cases h2 with
          | here => rfl
          | there h => cases h with
            | there h => cases h
        | there h => cases h with
          | here => cases h2 with
            | there h => cases h with
              | here => rfl
              | there h => cases h
          | there h => cases h
      · intro n a h
        cases h with
        | here => exact .file
        | there h =>
          cases h with
          | there h => cases h
          | here =>
            refine .dir ?_ ?_
            · intro n a b h1 h2
              cases h1 with
              | here => cases h2 with
                | here => rfl
                | there h => cases h
              | there h => cases h
            · intro n a h
              cases h with
              | here => exact .file
              | there h => cases h

example : [[115, 114, 99], [115, 117, 98], [98, 46, 99]] ∈
    allMatchingFiles segmentMatches [[115, 114, 99], [42, 42]] exampleTree :=
  (C23_all_below exampleTree_distinct [[115, 114, 99]] _ (by decide)).2
    ⟨.there .here (.there (.there .here) (.there .here .here)), _, by simp, rfl⟩

end Verif.PathGlob
