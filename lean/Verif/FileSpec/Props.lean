import Verif.FileSpec.Lemmas

/-!
Property theorems C26 (parameter substitution in file specifications).
-/
namespace Verif.FileSpec
open Verif

/-- **C26** The result is exactly the expansion: every `%NAME%` of the original specification is
replaced by its value, all else copied, and substituted values are not expanded again. -/
theorem C26_result (ps : Params) (s out : Str) :
    replaceParams ps s = .ok out ↔ Spec.Expands (lookup ps) s out := by
  constructor
  · intro h
    rcases trichotomy (lookup ps) s with ⟨o, he⟩ | ⟨n, hu⟩ | hb
    · have := loop_expands ps he []
      simp only [List.nil_append, List.length_nil] at this
      rw [replaceParams, this] at h
      simp at h; subst h; exact he
    · have := loop_unknown ps hu []
      simp only [List.nil_append, List.length_nil] at this
      rw [replaceParams, this] at h; simp at h
    · have := loop_unbalanced ps hb []
      simp only [List.nil_append, List.length_nil] at this
      rw [replaceParams, this] at h; simp at h
  · intro h
    simpa [replaceParams] using loop_expands ps h []

/-- **C26** an unknown name is reported exactly when the specification has one (the first one is
reported). -/
theorem C26_unknown (ps : Params) (s n : Str) :
    replaceParams ps s = .error (.unknownParam n) ↔ Spec.UnknownName (lookup ps) s n := by
  constructor
  · intro h
    rcases trichotomy (lookup ps) s with ⟨o, he⟩ | ⟨m, hu⟩ | hb
    · have := loop_expands ps he []
      simp only [List.nil_append, List.length_nil] at this
      rw [replaceParams, this] at h; simp at h
    · have := loop_unknown ps hu []
      simp only [List.nil_append, List.length_nil] at this
      rw [replaceParams, this] at h; simp at h; subst h; exact hu
    · have := loop_unbalanced ps hb []
      simp only [List.nil_append, List.length_nil] at this
      rw [replaceParams, this] at h; simp at h
  · intro h
    simpa [replaceParams] using loop_unknown ps h []

/-- **C26** an unbalanced `%` is reported exactly when it is there. -/
theorem C26_unbalanced (ps : Params) (s : Str) :
    replaceParams ps s = .error .singlePercent ↔ Spec.Unbalanced (lookup ps) s := by
  constructor
  · intro h
    rcases trichotomy (lookup ps) s with ⟨o, he⟩ | ⟨m, hu⟩ | hb
    · have := loop_expands ps he []
      simp only [List.nil_append, List.length_nil] at this
      rw [replaceParams, this] at h; simp at h
    · have := loop_unknown ps hu []
      simp only [List.nil_append, List.length_nil] at this
      rw [replaceParams, this] at h; simp at h
    · exact hb
  · intro h
    simpa [replaceParams] using loop_unbalanced ps h []

/-- **C26** a redefined parameter has its newest value, others keep theirs. -/
theorem C26_addParam (ps : Params) (n v m : Str) :
    lookup (addParam ps n v) m = if m = n then some v else lookup ps m := by
  by_cases h : m = n
  · subst h; simp [lookup, addParam]
  · have h' : n ≠ m := fun e => h e.symm
    simp [lookup, addParam, h, List.find?_cons, h']

/-- `%A%/x%B%` with A = "%B%" (not expanded again) and B = "y". -/
example : Spec.Expands (lookup [([65], [37, 66, 37]), ([66], [121])])
    [37, 65, 37, 47, 120, 37, 66, 37] [37, 66, 37, 47, 120, 121] :=
  .param (t := []) (name := [65]) (value := [37, 66, 37]) (rest := [47, 120, 37, 66, 37])
    (out := [47, 120, 121]) (by simp) (by simp) (by rfl)
    (.param (t := [47, 120]) (name := [66]) (value := [121]) (rest := []) (out := [])
      (by simp) (by simp) (by rfl) (.plain (by simp)))

end Verif.FileSpec
