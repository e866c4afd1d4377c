import Verif.StringFrag.Spec

/-! Helper lemmas for `Props.lean`. -/
set_option linter.unusedVariables false
set_option linter.unusedSimpArgs false

namespace Verif.StringFrag
open Verif

/-- Representation invariant. -/
def Inv (f : Frag) (s : Str) : Prop :=
  (f.begin_ = npos ∧ f.contents = s) ∨
  (f.begin_ ≠ npos ∧ f.own = false ∧ f.begin_ + f.len ≤ f.src.length ∧ f.src.length < npos ∧
    s = (f.src.drop f.begin_).take f.len)

theorem inv_str {f : Frag} {s : Str} (h : Inv f s) : str f = some s := by
  rcases h with ⟨h1, h2⟩ | ⟨h1, _, h2, h3, h4⟩
  · simp [str, Frag.stored, h1, h2]
  · simp [str, Frag.stored, h1, stdSubstr, h4]; omega

theorem inv_stored {f : Frag} {s : Str} (h : Inv f s) (hs : f.stored = true) : f.contents = s := by
  rcases h with ⟨h1, h2⟩ | ⟨h1, _⟩
  · exact h2
  · simp [Frag.stored, h1] at hs

theorem inv_ref {f : Frag} {s : Str} (h : Inv f s) (hs : f.stored = false) :
    f.own = false ∧ f.begin_ + f.len ≤ f.src.length ∧ f.src.length < npos ∧
    s = (f.src.drop f.begin_).take f.len := by
  rcases h with ⟨h1, h2⟩ | ⟨h1, h2⟩
  · simp [Frag.stored, h1] at hs
  · exact h2

theorem not_stored_of_le {f : Frag} {n : Nat} (h : f.begin_ + f.len ≤ n) (h2 : n < npos) :
    f.begin_ ≠ npos := by omega

theorem reach_inv {f : Frag} {s : Str} (h : Reach f s) : Inv f s := by
  have hW : W = npos + 1 := by decide
  induction h with
  | store s => exact Or.inl ⟨rfl, rfl⟩
  | ofText src b l h1 h2 => exact Or.inr ⟨by simp [ofText]; omega, rfl, h1, h2, rfl⟩
  | @ofFrag f s b l _ hs h1 ih =>
    obtain ⟨h2, h3, h4, h5⟩ := inv_ref ih hs
    have hl : s.length = f.len := by rw [h5]; simp; omega
    have hm : (f.begin_ + b) % W = f.begin_ + b := Nat.mod_eq_of_lt (by omega)
    refine Or.inr ⟨?_, rfl, ?_, h4, ?_⟩
    · simp only [ofFrag, hm]; omega
    · simp only [ofFrag, hm]; omega
    · simp only [ofFrag, hm]
      rw [h5, List.drop_take, List.take_take, List.drop_drop]
      congr 1; omega
  | @copy f s _ ih =>
    rcases ih with h | ⟨h1, h2, h3⟩
    · exact Or.inl h
    · exact Or.inr ⟨h1, rfl, h3⟩
  | @append f g h s t _ _ ha hok ihf ihg =>
    have sf := inv_str ihf
    have sg := inv_str ihg
    unfold StringFrag.append at ha
    split at ha
    · rename_i hc
      simp only [Bool.and_eq_true, Bool.not_eq_true', beq_iff_eq] at hc
      obtain ⟨⟨⟨c1, c2⟩, c3⟩, c4⟩ := hc
      obtain ⟨f1, f2, f3, f4⟩ := inv_ref ihf c1
      obtain ⟨g1, g2, g3, g4⟩ := inv_ref ihg c2
      rw [Nat.mod_eq_of_lt (by omega)] at c4
      rw [← c3] at g2 g4
      have hm : (f.len + g.len) % W = f.len + g.len := Nat.mod_eq_of_lt (by omega)
      split at ha
      · simp at ha
      · simp only [Option.some.injEq] at ha; subst ha
        refine Or.inr ⟨?_, f1, ?_, ?_, ?_⟩
        · dsimp only; omega
        · simp only [f1, hm]; simp; omega
        · simp [f1]; exact f3
        · simp only [f1, hm]
          simp only [Bool.false_eq_true, if_false]
          rw [f4, g4, ← c4, List.take_add, List.drop_drop]
    · rename_i hc
      split at ha
      · rename_i he
        simp only [Option.some.injEq] at ha; subst ha
        have hs : s = [] := by
          rcases hok with h | h | h | ⟨h1, h2, h3⟩
          · rw [← inv_stored ihf h]; exact he
          · exact h
          · exact absurd he h
          · by_cases hst : f.stored = true
            · rw [← inv_stored ihf hst]; exact he
            · exfalso
              simp only [Bool.not_eq_true] at hst
              obtain ⟨f1, f2, f3, f4⟩ := inv_ref ihf hst
              apply hc
              rw [h3, h1, h2, hst]
              have : g.begin_ % W = g.begin_ := Nat.mod_eq_of_lt (by omega)
              simp [this]
        subst hs
        simp only [List.nil_append]
        rcases ihg with h | ⟨h1, h2, h3⟩
        · exact Or.inl h
        · exact Or.inr ⟨h1, rfl, h3⟩
      · rw [sf, sg] at ha
        simp only [Option.some.injEq] at ha; subst ha
        exact Or.inl ⟨rfl, rfl⟩
  | @grow f s more _ hs hl ih =>
    obtain ⟨h2, h3, h4, h5⟩ := inv_ref ih hs
    refine Or.inr ⟨?_, h2, ?_, hl, ?_⟩
    · dsimp only; omega
    · dsimp only; simp; omega
    · dsimp only
      rw [List.drop_append_of_le_length (by omega), List.take_append_of_le_length (by simp; omega)]
      exact h5

theorem findIdx_append (a b : Str) (c : Byte) :
    (a ++ b).findIdx? (· == c) =
      match a.findIdx? (· == c) with
      | some i => some i
      | none => (b.findIdx? (· == c)).map (· + a.length) := by
  rw [List.findIdx?_append]
  cases a.findIdx? (· == c) <;> simp [Option.or]

end Verif.StringFrag
