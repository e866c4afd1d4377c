import Verif.Bracket.Spec
import Mathlib.Tactic.Ring
import Mathlib.Tactic.Linarith

/-!
Helper lemmas for Props.lean: the order of brackets at the same places.
-/
set_option linter.unusedSimpArgs false
set_option linter.unusedVariables false
namespace Verif.Bracket
open Verif

theorem madeFrom_iff (l : List Epd) (a b : Nat) :
    madeFrom l a b = true ↔ ∃ x y, l[a]? = some x ∧ l[b]? = some y ∧ MadeFrom y x := by
  unfold madeFrom MadeFrom
  constructor
  · intro h
    split at h
    · rename_i s p hs hp
      obtain ⟨x, hx, hx'⟩ := Option.bind_eq_some_iff.1 hs
      obtain ⟨y, hy, hy'⟩ := Option.bind_eq_some_iff.1 hp
      have : s = p := by simpa using h
      exact ⟨x, y, hx, hy, s, hx', this ▸ hy'⟩
    · cases h
  · rintro ⟨x, y, hx, hy, e, h1, h2⟩
    rw [hx, hy]
    simp [h1, h2]

/-- Places times ranks. -/
def weightFrom (rk : Epd → Nat) : Nat → List Epd → Nat
  | _, [] => 0
  | k, x :: l => k * rk x + weightFrom rk (k + 1) l

theorem weight_set (rk : Epd → Nat) (l : List Epd) (k a : Nat) (x y : Epd) (h : l[a]? = some x) :
    weightFrom rk k (l.set a y) + (k + a) * rk x = weightFrom rk k l + (k + a) * rk y := by
  induction l generalizing k a with
  | nil => simp at h
  | cons z l ih =>
    cases a with
    | zero =>
      simp only [List.getElem?_cons_zero, Option.some.injEq] at h
      subst h
      simp only [List.set_cons_zero, weightFrom, Nat.add_zero]
      omega
    | succ a =>
      simp only [List.getElem?_cons_succ] at h
      have := ih (k + 1) a h
      simp only [List.set_cons_succ, weightFrom]
      have e : k + (a + 1) = k + 1 + a := by omega
      rw [e]
      omega

theorem swapAt_eq {l : List Epd} {a b : Nat} {x y : Epd} (hx : l[a]? = some x) (hy : l[b]? = some y) :
    swapAt l a b = (l.set a y).set b x := by
  unfold swapAt
  rw [hx, hy]

theorem weight_swap (rk : Epd → Nat) {l : List Epd} {a b : Nat} {x y : Epd} (hab : a < b) (hx : l[a]? = some x) (hy : l[b]? = some y)
    (hr : rk x < rk y) : weightFrom rk 0 (swapAt l a b) < weightFrom rk 0 l := by
  rw [swapAt_eq hx hy]
  have h1 := weight_set rk l 0 a x y hx
  have h2 := weight_set rk (l.set a y) 0 b y x (by
    rw [List.getElem?_set_ne (by omega)]; exact hy)
  simp only [Nat.zero_add] at h1 h2
  obtain ⟨u, rfl⟩ := Nat.exists_eq_add_of_lt hab
  obtain ⟨v, hv⟩ := Nat.exists_eq_add_of_lt hr
  rw [hv] at h1 h2
  nlinarith

theorem swapAt_length (l : List Epd) (a b : Nat) : (swapAt l a b).length = l.length := by
  unfold swapAt
  split <;> simp

theorem swapAt_perm (l : List Epd) (a b : Nat) : (swapAt l a b).Perm l := by
  unfold swapAt
  split
  · rename_i x y hx hy
    rw [List.perm_iff_count]
    intro z
    obtain ⟨ha, rfl⟩ := List.getElem?_eq_some_iff.1 hx
    obtain ⟨hb, rfl⟩ := List.getElem?_eq_some_iff.1 hy
    rw [List.count_set (by simpa using hb), List.count_set ha, List.getElem_set]
    have c1 : l[a] = z → 0 < l.count z := fun h => List.count_pos_iff.2 (h ▸ List.getElem_mem ha)
    have c2 : l[b] = z → 0 < l.count z := fun h => List.count_pos_iff.2 (h ▸ List.getElem_mem hb)
    simp only [beq_iff_eq]
    by_cases e1 : l[a] = z <;> by_cases e2 : l[b] = z <;> simp [e1, e2]
    · have := c1 e1; omega
    · have := c1 e1; omega
  · exact List.Perm.refl _

theorem Founded.perm {l l' : List Epd} (rk : Epd → Nat) (hp : l'.Perm l) (h : ∀ x ∈ l, ∀ y ∈ l, MadeFrom y x → rk x < rk y) :
    ∀ x ∈ l', ∀ y ∈ l', MadeFrom y x → rk x < rk y :=
  fun x hx y hy => h x (hp.mem_iff.1 hx) y (hp.mem_iff.1 hy)

theorem arrange_ends (rk : Epd → Nat) (l : List Epd) (a b : Nat) (hab : a < b)
    (h : ∀ x ∈ l, ∀ y ∈ l, MadeFrom y x → rk x < rk y) : ∃ f l', arrange f l a b = some l' ∧ l'.Perm l := by
  by_cases h1 : l.length ≤ a
  · exact ⟨1, l, by rw [arrange, if_pos h1], List.Perm.refl _⟩
  by_cases h2 : l.length ≤ b
  · obtain ⟨f, l', hf, hp⟩ := arrange_ends rk l (a + 1) (a + 2) (by omega) h
    exact ⟨f + 1, l', by rw [arrange, if_neg h1, if_pos h2, hf], hp⟩
  cases h3 : madeFrom l a b with
  | true =>
    obtain ⟨x, y, hx, hy, hm⟩ := (madeFrom_iff l a b).1 h3
    have hlt := weight_swap rk hab hx hy (h x (List.mem_of_getElem? hx) y (List.mem_of_getElem? hy) hm)
    obtain ⟨f, l', hf, hp⟩ := arrange_ends rk (swapAt l a b) 0 2 (by omega) (Founded.perm rk (swapAt_perm l a b) h)
    exact ⟨f + 1, l', by rw [arrange, if_neg h1, if_neg h2, h3, if_pos rfl, hf], hp.trans (swapAt_perm l a b)⟩
  | false =>
    obtain ⟨f, l', hf, hp⟩ := arrange_ends rk l a (b + 1) (by omega) h
    exact ⟨f + 1, l', by rw [arrange, if_neg h1, if_neg h2, h3]; exact hf, hp⟩
termination_by (weightFrom rk 0 l, l.length - a, l.length - b)
decreasing_by
  · exact Prod.Lex.right _ (Prod.Lex.left _ _ (by omega))
  · exact Prod.Lex.right _ (Prod.Lex.right _ (by omega))
  · exact Prod.Lex.left _ _ hlt

/-- Only the first two can be in the wrong order. -/
theorem arrange_ordered (f : Nat) (l : List Epd) (a b : Nat) (l' : List Epd) (h : arrange f l a b = some l')
    (hi : ∀ a' b', a' < b' → (a' < a ∨ (a' = a ∧ b' < b)) → madeFrom l a' b' = true → a' = 0 ∧ b' = 1) :
    ∀ a' b', a' < b' → madeFrom l' a' b' = true → a' = 0 ∧ b' = 1 := by
  induction f generalizing l a b with
  | zero => cases h
  | succ f ih =>
    rw [arrange] at h
    split at h
    · rename_i h1
      injection h with h
      subst h
      intro a' b' hab hm
      refine hi a' b' hab ?_ hm
      obtain ⟨x, y, hx, hy, _⟩ := (madeFrom_iff l a' b').1 hm
      have := (List.getElem?_eq_some_iff.1 hx).1
      omega
    · rename_i h1
      split at h
      · rename_i h2
        refine ih l (a + 1) (a + 2) h ?_
        intro a' b' hab hlt hm
        obtain ⟨x, y, hx, hy, _⟩ := (madeFrom_iff l a' b').1 hm
        have := (List.getElem?_eq_some_iff.1 hy).1
        exact hi a' b' hab (by omega) hm
      · split at h
        · refine ih _ 0 2 h ?_
          intro a' b' hab hlt hm
          omega
        · rename_i h3
          refine ih l a (b + 1) h ?_
          intro a' b' hab hlt hm
          by_cases he : a' = a ∧ b' = b
          · rw [he.1, he.2] at hm
            exact absurd hm h3
          · exact hi a' b' hab (by omega) hm

theorem arrange_perm (f : Nat) (l : List Epd) (a b : Nat) (l' : List Epd) (h : arrange f l a b = some l') : l'.Perm l := by
  induction f generalizing l a b with
  | zero => cases h
  | succ f ih =>
    rw [arrange] at h
    split at h
    · injection h with h
      subst h
      exact List.Perm.refl _
    · split at h
      · exact ih _ _ _ h
      · split at h
        · exact (ih _ _ _ h).trans (swapAt_perm ..)
        · exact ih _ _ _ h

theorem arrange_keep (f : Nat) (l : List Epd) (a b : Nat) (l' : List Epd) (hab : a < b) (h : arrange f l a b = some l')
    (hk : ∀ a' b', a' < b' → madeFrom l a' b' = false) : l' = l := by
  induction f generalizing a b with
  | zero => cases h
  | succ f ih =>
    rw [arrange] at h
    split at h
    · injection h with h
      exact h.symm
    · split at h
      · exact ih (a + 1) (a + 2) (by omega) h
      · split at h
        · rename_i h3
          rw [hk a b hab] at h3
          cases h3
        · exact ih a (b + 1) (by omega) h

/-- More fuel does not change the end. -/
theorem arrange_mono (f : Nat) (l : List Epd) (a b : Nat) (l' : List Epd) (h : arrange f l a b = some l') :
    arrange (f + 1) l a b = some l' := by
  induction f generalizing l a b with
  | zero => cases h
  | succ f ih =>
    rw [arrange] at h
    rw [arrange]
    split at h
    · rename_i h1
      rw [if_pos h1]; exact h
    · rename_i h1
      rw [if_neg h1]
      split at h
      · rename_i h2
        rw [if_pos h2]; exact ih _ _ _ h
      · rename_i h2
        rw [if_neg h2]
        split at h
        · rename_i h3
          rw [if_pos h3]; exact ih _ _ _ h
        · rename_i h3
          rw [if_neg h3]; exact ih _ _ _ h

end Verif.Bracket
