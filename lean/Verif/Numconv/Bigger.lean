import Verif.Numconv.Top
import Mathlib.Tactic.Ring
import Mathlib.Tactic.Linarith

/-!
# Writing numbers in words: lemmas about comparing
-/

namespace Verif.Numconv

open Spec

theorem value_cons (c : Byte) (n : Str) :
    value (c :: n) = (c.toNat - 48) * 10 ^ n.length + value n := by
  rw [← List.singleton_append, value_append]
  simp [value]

theorem whole_eq : ∀ (a b : Str), a.length = b.length →
    (∀ c ∈ a, 48 ≤ c.toNat ∧ c.toNat ≤ 57) → (∀ c ∈ b, 48 ≤ c.toNat ∧ c.toNat ≤ 57) →
    (value b < value a ∧ biggerWhole a b = some true) ∨
    (value a < value b ∧ biggerWhole a b = some false) ∨
    (a = b ∧ biggerWhole a b = none) := by
  intro a
  induction a with
  | nil =>
    intro b h _ _
    have : b = [] := List.length_eq_zero_iff.mp h.symm
    subst this
    exact .inr (.inr ⟨rfl, rfl⟩)
  | cons x a ih =>
    intro b h ha hb
    cases b with
    | nil => simp at h
    | cons y b =>
      simp only [List.length_cons, Nat.add_right_cancel_iff] at h
      have hx := ha x (by simp)
      have hy := hb y (by simp)
      have va := value_lt a (fun c hc => ha c (by simp [hc]))
      have vb := value_lt b (fun c hc => hb c (by simp [hc]))
      rw [value_cons, value_cons]
      rw [h] at va ⊢
      unfold biggerWhole
      by_cases h1 : y.toNat < x.toNat
      · left
        simp only [h1, if_true, and_true]
        have : (y.toNat - 48 + 1) * 10 ^ b.length ≤ (x.toNat - 48) * 10 ^ b.length :=
          Nat.mul_le_mul_right _ (by omega)
        rw [Nat.add_mul] at this
        omega
      · by_cases h2 : x.toNat < y.toNat
        · right; left
          simp only [h1, h2, if_true, if_false, and_true]
          have : (x.toNat - 48 + 1) * 10 ^ b.length ≤ (y.toNat - 48) * 10 ^ b.length :=
            Nat.mul_le_mul_right _ (by omega)
          rw [Nat.add_mul] at this
          omega
        · have e : x = y := UInt8.toNat_inj.mp (by omega)
          subst e
          simp only [h1, if_false]
          rcases ih b h (fun c hc => ha c (by simp [hc])) (fun c hc => hb c (by simp [hc]))
            with ⟨p, q⟩ | ⟨p, q⟩ | ⟨p, q⟩
          · exact .inl ⟨by omega, q⟩
          · exact .inr (.inl ⟨by omega, q⟩)
          · exact .inr (.inr ⟨by rw [p], q⟩)

theorem rest_greater : ∀ (a b : Str), value b * 10 ^ a.length < value a * 10 ^ b.length →
    biggerRest a b = true ∨ b.length < a.length := by
  intro a
  induction a with
  | nil => intro b h; simp [value] at h
  | cons x a ih =>
    intro b h
    cases b with
    | nil => right; simp
    | cons y b =>
      unfold biggerRest
      by_cases h1 : y.toNat < x.toNat
      · left; simp [h1]
      · simp only [h1, if_false, List.length_cons, Nat.add_lt_add_iff_right]
        apply ih
        rw [value_cons, value_cons] at h
        simp only [List.length_cons, Nat.pow_succ] at h
        have h2 : (x.toNat - 48) * (10 ^ a.length * 10 ^ b.length)
            ≤ (y.toNat - 48) * (10 ^ a.length * 10 ^ b.length) :=
          Nat.mul_le_mul_right _ (by omega)
        nlinarith

theorem plain_length {a b : Str} (ha : Plain a) (hb : Plain b) (h : b.length < a.length) :
    value b < value a := by
  obtain ⟨⟨ha0, had⟩, hah⟩ := ha
  have vb := value_lt b hb.1.2
  have hbl := List.length_pos_iff.mpr hb.1.1
  cases a with
  | nil => exact absurd rfl ha0
  | cons c a =>
    have hc := had c (by simp)
    have : c ≠ 48 := by
      rintro rfl
      have := hah rfl
      simp only [List.length_cons] at this h
      omega
    have hc' : c.toNat ≠ 48 := fun e => this (UInt8.toNat_inj.mp (by rw [e]; rfl))
    rw [value_cons]
    simp only [List.length_cons] at h
    have h1 : 10 ^ b.length ≤ 10 ^ a.length := Nat.pow_le_pow_right (by norm_num) (by omega)
    have h2 : 1 * 10 ^ a.length ≤ (c.toNat - 48) * 10 ^ a.length :=
      Nat.mul_le_mul_right _ (by omega)
    omega

/-- What stands from the comma on. -/
def tail? (f : Option Str) : Str :=
  match f with
  | none => []
  | some f => 44 :: f

theorem take_whole {w : Str} (h : Digits w) (f : Option Str) :
    (w ++ tail? f).takeWhile isDigit = w := by
  have hp : ∀ c ∈ w, isDigit c = true := by
    intro c hc
    have := h.2 c hc
    simp [isDigit]
    omega
  rw [List.takeWhile_append_of_pos hp]
  cases f <;> simp [tail?, isDigit]

theorem drop_whole (w : Str) (f : Option Str) :
    (w ++ tail? f).drop (w.length + 1) = f.getD [] := by
  rw [List.drop_append]
  cases f <;> simp [tail?]

theorem bigger_whole {a b : Str} (ha : Plain a) (hb : Plain b) :
    bigger a b = true ↔ value b < value a := by
  have ta := take_whole ha.1 none
  have tb := take_whole hb.1 none
  simp only [tail?, List.append_nil] at ta tb
  unfold bigger
  simp only [ta, tb]
  by_cases h1 : b.length < a.length
  · simp [h1, plain_length ha hb h1]
  · by_cases h2 : a.length < b.length
    · have := plain_length hb ha h2
      simp only [h1, h2, if_true, if_false]
      simp
      omega
    · simp only [h1, h2, if_false]
      have hl : a.length = b.length := by omega
      rcases whole_eq a b hl ha.1.2 hb.1.2 with ⟨p, q⟩ | ⟨p, q⟩ | ⟨p, q⟩
      · simp [q, p]
      · simp [q]; omega
      · subst p; simp [q]

theorem bigger_greater {w0 w1 : Str} {f0 f1 : Option Str} (h0 : Plain w0) (h1 : Plain w1)
    (d0 : ∀ f, f0 = some f → ∀ c ∈ f, 48 ≤ c.toNat ∧ c.toNat ≤ 57)
    (d1 : ∀ f, f1 = some f → ∀ c ∈ f, 48 ≤ c.toNat ∧ c.toNat ≤ 57)
    (hg : Greater w0 (f0.getD []) w1 (f1.getD [])) :
    bigger (w0 ++ tail? f0) (w1 ++ tail? f1) = true := by
  have e0 : ∀ c ∈ f0.getD [], 48 ≤ c.toNat ∧ c.toNat ≤ 57 := by
    cases f0 with
    | none => simp
    | some f => exact d0 f rfl
  have e1 : ∀ c ∈ f1.getD [], 48 ≤ c.toNat ∧ c.toNat ≤ 57 := by
    cases f1 with
    | none => simp
    | some f => exact d1 f rfl
  have v0 := value_lt _ e0
  have v1 := value_lt _ e1
  unfold Greater at hg
  have hle : value w1 ≤ value w0 := by
    by_contra hcon
    have h2 : (value w0 + 1) * 10 ^ (f0.getD []).length ≤ value w1 * 10 ^ (f0.getD []).length :=
      Nat.mul_le_mul_right _ (by omega)
    have h3 : value w0 * 10 ^ (f0.getD []).length + value (f0.getD [])
        ≤ value w1 * 10 ^ (f0.getD []).length := by
      rw [Nat.add_mul] at h2
      omega
    have h4 := Nat.mul_le_mul_right (10 ^ (f1.getD []).length) h3
    have h5 : value w1 * 10 ^ (f0.getD []).length * 10 ^ (f1.getD []).length
        ≤ (value w1 * 10 ^ (f1.getD []).length + value (f1.getD [])) * 10 ^ (f0.getD []).length := by
      rw [Nat.add_mul]
      have : value w1 * 10 ^ (f0.getD []).length * 10 ^ (f1.getD []).length
        = value w1 * 10 ^ (f1.getD []).length * 10 ^ (f0.getD []).length := by ring
      omega
    omega
  unfold bigger
  simp only [take_whole h0.1, take_whole h1.1]
  by_cases l1 : w1.length < w0.length
  · simp [l1]
  · by_cases l2 : w0.length < w1.length
    · have := plain_length h1 h0 l2
      omega
    · simp only [l1, l2, if_false]
      have hl : w0.length = w1.length := by omega
      rcases whole_eq w0 w1 hl h0.1.2 h1.1.2 with ⟨p, q⟩ | ⟨p, q⟩ | ⟨p, q⟩
      · simp [q]
      · omega
      · subst p
        simp only [q]
        have hfrac : value (f1.getD []) * 10 ^ (f0.getD []).length
            < value (f0.getD []) * 10 ^ (f1.getD []).length := by
          rw [Nat.add_mul, Nat.add_mul] at hg
          have : value w0 * 10 ^ (f1.getD []).length * 10 ^ (f0.getD []).length
            = value w0 * 10 ^ (f0.getD []).length * 10 ^ (f1.getD []).length := by ring
          omega
        have hne : ∃ f, f0 = some f := by
          cases f0 with
          | none => simp [value] at hfrac
          | some f => exact ⟨f, rfl⟩
        obtain ⟨f, rfl⟩ := hne
        have hlen : ¬ (w0.length = (w0 ++ tail? (some f)).length ∧
            w0.length = (w0 ++ tail? f1).length) := by
          simp [tail?]
        simp only [hlen, if_false, drop_whole]
        rcases rest_greater _ _ hfrac with h | h
        · rw [if_pos h]
        · split
          · rfl
          · simp only [decide_eq_true_eq, List.length_append, Nat.add_lt_add_iff_left]
            cases f1 <;> simp [tail?] at h ⊢
            exact h

end Verif.Numconv
