import Verif.FileSpec.Model
import Verif.FileSpec.Spec

/-! Helper lemmas for `Props.lean`. -/
namespace Verif.FileSpec
open Verif

theorem find_none_iff (pre s : Str) (c : Byte) :
    find (pre ++ s) c pre.length = none ↔ c ∉ s := by
  simp [find, List.findIdx?_eq_none_iff]
  constructor
  · intro h hc; exact h c hc rfl
  · intro h x hx he; subst he; exact h hx

theorem find_append (pre t r : Str) (c : Byte) (ht : c ∉ t) :
    find (pre ++ (t ++ c :: r)) c pre.length = some (pre.length + t.length) := by
  have : (t ++ c :: r).findIdx? (· == c) = some t.length := by
    rw [List.findIdx?_eq_some_iff_getElem]
    refine ⟨by simp, by simp, ?_⟩
    intro j hj
    rw [List.getElem_append_left hj]
    have hm : t[j] ∈ t := List.getElem_mem hj
    simp only [Bool.not_eq_true, beq_eq_false_iff_ne, ne_eq]
    intro he; rw [he] at hm; exact ht hm
  simp [find, this, Nat.add_comm]

/-- Splitting at the first occurrence. -/
theorem split_first (s : Str) (c : Byte) (h : c ∈ s) : ∃ t r, s = t ++ c :: r ∧ c ∉ t := by
  induction s with
  | nil => simp at h
  | cons b s ih =>
    by_cases hb : b = c
    · subst hb; exact ⟨[], s, rfl, by simp⟩
    · have : c ∈ s := by simp at h; rcases h with rfl | h; exact absurd rfl hb; exact h
      obtain ⟨t, r, rfl, ht⟩ := ih this
      exact ⟨b :: t, r, rfl, by simp [ht]; exact fun e => hb e.symm⟩

theorem loop_plain (ps : Params) (pre t : Str) (h : (37 : Byte) ∉ t) :
    loop ps (pre ++ t) pre.length = .ok (pre ++ t) := by
  have := (find_none_iff pre t 37).2 h
  rw [loop]
  split
  · rfl
  · rename_i p hp; simp at hp; rw [this] at hp; simp at hp

theorem loop_single (ps : Params) (pre t r : Str) (h : (37 : Byte) ∉ t) (hr : (37 : Byte) ∉ r) :
    loop ps (pre ++ (t ++ 37 :: r)) pre.length = .error .singlePercent := by
  have h1 := find_append pre t r 37 h
  have h2 := (find_none_iff (pre ++ t ++ [37]) r 37).2 hr
  simp only [List.append_assoc, List.length_append, List.length_cons, List.length_nil,
    List.cons_append, List.nil_append] at h2
  rw [loop]
  split
  · rename_i hp; simp only [B.percent] at hp; rw [h1] at hp; simp at hp
  · rename_i p hp
    simp only [B.percent] at hp
    rw [h1] at hp; simp only [Option.some.injEq] at hp
    subst hp
    split
    · rfl
    · rename_i q hq
      simp only [B.percent] at hq
      rw [show pre.length + t.length + 1 = pre.length + (t.length + (0 + 1)) by omega, h2] at hq
      simp at hq

theorem loop_param (ps : Params) (pre t name r : Str) (h : (37 : Byte) ∉ t)
    (hn : (37 : Byte) ∉ name) :
    loop ps (pre ++ (t ++ 37 :: (name ++ 37 :: r))) pre.length =
      match lookup ps name with
      | none => .error (.unknownParam name)
      | some v => loop ps ((pre ++ t ++ v) ++ r) (pre ++ t ++ v).length := by
  have h1 := find_append pre t (name ++ 37 :: r) 37 h
  have h2 := find_append (pre ++ t ++ [37]) name r 37 hn
  simp only [List.append_assoc, List.length_append, List.length_cons, List.length_nil,
    List.cons_append, List.nil_append] at h2
  rw [loop]
  split
  · rename_i hp; simp only [B.percent] at hp; rw [h1] at hp; simp at hp
  · rename_i p hp
    simp only [B.percent] at hp
    rw [h1] at hp; simp only [Option.some.injEq] at hp
    subst hp
    split
    · rename_i hq
      simp only [B.percent] at hq
      rw [show pre.length + t.length + 1 = pre.length + (t.length + (0 + 1)) by omega, h2] at hq
      simp at hq
    · rename_i q hq
      simp only [B.percent] at hq
      rw [show pre.length + t.length + 1 = pre.length + (t.length + (0 + 1)) by omega, h2] at hq
      simp only [Option.some.injEq] at hq
      subst hq
      have e1 : (List.drop (pre.length + t.length + 1) (pre ++ (t ++ 37 :: (name ++ 37 :: r))))
          = name ++ 37 :: r := by
        rw [show pre ++ (t ++ 37 :: (name ++ 37 :: r)) = (pre ++ t ++ [37]) ++ (name ++ 37 :: r) by simp]
        rw [List.drop_left' (by simp; omega)]
      have e2 : (name ++ 37 :: r).take (pre.length + (t.length + (0 + 1)) + name.length
          - (pre.length + t.length) - 1) = name := by
        rw [List.take_left' (by omega)]
      have e3 : List.drop (pre.length + (t.length + (0 + 1)) + name.length + 1)
          (pre ++ (t ++ 37 :: (name ++ 37 :: r))) = r := by
        rw [show pre ++ (t ++ 37 :: (name ++ 37 :: r)) = (pre ++ t ++ [37] ++ name ++ [37]) ++ r by simp]
        rw [List.drop_left' (by simp; omega)]
      have e4 : List.take (pre.length + t.length) (pre ++ (t ++ 37 :: (name ++ 37 :: r))) = pre ++ t := by
        rw [show pre ++ (t ++ 37 :: (name ++ 37 :: r)) = (pre ++ t) ++ (37 :: (name ++ 37 :: r)) by simp]
        rw [List.take_left' (by simp)]
      dsimp only
      rw [e1, e2, e3, e4]
      cases lookup ps name with
      | none => rfl
      | some v => simp [Nat.add_assoc]

/-- Case analysis of a specification. -/
theorem spec_cases (s : Str) : (37 : Byte) ∉ s ∨ (∃ t r, s = t ++ 37 :: r ∧ (37 : Byte) ∉ t ∧ (37 : Byte) ∉ r) ∨
    (∃ t name r, s = t ++ 37 :: (name ++ 37 :: r) ∧ (37 : Byte) ∉ t ∧ (37 : Byte) ∉ name) := by
  by_cases h : (37 : Byte) ∈ s
  · obtain ⟨t, r, rfl, ht⟩ := split_first s 37 h
    by_cases hr : (37 : Byte) ∈ r
    · obtain ⟨n, r, rfl, hn⟩ := split_first r 37 hr
      exact Or.inr (Or.inr ⟨t, n, r, rfl, ht, hn⟩)
    · exact Or.inr (Or.inl ⟨t, r, rfl, ht, hr⟩)
  · exact Or.inl h

theorem loop_expands (ps : Params) {s out : Str} (h : Spec.Expands (lookup ps) s out) (pre : Str) :
    loop ps (pre ++ s) pre.length = .ok (pre ++ out) := by
  induction h generalizing pre with
  | plain h => exact loop_plain ps pre _ h
  | param ht hn hv _ ih =>
    rw [loop_param ps pre _ _ _ ht hn, hv]
    simp only [ih]
    simp

theorem loop_unknown (ps : Params) {s n : Str} (h : Spec.UnknownName (lookup ps) s n) (pre : Str) :
    loop ps (pre ++ s) pre.length = .error (.unknownParam n) := by
  induction h generalizing pre with
  | here ht hn hv => rw [loop_param ps pre _ _ _ ht hn, hv]
  | later ht hn hv _ ih =>
    rw [loop_param ps pre _ _ _ ht hn, hv]
    simp only [ih]

theorem loop_unbalanced (ps : Params) {s : Str} (h : Spec.Unbalanced (lookup ps) s) (pre : Str) :
    loop ps (pre ++ s) pre.length = .error .singlePercent := by
  induction h generalizing pre with
  | here ht hr => exact loop_single ps pre _ _ ht hr
  | later ht hn hv _ ih =>
    rw [loop_param ps pre _ _ _ ht hn, hv]
    simp only [ih]

/-- Every specification expands, has an unknown name, or is unbalanced. -/
theorem trichotomy (val : Str → Option Str) (s : Str) :
    (∃ out, Spec.Expands val s out) ∨ (∃ n, Spec.UnknownName val s n) ∨ Spec.Unbalanced val s := by
  induction hn : s.length using Nat.strongRecOn generalizing s with
  | _ n ih =>
    subst hn
    rcases spec_cases s with h | ⟨t, r, rfl, ht, hr⟩ | ⟨t, name, r, rfl, ht, hnm⟩
    · exact Or.inl ⟨s, .plain h⟩
    · exact Or.inr (Or.inr (.here ht hr))
    · cases hv : val name with
      | none => exact Or.inr (Or.inl ⟨name, .here ht hnm hv⟩)
      | some v =>
        rcases ih r.length (by simp; omega) r rfl with ⟨out, h⟩ | ⟨bad, h⟩ | h
        · exact Or.inl ⟨_, .param ht hnm hv h⟩
        · exact Or.inr (Or.inl ⟨bad, .later ht hnm hv h⟩)
        · exact Or.inr (Or.inr (.later ht hnm hv h))

end Verif.FileSpec
