import Verif.EditDistance.Model
import Verif.EditDistance.Spec

/-! Helper lemmas for `Props.lean`: alignments, the recursive distance, and the columns. -/
set_option linter.unusedSectionVars false

namespace Verif.EditDistance
open Spec

variable {α : Type} [DecidableEq α]

/-- An alignment of two strings with its cost. -/
inductive Align : List α → List α → Nat → Prop
  | nil : Align [] [] 0
  | del {x a b n} : Align a b n → Align (x :: a) b (n + 1)
  | ins {y a b n} : Align a b n → Align a (y :: b) (n + 1)
  | keep {x a b n} : Align a b n → Align (x :: a) (x :: b) n
  | sub {x y a b n} : Align a b n → Align (x :: a) (y :: b) (n + 1)

theorem Align.refl (a : List α) : Align a a 0 := by
  induction a with
  | nil => exact .nil
  | cons x a ih => exact .keep ih

theorem Align.append {a b c d : List α} {n m : Nat} (h : Align a b n) (h' : Align c d m) :
    Align (a ++ c) (b ++ d) (n + m) := by
  induction h with
  | nil => simpa using h'
  | del _ ih => rw [Nat.add_right_comm]; exact .del ih
  | ins _ ih => rw [Nat.add_right_comm]; exact .ins ih
  | keep _ ih => exact .keep ih
  | sub _ ih => rw [Nat.add_right_comm]; exact .sub ih

theorem Align.reverse {a b : List α} {n : Nat} (h : Align a b n) :
    Align a.reverse b.reverse n := by
  induction h with
  | nil => exact .nil
  | del _ ih => simpa using ih.append (.del .nil : Align [_] [] 1)
  | ins _ ih => simpa using ih.append (.ins .nil : Align [] [_] 1)
  | keep _ ih => simpa using ih.append (.keep .nil : Align [_] [_] 0)
  | sub _ ih => simpa using ih.append (.sub .nil : Align [_] [_] 1)

theorem Align.symm {a b : List α} {n : Nat} (h : Align a b n) : Align b a n := by
  induction h with
  | nil => exact .nil
  | del _ ih => exact .ins ih
  | ins _ ih => exact .del ih
  | keep _ ih => exact .keep ih
  | sub _ ih => exact .sub ih

/-- Splitting an alignment where the second string is split. -/
theorem Align.split {a : List α} {n : Nat} {p s : List α} (h : Align a (p ++ s) n) :
    ∃ a1 a2 n1 n2, a = a1 ++ a2 ∧ n = n1 + n2 ∧ Align a1 p n1 ∧ Align a2 s n2 := by
  generalize hb : p ++ s = b at h
  induction h generalizing p with
  | nil =>
    simp at hb; obtain ⟨rfl, rfl⟩ := hb
    exact ⟨[], [], 0, 0, rfl, rfl, .nil, .nil⟩
  | @del x a b n h ih =>
    obtain ⟨a1, a2, n1, n2, rfl, rfl, h1, h2⟩ := ih hb
    exact ⟨x :: a1, a2, n1 + 1, n2, rfl, by omega, .del h1, h2⟩
  | @ins y a b n h ih =>
    match p with
    | [] => simp at hb; subst hb; exact ⟨[], a, 0, n + 1, rfl, by omega, .nil, .ins h⟩
    | z :: p =>
      simp at hb; obtain ⟨rfl, hb⟩ := hb
      obtain ⟨a1, a2, n1, n2, rfl, rfl, h1, h2⟩ := ih hb
      exact ⟨a1, a2, n1 + 1, n2, rfl, by omega, .ins h1, h2⟩
  | @keep x a b n h ih =>
    match p with
    | [] => simp at hb; subst hb; exact ⟨[], x :: a, 0, n, rfl, by omega, .nil, .keep h⟩
    | z :: p =>
      simp at hb; obtain ⟨rfl, hb⟩ := hb
      obtain ⟨a1, a2, n1, n2, rfl, rfl, h1, h2⟩ := ih hb
      exact ⟨z :: a1, a2, n1, n2, rfl, by omega, .keep h1, h2⟩
  | @sub x y a b n h ih =>
    match p with
    | [] => simp at hb; subst hb; exact ⟨[], x :: a, 0, n + 1, rfl, by omega, .nil, .sub h⟩
    | z :: p =>
      simp at hb; obtain ⟨rfl, hb⟩ := hb
      obtain ⟨a1, a2, n1, n2, rfl, rfl, h1, h2⟩ := ih hb
      exact ⟨x :: a1, a2, n1 + 1, n2, rfl, by omega, .sub h1, h2⟩

/-- Replacing the first symbol of the second string costs at most one more. -/
theorem Align.replaceHead {a : List α} {x : α} (y : α) {s : List α} {n : Nat}
    (h : Align a (x :: s) n) : ∃ m ≤ n + 1, Align a (y :: s) m := by
  generalize hb : x :: s = b at h
  induction h with
  | nil => simp at hb
  | del _ ih =>
    obtain ⟨m, hm, h⟩ := ih hb
    exact ⟨m + 1, by omega, .del h⟩
  | @ins z a b n h ih =>
    simp at hb; obtain ⟨rfl, rfl⟩ := hb
    exact ⟨n + 1, by omega, .ins h⟩
  | @keep z a b n h ih =>
    simp at hb; obtain ⟨rfl, rfl⟩ := hb
    exact ⟨n + 1, by omega, .sub h⟩
  | @sub z w a b n h ih =>
    simp at hb; obtain ⟨rfl, rfl⟩ := hb
    exact ⟨n + 1, by omega, .sub h⟩

/-- Deleting the first symbol of the second string costs at most one more. -/
theorem Align.deleteHead {a : List α} {x : α} {s : List α} {n : Nat}
    (h : Align a (x :: s) n) : ∃ m ≤ n + 1, Align a s m := by
  generalize hb : x :: s = b at h
  induction h with
  | nil => simp at hb
  | del _ ih =>
    obtain ⟨m, hm, h⟩ := ih hb
    exact ⟨m + 1, by omega, .del h⟩
  | @ins z a b n h ih =>
    simp at hb; obtain ⟨rfl, rfl⟩ := hb
    exact ⟨n, by omega, h⟩
  | @keep z a b n h ih =>
    simp at hb; obtain ⟨rfl, rfl⟩ := hb
    exact ⟨n + 1, by omega, .del h⟩
  | @sub z w a b n h ih =>
    simp at hb; obtain ⟨rfl, rfl⟩ := hb
    exact ⟨n + 1, by omega, .del h⟩

theorem Align.edit {a b c : List α} {n : Nat} (h : Align a b n) (e : Edit b c) :
    ∃ m ≤ n + 1, Align a c m := by
  cases e with
  | insert p s x =>
    obtain ⟨a1, a2, n1, n2, rfl, rfl, h1, h2⟩ := h.split
    exact ⟨n1 + (n2 + 1), by omega, h1.append (.ins h2)⟩
  | delete p s x =>
    obtain ⟨a1, a2, n1, n2, rfl, rfl, h1, h2⟩ := h.split
    obtain ⟨m, hm, h3⟩ := h2.deleteHead
    exact ⟨n1 + m, by omega, h1.append h3⟩
  | replace p s x y =>
    obtain ⟨a1, a2, n1, n2, rfl, rfl, h1, h2⟩ := h.split
    obtain ⟨m, hm, h3⟩ := h2.replaceHead y
    exact ⟨n1 + m, by omega, h1.append h3⟩

theorem align_of_editSeq {a b : List α} {n : Nat} (h : EditSeq n a b) : ∃ m ≤ n, Align a b m := by
  induction h with
  | refl => exact ⟨0, by omega, .refl _⟩
  | step _ e ih =>
    obtain ⟨m, hm, h⟩ := ih
    obtain ⟨k, hk, h⟩ := h.edit e
    exact ⟨k, by omega, h⟩

theorem EditSeq.trans {a b c : List α} {n m : Nat} (h : EditSeq n a b) (h' : EditSeq m b c) :
    EditSeq (n + m) a c := by
  induction h' with
  | refl => exact h
  | step _ e ih => exact .step (ih h) e

theorem EditSeq.cons {a b : List α} {n : Nat} (x : α) (h : EditSeq n a b) :
    EditSeq n (x :: a) (x :: b) := by
  induction h with
  | refl => exact .refl _
  | step _ e ih =>
    refine .step ih ?_
    cases e with
    | insert p s y => exact .insert (x :: p) s y
    | delete p s y => exact .delete (x :: p) s y
    | replace p s y z => exact .replace (x :: p) s y z

theorem editSeq_of_align {a b : List α} {n : Nat} (h : Align a b n) : EditSeq n a b := by
  induction h with
  | nil => exact .refl _
  | @del x a b n _ ih =>
    rw [Nat.add_comm]
    exact EditSeq.trans (.step (.refl _) (.delete [] a x)) ih
  | @ins y a b n _ ih => exact .step ih (.insert [] b y)
  | @keep x a b n _ ih => exact EditSeq.cons x ih
  | @sub x y a b n _ ih => exact .step (EditSeq.cons x ih) (.replace [] b x y)

/-- The recursive distance. -/
def lev : List α → List α → Nat
  | [], b => b.length
  | a, [] => a.length
  | x :: a, y :: b =>
    min (min (1 + lev (x :: a) b) (1 + lev a (y :: b))) (lev a b + if x = y then 0 else 1)
termination_by a b => a.length + b.length

theorem lev_nil_right (a : List α) : lev a [] = a.length := by
  cases a <;> simp [lev]

theorem lev_nil_left (b : List α) : lev [] b = b.length := by
  simp [lev]

theorem align_nil_left (b : List α) : Align [] b b.length := by
  induction b with
  | nil => exact .nil
  | cons y b ih => exact .ins ih

theorem align_lev (a b : List α) : Align a b (lev a b) := by
  fun_induction lev a b with
  | case1 b => exact align_nil_left b
  | case2 a h => exact (align_nil_left a).symm
  | case3 x a y b ih1 ih2 ih3 =>
    by_cases hxy : x = y
    · subst hxy
      simp only [if_true, Nat.add_zero]
      rcases Nat.le_total (min (1 + lev (x :: a) b) (1 + lev a (x :: b))) (lev a b) with h | h
      · rw [Nat.min_eq_left h]
        rcases Nat.le_total (1 + lev (x :: a) b) (1 + lev a (x :: b)) with h' | h'
        · rw [Nat.min_eq_left h', Nat.add_comm]; exact .ins ih1
        · rw [Nat.min_eq_right h', Nat.add_comm]; exact .del ih2
      · rw [Nat.min_eq_right h]; exact .keep ih3
    · simp only [hxy, if_false]
      rcases Nat.le_total (min (1 + lev (x :: a) b) (1 + lev a (y :: b))) (lev a b + 1) with h | h
      · rw [Nat.min_eq_left h]
        rcases Nat.le_total (1 + lev (x :: a) b) (1 + lev a (y :: b)) with h' | h'
        · rw [Nat.min_eq_left h', Nat.add_comm]; exact .ins ih1
        · rw [Nat.min_eq_right h', Nat.add_comm]; exact .del ih2
      · rw [Nat.min_eq_right h]; exact .sub ih3

theorem lev_le_align {a b : List α} {n : Nat} (h : Align a b n) : lev a b ≤ n := by
  induction h with
  | nil => simp [lev]
  | @del x a b n h ih =>
    match b with
    | [] => rw [lev_nil_right] at ih ⊢; simp; omega
    | y :: b => rw [lev]; omega
  | @ins y a b n h ih =>
    match a with
    | [] => rw [lev_nil_left] at ih ⊢; simp; omega
    | x :: a => rw [lev]; omega
  | @keep x a b n h ih => rw [lev]; simp; omega
  | @sub x y a b n h ih => rw [lev]; split <;> omega

theorem lev_reverse (a b : List α) : lev a.reverse b.reverse = lev a b := by
  apply Nat.le_antisymm
  · exact lev_le_align (align_lev a b).reverse
  · have := lev_le_align (align_lev a.reverse b.reverse).reverse
    simpa using this

/-- The column for the reversed prefix `pr` of `s1`, from the reversed prefix `qr` of `s2` on. -/
def colSpec (pr qr : List α) : List α → List Nat
  | [] => [lev pr qr]
  | y :: s2 => lev pr qr :: colSpec pr (y :: qr) s2

theorem colSpec_cons (pr qr : List α) (s2 : List α) :
    ∃ t, colSpec pr qr s2 = lev pr qr :: t := by
  cases s2 <;> exact ⟨_, rfl⟩

theorem fillCol_spec (c : α) (pr qr s2 : List α) :
    lev (c :: pr) qr :: fillCol c (lev (c :: pr) qr) (colSpec pr qr s2) s2
      = colSpec (c :: pr) qr s2 := by
  induction s2 generalizing qr with
  | nil => simp [fillCol, colSpec]
  | cons y s2 ih =>
    obtain ⟨t, ht⟩ := colSpec_cons pr (y :: qr) s2
    simp only [colSpec, ht, fillCol]
    have e : min (min (1 + lev (c :: pr) qr) (1 + lev pr (y :: qr)))
        (lev pr qr + if c = y then 0 else 1) = lev (c :: pr) (y :: qr) := by
      rw [lev]
    rw [e, ← ht, ih]

theorem columns_spec (s1 pr s2 : List α) :
    columns s2 pr.length (colSpec pr [] s2) s1 = colSpec (s1.reverse ++ pr) [] s2 := by
  induction s1 generalizing pr with
  | nil => simp [columns]
  | cons c s1 ih =>
    have h := fillCol_spec c pr [] s2
    rw [lev_nil_right] at h
    have := ih (c :: pr)
    simp only [columns, List.length_cons, List.reverse_cons, List.append_assoc,
      List.cons_append, List.nil_append] at h this ⊢
    rw [h, this]

theorem colSpec_nil (qr s2 : List α) :
    colSpec [] qr s2 = List.range' qr.length (s2.length + 1) := by
  induction s2 generalizing qr with
  | nil => simp [colSpec, lev_nil_left]
  | cons y s2 ih =>
    simp only [colSpec, lev_nil_left, ih, List.length_cons]
    rw [List.range'_succ (n := s2.length + 1)]

theorem colSpec_getD (pr qr s2 : List α) :
    (colSpec pr qr s2).getD s2.length 0 = lev pr (s2.reverse ++ qr) := by
  induction s2 generalizing qr with
  | nil => simp [colSpec]
  | cons y s2 ih =>
    simp only [colSpec, List.length_cons, List.getD_cons_succ, ih]
    simp

theorem levenshteinDistance_eq_lev (a b : List α) : levenshteinDistance a b = lev a b := by
  unfold levenshteinDistance
  have h := columns_spec a [] b
  rw [colSpec_nil] at h
  simp only [List.length_nil, List.append_nil, ← List.range_eq_range'] at h
  rw [h, colSpec_getD]
  simp [lev_reverse]

end Verif.EditDistance
