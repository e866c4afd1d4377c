import Verif.Puddle.Ranges
import Verif.Puddle.Spec
import Mathlib.Data.List.InsertIdx
import Mathlib.Data.List.GetD

/-! # Lemmas about the elements of rules -/

namespace Verif.Puddle

open Spec

theorem upTo_zero (l : List Nat) : upTo l 0 = 0 := by simp [upTo]

theorem upTo_cons (n : Nat) (l : List Nat) (e : Nat) : upTo (n :: l) (e + 1) = n + upTo l e := by
  simp [upTo]

theorem upTo_succ {l : List Nat} {e : Nat} (h : e < l.length) : upTo l (e + 1) = upTo l e + l[e] := by
  induction l generalizing e with
  | nil => simp at h
  | cons n l ih =>
    cases e with
    | zero => simp [upTo]
    | succ e =>
      rw [upTo_cons, upTo_cons, ih (by simpa using h)]
      simp; omega

theorem upTo_mono (l : List Nat) {a b : Nat} (h : a ≤ b) : upTo l a ≤ upTo l b := by
  induction l generalizing a b with
  | nil => simp [upTo]
  | cons n l ih =>
    cases a with
    | zero => simp [upTo_zero]
    | succ a =>
      cases b with
      | zero => omega
      | succ b => rw [upTo_cons, upTo_cons]; have := ih (a := a) (b := b) (by omega); omega

/-- The tokens between two borders belong dest the elements between them. -/
theorem between {l : List Nat} {a b p : Nat} (h : a ≤ b) :
    (upTo l a ≤ p ∧ p < upTo l (b + 1)) ↔ ∃ e, a ≤ e ∧ e ≤ b ∧ Belongs l p e := by
  constructor
  · rintro ⟨h1, h2⟩
    induction b with
    | zero =>
      have : a = 0 := by omega
      subst this
      exact ⟨0, Nat.le_refl _, Nat.le_refl _, h1, h2⟩
    | succ b ih =>
      by_cases hp : p < upTo l (b + 1)
      · by_cases hab : a ≤ b
        · obtain ⟨e, he1, he2, he3⟩ := ih hab hp
          exact ⟨e, he1, by omega, he3⟩
        · have : a = b + 1 := by omega
          subst this; omega
      · exact ⟨b + 1, h, Nat.le_refl _, by omega, h2⟩
  · rintro ⟨e, h1, h2, h3, h4⟩
    have := upTo_mono l h1
    have := upTo_mono l (show e + 1 ≤ b + 1 by omega)
    omega

theorem spanLoop_eq (start stop : Nat) (l : List Nat) : ∀ (i rs re : Nat), start ≤ stop + 1 →
    spanLoop start stop i l rs re
      = (rs + upTo l (start - i), re + upTo l (stop + 1 - i)) := by
  induction l with
  | nil => intro i rs re _; simp [spanLoop, upTo]
  | cons n l ih =>
    intro i rs re h
    rw [spanLoop]
    by_cases h1 : i ≤ stop
    · rw [if_pos h1, ih _ _ _ h, show stop + 1 - i = (stop + 1 - (i + 1)) + 1 by omega, upTo_cons]
      by_cases h2 : i < start
      · rw [if_pos h2, show start - i = (start - (i + 1)) + 1 by omega, upTo_cons]
        simp only [Prod.mk.injEq]; omega
      · rw [if_neg h2, show start - i = 0 by omega, show start - (i + 1) = 0 by omega]
        simp [upTo_zero]; try omega
    · rw [if_neg h1, if_neg (show ¬ i < start by omega), show start - i = 0 by omega,
        show stop + 1 - i = 0 by omega]
      simp [upTo_zero]

/-- The sums of a list from an element on. -/
theorem groupLoop_some (start head1 stop : Nat) (hs : start ≤ head1) (hh : head1 ≤ stop) (l : List Nat) :
    ∀ (i rs rh re : Nat), (i ≤ head1 → l.getD (head1 - i) 0 ≠ 0) →
    groupLoop start head1 stop i l rs rh re
      = some (rs + upTo l (start - i), rh + (upTo l (head1 - i) - upTo l (start - i)),
          re + upTo l (stop + 1 - i)) := by
  induction l with
  | nil => intro i rs rh re _; simp [groupLoop, upTo]
  | cons n l ih =>
    intro i rs rh re hl
    rw [groupLoop]
    have hc : ¬ (i = head1 ∧ n = 0) := by
      rintro ⟨rfl, rfl⟩
      exact hl (Nat.le_refl _) (by simp)
    rw [if_neg hc]
    have hl' : i + 1 ≤ head1 → l.getD (head1 - (i + 1)) 0 ≠ 0 := by
      intro h
      have := hl (by omega)
      rwa [show head1 - i = (head1 - (i + 1)) + 1 by omega, List.getD_cons_succ] at this
    by_cases h1 : i ≤ stop
    · rw [if_pos h1, ih _ _ _ _ hl', show stop + 1 - i = (stop + 1 - (i + 1)) + 1 by omega, upTo_cons]
      by_cases h2 : i < start
      · have h3 : ¬ start ≤ i := by omega
        rw [if_pos h2, if_neg h3, show start - i = (start - (i + 1)) + 1 by omega, upTo_cons,
          show head1 - i = (head1 - (i + 1)) + 1 by omega, upTo_cons]
        simp only [Option.some.injEq, Prod.mk.injEq]; omega
      · have h3 : start ≤ i := by omega
        rw [if_neg h2, if_pos h3, show start - i = 0 by omega, show start - (i + 1) = 0 by omega]
        by_cases h4 : i < head1
        · rw [if_pos h4, show head1 - i = (head1 - (i + 1)) + 1 by omega, upTo_cons]
          simp [upTo_zero]; try omega
        · rw [if_neg h4, show head1 - i = 0 by omega, show head1 - (i + 1) = 0 by omega]
          simp [upTo_zero]; try omega
    · have h2 : ¬ i < start := by omega
      have h3 : start ≤ i := by omega
      have h4 : ¬ i < head1 := by omega
      rw [if_neg h1, if_neg h2, if_pos h3, if_neg h4, show start - i = 0 by omega,
        show head1 - i = 0 by omega, show stop + 1 - i = 0 by omega]
      simp [upTo_zero]

theorem groupLoop_none (start head1 stop : Nat) (hh : head1 ≤ stop) (l : List Nat) :
    ∀ (i rs rh re : Nat), i ≤ head1 → head1 < i + l.length → l.getD (head1 - i) 0 = 0 →
    groupLoop start head1 stop i l rs rh re = none := by
  induction l with
  | nil => intro i rs rh re _ h; simp at h; omega
  | cons n l ih =>
    intro i rs rh re h1 h2 h3
    simp only [List.length_cons] at h2
    rw [groupLoop]
    by_cases hi : i = head1
    · subst hi
      rw [if_pos ⟨rfl, by simpa using h3⟩]
    · have hc : ¬ (i = head1 ∧ n = 0) := fun h => hi h.1
      have h4 : i ≤ stop := by omega
      rw [if_neg hc, if_pos h4]
      apply ih _ _ _ _ (by omega) (by omega)
      rwa [show head1 - i = (head1 - (i + 1)) + 1 by omega, List.getD_cons_succ] at h3

theorem pred32_eq {h : Nat} (h1 : 0 < h) (h2 : h < wrap) : pred32 h = h - 1 := by
  unfold pred32 wrap at *; omega

theorem groupParams_eq {sizes : List Nat} {start head stop : Nat} (h1 : start < head)
    (h2 : head ≤ stop + 1) (h3 : stop < sizes.length) (h4 : sizes.length < wrap) :
    groupParams sizes start head stop
      = if sizes.getD (head - 1) 0 = 0 then none
        else some (upTo sizes start, upTo sizes (head - 1) - upTo sizes start,
          (upTo sizes (stop + 1) : Int) - 1) := by
  unfold groupParams
  rw [pred32_eq (by omega) (by omega)]
  by_cases h : sizes.getD (head - 1) 0 = 0
  · rw [if_pos h, groupLoop_none _ _ _ (by omega) _ _ _ _ _ (by omega) (by omega) (by simpa using h)]
  · rw [if_neg h, groupLoop_some _ _ _ (by omega) (by omega) _ _ _ _ _ (fun _ => by simpa using h)]
    simp only [Nat.sub_zero, Nat.zero_add]
    have hl : head - 1 < sizes.length := by omega
    have e := upTo_succ (l := sizes) (e := head - 1) hl
    rw [List.getD_eq_getElem _ _ hl] at h
    have m1 := upTo_mono sizes (show start ≤ head - 1 by omega)
    have m2 := upTo_mono sizes (show head - 1 + 1 ≤ stop + 1 by omega)
    rw [if_neg (by omega)]

theorem beforeLoop_eq {k : Nat} {l : List Nat} (h : k ≤ l.length) : beforeLoop k l = some (upTo l k) := by
  induction l generalizing k with
  | nil =>
    have : k = 0 := by simpa using h
    subst this; simp [beforeLoop, upTo]
  | cons n l ih =>
    cases k with
    | zero => simp [beforeLoop, upTo_zero]
    | succ k => rw [beforeLoop, ih (by simpa using h), upTo_cons]; rfl

theorem testLoop_all {limit last : Nat} : ∀ {acts : List Act} {sizes : List Nat},
    (∀ a ∈ acts, a sizes = true) → testLoop limit last acts sizes = (true, sizes) := by
  intro acts
  induction acts with
  | nil => intro _ _; rfl
  | cons a acts ih =>
    intro sizes h
    rw [testLoop, if_neg (by simp [h a List.mem_cons_self])]
    exact ih fun b hb => h b (List.mem_cons_of_mem _ hb)

theorem testLoop_strict {limit last : Nat} : ∀ {acts : List Act} {sizes : List Nat},
    sizes.getD last 0 ≤ limit →
    ((testLoop limit last acts sizes).1 = true ↔ ∀ a ∈ acts, a sizes = true) := by
  intro acts
  induction acts with
  | nil => intro sizes _; simp [testLoop]
  | cons a acts ih =>
    intro sizes h
    rw [testLoop]
    cases ha : a sizes with
    | true =>
      rw [if_neg (by simp)]
      rw [ih h]
      simp [ha]
    | false =>
      rw [if_pos rfl, if_neg (by omega)]
      simp [ha]

theorem testLoop_sizes {limit last : Nat} (hlim : limit ≤ 1) : ∀ {acts : List Act} {sizes : List Nat},
    (testLoop limit last acts sizes).2.length = sizes.length ∧
    (∀ e, e ≠ last → (testLoop limit last acts sizes).2.getD e 0 = sizes.getD e 0) ∧
    (testLoop limit last acts sizes).2.getD last 0 ≤ sizes.getD last 0 ∧
    (limit ≤ sizes.getD last 0 → limit ≤ (testLoop limit last acts sizes).2.getD last 0) := by
  intro acts
  induction acts with
  | nil => intro sizes; simp [testLoop]
  | cons a acts ih =>
    intro sizes
    rw [testLoop]
    split
    · split
      · rename_i _ hgt
        obtain ⟨h1, h2, h3, h4⟩ := ih (sizes := sizes.set last (sizes.getD last 0 - 1))
        have hl : last < sizes.length := by
          by_contra hc
          rw [List.getD_eq_default _ _ (by omega)] at hgt
          omega
        have e : (sizes.set last (sizes.getD last 0 - 1)).getD last 0 = sizes.getD last 0 - 1 := by
          simp [List.getD_eq_getElem?_getD, hl]
        rw [e] at h3 h4
        refine ⟨by simpa using h1, ?_, by omega, by intro _; apply h4; omega⟩
        intro x hx
        rw [h2 x hx]
        simp [List.getD_eq_getElem?_getD, List.getElem?_set, Ne.symm hx]
      · exact ⟨rfl, fun _ _ => rfl, Nat.le_refl _, fun h => h⟩
    · exact ih

theorem moveRule_eq {α : Type} {rules : List α} {from_ dest : Nat} (h1 : from_ < rules.length)
    (h2 : dest < rules.length) :
    moveRule rules from_ dest
      = some (((rules.eraseIdx from_).take dest) ++ rules[from_] :: (rules.eraseIdx from_).drop dest) := by
  unfold moveRule
  rw [List.getElem?_eq_getElem h1]
  simp only
  rcases Nat.lt_trichotomy dest from_ with h | h | h
  · have a1 : ¬ from_ < dest := by omega
    have a2 : dest + 0 ≤ rules.length := by omega
    rw [if_pos h, if_neg a1, if_pos a2]
    congr 1
    rw [Nat.add_zero, List.eraseIdx_append_of_length_le (by simp; omega)]
    have e : from_ + 1 - (rules.take dest).length = (from_ - dest) + 1 := by simp; omega
    rw [e, List.eraseIdx_cons_succ]
    apply List.ext_getElem?
    intro i
    simp only [List.getElem?_append, List.getElem?_take, List.getElem?_cons, List.getElem?_eraseIdx,
      List.getElem?_drop, List.length_take, List.length_eraseIdx]
    grind
  · subst h
    have a1 : ¬ dest < dest := by omega
    have a2 : dest + 0 ≤ rules.length := by omega
    rw [if_neg a1, if_pos a2]
    congr 1
    apply List.ext_getElem?
    intro i
    simp only [List.getElem?_append, List.getElem?_take, List.getElem?_cons, List.getElem?_eraseIdx,
      List.getElem?_drop, List.length_take, List.length_eraseIdx]
    grind
  · have a1 : ¬ dest < from_ := by omega
    have a2 : dest + 1 ≤ rules.length := by omega
    rw [if_neg a1, if_pos h, if_pos a2]
    congr 1
    apply List.ext_getElem?
    intro i
    simp only [List.getElem?_append, List.getElem?_take, List.getElem?_cons, List.getElem?_eraseIdx,
      List.getElem?_drop, List.length_take, List.length_eraseIdx]
    grind

theorem ruleApply_state {σ : Type} (acts : List (σ → σ × Bool)) (s : σ) (b : Bool) :
    (acts.foldl (fun (r : σ × Bool) a => let q := a r.1; (q.1, if q.2 then true else r.2)) (s, b)).1
      = acts.foldl (fun t a => (a t).1) s := by
  induction acts generalizing s b with
  | nil => rfl
  | cons a acts ih => simp only [List.foldl_cons]; exact ih _ _

theorem ruleApply_answer {σ : Type} (acts : List (σ → σ × Bool)) (s : σ) (b : Bool) :
    (acts.foldl (fun (r : σ × Bool) a => let q := a r.1; (q.1, if q.2 then true else r.2)) (s, b)).2
      = true ↔ b = true ∨ ∃ before a after, acts = before ++ a :: after ∧
        (a (before.foldl (fun t a => (a t).1) s)).2 = true := by
  induction acts generalizing s b with
  | nil => simp
  | cons a acts ih =>
    simp only [List.foldl_cons]
    rw [ih]
    constructor
    · rintro (h | ⟨x, c, y, rfl, h⟩)
      · split at h
        · rename_i h'; exact Or.inr ⟨[], a, acts, rfl, h'⟩
        · exact Or.inl h
      · exact Or.inr ⟨a :: x, c, y, rfl, h⟩
    · rintro (h | ⟨x, c, y, he, h⟩)
      · left; split <;> simp [h]
      · cases x with
        | nil =>
          simp only [List.nil_append, List.cons.injEq] at he
          obtain ⟨rfl, rfl⟩ := he
          left; simp only [List.foldl_nil] at h; rw [if_pos h]
        | cons z x =>
          simp only [List.cons_append, List.cons.injEq] at he
          obtain ⟨rfl, rfl⟩ := he
          exact Or.inr ⟨x, c, y, rfl, h⟩

end Verif.Puddle
