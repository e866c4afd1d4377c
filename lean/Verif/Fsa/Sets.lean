import Verif.Fsa.Spec
import Mathlib.Data.List.Basic
import Mathlib.Data.List.Sublists
import Mathlib.Tactic.SplitIfs

/-!
Orders and ordered containers.
-/
set_option linter.unusedVariables false
set_option linter.unusedSimpArgs false

namespace Verif.Fsa
open Verif Verif.Fsa.Spec

/-- A strict total order. -/
structure Order (lt : α → α → Bool) : Prop where
  irrefl : ∀ a, lt a a = false
  trans : ∀ a b c, lt a b = true → lt b c = true → lt a c = true
  tri : ∀ a b, lt a b = false → lt b a = false → a = b

theorem Order.asymm {lt : α → α → Bool} (h : Order lt) {a b : α} (hab : lt a b = true) : lt b a = false := by
  cases hb : lt b a with
  | false => rfl
  | true =>
    have := h.trans a b a hab hb
    rw [h.irrefl] at this; simp at this

theorem natLt_order : Order natLt :=
  ⟨by simp [natLt], by intro a b c; simp only [natLt, decide_eq_true_eq]; omega, by
    intro a b; simp only [natLt, decide_eq_false_iff_not]; omega⟩

theorem symLt_order : Order symLt := by
  refine ⟨?_, ?_, ?_⟩
  · intro a; simp [symLt]
  · intro a b c
    simp only [symLt, decide_eq_true_eq, UInt8.lt_iff_toNat_lt]; omega
  · intro a b
    simp only [symLt, decide_eq_false_iff_not, UInt8.lt_iff_toNat_lt]
    intro h1 h2
    apply UInt8.toNat.inj; omega

theorem pairLt_order {ltA : α → α → Bool} {ltB : β → β → Bool} (hA : Order ltA) (hB : Order ltB) :
    Order (pairLt ltA ltB) := by
  refine ⟨?_, ?_, ?_⟩
  · intro a; simp [pairLt, hA.irrefl, hB.irrefl]
  · intro a b c h1 h2
    simp only [pairLt, Bool.or_eq_true, Bool.and_eq_true, Bool.not_eq_true'] at *
    rcases h1 with h1 | ⟨h1, h1'⟩ <;> rcases h2 with h2 | ⟨h2, h2'⟩
    · exact Or.inl (hA.trans _ _ _ h1 h2)
    · left
      cases hbc : ltA b.1 c.1 with
      | true => exact hA.trans _ _ _ h1 hbc
      | false => have := hA.tri _ _ hbc h2; rw [← this]; exact h1
    · left
      cases hab : ltA a.1 b.1 with
      | true => exact hA.trans _ _ _ hab h2
      | false => have := hA.tri _ _ hab h1; rw [this]; exact h2
    · cases hab : ltA a.1 b.1 with
      | true =>
        cases hbc : ltA b.1 c.1 with
        | true => exact Or.inl (hA.trans _ _ _ hab hbc)
        | false => have := hA.tri _ _ hbc h2; exact Or.inl (this ▸ hab)
      | false =>
        have e1 := hA.tri _ _ hab h1
        right
        rw [e1]
        exact ⟨h2, hB.trans _ _ _ h1' h2'⟩
  · intro a b h1 h2
    simp only [pairLt, Bool.or_eq_false_iff, Bool.and_eq_false_iff, Bool.not_eq_false'] at *
    have e1 := hA.tri _ _ h1.1 h2.1
    rcases h1.2 with h | h
    · rw [h2.1] at h; simp at h
    · rcases h2.2 with h' | h'
      · rw [h1.1] at h'; simp at h'
      · exact Prod.ext e1 (hB.tri _ _ h h')

theorem listLt_order {lt : α → α → Bool} (h : Order lt) : Order (listLt lt) := by
  refine ⟨?_, ?_, ?_⟩
  · intro a
    induction a with
    | nil => rfl
    | cons x a ih => simp [listLt, h.irrefl, ih]
  · intro a
    induction a with
    | nil =>
      intro b c h1 h2
      cases b with
      | nil => simp [listLt] at h1
      | cons y b =>
        cases c with
        | nil => simp [listLt] at h2
        | cons z c => rfl
    | cons x a ih =>
      intro b c h1 h2
      cases b with
      | nil => simp [listLt] at h1
      | cons y b =>
        cases c with
        | nil => simp [listLt] at h2
        | cons z c =>
          simp only [listLt, Bool.or_eq_true, Bool.and_eq_true, Bool.not_eq_true'] at *
          rcases h1 with h1 | ⟨h1, h1'⟩ <;> rcases h2 with h2 | ⟨h2, h2'⟩
          · exact Or.inl (h.trans _ _ _ h1 h2)
          · left
            cases hbc : lt y z with
            | true => exact h.trans _ _ _ h1 hbc
            | false => have := h.tri _ _ hbc h2; rw [← this]; exact h1
          · left
            cases hab : lt x y with
            | true => exact h.trans _ _ _ hab h2
            | false => have := h.tri _ _ hab h1; rw [this]; exact h2
          · cases hab : lt x y with
            | true =>
              cases hbc : lt y z with
              | true => exact Or.inl (h.trans _ _ _ hab hbc)
              | false => have := h.tri _ _ hbc h2; exact Or.inl (this ▸ hab)
            | false =>
              have e1 := h.tri _ _ hab h1
              right
              rw [e1]
              exact ⟨h2, ih _ _ h1' h2'⟩
  · intro a
    induction a with
    | nil =>
      intro b h1 h2
      cases b with
      | nil => rfl
      | cons y b => simp [listLt] at h1
    | cons x a ih =>
      intro b h1 h2
      cases b with
      | nil => simp [listLt] at h2
      | cons y b =>
        simp only [listLt, Bool.or_eq_false_iff, Bool.and_eq_false_iff, Bool.not_eq_false'] at *
        have e1 := h.tri _ _ h1.1 h2.1
        rcases h1.2 with h' | h'
        · rw [h2.1] at h'; simp at h'
        · rcases h2.2 with h'' | h''
          · rw [h1.1] at h''; simp at h''
          · rw [e1, ih _ h' h'']

theorem arcLt_eq {lt : σ → σ → Bool} : arcLt lt = pairLt symLt lt := by
  funext x y
  unfold arcLt pairLt
  cases h : symLt x.1 y.1 with
  | true => simp
  | false =>
    simp only [Bool.false_or]
    congr 1
    rw [Bool.eq_iff_iff]
    simp only [decide_eq_true_eq, Bool.not_eq_true']
    constructor
    · intro e; rw [e]; exact symLt_order.irrefl _
    · intro e; exact symLt_order.tri _ _ h e

theorem arcLt_order {lt : σ → σ → Bool} (h : Order lt) : Order (arcLt lt) := by
  rw [arcLt_eq]; exact pairLt_order symLt_order h

/-! ### Sets -/

theorem mem_insertSet {lt : α → α → Bool} (h : Order lt) {x y : α} {l : List α} :
    y ∈ insertSet lt x l ↔ y = x ∨ y ∈ l := by
  induction l with
  | nil => simp [insertSet]
  | cons z l ih =>
    unfold insertSet
    split
    · simp
    · rename_i h1
      split
      · simp only [List.mem_cons, ih]; tauto
      · rename_i h2
        have := h.tri x z (by simpa using h1) (by simpa using h2)
        subst this
        simp

theorem sorted_insertSet {lt : α → α → Bool} (h : Order lt) {x : α} {l : List α}
    (hl : l.Pairwise (fun a b => lt a b = true)) :
    (insertSet lt x l).Pairwise (fun a b => lt a b = true) := by
  induction l with
  | nil => simp [insertSet]
  | cons z l ih =>
    rw [List.pairwise_cons] at hl
    unfold insertSet
    split
    · rename_i h1
      rw [List.pairwise_cons, List.pairwise_cons]
      refine ⟨?_, hl⟩
      intro y hy
      simp only [List.mem_cons] at hy
      rcases hy with rfl | hy
      · exact h1
      · exact h.trans _ _ _ h1 (hl.1 y hy)
    · split
      · rename_i h2
        rw [List.pairwise_cons]
        refine ⟨?_, ih hl.2⟩
        intro y hy
        rw [mem_insertSet h] at hy
        rcases hy with rfl | hy
        · exact h2
        · exact hl.1 y hy
      · rw [List.pairwise_cons]; exact hl

theorem mem_insertAll {lt : α → α → Bool} (h : Order lt) {y : α} {xs l : List α} :
    y ∈ insertAll lt xs l ↔ y ∈ xs ∨ y ∈ l := by
  unfold insertAll
  induction xs generalizing l with
  | nil => simp
  | cons x xs ih =>
    simp only [List.foldl_cons, ih, mem_insertSet h, List.mem_cons]
    tauto

theorem sorted_insertAll {lt : α → α → Bool} (h : Order lt) {xs l : List α}
    (hl : l.Pairwise (fun a b => lt a b = true)) :
    (insertAll lt xs l).Pairwise (fun a b => lt a b = true) := by
  unfold insertAll
  induction xs generalizing l with
  | nil => exact hl
  | cons x xs ih => exact ih (sorted_insertSet h hl)

theorem sorted_nodup {lt : α → α → Bool} (h : Order lt) {l : List α}
    (hl : l.Pairwise (fun a b => lt a b = true)) : l.Nodup := by
  refine List.Pairwise.imp ?_ hl
  intro a b hab e
  subst e
  rw [h.irrefl] at hab; simp at hab

theorem nat_sorted_iff {l : List Nat} :
    l.Pairwise (fun a b => natLt a b = true) ↔ l.Pairwise (· < ·) := by
  simp only [natLt, decide_eq_true_eq]

theorem mem_insertSorted {lt : α → α → Bool} {x y : α} {l : List α} :
    y ∈ insertSorted lt x l ↔ y = x ∨ y ∈ l := by
  induction l with
  | nil => simp [insertSorted]
  | cons z l ih =>
    unfold insertSorted
    split
    · simp only [List.mem_cons, ih]; tauto
    · simp

theorem sorted_insertSorted {lt : α → α → Bool} (h : Order lt) {x : α} {l : List α}
    (hl : l.Pairwise (fun a b => lt b a = false)) :
    (insertSorted lt x l).Pairwise (fun a b => lt b a = false) := by
  induction l with
  | nil => simp [insertSorted]
  | cons z l ih =>
    rw [List.pairwise_cons] at hl
    unfold insertSorted
    split
    · rename_i h1
      rw [List.pairwise_cons]
      refine ⟨?_, ih hl.2⟩
      intro y hy
      rw [mem_insertSorted] at hy
      rcases hy with rfl | hy
      · exact h.asymm h1
      · exact hl.1 y hy
    · rename_i h1
      rw [List.pairwise_cons, List.pairwise_cons]
      refine ⟨?_, hl⟩
      intro y hy
      simp only [List.mem_cons] at hy
      rcases hy with rfl | hy
      · simpa using h1
      · have h2 := hl.1 y hy
        cases hyx : lt y x with
        | false => rfl
        | true =>
          exfalso
          cases hzx : lt x z with
          | true => have := h.trans _ _ _ hyx hzx; rw [h2] at this; simp at this
          | false =>
            have := h.tri z x (by simpa using h1) hzx
            subst this
            rw [h2] at hyx; simp at hyx

/-! ### Small facts about automata -/

theorem size_addState (a : Fsa) (b : Bool) : (a.addState b).2.size = a.size + 1 := by
  simp [Fsa.addState, Fsa.size]

theorem arcs_addState (a : Fsa) (b : Bool) (p : Nat) : (a.addState b).2.arcs p = a.arcs p := by
  unfold Fsa.arcs Fsa.addState
  simp only [List.getD_eq_getElem?_getD, List.getElem?_append]
  split
  · rfl
  · rename_i h
    rw [List.getElem?_eq_none (l := a.states) (by omega)]
    cases hp : p - a.states.length <;> simp

theorem arcs_out {a : Fsa} {p : Nat} (h : a.size ≤ p) : a.arcs p = [] := by
  unfold Fsa.arcs
  rw [List.getD_eq_getElem?_getD, List.getElem?_eq_none (by exact h)]; rfl

theorem size_addArc (a : Fsa) (p : Nat) (arc : Sym × Nat) : (a.addArc p arc).size = a.size := by
  simp [Fsa.addArc, Fsa.size]

theorem arcs_addArc {a : Fsa} {p : Nat} {arc : Sym × Nat} (q : Nat) (hp : p < a.size) :
    (a.addArc p arc).arcs q =
      if q = p then insertSorted (arcLt natLt) arc (a.arcs p) else a.arcs q := by
  unfold Fsa.addArc
  show (a.states.set p _).getD q [] = _
  rw [List.getD_eq_getElem?_getD, List.getElem?_set]
  split
  · rename_i h; subst h
    rw [if_pos (show p < a.states.length from hp)]; simp
  · rename_i h
    rw [if_neg (fun e => h e.symm)]
    unfold Fsa.arcs
    rw [List.getD_eq_getElem?_getD]

theorem mem_arcs_addArc {a : Fsa} {p : Nat} {arc : Sym × Nat} {q : Nat} {y : Sym × Nat} (hp : p < a.size) :
    y ∈ (a.addArc p arc).arcs q ↔ (q = p ∧ y = arc) ∨ y ∈ a.arcs q := by
  rw [arcs_addArc q hp]
  split
  · rename_i h; subst h; rw [mem_insertSorted]; simp
  · rename_i h; simp [h]

theorem wf_empty : Wf .empty :=
  ⟨by simp [Fsa.empty, Fsa.arcs], by simp [Fsa.empty], by simp [Fsa.empty],
    by simp [Fsa.empty, Fsa.arcs], by simp [Fsa.empty], by simp [Fsa.empty]⟩

theorem wf_addState {a : Fsa} (h : Wf a) (b : Bool) : Wf (a.addState b).2 := by
  refine ⟨?_, ?_, ?_, ?_, ?_, h.endsSorted⟩
  · intro p x q hq
    rw [arcs_addState] at hq; rw [size_addState]
    have := h.dest p x q hq; omega
  · intro p hp
    rw [size_addState]
    simp only [Fsa.addState] at hp
    split at hp
    · rw [mem_insertSet natLt_order] at hp
      rcases hp with rfl | hp
      · omega
      · have := h.start p hp; omega
    · have := h.start p hp; omega
  · intro p hp; rw [size_addState]; have := h.end_ p hp; omega
  · intro p; rw [arcs_addState]; exact h.arcsSorted p
  · simp only [Fsa.addState]
    split
    · rw [← nat_sorted_iff]
      exact sorted_insertSet natLt_order (nat_sorted_iff.2 h.startsSorted)
    · exact h.startsSorted

theorem wf_addArc {a : Fsa} (h : Wf a) {p : Nat} {x : Sym} {q : Nat} (hp : p < a.size) (hq : q < a.size) :
    Wf (a.addArc p (x, q)) := by
  refine ⟨?_, ?_, ?_, ?_, h.startsSorted, h.endsSorted⟩
  · intro p' x' q' hm
    rw [size_addArc]
    rw [mem_arcs_addArc hp] at hm
    rcases hm with ⟨_, e⟩ | hm
    · simp only [Prod.mk.injEq] at e; omega
    · exact h.dest _ _ _ hm
  · intro p' hp'; rw [size_addArc]; exact h.start p' hp'
  · intro p' hp'; rw [size_addArc]; exact h.end_ p' hp'
  · intro p'
    rw [arcs_addArc p' hp]
    split
    · exact sorted_insertSorted (arcLt_order natLt_order) (h.arcsSorted p)
    · exact h.arcsSorted p'

theorem wf_setStart {a : Fsa} (h : Wf a) {p : Nat} (hp : p < a.size) : Wf (a.setStart p) := by
  refine ⟨h.dest, ?_, h.end_, h.arcsSorted, ?_, h.endsSorted⟩
  · intro q hq
    simp only [Fsa.setStart, mem_insertSet natLt_order] at hq
    rcases hq with rfl | hq
    · exact hp
    · exact h.start q hq
  · exact nat_sorted_iff.1 (sorted_insertSet natLt_order (nat_sorted_iff.2 h.startsSorted))

theorem wf_setEnd {a : Fsa} (h : Wf a) {p : Nat} (hp : p < a.size) : Wf (a.setEnd p) := by
  refine ⟨h.dest, h.start, ?_, h.arcsSorted, h.startsSorted, ?_⟩
  · intro q hq
    simp only [Fsa.setEnd, mem_insertSet natLt_order] at hq
    rcases hq with rfl | hq
    · exact hp
    · exact h.end_ q hq
  · exact nat_sorted_iff.1 (sorted_insertSet natLt_order (nat_sorted_iff.2 h.endsSorted))

theorem wf_unsetStart {a : Fsa} (h : Wf a) (p : Nat) : Wf (a.unsetStart p) :=
  ⟨h.dest, fun q hq => h.start q (List.mem_of_mem_filter hq), h.end_, h.arcsSorted,
    h.startsSorted.filter _, h.endsSorted⟩

theorem wf_unsetEnd {a : Fsa} (h : Wf a) (p : Nat) : Wf (a.unsetEnd p) :=
  ⟨h.dest, h.start, fun q hq => h.end_ q (List.mem_of_mem_filter hq), h.arcsSorted,
    h.startsSorted, h.endsSorted.filter _⟩

/-- All automata built by the interface are well-formed. -/
theorem built_wf {a : Fsa} (h : Built a) : Wf a := by
  induction h with
  | empty => exact wf_empty
  | addState b _ ih => exact wf_addState ih b
  | addArc _ hp hq ih => exact wf_addArc ih hp hq
  | setStart _ hp ih => exact wf_setStart ih hp
  | unsetStart _ ih => exact wf_unsetStart ih _
  | setEnd _ hp ih => exact wf_setEnd ih hp
  | unsetEnd _ ih => exact wf_unsetEnd ih _

end Verif.Fsa
