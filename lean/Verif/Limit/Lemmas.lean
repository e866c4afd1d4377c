import Verif.Limit.Model
import Verif.Limit.Spec

/-! Helper lemmas for `Props.lean`. -/
namespace Verif.Limit
open Spec

/-- Sorted by argument. -/
def Sorted (l : List (Int × Int)) : Prop := l.Pairwise (fun x y => x.1 ≤ y.1)

/-- `filter` on a fixed argument is untouched: stability. -/
def SameGroups (l l' : List (Int × Int)) : Prop :=
  ∀ a : Int, l.filter (fun x => x.1 = a) = l'.filter (fun x => x.1 = a)

theorem SameGroups.refl (l : List (Int × Int)) : SameGroups l l := fun _ => rfl

theorem SameGroups.mem {l l' : List (Int × Int)} (h : SameGroups l l') (x : Int × Int) :
    x ∈ l ↔ x ∈ l' := by
  have := h x.1
  have h1 : x ∈ l ↔ x ∈ l.filter (fun y => y.1 = x.1) := by simp
  have h2 : x ∈ l' ↔ x ∈ l'.filter (fun y => y.1 = x.1) := by simp
  rw [h1, h2, this]

theorem insertSpec_mem (x y : Int × Int) (l : List (Int × Int)) :
    y ∈ insertSpec x l ↔ y = x ∨ y ∈ l := by
  induction l with
  | nil => simp [insertSpec]
  | cons z l ih => simp only [insertSpec]; split <;> simp [ih]; grind

theorem insertSpec_sorted (x : Int × Int) (l : List (Int × Int)) (h : Sorted l) :
    Sorted (insertSpec x l) := by
  induction l with
  | nil => simp [insertSpec, Sorted]
  | cons z l ih =>
    simp only [insertSpec]
    have hz := List.pairwise_cons.1 h
    split
    · rename_i hle
      refine List.pairwise_cons.2 ⟨?_, h⟩
      intro y hy; simp at hy; rcases hy with rfl | hy
      · exact hle
      · exact Int.le_trans hle (hz.1 y hy)
    · rename_i hle
      refine List.pairwise_cons.2 ⟨?_, ih hz.2⟩
      intro y hy
      rw [insertSpec_mem] at hy
      rcases hy with rfl | hy
      · omega
      · exact hz.1 y hy

theorem insertSpec_filter (x : Int × Int) (l : List (Int × Int)) (a : Int) :
    (insertSpec x l).filter (fun y => y.1 = a) = (x :: l).filter (fun y => y.1 = a) := by
  induction l with
  | nil => simp [insertSpec]
  | cons z l ih =>
    simp only [insertSpec]
    split
    · rfl
    · rename_i hle
      simp only [List.filter_cons] at ih ⊢
      rw [ih]
      by_cases h1 : z.1 = a <;> by_cases h2 : x.1 = a <;> simp [h1, h2]
      omega

theorem sortSpecs_sorted (l : List (Int × Int)) : Sorted (sortSpecs l) := by
  induction l with
  | nil => simp [sortSpecs, Sorted]
  | cons x l ih => exact insertSpec_sorted x _ ih

theorem sortSpecs_groups (l : List (Int × Int)) : SameGroups (sortSpecs l) l := by
  induction l with
  | nil => exact .refl _
  | cons x l ih =>
    intro a
    simp only [sortSpecs, insertSpec_filter, List.filter_cons]
    rw [ih a]

/-- In a sorted list the first spec not below the argument governs. -/
theorem findSpec_some {l : List (Int × Int)} {argument limit : Int} (hs : Sorted l)
    (h : findSpec argument l = some limit) : ∃ b, Governs l argument b limit := by
  induction l with
  | nil => simp [findSpec] at h
  | cons x l ih =>
    have hz := List.pairwise_cons.1 hs
    simp only [findSpec] at h
    split at h
    · rename_i hge
      simp at h
      refine ⟨x.1, [], l, by simp [← h], hge, ?_, by simp⟩
      intro d hd hda; simp at hd; rcases hd with rfl | hd
      · exact Int.le_refl _
      · exact hz.1 d hd
    · rename_i hlt
      obtain ⟨b, pre, post, rfl, h1, h2, h3⟩ := ih hz.2 h
      refine ⟨b, x :: pre, post, rfl, h1, ?_, ?_⟩
      · intro d hd hda; simp at hd; rcases hd with rfl | hd
        · omega
        · exact h2 d (by simpa using hd) hda
      · intro d hd; simp at hd; rcases hd with rfl | hd
        · omega
        · exact h3 d hd

theorem findSpec_none {l : List (Int × Int)} {argument : Int}
    (h : findSpec argument l = none) : ∀ d ∈ l, d.1 < argument := by
  induction l with
  | nil => simp
  | cons x l ih =>
    simp only [findSpec] at h
    split at h
    · simp at h
    · intro d hd; simp at hd; rcases hd with rfl | hd
      · omega
      · exact ih h d hd

/-- `Governs` only depends on the groups of equal bounds. -/
theorem Governs.congr {l l' : List (Int × Int)} (hg : SameGroups l l') {argument b limit : Int}
    (h : Governs l argument b limit) : Governs l' argument b limit := by
  obtain ⟨pre, post, rfl, h1, h2, h3⟩ := h
  have hf := hg b
  rw [List.filter_append, List.filter_cons] at hf
  have : pre.filter (fun x => x.1 = b) = [] := by
    simp only [List.filter_eq_nil_iff, decide_eq_true_eq]; exact h3
  rw [this] at hf
  simp only [decide_true, if_true, List.nil_append] at hf
  obtain ⟨l1, l2, rfl, hl1, _, _⟩ := List.filter_eq_cons_iff.1 hf.symm
  refine ⟨l1, l2, rfl, h1, ?_, ?_⟩
  · intro d hd hda
    exact h2 d ((hg.mem d).2 hd) hda
  · intro d hd
    simpa using hl1 d hd

/-- The invariant of the object: `ds` are the declarations so far in declaration order. -/
structure Inv (c : Checker) (ds : List (Int × Int)) (absolute : Int) : Prop where
  sorted : c.ready = true → Sorted c.specs
  groups : SameGroups c.specs ds
  abs : c.absoluteLimit = absolute

theorem Sorted.le_last {l : List (Int × Int)} (h : Sorted l) {last : Int × Int}
    (hl : l.getLast? = some last) : ∀ d ∈ l, d.1 ≤ last.1 := by
  intro d hd
  obtain ⟨ys, rfl⟩ := List.getLast?_eq_some_iff.1 hl
  have := List.pairwise_append.1 h
  simp at hd
  rcases hd with hd | rfl
  · exact this.2.2 d hd last (by simp)
  · exact Int.le_refl _

theorem inv_add {c : Checker} {ds : List (Int × Int)} {absolute : Int} (h : Inv c ds absolute)
    (a l : Int) : Inv (addLimitSpec c a l) (ds ++ [(a, l)]) absolute := by
  refine ⟨?_, ?_, h.abs⟩
  · intro hr
    simp only [addLimitSpec] at hr ⊢
    match hl : c.specs.getLast? with
    | none =>
      have : c.specs = [] := by simpa using hl
      simp [this, Sorted]
    | some last =>
      rw [hl] at hr
      simp only at hr
      split at hr
      · simp at hr
      · rename_i hge
        have hs := h.sorted hr
        refine List.pairwise_append.2 ⟨hs, by simp, ?_⟩
        intro x hx y hy
        simp at hy; subst hy
        have := hs.le_last hl x hx
        dsimp only; omega
  · intro b
    simp only [addLimitSpec, List.filter_append]
    rw [h.groups b]

theorem inv_query {c : Checker} {ds : List (Int × Int)} {absolute : Int} (h : Inv c ds absolute)
    (a v : Int) : Inv (isAllowed c a v).2 ds absolute := by
  have : (isAllowed c a v).2 =
      if c.ready then c else { c with specs := sortSpecs c.specs, ready := true } := by
    simp only [isAllowed]; split <;> rfl
  rw [this]
  split
  · exact h
  · refine ⟨fun _ => sortSpecs_sorted _, ?_, h.abs⟩
    intro b
    simp only
    rw [sortSpecs_groups c.specs b, h.groups b]

theorem governs_unique {ds : List (Int × Int)} {a b l b' l' : Int}
    (h : Governs ds a b l) (h' : Governs ds a b' l') : b = b' ∧ l = l' := by
  obtain ⟨pre, post, e, h1, h2, h3⟩ := h
  obtain ⟨pre', post', e', h1', h2', h3'⟩ := h'
  have hb : b = b' := by
    have a1 := h2 (b', l') (by rw [e']; simp) h1'
    have a2 := h2' (b, l) (by rw [e]; simp) h1
    simp only at a1 a2; omega
  subst hb
  refine ⟨rfl, ?_⟩
  rw [e] at e'
  have f : ∀ (p : List (Int × Int)), (∀ d ∈ p, d.1 ≠ b) → ∀ (x : Int) q,
      (p ++ (b, x) :: q).find? (fun d => d.1 = b) = some (b, x) := by
    intro p hp x q
    rw [List.find?_append]
    have : p.find? (fun d => d.1 = b) = none := by
      simp only [List.find?_eq_none, decide_eq_true_eq]; exact hp
    rw [this]; simp
  have f1 := f pre h3 l post
  have f2 := f pre' h3' l' post'
  rw [e', f2] at f1
  simpa using f1.symm

theorem isAllowed_spec {c : Checker} {ds : List (Int × Int)} {absolute : Int}
    (h : Inv c ds absolute) (a v : Int) :
    (isAllowed c a v).1 = true ↔ Allowed ds absolute a v := by
  have hi := inv_query h a v
  have hr : (isAllowed c a v).2.ready = true := by
    simp only [isAllowed]
    by_cases hc : c.ready = true <;> simp only [hc, if_true] <;> split <;> simp_all
  have hs := hi.sorted hr
  have e : (isAllowed c a v).1 = match findSpec a (isAllowed c a v).2.specs with
      | some limit => decide (v ≤ limit)
      | none => decide (v ≤ (isAllowed c a v).2.absoluteLimit) := by
    simp only [isAllowed]
    by_cases hc : c.ready = true <;> simp only [hc, if_true] <;> (split <;> simp_all)
  rw [e]
  match hf : findSpec a (isAllowed c a v).2.specs with
  | some limit =>
    obtain ⟨b, hb⟩ := findSpec_some hs hf
    have hg := Governs.congr hi.groups hb
    simp only [decide_eq_true_eq, Allowed]
    constructor
    · intro hv; exact Or.inl ⟨b, limit, hg, hv⟩
    · rintro (⟨b', l', hg', hv⟩ | ⟨hn, _⟩)
      · rw [(governs_unique hg hg').2]; exact hv
      · obtain ⟨pre, post, e, h1, _⟩ := hg
        have := hn (b, limit) (by rw [e]; simp)
        simp only at this; omega
  | none =>
    have hn := findSpec_none hf
    simp only [decide_eq_true_eq, hi.abs, Allowed]
    constructor
    · intro hv; exact Or.inr ⟨fun d hd => hn d ((hi.groups.mem d).2 hd), hv⟩
    · rintro (⟨b', l', ⟨pre, post, e, h1, _⟩, hv⟩ | ⟨_, hv⟩)
      · have := hn (b', l') ((hi.groups.mem _).2 (by rw [e]; simp))
        simp only at this; omega
      · exact hv

end Verif.Limit
