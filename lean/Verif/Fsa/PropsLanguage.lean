import Verif.Fsa.Language
import Verif.Fsa.Spec
import Mathlib.Data.List.Basic

/-!
# C185: the enumeration of the words of an automaton
-/
namespace Verif.Fsa
open Verif Spec

theorem mem_languageRec (a : Fsa) (max : Nat) : ∀ (fuel p : Nat) (w v : List Sym), max + 1 ≤ w.length + fuel →
    (v ∈ a.languageRec max fuel p w ↔ ∃ u, v = w ++ u ∧ Right a p u ∧ v.length ≤ max) := by
  intro fuel
  induction fuel with
  | zero =>
    intro p w v h
    simp only [Fsa.languageRec, List.not_mem_nil, false_iff]
    rintro ⟨u, rfl, _, hl⟩
    simp only [List.length_append] at hl
    omega
  | succ fuel ih =>
    intro p w v h
    rw [Fsa.languageRec]
    split
    · rename_i hw
      simp only [List.not_mem_nil, false_iff]
      rintro ⟨u, rfl, _, hl⟩
      simp only [List.length_append] at hl
      omega
    · rename_i hw
      rw [List.mem_append, List.mem_flatMap]
      constructor
      · rintro (hv | ⟨⟨x, q⟩, hq, hv⟩)
        · split at hv
          · rename_i he
            rw [List.mem_singleton] at hv
            subst hv
            refine ⟨[], by simp, ⟨p, ?_, .nil⟩, by omega⟩
            simpa [Fsa.isEnd] using he
          · simp at hv
        · rw [ih _ _ _ (by simp; omega)] at hv
          obtain ⟨u, rfl, ⟨r, hr, hp⟩, hl⟩ := hv
          exact ⟨x :: u, by simp, ⟨r, hr, .cons hq hp⟩, hl⟩
      · rintro ⟨u, rfl, ⟨r, hr, hp⟩, hl⟩
        cases hp with
        | nil =>
          left
          have : a.isEnd p = true := by simpa [Fsa.isEnd] using hr
          rw [if_pos this]; simp
        | @cons _ x q u _ hq hp =>
          right
          refine ⟨(x, q), hq, ?_⟩
          rw [ih _ _ _ (by simp; omega)]
          exact ⟨u, by simp, ⟨r, hr, hp⟩, hl⟩

/-- The words that are enumerated are just the labels of paths from a start state to an end state of at
most the given length. -/
theorem C185_language (a : Fsa) (max : Nat) (w : List Sym) :
    w ∈ a.language max ↔ Raw a w ∧ w.length ≤ max := by
  unfold Fsa.language Raw
  rw [List.mem_flatMap]
  constructor
  · rintro ⟨p, hp, h⟩
    rw [mem_languageRec _ _ _ _ _ _ (by simp)] at h
    obtain ⟨u, rfl, ⟨q, hq, hpath⟩, hl⟩ := h
    exact ⟨⟨p, hp, q, hq, hpath⟩, hl⟩
  · rintro ⟨⟨p, hp, q, hq, hpath⟩, hl⟩
    refine ⟨p, hp, ?_⟩
    rw [mem_languageRec _ _ _ _ _ _ (by simp)]
    exact ⟨w, rfl, ⟨q, hq, hpath⟩, hl⟩

/-- Without epsilon transitions these are the words that are accepted. -/
theorem C185_accepted_partial (a : Fsa) (he : EpsFree a) (max : Nat) (w : List Sym) :
    w ∈ a.language max ↔ Lang a w ∧ w.length ≤ max := by
  have hf : ∀ r, Raw a r → r.filter (fun x => decide (x ≠ EPS)) = r := by
    rintro r ⟨p, hs, q, hq, hp⟩
    clear hs hq
    induction hp with
    | nil => rfl
    | @cons p x q' w _ hq _ ih =>
      rw [List.filter_cons_of_pos (by simpa using he _ _ _ hq), ih]
  rw [C185_language]
  constructor
  · rintro ⟨h, hl⟩; exact ⟨⟨w, h, hf w h⟩, hl⟩
  · rintro ⟨⟨r, h, hr⟩, hl⟩
    rw [hf r h] at hr
    subst hr
    exact ⟨h, hl⟩

/-- With epsilon transitions the words contain their symbol. -/
theorem C185_accepted_false : ∃ (a : Fsa), Built a ∧ [97] ∉ a.language 5 ∧ Lang a [97] ∧ [97, EPS] ∈ a.language 5 := by
  refine ⟨⟨[[(97, 1)], [(EPS, 2)], []], [0], [2]⟩, ?_, by decide +kernel, ?_, by decide +kernel⟩
  · have h : (⟨[[(97, 1)], [(EPS, 2)], []], [0], [2]⟩ : Fsa) =
        (((((Fsa.empty.addState true).2.addState false).2.addState false).2.addArc 0 (97, 1)).addArc 1
          (EPS, 2)).setEnd 2 := by decide +kernel
    rw [h]
    refine .setEnd (.addArc (.addArc (.addState _ (.addState _ (.addState _ .empty))) ?_ ?_) ?_ ?_) ?_ <;> decide
  · refine ⟨[97, EPS], ⟨0, by simp, 2, by simp, ?_⟩, by decide⟩
    exact .cons (q := 1) (by simp [Fsa.arcs]) (.cons (q := 2) (by simp [Fsa.arcs]) .nil)

theorem append_lt {w u v : List Sym} (h : u < v) : w ++ u < w ++ v := by
  induction w with
  | nil => exact h
  | cons x w ih => exact List.Lex.cons ih

theorem languageRec_prefix (a : Fsa) (max : Nat) : ∀ (fuel p : Nat) (w v : List Sym),
    v ∈ a.languageRec max fuel p w → w <+: v := by
  intro fuel
  induction fuel with
  | zero => intro p w v h; simp [Fsa.languageRec] at h
  | succ fuel ih =>
    intro p w v h
    rw [Fsa.languageRec] at h
    split at h
    · simp at h
    · rw [List.mem_append, List.mem_flatMap] at h
      rcases h with h | ⟨arc, _, h⟩
      · split at h
        · rw [List.mem_singleton] at h; rw [h]; exact List.prefix_rfl
        · simp at h
      · exact (List.prefix_append _ _).trans (ih _ _ _ h)

theorem prefix_lt {w u v : List Sym} {x y : Sym} (hu : w ++ [x] <+: u) (hv : w ++ [y] <+: v) (h : x < y) : u < v := by
  obtain ⟨s, rfl⟩ := hu
  obtain ⟨t, rfl⟩ := hv
  rw [List.append_assoc, List.append_assoc]
  exact append_lt (List.Lex.rel h)

theorem lt_of_arcs {a : Fsa} (hw : Wf a) (hd : Deterministic a) (p : Nat) :
    (a.arcs p).Pairwise (fun x y => x.1 < y.1) := by
  have h := (hw.arcsSorted p).and (hd.2 p)
  refine h.imp ?_
  rintro x y ⟨h1, h2⟩
  simp only [arcLt, symLt, Bool.or_eq_false_iff, decide_eq_false_iff_not, UInt8.not_lt] at h1
  exact UInt8.lt_of_le_of_ne h1.1 h2

theorem languageRec_sorted {a : Fsa} (hw : Wf a) (hd : Deterministic a) (max : Nat) : ∀ (fuel p : Nat) (w : List Sym),
    (a.languageRec max fuel p w).Pairwise (· < ·) := by
  intro fuel
  induction fuel with
  | zero => intro p w; simp [Fsa.languageRec]
  | succ fuel ih =>
    intro p w
    rw [Fsa.languageRec]
    split
    · exact .nil
    · rw [List.pairwise_append]
      refine ⟨?_, ?_, ?_⟩
      · split
        · exact List.pairwise_singleton _ _
        · exact .nil
      · rw [List.pairwise_flatMap]
        refine ⟨fun arc _ => ih _ _, ?_⟩
        refine (lt_of_arcs hw hd p).imp ?_
        intro x y hxy u hu v hv
        exact prefix_lt (languageRec_prefix _ _ _ _ _ _ hu) (languageRec_prefix _ _ _ _ _ _ hv) hxy
      · intro u hu v hv
        split at hu
        · rw [List.mem_singleton] at hu
          subst hu
          obtain ⟨arc, _, hv⟩ := List.mem_flatMap.1 hv
          obtain ⟨s, rfl⟩ := languageRec_prefix _ _ _ _ _ _ hv
          rw [List.append_assoc]
          conv_lhs => rw [← List.append_nil u]
          exact append_lt List.Lex.nil
        · simp at hu

/-- The words of a deterministic automaton are enumerated in their order, each once. -/
theorem C185_sorted {a : Fsa} (hw : Wf a) (hd : Deterministic a) (max : Nat) :
    (a.language max).Pairwise (· < ·) := by
  obtain ⟨s, hs⟩ := hd.1
  unfold Fsa.language
  rw [hs]
  simp only [List.flatMap_cons, List.flatMap_nil, List.append_nil]
  exact languageRec_sorted hw hd max _ _ _

/-- C185: the words of an automaton with a loop, up to three symbols. -/
example : (⟨[[(97, 1), (98, 1)], [(99, 0)]], [0], [1]⟩ : Fsa).language 3 =
    [[97], [97, 99, 97], [97, 99, 98], [98], [98, 99, 97], [98, 99, 98]] := by decide +kernel

/-- C185: that automaton is deterministic and in order. -/
example : Wf ⟨[[(97, 1), (98, 1)], [(99, 0)]], [0], [1]⟩ ∧
    Deterministic ⟨[[(97, 1), (98, 1)], [(99, 0)]], [0], [1]⟩ := by
  have hp : ∀ p : Nat, (p = 0 ∨ p = 1) ∨ 2 ≤ p := by omega
  refine ⟨⟨?_, by decide, by decide, ?_, by decide, by decide⟩, ⟨0, rfl⟩, ?_⟩
  · intro p x q h
    rcases hp p with (rfl | rfl) | hp
    · simp only [Fsa.arcs, List.getD_cons_zero, List.mem_cons, List.not_mem_nil, or_false, Prod.mk.injEq] at h
      rcases h with ⟨_, rfl⟩ | ⟨_, rfl⟩ <;> decide
    · simp only [Fsa.arcs, List.getD_cons_succ, List.getD_cons_zero, List.mem_cons, List.not_mem_nil, or_false, Prod.mk.injEq] at h
      rw [h.2]; decide
    · simp [Fsa.arcs, List.getElem?_eq_none (l := [[((97 : Sym), 1), (98, 1)], [(99, 0)]]) (by simpa using hp)] at h
  · intro p
    rcases hp p with (rfl | rfl) | hp
    · decide
    · decide
    · simp [Fsa.arcs, List.getElem?_eq_none (l := [[((97 : Sym), 1), (98, 1)], [(99, 0)]]) (by simpa using hp)]
  · intro p
    rcases hp p with (rfl | rfl) | hp
    · decide
    · decide
    · simp [Fsa.arcs, List.getElem?_eq_none (l := [[((97 : Sym), 1), (98, 1)], [(99, 0)]]) (by simpa using hp)]

end Verif.Fsa
