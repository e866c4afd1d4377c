import Verif.Srx.Spec

set_option linter.unusedSimpArgs false
set_option linter.unusedVariables false

namespace Verif.Srx
open Verif Utf8

/-! ### Characters -/

theorem symAt_boundary {text : Str} {k : Nat} (h : Boundary text k) (hk : k < text.length) :
    0 < symAt text k ∧ Boundary text (k + symAt text k) ∧ ∀ j, Boundary text j → k < j → k + symAt text k ≤ j := by
  have hb : text[k]? = some text[k] := by simp [hk]
  have hs : symAt text k = sequenceLength text[k] := by simp [symAt, hb]
  have hp : 0 < sequenceLength text[k] := by
    obtain ⟨cs, hcs, e⟩ := h.2.2
    match cs, hcs, e with
    | [], _, e => simp [Spec.encodeAll] at e; omega
    | c :: cs, hcs, e =>
      obtain ⟨b, t, h1, h2, h3, h4⟩ := encode_shape c (scalar_lt (hcs c (by simp)))
      have : (text.drop k)[0]? = some b := by rw [e]; simp [Spec.encodeAll, h1]
      simp [List.getElem?_drop, hk] at this
      rw [this, h4]
      omega
  have e : symAt text k = symbolLength text[k] := by rw [hs, symbolLength, if_pos hp]
  rw [e]
  refine ⟨?_, boundary_step h hb, fun j hj hkj => boundary_gap h hj hkj hb⟩
  rw [symbolLength, if_pos hp]; exact hp

theorem symAt_end (text : Str) : symAt text text.length = 1 := by
  simp [symAt, sequenceLength]

/-- Positions that are boundaries of the text. -/
theorem boundary_le {text : Str} {k : Nat} (h : Boundary text k) : k ≤ text.length := h.1

/-! ### Searching -/

theorem find_some {breaks : Nat → List Nat} {n s b : Nat} (h : find breaks n s = some b) :
    ∃ m, s ≤ m ∧ m ≤ n ∧ (breaks m).head? = some b ∧ ∀ m', s ≤ m' → m' < m → breaks m' = [] := by
  simp only [find] at h
  generalize hc : n + 1 - s = c at h
  have hcn : s + c ≤ n + 1 ∨ c = 0 := by omega
  clear hc
  induction c generalizing s with
  | zero => simp at h
  | succ c ih =>
    simp only [List.range'_succ, List.findSome?_cons] at h
    cases hh : (breaks s).head? with
    | some b' =>
      rw [hh] at h
      refine ⟨s, Nat.le_refl _, by omega, by rw [hh]; simpa using h, fun m' h1 h2 => by omega⟩
    | none =>
      rw [hh] at h
      obtain ⟨m, h1, h2, h3, h4⟩ := ih h (by omega)
      refine ⟨m, by omega, h2, h3, fun m' k1 k2 => ?_⟩
      rcases Nat.lt_or_ge s m' with h5 | h5
      · exact h4 m' h5 k2
      · have : m' = s := by omega
        subst this
        simpa using hh

theorem find_none {breaks : Nat → List Nat} {n s : Nat} (h : find breaks n s = none) :
    ∀ m, s ≤ m → m ≤ n → breaks m = [] := by
  simp only [find, List.findSome?_eq_none_iff, List.mem_range'_1] at h
  intro m h1 h2
  have := h m ⟨h1, by omega⟩
  simpa using this

/-! ### One rule -/

/-- The positions in an application are boundaries. -/
structure AppOk (text : Str) (a : App) : Prop where
  start : Boundary text a.start
  brk : ∀ b, a.brk = some b → Boundary text b

abbrev SaneB (text : Str) (breaks : Nat → List Nat) : Prop :=
  ∀ m, ∀ p ∈ breaks m, m ≤ p ∧ Boundary text m ∧ Boundary text p

theorem mem_of_head? {l : List Nat} {b : Nat} (h : l.head? = some b) : b ∈ l := by
  cases l with
  | nil => simp at h
  | cons a l => simp at h; simp [h]

/-- What the loop keeps, said of any relation kept by its rounds. -/
theorem loop_ok {text : Str} {breaks : Nat → List Nat} (hw : Spec.WellFormed text) (hs : SaneB text breaks) (min : Nat)
    (P : App → Prop)
    (h1 : ∀ a b, P a → AppOk text a → a.start < text.length → tooEarly min a.brk = true → find breaks text.length a.start = some b →
      P ⟨a.start + symAt text a.start, some b⟩)
    (h2 : ∀ a, P a → AppOk text a → a.start < text.length → tooEarly min a.brk = true → find breaks text.length a.start = none →
      P ⟨text.length, none⟩) :
    ∀ fuel a, P a → AppOk text a → text.length - a.start < fuel →
    ∃ a', loop text breaks min fuel a = some a' ∧ P a' ∧ AppOk text a' ∧ (tooEarly min a'.brk = true → text.length ≤ a'.start) := by
  intro fuel
  induction fuel with
  | zero => intro a _ _ h; omega
  | succ fuel ih =>
    intro a hp ha hf
    rw [loop]
    by_cases hc : a.start < text.length ∧ tooEarly min a.brk = true
    · rw [if_pos hc]
      obtain ⟨k1, k2, k3⟩ := symAt_boundary ha.start hc.1
      cases hfind : find breaks text.length a.start with
      | some b =>
        refine ih _ (h1 a b hp ha hc.1 hc.2 hfind) ⟨k2, ?_⟩ ?_
        · intro b' hb'
          simp at hb'; subst hb'
          obtain ⟨m, _, _, hm, _⟩ := find_some hfind
          exact (hs m b (mem_of_head? hm)).2.2
        · simp only; omega
      | none =>
        refine ih _ (h2 a hp ha hc.1 hc.2 hfind) ⟨boundary_length hw, by simp⟩ ?_
        simp only; omega
    · rw [if_neg hc]
      refine ⟨a, rfl, hp, ha, fun ht => ?_⟩
      simp only [not_and] at hc
      exact Nat.le_of_not_lt (fun hlt => hc hlt ht)

/-- The state of a rule, when positions before `lo` are done; with `ex`, that nothing is missed. -/
structure Inv (ex : Prop) (text : Str) (breaks : Nat → List Nat) (lo : Nat) (a : App) : Prop where
  ok : AppOk text a
  here : ∀ b, a.brk = some b → ∃ m, b ∈ breaks m
  past : ex → ∀ m, ∀ p ∈ breaks m, lo ≤ p → p < text.length → m < a.start → a.brk = some p
  future : ex → ∀ m, ∀ p ∈ breaks m, lo ≤ p → p < text.length → a.start ≤ m → ∀ b, a.brk = some b → b ≤ p

theorem Inv.weaken {ex : Prop} {text : Str} {breaks : Nat → List Nat} {lo lo' : Nat} {a : App} (h : Inv ex text breaks lo a) (hl : lo ≤ lo') :
    Inv ex text breaks lo' a :=
  ⟨h.ok, h.here, fun e m p hp h1 => h.past e m p hp (by omega), fun e m p hp h1 => h.future e m p hp (by omega)⟩

theorem Inv.fresh {ex : Prop} {text : Str} {breaks : Nat → List Nat} {lo : Nat} (hw : Spec.WellFormed text) :
    Inv ex text breaks lo App.fresh :=
  ⟨⟨boundary_zero hw, by simp [App.fresh]⟩, by simp [App.fresh], fun _ m p _ _ _ h => by simp [App.fresh] at h,
    fun _ m p _ _ _ _ b h => by simp [App.fresh] at h⟩

theorem Inv.advance {ex : Prop} {text : Str} {breaks : Nat → List Nat} {lo pos : Nat} {a : App} (h : Inv ex text breaks lo a)
    (hl : pos < lo) (hb : Boundary text pos) (hn : ex → ∀ m < pos, ∀ p ∈ breaks m, p ≤ pos) :
    Inv ex text breaks lo { a with start := if a.start < pos then pos else a.start } := by
  by_cases hc : a.start < pos
  · simp only [if_pos hc]
    refine ⟨⟨hb, h.ok.brk⟩, h.here, ?_, ?_⟩
    · intro e m p hp h1 h2 h3
      have := hn e m h3 p hp
      omega
    · intro e m p hp h1 h2 h3
      simp only at h3
      exact h.future e m p hp h1 h2 (by omega)
  · simp only [if_neg hc]
    exact h

structure Update (ex : Prop) (text : Str) (breaks : Nat → List Nat) (min : Nat) (a : App) : Prop where
  inv : Inv ex text breaks min a
  le : ∀ b, a.brk = some b → min ≤ b
  least : ex → ∀ m, ∀ p ∈ breaks m, min ≤ p → p < text.length → ∃ b, a.brk = some b ∧ b ≤ p

theorem update_spec {ex : Prop} {text : Str} {breaks : Nat → List Nat} (hw : Spec.WellFormed text) (hs : SaneB text breaks)
    (h1 : ex → ∀ m, (breaks m).length ≤ 1) (h2 : ex → ∀ m m' p p', m ≤ m' → p ∈ breaks m → p' ∈ breaks m' → p ≤ p')
    {lo min pos fuel : Nat} {a : App} (ha : Inv ex text breaks lo a) (hlo : lo ≤ min) (hpos : pos < min) (hb : Boundary text pos)
    (hn : ex → ∀ m < pos, ∀ p ∈ breaks m, p ≤ pos) (hf : text.length < fuel) :
    ∃ a', update fuel text breaks min pos a = some a' ∧ Update ex text breaks min a' := by
  have ha' := (ha.weaken hlo).advance hpos hb hn
  have key := loop_ok hw hs min (Inv ex text breaks min) (fun a b => ?_) (fun a => ?_) fuel _ ha' ha'.ok (by omega)
  · obtain ⟨a', e, hi, hok, hx⟩ := key
    have hcase : tooEarly min a'.brk = true ∨ ∃ b, a'.brk = some b ∧ min ≤ b := by
      cases hbk : a'.brk with
      | none => exact Or.inl rfl
      | some b =>
        by_cases hlt : b < min
        · left; simp [tooEarly, hlt]
        · exact Or.inr ⟨b, rfl, by omega⟩
    refine ⟨App.clear min a', by simp [update, e], ?_⟩
    rcases hcase with ht | ⟨b, hb', hge⟩
    · rw [App.clear, if_pos ht]
      have hstart := hx ht
      have hno : ex → ∀ m, ∀ p ∈ breaks m, min ≤ p → p < text.length → False := by
        intro e m p hp k1 k2
        have := hi.past e m p hp k1 k2 (by have := (hs m p hp).1; omega)
        rw [this] at ht
        simp [tooEarly] at ht
        omega
      refine ⟨⟨⟨hi.ok.start, by simp⟩, by simp, ?_, ?_⟩, by simp, ?_⟩
      · intro e m p hp k1 k2; exact (hno e m p hp k1 k2).elim
      · intro e m p hp k1 k2; exact (hno e m p hp k1 k2).elim
      · intro e m p hp k1 k2; exact (hno e m p hp k1 k2).elim
    · have hnt : ¬ tooEarly min a'.brk = true := by rw [hb']; simp [tooEarly]; omega
      rw [App.clear, if_neg hnt]
      refine ⟨hi, ?_, ?_⟩
      · intro b' hb''
        rw [hb'] at hb''; simp at hb''; omega
      · intro e m p hp k1 k2
        rcases Nat.lt_or_ge m a'.start with hlt | hge'
        · exact ⟨p, hi.past e m p hp k1 k2 hlt, Nat.le_refl _⟩
        · exact ⟨b, hb', hi.future e m p hp k1 k2 hge' b hb'⟩
  · intro hi hok hlt ht hfind
    obtain ⟨m0, k1, k2, k3, k4⟩ := find_some hfind
    have hm0 := mem_of_head? k3
    obtain ⟨s1, s2, s3⟩ := symAt_boundary hok.start hlt
    refine ⟨⟨s2, ?_⟩, ?_, ?_, ?_⟩
    · intro b' hb'; simp at hb'; subst hb'; exact (hs m0 b hm0).2.2
    · intro b' hb'; simp at hb'; subst hb'; exact ⟨m0, hm0⟩
    · intro e m p hp j1 j2 j3
      simp only at j3
      rcases Nat.lt_or_ge m a.start with hlt' | hge
      · have := hi.past e m p hp j1 j2 hlt'
        rw [this] at ht
        simp [tooEarly] at ht
        omega
      · have hms : m = a.start := by
          rcases Nat.eq_or_lt_of_le hge with h | h
          · exact h.symm
          · have := s3 m (hs m p hp).2.1 h
            omega
        subst hms
        have : m0 = a.start := by
          rcases Nat.eq_or_lt_of_le k1 with h | h
          · exact h.symm
          · have := k4 a.start (Nat.le_refl _) h
            rw [this] at hp
            simp at hp
        subst this
        have hl := h1 e a.start
        cases hbk : breaks a.start with
        | nil => rw [hbk] at hp; simp at hp
        | cons x l =>
          rw [hbk] at hp k3 hl
          simp at hl k3
          subst hl
          simp at hp
          simp [hp, k3]
    · intro e m p hp j1 j2 j3 b' hb'
      simp at hb'; subst hb'
      simp only at j3
      have hm : m0 ≤ m := by
        rcases Nat.lt_or_ge m m0 with h | h
        · have := k4 m (by omega) h
          rw [this] at hp
          simp at hp
        · exact h
      exact h2 e m0 m b p hm hm0 hp
  · intro hi hok hlt ht hfind
    have hnone := find_none hfind
    refine ⟨⟨boundary_length hw, by simp⟩, by simp, ?_, ?_⟩
    · intro e m p hp j1 j2 j3
      exfalso
      rcases Nat.lt_or_ge m a.start with hlt' | hge
      · have := hi.past e m p hp j1 j2 hlt'
        rw [this] at ht
        simp [tooEarly] at ht
        omega
      · have := hnone m hge (by have := (hs m p hp).1; omega)
        rw [this] at hp
        simp at hp
    · simp

end Verif.Srx
