import Verif.Utf8.Lemmas

/-! Character boundaries of well-formed UTF-8: helper lemmas shared by several areas. -/
set_option linter.unusedVariables false
set_option linter.unusedSimpArgs false

namespace Verif.Utf8
open Verif

/-- Splitting `s` at `k` gives two well-formed strings. -/
def Boundary (s : Str) (k : Nat) : Prop :=
  k ≤ s.length ∧ Spec.WellFormed (s.take k) ∧ Spec.WellFormed (s.drop k)

theorem wf_nil : Spec.WellFormed [] := ⟨[], by simp, rfl⟩

theorem wf_append {a b : Str} (ha : Spec.WellFormed a) (hb : Spec.WellFormed b) :
    Spec.WellFormed (a ++ b) := by
  obtain ⟨x, hx, rfl⟩ := ha
  obtain ⟨y, hy, rfl⟩ := hb
  refine ⟨x ++ y, ?_, by simp [Spec.encodeAll]⟩
  intro c hc; simp at hc
  exact hc.elim (hx c) (hy c)

theorem wf_encode {c : Nat} (hc : Spec.Scalar c) : Spec.WellFormed (Spec.encode c) :=
  ⟨[c], by simpa using hc, by simp [Spec.encodeAll]⟩

/-- Case analysis and induction on well-formed strings. -/
theorem wf_induction {P : Str → Prop} (h0 : P [])
    (h1 : ∀ c s, Spec.Scalar c → Spec.WellFormed s → P s → P (Spec.encode c ++ s)) :
    ∀ s, Spec.WellFormed s → P s := by
  rintro s ⟨cs, hcs, rfl⟩
  induction cs with
  | nil => exact h0
  | cons c cs ih =>
    have h2 := fun c hc => hcs c (List.mem_cons_of_mem _ hc)
    have := h1 c (Spec.encodeAll cs) (hcs c (by simp)) ⟨cs, h2, rfl⟩ (ih h2)
    simpa [Spec.encodeAll] using this

theorem boundary_zero {s : Str} (h : Spec.WellFormed s) : Boundary s 0 :=
  ⟨by simp, by simpa using wf_nil, by simpa using h⟩

theorem boundary_length {s : Str} (h : Spec.WellFormed s) : Boundary s s.length :=
  ⟨by simp, by simpa using h, by simpa using wf_nil⟩

theorem boundary_append {a b : Str} (ha : Spec.WellFormed a) {k : Nat} (h : Boundary b k) :
    Boundary (a ++ b) (a.length + k) := by
  obtain ⟨h1, h2, h3⟩ := h
  refine ⟨by simp; omega, ?_, ?_⟩
  · have : (a ++ b).take (a.length + k) = a ++ b.take k := by
      rw [List.take_append, List.take_of_length_le (by omega)]; simp
    rw [this]; exact wf_append ha h2
  · have : (a ++ b).drop (a.length + k) = b.drop k := by
      rw [List.drop_append]; simp
    rw [this]; exact h3

theorem encode_length_le (c : Nat) : (Spec.encode c).length ≤ 4 := by
  unfold Spec.encode; repeat' split
  all_goals simp

theorem encode_length_pos (c : Nat) : 0 < (Spec.encode c).length := by
  unfold Spec.encode; repeat' split
  all_goals simp

/-- The first byte of a well-formed string, and what it says. -/
theorem wf_cons {s : Str} (h : Spec.WellFormed s) (hs : s ≠ []) :
    ∃ b c r, Spec.Scalar c ∧ s = Spec.encode c ++ r ∧ Spec.WellFormed r ∧ s[0]? = some b ∧
      isTrail b = false ∧ symbolLength b = (Spec.encode c).length := by
  obtain ⟨cs, hcs, rfl⟩ := h
  match cs with
  | [] => simp [Spec.encodeAll] at hs
  | c :: cs =>
    have hc := hcs c (by simp)
    obtain ⟨b, t, h1, h2, h3, h4⟩ := encode_shape c (scalar_lt hc)
    refine ⟨b, c, Spec.encodeAll cs, hc, by simp [Spec.encodeAll],
      ⟨cs, fun c hc => hcs c (by simp [hc]), rfl⟩, by simp [Spec.encodeAll, h1], h2, ?_⟩
    simp [symbolLength, h4, h1]

theorem symbolLength_pos (b : Byte) : 0 < symbolLength b := by
  unfold symbolLength; split <;> omega

theorem symbolLength_le (b : Byte) : symbolLength b ≤ 4 := by
  have := seqLen_le b
  unfold symbolLength; split <;> omega

theorem symbolLength_trail {b : Byte} (h : isTrail b = true) : symbolLength b = 1 := by
  rw [isTrail_iff] at h
  have : sequenceLength b = 0 := (seqLen_0 b).2 (Or.inl h)
  simp [symbolLength, this]

/-- A boundary is not before a trail byte. -/
theorem boundary_not_trail {s : Str} {k : Nat} (h : Boundary s k) {b : Byte}
    (hb : s[k]? = some b) : isTrail b = false := by
  obtain ⟨h1, h2, h3⟩ := h
  have hne : s.drop k ≠ [] := by
    intro e; simp at e
    rw [List.getElem?_eq_none (by omega)] at hb; simp at hb
  obtain ⟨b', c, r, _, _, _, h4, h5, _⟩ := wf_cons h3 hne
  simp [List.getElem?_drop] at h4
  rw [hb] at h4; simp at h4; subst h4; exact h5

/-- Stepping over a character from a boundary. -/
theorem boundary_step {s : Str} {k : Nat} (h : Boundary s k) {b : Byte}
    (hb : s[k]? = some b) : Boundary s (k + symbolLength b) := by
  obtain ⟨h1, h2, h3⟩ := h
  have hne : s.drop k ≠ [] := by
    intro e; simp at e
    rw [List.getElem?_eq_none (by omega)] at hb; simp at hb
  obtain ⟨b', c, r, hc, he, hr, h4, h5, h6⟩ := wf_cons h3 hne
  simp [List.getElem?_drop] at h4
  rw [hb] at h4; simp at h4; subst h4
  have hs : s = (s.take k ++ Spec.encode c) ++ r := by
    rw [List.append_assoc, ← he]; simp
  have hlen : (s.take k ++ Spec.encode c).length = k + symbolLength b := by
    simp [h6]; omega
  rw [← hlen]
  have := boundary_append (wf_append h2 (wf_encode hc)) (boundary_zero hr)
  rw [← hs] at this
  simpa using this

/-- From any position, at most three trail bytes before the next boundary. -/
theorem boundary_next (s : Str) (hs : Spec.WellFormed s) (k : Nat) (hk : k < s.length) :
    ∃ j ≤ 3, Boundary s (k + j) ∧ ∀ i < j, ∃ b, s[k + i]? = some b ∧ isTrail b = true := by
  revert k hk
  refine wf_induction (P := fun s => ∀ k, k < s.length → ∃ j ≤ 3, Boundary s (k + j) ∧
    ∀ i < j, ∃ b, s[k + i]? = some b ∧ isTrail b = true) ?_ ?_ s hs
  · intro k hk; simp at hk
  · intro c s hc hs ih k hk
    have hl := encode_length_le c
    have hp := encode_length_pos c
    by_cases h0 : k = 0
    · subst h0
      refine ⟨0, by omega, ?_, by simp⟩
      exact boundary_zero (wf_append (wf_encode hc) hs)
    · by_cases h1 : k < (Spec.encode c).length
      · refine ⟨(Spec.encode c).length - k, by omega, ?_, ?_⟩
        · have := boundary_append (wf_encode hc) (boundary_zero hs)
          have e : k + ((Spec.encode c).length - k) = (Spec.encode c).length + 0 := by omega
          rw [e]; exact this
        · intro i hi
          obtain ⟨b, t, e1, _, e3, _⟩ := encode_shape c (scalar_lt hc)
          have hlt : k + i < (Spec.encode c).length := by omega
          rw [List.getElem?_append_left hlt]
          rw [e1] at hlt ⊢
          obtain ⟨m, hm⟩ : ∃ m, k + i = m + 1 := ⟨k + i - 1, by omega⟩
          rw [hm] at hlt ⊢
          simp at hlt
          refine ⟨t[m], by simp [hlt], e3 _ (by simp)⟩
      · obtain ⟨j, hj, hb, hi⟩ := ih (k - (Spec.encode c).length) (by simp at hk; omega)
        refine ⟨j, hj, ?_, ?_⟩
        · have := boundary_append (wf_encode hc) hb
          have e : k + j = (Spec.encode c).length + (k - (Spec.encode c).length + j) := by omega
          rw [e]; exact this
        · intro i hij
          obtain ⟨b, hb1, hb2⟩ := hi i hij
          refine ⟨b, ?_, hb2⟩
          rw [List.getElem?_append_right (by omega), ← hb1]
          congr 1; omega

/-- A position before a byte that is not a trail byte is a boundary. -/
theorem boundary_of_not_trail {s : Str} (hs : Spec.WellFormed s) {k : Nat} {b : Byte}
    (hb : s[k]? = some b) (ht : isTrail b = false) : Boundary s k := by
  have hk : k < s.length := by
    rcases Nat.lt_or_ge k s.length with h | h
    · exact h
    · rw [List.getElem?_eq_none h] at hb; simp at hb
  obtain ⟨j, hj, h1, h2⟩ := boundary_next s hs k hk
  by_cases h0 : j = 0
  · subst h0; simpa using h1
  · obtain ⟨b', hb', ht'⟩ := h2 0 (by omega)
    simp at hb'; rw [hb] at hb'; simp at hb'; subst hb'; simp [ht] at ht'

/-- Positions between two boundaries cut out well-formed text. -/
theorem wf_between {s : Str} {i j : Nat} (hi : Boundary s i) (hj : Boundary s j) (hij : i ≤ j) :
    Spec.WellFormed ((s.drop i).take (j - i)) := by
  obtain ⟨h1, h2, h3⟩ := hi
  -- the rest from `i` is well-formed; `j - i` is a boundary of it
  by_cases hjl : j = s.length
  · subst hjl
    rw [List.take_of_length_le (by simp)]; exact h3
  · have hjl' : j < s.length := by have := hj.1; omega
    have hget : s[j]? = some s[j] := by simp [hjl']
    have ht := boundary_not_trail hj hget
    have hb : Boundary (s.drop i) (j - i) := by
      apply boundary_of_not_trail h3 (b := s[j]) ?_ ht
      rw [List.getElem?_drop, ← hget]; congr 1; omega
    exact hb.2.1

/-- No boundary inside a character. -/
theorem boundary_gap {s : Str} {i j : Nat} (hi : Boundary s i) (hj : Boundary s j) (hij : i < j)
    {b : Byte} (hb : s[i]? = some b) : i + symbolLength b ≤ j := by
  rcases Nat.lt_or_ge j (i + symbolLength b) with h | h
  · exfalso
    have hstep := (boundary_step hi hb).1
    obtain ⟨h1, h2, h3⟩ := hi
    have hne : s.drop i ≠ [] := by
      intro e; simp at e
      rw [List.getElem?_eq_none (by omega)] at hb; simp at hb
    obtain ⟨b', c, r, hc, he, hr, h4, h5, h6⟩ := wf_cons h3 hne
    simp [List.getElem?_drop] at h4
    rw [hb] at h4; simp at h4; subst h4
    obtain ⟨b2, t, e1, _, e3, _⟩ := encode_shape c (scalar_lt hc)
    have hjl : j < s.length := by omega
    have hget : s[j]? = some s[j] := by simp [hjl]
    have ht := boundary_not_trail hj hget
    have h7 : (s.drop i)[j - i]? = some s[j] := by
      rw [List.getElem?_drop, ← hget]; congr 1; omega
    rw [he, List.getElem?_append_left (by omega), e1] at h7
    obtain ⟨m, hm⟩ : ∃ m, j - i = m + 1 := ⟨j - i - 1, by omega⟩
    rw [hm] at h7
    simp at h7
    have hmem : s[j] ∈ t := List.mem_of_getElem? h7
    have := e3 _ hmem
    simp [ht] at this
  · exact h

end Verif.Utf8
