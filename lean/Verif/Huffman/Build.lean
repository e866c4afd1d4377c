import Verif.Huffman.Codes

/-! The coder built from a complete list of lengths is a valid code table. -/
set_option linter.unusedVariables false
set_option linter.unusedSimpArgs false

namespace Verif.Huffman
open Verif Spec

/-- Share of the Kraft sum of lengths above `l`. -/
def hiSum (D : Nat) (ls : List Nat) (l : Nat) : Nat := (ls.map fun x => if l < x then 2 ^ (D - x) else 0).sum
/-- Share of the Kraft sum of lengths up to `l`. -/
def loSum (D : Nat) (ls : List Nat) (l : Nat) : Nat := (ls.map fun x => if l < x then 0 else 2 ^ (D - x)).sum

theorem hi_lo (D : Nat) (ls : List Nat) (l : Nat) : hiSum D ls l + loSum D ls l = kraft D ls := by
  induction ls with
  | nil => rfl
  | cons a ls ih =>
    simp only [hiSum, loSum, kraft, List.map_cons, List.sum_cons] at *
    by_cases h : l < a
    · simp only [h, if_true]; omega
    · simp only [h, if_false]; omega

theorem lo_dvd (D : Nat) (ls : List Nat) (l : Nat) : 2 ^ (D - l) ∣ loSum D ls l := by
  induction ls with
  | nil => simp [loSum]
  | cons a ls ih =>
    simp only [loSum, List.map_cons, List.sum_cons] at *
    apply Nat.dvd_add _ ih
    split
    · exact Nat.dvd_zero _
    · exact Nat.pow_dvd_pow 2 (by omega)

theorem hi_step (D : Nat) (ls : List Nat) (l : Nat) :
    hiSum D ls l = hiSum D ls (l + 1) + ls.count (l + 1) * 2 ^ (D - (l + 1)) := by
  induction ls with
  | nil => simp [hiSum]
  | cons a ls ih =>
    simp only [hiSum, List.map_cons, List.sum_cons, List.count_cons] at *
    rw [ih]
    by_cases h1 : l + 1 < a
    · have : ¬ a = l + 1 := by omega
      simp [h1, show l < a by omega, this]; omega
    · by_cases h2 : a = l + 1
      · subst h2; simp [Nat.add_mul]; omega
      · simp [h1, h2, show ¬ l < a by omega]

theorem hi_top (D : Nat) (ls : List Nat) (h : ∀ x ∈ ls, x ≤ D) : hiSum D ls D = 0 := by
  induction ls with
  | nil => rfl
  | cons a ls ih =>
    simp only [hiSum, List.map_cons, List.sum_cons] at *
    have := h a (by simp)
    rw [ih (fun x hx => h x (by simp [hx]))]
    simp; omega

theorem lo_zero (D : Nat) (ls : List Nat) (h : ∀ x ∈ ls, 1 ≤ x) : loSum D ls 0 = 0 := by
  induction ls with
  | nil => rfl
  | cons a ls ih =>
    simp only [loSum, List.map_cons, List.sum_cons] at *
    have := h a (by simp)
    rw [ih (fun x hx => h x (by simp [hx])), if_pos (by omega)]

theorem kraft_shift (D D' : Nat) (ls : List Nat) (h : ∀ x ∈ ls, x ≤ D) (hD : D ≤ D') :
    kraft D' ls = 2 ^ (D' - D) * kraft D ls := by
  induction ls with
  | nil => simp [kraft]
  | cons a ls ih =>
    simp only [kraft, List.map_cons, List.sum_cons] at *
    have := h a (by simp)
    rw [ih (fun x hx => h x (by simp [hx])), Nat.mul_add, ← Nat.pow_add]
    congr 3; omega

/-- The exactness of the halving in `CalcCodes`. -/
theorem first_exact (D : Nat) (ls f : List Nat) (hD : 1 ≤ D) (hle : ∀ x ∈ ls, 1 ≤ x ∧ x ≤ D)
    (hk : kraft D ls = 2 ^ D) (hf : f[D]?.getD 0 = 0)
    (hstep : ∀ l, 1 ≤ l → l < D → f[l]?.getD 0 = (f[l + 1]?.getD 0 + ls.count (l + 1)) / 2) :
    f[1]?.getD 0 + ls.count 1 = 2 ∧
    ∀ l, 1 ≤ l → l < D → f[l + 1]?.getD 0 + ls.count (l + 1) = 2 * f[l]?.getD 0 := by
  have even : ∀ l, l < D → f[l + 1]?.getD 0 * 2 ^ (D - (l + 1)) = hiSum D ls (l + 1) →
      (f[l + 1]?.getD 0 + ls.count (l + 1)) % 2 = 0 := by
    intro l hl he
    have h1 := hi_step D ls l
    have h2 := hi_lo D ls l
    have h3 := lo_dvd D ls l
    rw [hk] at h2
    have h4 : 2 ^ (D - l) ∣ hiSum D ls l := by
      have : 2 ^ (D - l) ∣ 2 ^ D := Nat.pow_dvd_pow 2 (by omega)
      rw [← h2] at this
      exact (Nat.dvd_add_left h3).1 this
    rw [h1, ← he, ← Nat.add_mul] at h4
    have e : 2 ^ (D - l) = 2 * 2 ^ (D - (l + 1)) := by
      rw [← Nat.pow_succ']; congr 1; omega
    rw [e] at h4
    have := Nat.dvd_of_mul_dvd_mul_right (Nat.pow_pos (by omega)) h4
    omega
  have key : ∀ k, k < D → f[D - k]?.getD 0 * 2 ^ k = hiSum D ls (D - k) := by
    intro k
    induction k with
    | zero => intro _; simp [hf, hi_top D ls (fun x hx => (hle x hx).2)]
    | succ k ih =>
      intro hk'
      have h0 := ih (by omega)
      have e1 : D - (k + 1) + 1 = D - k := by omega
      have e2 : D - (D - k) = k := by omega
      have hs := hstep (D - (k + 1)) (by omega) (by omega)
      have hev := even (D - (k + 1)) (by omega) (by rw [e1, e2]; exact h0)
      have h1 := hi_step D ls (D - (k + 1))
      rw [e1] at hs hev h1
      rw [e2] at h1
      rw [h1, ← h0, ← Nat.add_mul]
      have : f[D - k]?.getD 0 + ls.count (D - k) = 2 * f[D - (k + 1)]?.getD 0 := by omega
      rw [this, Nat.pow_succ]
      rw [Nat.mul_comm (2 ^ k) 2, ← Nat.mul_assoc, Nat.mul_comm 2]
  constructor
  · have h0 := key (D - 1) (by omega)
    have e : D - (D - 1) = 1 := by omega
    rw [e] at h0
    have h1 := hi_step D ls 0
    have h2 := hi_lo D ls 0
    rw [lo_zero D ls (fun x hx => (hle x hx).1), hk] at h2
    simp only [Nat.zero_add, Nat.add_zero] at h1 h2
    rw [h2, ← h0, ← Nat.add_mul] at h1
    have e : 2 ^ D = 2 * 2 ^ (D - 1) := by rw [← Nat.pow_succ']; congr 1; omega
    rw [e] at h1
    exact (Nat.eq_of_mul_eq_mul_right (Nat.pow_pos (by omega)) h1).symm
  · intro l h1 h2
    have h0 := key (D - (l + 1)) (by omega)
    have e : D - (D - (l + 1)) = l + 1 := by omega
    rw [e] at h0
    have hev := even l h2 h0
    have := hstep l h1 h2
    omega

/-- The single-symbol case, or a complete code. -/
def Good (ls : List Nat) : Prop := ls = [1] ∨ (Complete ls ∧ (∀ l ∈ ls, 1 ≤ l) ∧ ls ≠ [])

theorem place_valid {α : Type} (syms : List α) (ls : List Nat) (hlen : syms.length = ls.length)
    (hg : Good ls) :
    ∃ t D, place (lengthIndexes (numLengths ls []) 0) (firstCodes (numLengths ls []))
        (syms.zip ls) (firstCodes (numLengths ls [])) (List.replicate ls.length none) = some t ∧
      Valid ⟨t, firstCodes (numLengths ls []), lengthIndexes (numLengths ls []) 0⟩ (syms.zip ls) D := by
  have hne : ls ≠ [] := by rcases hg with rfl | ⟨_, _, h⟩ <;> simp_all
  have hpos : ∀ l ∈ ls, 1 ≤ l := by
    rcases hg with rfl | ⟨_, h, _⟩
    · simp
    · exact h
  obtain ⟨n1, n2, n3, n4⟩ := numLengths_spec ls []
  generalize hnum : numLengths ls [] = num at *
  simp only [List.getElem?_nil, Option.getD_none, Nat.zero_add, List.length_nil] at n1 n3 n4
  obtain ⟨D, hDm, hDl⟩ : ∃ D ∈ ls, num.length = D + 1 := by
    rcases n4 with h | h
    · obtain ⟨a, ha⟩ := List.exists_mem_of_ne_nil ls hne
      have := n2 a ha; omega
    · exact h
  have hD1 := hpos D hDm
  have hle : ∀ x ∈ ls, 1 ≤ x ∧ x ≤ D := fun x hx => ⟨hpos x hx, by have := n2 x hx; omega⟩
  -- indexes
  have hidx : ∀ l, l ≤ D → (lengthIndexes num 0)[l]?.getD 0 = less ls l := by
    intro l hl
    rw [lengthIndexes_get num 0 l (by omega), take_sum_less num ls n1 l (by omega)]; simp
  have hmap : (syms.zip ls).map (·.2) = ls := by
    rw [List.map_snd_zip (by omega)]
  have hrow : ∀ l, (row (syms.zip ls) l).length = ls.count l := by
    intro l; rw [row_length, hmap]
  have hrow0 : ∀ l, D < l → (row (syms.zip ls) l).length = 0 := by
    intro l hl
    rw [hrow, List.count_eq_zero]
    intro hm; have := (hle l hm).2; omega
  -- first codes
  have hfc : (firstCodes num).length = num.length ∧ (firstCodes num)[D]?.getD 0 = 0 ∧
      ∀ l, 1 ≤ l → l < D → (firstCodes num)[l]?.getD 0 = ((firstCodes num)[l + 1]?.getD 0 + ls.count (l + 1)) / 2 := by
    obtain ⟨h1, h2, h3⟩ := firstCodesLoop_spec num (num.length - 1 - 1) (List.replicate num.length 0)
      (by rw [List.length_replicate]; omega)
    unfold firstCodes
    refine ⟨by rw [h1, List.length_replicate], ?_, ?_⟩
    · rw [h2 D (by omega), List.getElem?_replicate]; split <;> rfl
    · intro l l1 l2
      rw [h3 l l1 (by omega), n1 (l + 1)]
  obtain ⟨f1, f2, f3⟩ := hfc
  obtain ⟨t, t1, t2, t3⟩ := place_spec (lengthIndexes num 0) (firstCodes num) ls.length (syms.zip ls) []
    (firstCodes num) (List.replicate ls.length none) (by simp)
    (by
      intro l l' h
      simp only [List.nil_append]
      by_cases hl' : l' ≤ D
      · left
        rw [hidx l (by omega), hidx l' hl', hrow, ← less_succ]
        exact less_mono ls h
      · right; exact hrow0 l' (by omega))
    (by
      intro l h
      simp only [List.nil_append] at h ⊢
      have hl : l ≤ D := by
        apply Classical.byContradiction
        intro hc; exact h (hrow0 l (by omega))
      rw [hidx l hl, hrow, ← less_succ]
      exact less_le_length ls _)
    (by
      intro e he
      have : e.2 ∈ ls := by
        rw [← hmap]; exact List.mem_map_of_mem (f := (·.2)) he
      rw [f1]; exact n2 _ this)
    (by intro l hl; simp [row])
    (by intro l k d h; simp [row] at h)
  simp only [List.nil_append] at t3
  have hexact : (firstCodes num)[1]?.getD 0 + ls.count 1 ≤ 2 ∧
      ∀ l, 1 ≤ l → l < D → (firstCodes num)[l + 1]?.getD 0 + ls.count (l + 1) = 2 * (firstCodes num)[l]?.getD 0 := by
    rcases hg with rfl | ⟨⟨D', hD', hk⟩, _, _⟩
    · simp at hDm; subst hDm
      exact ⟨by rw [f2]; decide, fun l h1 h2 => by omega⟩
    · have hk' : kraft D ls = 2 ^ D := by
        have hDD := hD' D hDm
        rw [kraft_shift D D' ls (fun x hx => (hle x hx).2) hDD] at hk
        have e : 2 ^ D' = 2 ^ (D' - D) * 2 ^ D := by rw [← Nat.pow_add]; congr 1; omega
        rw [e] at hk
        exact Nat.eq_of_mul_eq_mul_left (Nat.pow_pos (by omega)) hk
      obtain ⟨g1, g2⟩ := first_exact D ls _ hD1 hle hk' f2 f3
      exact ⟨by omega, g2⟩
  refine ⟨t, D, t1, ?_⟩
  refine ⟨by rw [← hDl]; exact f1, by rw [← hDl]; exact lengthIndexes_length num 0, ?_, t3, ?_, ?_, ?_⟩
  · intro e he
    have : e.2 ∈ ls := by
      rw [← hmap]; exact List.mem_map_of_mem (f := (·.2)) he
    exact hle _ this
  · intro l h1 h2
    simp only [numCodes, lengthIndexes_length, t2, hDl]
    rw [hidx l h2, hrow]
    have hs := less_succ ls l
    by_cases hl : l < D
    · rw [if_pos (by omega), hidx (l + 1) (by omega)]; omega
    · rw [if_neg (by omega)]
      have hl' : l = D := by omega
      subst hl'
      have := less_all ls (l + 1) (fun x hx => by have := (hle x hx).2; omega)
      omega
  · rw [hrow]; exact hexact.1
  · intro l h1 h2; rw [hrow]; exact hexact.2 l h1 h2

end Verif.Huffman
