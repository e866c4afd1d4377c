import Verif.Zlib.InfMain

/-! `inflate_table` as a whole. -/

namespace Verif.Zlib

/-- The greatest length. -/
def maxLen (lens : List Nat) : Nat := findMax (counts lens) 15

/-- The smallest length. -/
def minLen (lens : List Nat) : Nat := findMin (counts lens) 15 1

/-- The number of index bits of the root table. -/
def rootBits (lens : List Nat) (bits : Nat) : Nat :=
  let root := if bits > maxLen lens then maxLen lens else bits
  if root < minLen lens then minLen lens else root

theorem maxLen_zero {lens : List Nat} (hl : ∀ l ∈ lens, l ≤ 15) :
    maxLen lens = 0 ↔ ∀ l ∈ lens, l = 0 := by
  obtain ⟨a, b, c⟩ := findMax_spec (counts lens) 15
  constructor
  · intro h l hm
    by_contra h0
    have := c l (by unfold maxLen at h; omega) (hl l hm)
    rw [counts_eq] at this
    exact (List.count_pos_iff.2 hm).ne' this
  · intro h
    by_contra h0
    have := b h0
    rw [counts_eq] at this
    exact h0 (h _ (List.count_pos_iff.1 (Nat.pos_of_ne_zero this)))

theorem le_maxLen {lens : List Nat} (hl : ∀ l ∈ lens, l ≤ 15) {l : Nat} (hm : l ∈ lens) : l ≤ maxLen lens := by
  obtain ⟨a, b, c⟩ := findMax_spec (counts lens) 15
  by_contra h0
  have := c l (by unfold maxLen at h0; omega) (hl l hm)
  rw [counts_eq] at this
  exact (List.count_pos_iff.2 hm).ne' this

theorem maxLen_mem {lens : List Nat} (h : maxLen lens ≠ 0) : maxLen lens ∈ lens := by
  obtain ⟨a, b, c⟩ := findMax_spec (counts lens) 15
  have := b h
  rw [counts_eq] at this
  exact List.count_pos_iff.1 (Nat.pos_of_ne_zero this)

theorem minLen_spec {lens : List Nat} (h : maxLen lens ≠ 0) :
    minLen lens ≠ 0 ∧ minLen lens ≤ maxLen lens ∧ blCount lens (minLen lens) ≠ 0 ∧
      ∀ j, j < minLen lens → blCount lens j = 0 := by
  obtain ⟨a, b, c⟩ := findMax_spec (counts lens) 15
  have hb : counts lens (maxLen lens) ≠ 0 := b h
  have hm : maxLen lens ≤ 15 := a
  obtain ⟨p, q, r, s⟩ := findMin_spec (counts lens) 15 1 ⟨maxLen lens, by omega, by omega, hb⟩
  have p' : 1 ≤ minLen lens := p
  refine ⟨by omega, ?_, ?_, ?_⟩
  · by_contra hc
    exact hb (s _ (by omega) (by unfold minLen at hc; omega))
  · rw [← counts_pos lens (by omega)]; exact r
  · intro j hj
    by_cases h0 : j = 0
    · subst h0; rfl
    · rw [← counts_pos lens h0]; exact s j (by omega) hj

theorem endCode_le_15 (lens : List Nat) {j : Nat} (h : j ≤ 15) : endCode lens j * 2 ^ (15 - j) ≤ endCode lens 15 := by
  by_cases hj : j = 15
  · subst hj; simp
  · have := firstCode_le lens j (14 - j)
    rw [show 14 - j + 1 = 15 - j by omega, show j + 1 + (14 - j) = 15 by omega] at this
    exact Nat.le_trans this (Nat.le_add_right _ _)

theorem fits_iff {lens : List Nat} (hl : ∀ l ∈ lens, l ≤ 15) :
    (∀ j, j ≤ 15 → endCode lens j ≤ 2 ^ j) ↔ kraft lens ≤ 2 ^ 15 := by
  rw [← endCode_kraft lens hl]
  constructor
  · intro h; exact h 15 (Nat.le_refl _)
  · intro h j hj
    have h1 := Nat.le_trans (endCode_le_15 lens hj) h
    rw [pow_split hj] at h1
    exact Nat.le_of_mul_le_mul_right h1 (Nat.pow_pos (by decide))

theorem above_max {lens : List Nat} (hl : ∀ l ∈ lens, l ≤ 15) {j : Nat} (h : maxLen lens < j) :
    blCount lens j = 0 := by
  unfold blCount
  rw [if_neg (by omega), List.count_eq_zero]
  intro hm
  have := le_maxLen hl hm
  omega

theorem complete_iff {lens : List Nat} (hl : ∀ l ∈ lens, l ≤ 15) :
    kraft lens = 2 ^ 15 ↔ endCode lens (maxLen lens) = 2 ^ maxLen lens := by
  have hm : maxLen lens ≤ 15 := (findMax_spec (counts lens) 15).1
  have : endCode lens 15 = endCode lens (maxLen lens) * 2 ^ (15 - maxLen lens) := by
    by_cases h : maxLen lens = 15
    · rw [h]; simp
    · have h1 := firstCode_gap lens (maxLen lens) (14 - maxLen lens) fun j a _ => above_max hl a
      rw [show 14 - maxLen lens + 1 = 15 - maxLen lens by omega,
        show maxLen lens + 1 + (14 - maxLen lens) = 15 by omega] at h1
      rw [← h1, endCode, above_max hl (by omega)]
      rfl
  rw [← endCode_kraft lens hl, this, pow_split hm]
  constructor
  · exact Nat.eq_of_mul_eq_mul_right (Nat.pow_pos (by decide))
  · intro h; rw [h]

theorem good_of {lens : List Nat} (hl : ∀ l ∈ lens, l ≤ 15) (h0 : maxLen lens ≠ 0)
    (hk : kraft lens ≤ 2 ^ 15) (bits : Nat) :
    Good lens (rootBits lens bits) (maxLen lens) ∧ minLen lens ≤ rootBits lens bits := by
  have hm : maxLen lens ≤ 15 := (findMax_spec (counts lens) 15).1
  obtain ⟨a, b, c, d⟩ := minLen_spec h0
  have hf := (fits_iff hl).2 hk
  have hr : minLen lens ≤ rootBits lens bits ∧ rootBits lens bits ≤ maxLen lens := by
    simp only [rootBits]
    split <;> split <;> omega
  refine ⟨⟨h0, hm, ?_, fun j hj => above_max hl hj, fun j hj => hf j (by omega), by omega, hr.2⟩, hr.1⟩
  rw [← counts_pos lens h0]
  exact (findMax_spec (counts lens) 15).2.1 h0

theorem total_le (lens : List Nat) (hl : ∀ l ∈ lens, l ≤ 15) (m : Nat) :
    offsets (counts lens) (m + 1) + lens.countP (fun l => l = 0 ∨ m < l) = lens.length := by
  induction m with
  | zero =>
    have : lens.countP (fun l => decide (l = 0 ∨ 0 < l)) = lens.length := by
      rw [List.countP_eq_length]; intro l _; simp; omega
    rw [this]; simp [offsets]
  | succ m ih =>
    rw [offsets_succ _ (by omega), counts_eq]
    have : lens.countP (fun l => decide (l = 0 ∨ m < l)) =
        lens.count (m + 1) + lens.countP (fun l => decide (l = 0 ∨ m + 1 < l)) := by
      clear ih hl
      induction lens with
      | nil => rfl
      | cons a as ih =>
        simp only [List.countP_cons, List.count_cons, ih]
        by_cases h1 : a = m + 1
        · subst h1; simp; omega
        · by_cases h2 : a = 0 ∨ m < a
          · have h3 : a = 0 ∨ m + 1 < a := by omega
            simp [h1, h2, h3]; omega
          · have h3 : ¬ (a = 0 ∨ m + 1 < a) := by omega
            simp [h1, h2, h3]
    omega

/-- The number of symbols that have codes. -/
theorem total_eq (lens : List Nat) (hl : ∀ l ∈ lens, l ≤ 15) :
    offsets (counts lens) (maxLen lens + 1) = lens.countP (fun l => l ≠ 0) := by
  have h1 := total_le lens hl (maxLen lens)
  have h2 : lens.countP (fun l => decide (l = 0 ∨ maxLen lens < l)) = lens.countP (fun l => decide (l = 0)) := by
    apply List.countP_congr
    intro l hm
    have := le_maxLen hl hm
    simp; omega
  have h3 := List.length_eq_countP_add_countP (fun l => decide (l = 0)) (l := lens)
  have h4 : lens.countP (fun l => decide (l ≠ 0)) = lens.countP (fun a => !decide (a = 0)) := by
    apply List.countP_congr
    intro l _
    simp
  rw [h4]
  have h5 : lens.countP (fun a => decide ¬ (decide (a = 0) = true)) = lens.countP (fun a => !decide (a = 0)) := by
    apply List.countP_congr
    intro l _
    simp
  omega

/-- What `inflate_table` returns for acceptable lengths. -/
theorem inflate_main {type : CodeType} {lens : List Nat} (bits : Nat) (hl : ∀ l ∈ lens, l ≤ 15)
    (h0 : maxLen lens ≠ 0) (hk : kraft lens ≤ 2 ^ 15)
    (hc : kraft lens = 2 ^ 15 ∨ (type ≠ .codes ∧ maxLen lens = 1)) :
    (type = .lens ∧ inflateTable type lens bits = some .space ∧ (enough ≤ 2 ^ rootBits lens bits ∨
      (rootBits lens bits < maxLen lens ∧ (kraft lens = 2 ^ 15 →
        enough + 2 ≤ 2 ^ rootBits lens bits + 2 ^ (maxLen lens - rootBits lens bits) +
          lens.countP (fun l => l ≠ 0))))) ∨
    ∃ s, Final type lens (rootBits lens bits) (maxLen lens) s ∧
      inflateTable type lens bits = (restLoop (rootBits lens bits) s.low (2 ^ 15) s.huff s.len s.next s.drop
        (s.len - s.drop) s.table).map fun t => .ok t (rootBits lens bits) s.used := by
  obtain ⟨g, hmr⟩ := good_of hl h0 hk bits
  obtain ⟨a, b, c, d⟩ := minLen_spec h0
  have hf := (fits_iff hl).2 hk
  have hleft := leftLoop_spec lens 15 0 (by simp [endCode, firstCode, blCount])
  have e0 : endCode lens 0 = 0 := by simp [endCode, firstCode, blCount]
  simp only [e0, Nat.pow_zero, Nat.zero_add] at hleft
  have e1 : ((1 : Nat) - (0 : Nat) : Int) = 1 := by decide
  rw [e1] at hleft
  obtain ⟨hn, hs⟩ := hleft
  rw [← total_eq lens hl]
  unfold inflateTable
  simp only
  have hmx : findMax (counts lens) 15 = maxLen lens := rfl
  have hmn : findMin (counts lens) 15 1 = minLen lens := rfl
  have hrt : (if (if bits > maxLen lens then maxLen lens else bits) < minLen lens then minLen lens
      else if bits > maxLen lens then maxLen lens else bits) = rootBits lens bits := rfl
  have hso : sortLoop lens 0 (offsets (counts lens)) (fun _ => 0) = sorted lens := rfl
  rw [hmx, hmn, if_neg h0, hrt, hso]
  cases hlo : leftLoop (counts lens) 15 1 1 with
  | none =>
    obtain ⟨j, j1, j2, j3⟩ := hn.1 hlo
    have := hf j j2
    omega
  | some left =>
    have hle := (hs left hlo).1
    rw [endCode_kraft lens hl] at hle
    have hnot : ¬ (left > 0 ∧ (type = .codes ∨ maxLen lens ≠ 1)) := by
      rintro ⟨x, y⟩
      rcases hc with hc | ⟨hc1, hc2⟩
      · rw [hc] at hle; omega
      · rcases y with y | y
        · exact hc1 y
        · exact y hc2
    simp only [if_neg hnot]
    by_cases hsp : type = .lens ∧ enough ≤ 2 ^ rootBits lens bits
    · exact Or.inl ⟨hsp.1, by rw [if_pos hsp], Or.inl hsp.2⟩
    · rw [if_neg hsp]
      have hi := inv_init (type := type) g a hmr c d
      have hlen : offsets (counts lens) (maxLen lens + 1) ≤ lens.length := by
        have := total_le lens hl (maxLen lens); omega
      have hg := loop_good g (lens.length + 1) _ 0 hi (by simp only; omega)
      generalize mainLoop type lens (sorted lens) (rootBits lens bits) (maxLen lens) (lens.length + 1) _ = st at hg
      cases st with
      | wild => exact absurd hg (by simp)
      | more s => exact absurd hg (by simp)
      | space =>
        simp only at hg
        exact Or.inl ⟨hg.1, rfl, Or.inr ⟨hg.2.1, fun hk => hg.2.2 ((complete_iff hl).1 hk)⟩⟩
      | done s =>
        simp only at hg
        exact Or.inr ⟨s, hg, rfl⟩

theorem rest_zero (root low fuel len next drop bits : Nat) (t : Table) :
    restLoop root low (fuel + 1) 0 len next drop bits t = some t := by
  unfold restLoop; rw [if_pos rfl]

/-- The tables that come out: of complete codes, and of the code with one symbol. -/
theorem inflate_ok {type : CodeType} {lens : List Nat} (bits : Nat) (hl : ∀ l ∈ lens, l ≤ 15)
    (h0 : maxLen lens ≠ 0) (hk : kraft lens ≤ 2 ^ 15)
    (hc : kraft lens = 2 ^ 15 ∨ (type ≠ .codes ∧ maxLen lens = 1)) :
    (type = .lens ∧ inflateTable type lens bits = some .space ∧ (enough ≤ 2 ^ rootBits lens bits ∨
      (rootBits lens bits < maxLen lens ∧ (kraft lens = 2 ^ 15 →
        enough + 2 ≤ 2 ^ rootBits lens bits + 2 ^ (maxLen lens - rootBits lens bits) +
          lens.countP (fun l => l ≠ 0))))) ∨
    ∃ s, Final type lens (rootBits lens bits) (maxLen lens) s ∧
      inflateTable type lens bits = some (.ok
        (if kraft lens = 2 ^ 15 then s.table else upd s.table 1 (some ⟨64, 1, 0⟩)) (rootBits lens bits) s.used) := by
  rcases inflate_main bits hl h0 hk hc with h | ⟨s, f, e⟩
  · exact Or.inl h
  · refine Or.inr ⟨s, f, ?_⟩
    obtain ⟨g, hmr⟩ := good_of hl h0 hk bits
    rw [e]
    obtain ⟨hh, k1, k2, k3⟩ := f.huff
    by_cases hkk : kraft lens = 2 ^ 15
    · rw [if_pos hkk]
      have : s.huff = 0 := by
        rw [k2]
        exact (backInc_spec hh _).2 (k3.trans ((complete_iff hl).1 hkk))
      rw [this, show (2 : Nat) ^ 15 = 32767 + 1 by decide, rest_zero]
      rfl
    · rw [if_neg hkk]
      have hm1 : maxLen lens = 1 := by
        rcases hc with hc | hc
        · exact absurd hc hkk
        · exact hc.2
      have hr1 : rootBits lens bits = 1 := by
        have := g.root0; have := g.rootmax; omega
      have hne : endCode lens 1 ≠ 2 ^ 1 := by
        rw [← hm1]; exact fun h => hkk ((complete_iff hl).2 h)
      have hle := g.fits 1 (by omega)
      rw [hm1] at k1 k2 k3
      have hhz : hh = 0 := by
        have : readBits hh 1 = readBits 0 1 := by rw [readBits_zero]; omega
        have := readBits_inj this
        rw [Nat.mod_eq_of_lt k1] at this
        simpa using this
      have hhf : s.huff = 1 := by rw [k2, hhz]; decide
      rcases f.phase with ⟨p1, p2, p3, p4⟩ | ⟨p1, p2⟩
      · rw [hr1, hhf, p1, p3, f.len, hm1, show (2 : Nat) ^ 15 = 32766 + 1 + 1 by decide]
        unfold restLoop
        rw [if_neg (by decide)]
        simp only [ne_eq, not_true_eq_false, false_and, if_false]
        rw [show backInc 1 1 = 0 by decide, rest_zero]
        rfl
      · omega

end Verif.Zlib
