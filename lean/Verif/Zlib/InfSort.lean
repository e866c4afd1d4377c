import Verif.Zlib.InfBits

/-! The counts, the check of the lengths and the sorting of the symbols. -/

namespace Verif.Zlib

theorem counts_aux (lens : List Nat) (c : Nat → Nat) (l : Nat) :
    lens.foldl (fun c l => upd c l (c l + 1)) c l = c l + lens.count l := by
  induction lens generalizing c with
  | nil => simp
  | cons a as ih =>
    rw [List.foldl_cons, ih]
    by_cases h : a = l
    · subst h; simp [upd]; omega
    · have : ¬ l = a := fun e => h e.symm
      simp [upd, this, List.count_cons, h]

theorem counts_eq (lens : List Nat) (l : Nat) : counts lens l = lens.count l := by
  rw [counts, counts_aux]; simp

theorem counts_pos (lens : List Nat) {l : Nat} (h : l ≠ 0) : counts lens l = blCount lens l := by
  rw [counts_eq, blCount, if_neg h]

/-- The end of the codes of a length. -/
def endCode (lens : List Nat) (l : Nat) : Nat := firstCode lens l + blCount lens l

theorem firstCode_succ (lens : List Nat) (l : Nat) : firstCode lens (l + 1) = endCode lens l * 2 := rfl

theorem firstCode_le (lens : List Nat) (l d : Nat) : endCode lens l * 2 ^ (d + 1) ≤ firstCode lens (l + 1 + d) := by
  induction d with
  | zero => simp [firstCode_succ]
  | succ d ih =>
    rw [← Nat.add_assoc, firstCode_succ, Nat.pow_succ, ← Nat.mul_assoc]
    exact Nat.mul_le_mul_right 2 (Nat.le_trans ih (Nat.le_add_right _ _))

theorem firstCode_gap (lens : List Nat) (l d : Nat) (h : ∀ j, l < j → j < l + 1 + d → blCount lens j = 0) :
    firstCode lens (l + 1 + d) = endCode lens l * 2 ^ (d + 1) := by
  induction d with
  | zero => simp [firstCode_succ]
  | succ d ih =>
    rw [← Nat.add_assoc, firstCode_succ, endCode, h (l + 1 + d) (by omega) (by omega), Nat.add_zero,
      ih fun j a b => h j a (by omega), Nat.pow_succ 2 (d + 1), ← Nat.mul_assoc]

theorem findMax_spec (cnt : Nat → Nat) : ∀ n, findMax cnt n ≤ n ∧
    (findMax cnt n ≠ 0 → cnt (findMax cnt n) ≠ 0) ∧ ∀ j, findMax cnt n < j → j ≤ n → cnt j = 0
  | 0 => by simp [findMax]; intros; omega
  | n + 1 => by
    obtain ⟨a, b, c⟩ := findMax_spec cnt n
    unfold findMax
    split
    · rename_i h
      exact ⟨Nat.le_refl _, fun _ => h, fun j h1 h2 => by omega⟩
    · rename_i h
      refine ⟨by omega, b, fun j h1 h2 => ?_⟩
      by_cases e : j = n + 1
      · subst e; simpa using h
      · exact c j h1 (by omega)

theorem findMin_spec (cnt : Nat → Nat) : ∀ n m, (∃ j, m ≤ j ∧ j < m + n ∧ cnt j ≠ 0) →
    m ≤ findMin cnt n m ∧ findMin cnt n m < m + n ∧ cnt (findMin cnt n m) ≠ 0 ∧
      ∀ j, m ≤ j → j < findMin cnt n m → cnt j = 0
  | 0, m => by rintro ⟨j, a, b, _⟩; omega
  | n + 1, m => by
    rintro ⟨j, a, b, c⟩
    unfold findMin
    split
    · rename_i h
      exact ⟨Nat.le_refl _, by omega, h, fun j h1 h2 => by omega⟩
    · rename_i h
      have hj : j ≠ m := by rintro rfl; exact h c
      obtain ⟨p, q, r, s⟩ := findMin_spec cnt n (m + 1) ⟨j, by omega, by omega, c⟩
      refine ⟨by omega, by omega, r, fun i h1 h2 => ?_⟩
      by_cases e : i = m
      · subst e; simpa using h
      · exact s i (by omega) h2

/-- What is left after each length. -/
theorem leftLoop_spec (lens : List Nat) : ∀ n l, endCode lens l ≤ 2 ^ l →
    (leftLoop (counts lens) n (l + 1) ((2 ^ l : Nat) - (endCode lens l : Nat) : Int) = none ↔
        ∃ j, l < j ∧ j ≤ l + n ∧ 2 ^ j < endCode lens j) ∧
    (∀ left, leftLoop (counts lens) n (l + 1) ((2 ^ l : Nat) - (endCode lens l : Nat) : Int) = some left →
      left = ((2 ^ (l + n) : Nat) - (endCode lens (l + n) : Nat) : Int) ∧
        ∀ j, l ≤ j → j ≤ l + n → endCode lens j ≤ 2 ^ j)
  | 0, l, h => by
    refine ⟨by simp [leftLoop]; intros; omega, fun left hl => ?_⟩
    simp only [leftLoop, Option.some.injEq] at hl
    refine ⟨hl.symm, fun j a b => ?_⟩
    obtain rfl : j = l := by omega
    exact h
  | n + 1, l, h => by
    have e : (((2 ^ l : Nat) - (endCode lens l : Nat) : Int) * 2 - (counts lens (l + 1) : Nat) : Int) =
        ((2 ^ (l + 1) : Nat) - (endCode lens (l + 1) : Nat) : Int) := by
      rw [counts_pos lens (by omega)]
      have : endCode lens (l + 1) = endCode lens l * 2 + blCount lens (l + 1) := rfl
      rw [this, Nat.pow_succ]
      push_cast
      ring
    unfold leftLoop
    simp only [e]
    by_cases hn : ((2 ^ (l + 1) : Nat) - (endCode lens (l + 1) : Nat) : Int) < 0
    · rw [if_pos hn]
      refine ⟨⟨fun _ => ⟨l + 1, by omega, by omega, by omega⟩, fun _ => rfl⟩, by simp⟩
    · rw [if_neg hn]
      obtain ⟨a, b⟩ := leftLoop_spec lens n (l + 1) (by omega)
      have e2 : l + 1 + n = l + (n + 1) := by omega
      rw [e2] at a b
      refine ⟨a.trans ⟨fun ⟨j, p, q, r⟩ => ⟨j, by omega, q, r⟩, fun ⟨j, p, q, r⟩ => ⟨j, ?_, q, r⟩⟩,
        fun left hl => ⟨(b left hl).1, fun j p q => ?_⟩⟩
      · by_cases hj : j = l + 1
        · subst hj; omega
        · omega
      · by_cases hj : j = l
        · subst hj; exact h
        · exact (b left hl).2 j (by omega) q

theorem kraft_cons (l : Nat) (ls : List Nat) :
    kraft (l :: ls) = (if l = 0 then 0 else 2 ^ (15 - l)) + kraft ls := rfl

theorem endCode_cons (a : Nat) (ls : List Nat) (l : Nat) :
    endCode (a :: ls) l = endCode ls l + (if a = 0 ∨ l < a then 0 else 2 ^ (l - a)) := by
  induction l with
  | zero =>
    by_cases h : a = 0
    · simp [endCode, firstCode, blCount, h]
    · have : 0 < a := by omega
      simp [endCode, firstCode, blCount, this]
  | succ l ih =>
    have e1 : endCode (a :: ls) (l + 1) = endCode (a :: ls) l * 2 + blCount (a :: ls) (l + 1) := rfl
    have e2 : endCode ls (l + 1) = endCode ls l * 2 + blCount ls (l + 1) := rfl
    rw [e1, e2, ih]
    simp only [blCount, Nat.succ_ne_zero, if_false, List.count_cons]
    by_cases h0 : a = 0
    · simp [h0]
    · by_cases h1 : a = l + 1
      · have : l < a := by omega
        simp [h1, Nat.add_assoc]
      · by_cases h2 : l < a
        · have : l + 1 < a := by omega
          simp [h0, h1, h2, this]
        · have h3 : ¬ l + 1 < a := by omega
          have h4 : l + 1 - a = (l - a) + 1 := by omega
          simp [h0, h1, h2, h3, h4, Nat.pow_succ]
          try omega

theorem endCode_kraft (lens : List Nat) (h : ∀ l ∈ lens, l ≤ 15) : endCode lens 15 = kraft lens := by
  induction lens with
  | nil => decide
  | cons a as ih =>
    rw [endCode_cons, ih fun l hl => h l (List.mem_cons_of_mem _ hl), kraft_cons]
    have := h a List.mem_cons_self
    have h2 : ¬ 15 < a := by omega
    simp [h2, Nat.add_comm]

/-! Sorting. -/

theorem offsets_succ (cnt : Nat → Nat) {l : Nat} (h : l ≠ 0) :
    offsets cnt (l + 1) = offsets cnt l + cnt l := by
  obtain ⟨m, rfl⟩ : ∃ m, l = m + 1 := ⟨l - 1, by omega⟩
  rfl

theorem offsets_le (cnt : Nat → Nat) {l l' : Nat} (h : l ≠ 0) (hl : l < l') :
    offsets cnt l + cnt l ≤ offsets cnt l' := by
  obtain ⟨d, rfl⟩ : ∃ d, l' = l + 1 + d := ⟨l' - (l + 1), by omega⟩
  induction d with
  | zero => rw [offsets_succ _ h]
  | succ d ih =>
    have := ih (by omega)
    rw [← Nat.add_assoc, offsets_succ _ (by omega)]
    omega

theorem offsets_gap (cnt : Nat → Nat) {l l' : Nat} (h : l ≠ 0) (hl : l < l')
    (hg : ∀ j, l < j → j < l' → cnt j = 0) : offsets cnt l' = offsets cnt l + cnt l := by
  obtain ⟨d, rfl⟩ : ∃ d, l' = l + 1 + d := ⟨l' - (l + 1), by omega⟩
  induction d with
  | zero => exact offsets_succ _ h
  | succ d ih =>
    have := ih (by omega) fun j a b => hg j a (by omega)
    rw [← Nat.add_assoc, offsets_succ _ (by omega), this, hg (l + 1 + d) (by omega) (by omega)]
    rfl

theorem sort_aux (lens : List Nat) : ∀ (ls pre : List Nat) (offs work : Nat → Nat), lens = pre ++ ls →
    (∀ l, l ≠ 0 → offs l = offsets (counts lens) l + pre.count l) →
    (∀ s, s < pre.length → lens.getD s 0 ≠ 0 →
      work (offsets (counts lens) (lens.getD s 0) + (lens.take s).count (lens.getD s 0)) = s) →
    ∀ s, s < lens.length → lens.getD s 0 ≠ 0 →
      sortLoop ls pre.length offs work
        (offsets (counts lens) (lens.getD s 0) + (lens.take s).count (lens.getD s 0)) = s := by
  intro ls
  induction ls with
  | nil =>
    intro pre offs work e _ hw s hs h0
    simp only [sortLoop]
    exact hw s (by rw [e] at hs; simpa using hs) h0
  | cons a as ih =>
    intro pre offs work e ho hw s hs h0
    have e' : lens = (pre ++ [a]) ++ as := by rw [e]; simp
    have hlen : (pre ++ [a]).length = pre.length + 1 := by simp
    have hpa : lens.getD pre.length 0 = a := by rw [e]; simp
    have htk : lens.take pre.length = pre := by rw [e]; simp
    unfold sortLoop
    by_cases ha : a ≠ 0
    · rw [if_pos ha, ← hlen]
      refine ih (pre ++ [a]) _ _ e' (fun l hl => ?_) (fun s' hs' h0' => ?_) s hs h0
      · by_cases hla : l = a
        · subst hla; simp [upd, ho l ha]; try omega
        · have : ¬ a = l := fun e => hla e.symm
          simp [upd, hla, ho l hl, List.count_cons, this]
      · by_cases hsp : s' = pre.length
        · subst hsp
          rw [hpa, htk, ho a ha]
          simp [upd]
        · rw [hlen] at hs'
          have hs2 : s' < pre.length := by omega
          have key := hw s' hs2 h0'
          have hlt : (lens.take s').count (lens.getD s' 0) < pre.count (lens.getD s' 0) := by
            have h3 : lens.getD s' 0 = pre[s'] := by
              rw [e, List.getD_eq_getElem?_getD, List.getElem?_append_left hs2]; simp [hs2]
            have h4 : lens.take s' = pre.take s' := by
              rw [e, List.take_append_of_le_length (by omega)]
            rw [h4]
            have h5 : pre = pre.take s' ++ pre[s'] :: pre.drop (s' + 1) := by
              rw [List.getElem_cons_drop, List.take_append_drop]
            generalize hx : lens.getD s' 0 = x at *
            conv_rhs => rw [h5]
            rw [List.count_append, ← h3, List.count_cons_self]
            omega
          have hne : offsets (counts lens) (lens.getD s' 0) + (lens.take s').count (lens.getD s' 0) ≠
              offs a := by
            rw [ho a ha]
            have hc : pre.count (lens.getD s' 0) ≤ counts lens (lens.getD s' 0) := by
              rw [counts_eq]
              generalize lens.getD s' 0 = x
              rw [e, List.count_append]; omega
            have hc2 : pre.count a + 1 ≤ counts lens a := by
              rw [counts_eq, e, List.count_append, List.count_cons_self]; omega
            rcases Nat.lt_trichotomy (lens.getD s' 0) a with hlt2 | heq | hgt
            · have := offsets_le (counts lens) h0' hlt2
              omega
            · rw [heq] at hlt ⊢; omega
            · have := offsets_le (counts lens) ha hgt
              omega
          simp only [upd, if_neg hne]
          exact key
    · rw [if_neg ha, ← hlen]
      have ha0 : a = 0 := by simpa using ha
      refine ih (pre ++ [a]) _ _ e' (fun l hl => ?_) (fun s' hs' h0' => ?_) s hs h0
      · have : ¬ 0 = l := fun e => hl e.symm
        rw [ho l hl, ha0]; simp [List.count_cons, this]
      · rw [hlen] at hs'
        by_cases hsp : s' = pre.length
        · subst hsp; rw [hpa] at h0'; exact absurd ha0 h0'
        · exact hw s' (by omega) h0'

/-- The sorted symbols. -/
def sorted (lens : List Nat) : Nat → Nat := sortLoop lens 0 (offsets (counts lens)) (fun _ => 0)

theorem sorted_spec (lens : List Nat) {s : Nat} (hs : s < lens.length) (h0 : lens.getD s 0 ≠ 0) :
    sorted lens (offsets (counts lens) (lens.getD s 0) + (lens.take s).count (lens.getD s 0)) = s :=
  sort_aux lens lens [] _ _ rfl (by simp) (by simp) s hs h0

theorem exists_sym : ∀ (lens : List Nat) (l r : Nat), r < lens.count l →
    ∃ s, s < lens.length ∧ lens.getD s 0 = l ∧ (lens.take s).count l = r
  | [], l, r, h => by simp at h
  | a :: as, l, r, h => by
    by_cases ha : a = l
    · cases r with
      | zero => exact ⟨0, by simp, by simpa using ha, by simp⟩
      | succ r =>
        subst ha
        rw [List.count_cons_self] at h
        obtain ⟨s, p, q, t⟩ := exists_sym as a r (by omega)
        exact ⟨s + 1, by simpa using p, by simpa using q, by simp [t]⟩
    · rw [List.count_cons_of_ne ha] at h
      obtain ⟨s, p, q, t⟩ := exists_sym as l r h
      exact ⟨s + 1, by simpa using p, by simpa using q, by simp [List.count_cons_of_ne ha, t]⟩

/-- The symbol at a place of a length. -/
theorem sorted_at (lens : List Nat) {l r : Nat} (hl : l ≠ 0) (hr : r < counts lens l) :
    lens.getD (sorted lens (offsets (counts lens) l + r)) 0 = l ∧
      sorted lens (offsets (counts lens) l + r) < lens.length ∧
      codeOf lens (sorted lens (offsets (counts lens) l + r)) = firstCode lens l + r := by
  rw [counts_eq] at hr
  obtain ⟨s, p, q, t⟩ := exists_sym lens l r hr
  have := sorted_spec lens p (by rw [q]; exact hl)
  rw [q, t] at this
  rw [this]
  exact ⟨q, p, by rw [codeOf, q, t]⟩

end Verif.Zlib
