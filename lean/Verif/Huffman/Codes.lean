import Verif.Huffman.Lengths
import Verif.BitStream.Lemmas

/-! `CalcCodes`, the encoding map and decoding, for an arbitrary list of lengths. -/
set_option linter.unusedVariables false
set_option linter.unusedSimpArgs false

namespace Verif.Huffman
open Verif Spec

/-- Number of lengths below `l`. -/
def less (ls : List Nat) (l : Nat) : Nat := ls.countP (fun x => decide (x < l))

theorem less_succ (ls : List Nat) (l : Nat) : less ls (l + 1) = less ls l + ls.count l := by
  induction ls with
  | nil => rfl
  | cons a ls ih =>
    simp only [less, List.countP_cons, List.count_cons] at *
    rw [ih]
    by_cases h1 : a < l
    · simp [h1, show a < l + 1 by omega, show a ≠ l by omega]; omega
    · by_cases h2 : a = l
      · subst h2; simp; omega
      · simp [h1, h2, show ¬ a < l + 1 by omega]

theorem less_zero (ls : List Nat) : less ls 0 = 0 := by simp [less]

theorem less_le_length (ls : List Nat) (l : Nat) : less ls l ≤ ls.length := List.countP_le_length

theorem less_mono (ls : List Nat) {a b : Nat} (h : a ≤ b) : less ls a ≤ less ls b := by
  induction h with
  | refl => exact Nat.le_refl _
  | step h ih => rw [Nat.succ_eq_add_one, less_succ]; omega

theorem less_all (ls : List Nat) (l : Nat) (h : ∀ x ∈ ls, x < l) : less ls l = ls.length := by
  rw [less, List.countP_eq_length]; simpa using h

theorem getD_set (l : List Nat) (i j x : Nat) (h : i < l.length) :
    (l.set i x)[j]?.getD 0 = if j = i then x else l[j]?.getD 0 := by
  by_cases hj : j = i
  · subst hj; rw [List.getElem?_set_self h]; simp
  · rw [List.getElem?_set_ne (by omega)]; simp [hj]

theorem numLengths_spec (ls : List Nat) (num : List Nat) :
    (∀ l : Nat, (numLengths ls num)[l]?.getD 0 = num[l]?.getD 0 + ls.count l) ∧
    (∀ l ∈ ls, l < (numLengths ls num).length) ∧ num.length ≤ (numLengths ls num).length ∧
    ((numLengths ls num).length = num.length ∨ ∃ l ∈ ls, (numLengths ls num).length = l + 1) := by
  induction ls generalizing num with
  | nil => simp [numLengths]
  | cons a ls ih =>
    rw [numLengths]
    obtain ⟨num', hnum'⟩ : ∃ num', num' =
      (if num.length ≤ a then num ++ List.replicate (a + 1 - num.length) 0 else num) := ⟨_, rfl⟩
    try simp only
    rw [← hnum']
    have hg : ∀ l : Nat, num'[l]?.getD 0 = num[l]?.getD 0 := by
      intro l
      rw [hnum']; split
      · by_cases hl : l < num.length
        · rw [List.getElem?_append_left hl]
        · rw [List.getElem?_append_right (by omega), List.getElem?_eq_none (by omega : num.length ≤ l),
            List.getElem?_replicate]
          split <;> rfl
      · rfl
    have hlen : a < num'.length ∧ num.length ≤ num'.length ∧ (num'.length = num.length ∨ num'.length = a + 1) := by
      rw [hnum']; split
      · simp; omega
      · exact ⟨by omega, Nat.le_refl _, Or.inl rfl⟩
    obtain ⟨h1, h2, h3, h4⟩ := ih (num'.set a (num'[a]?.getD 0 + 1))
    rw [List.length_set] at h3 h4
    refine ⟨?_, ?_, by omega, ?_⟩
    · intro l
      rw [h1, getD_set _ _ _ _ hlen.1, List.count_cons]
      by_cases hla : l = a
      · subst hla; simp [hg]; omega
      · have : ¬ a = l := fun e => hla e.symm
        simp [hla, this, hg]
    · intro l hl
      simp only [List.mem_cons] at hl
      rcases hl with rfl | hl
      · omega
      · exact h2 l hl
    · rcases h4 with h4 | ⟨l, hl, h4⟩
      · rcases hlen.2.2 with h | h
        · left; omega
        · right; exact ⟨a, by simp, by omega⟩
      · right; exact ⟨l, by simp [hl], h4⟩

theorem lengthIndexes_length (num : List Nat) (acc : Nat) : (lengthIndexes num acc).length = num.length := by
  induction num generalizing acc with
  | nil => rfl
  | cons x num ih => simp [lengthIndexes, ih]

theorem lengthIndexes_get (num : List Nat) (acc l : Nat) (h : l < num.length) :
    (lengthIndexes num acc)[l]? = some (acc + (num.take l).sum) := by
  induction num generalizing acc l with
  | nil => simp at h
  | cons x num ih =>
    cases l with
    | zero => simp [lengthIndexes]
    | succ l => simp [lengthIndexes, ih (acc + x) l (by simpa using h)]; omega

theorem take_sum_less (num ls : List Nat) (h : ∀ l : Nat, num[l]?.getD 0 = ls.count l) (l : Nat)
    (hl : l ≤ num.length) : (num.take l).sum = less ls l := by
  induction l with
  | zero => simp [less_zero]
  | succ l ih =>
    rw [less_succ, ← ih (by omega), ← h l, List.take_add_one, List.sum_append]
    rw [List.getElem?_eq_getElem (by omega)]; simp

theorem firstCodesLoop_spec (num : List Nat) (l : Nat) (fc : List Nat) (hl : l + 1 < fc.length ∨ l = 0) :
    (firstCodesLoop num l fc).length = fc.length ∧
    (∀ k : Nat, l < k → (firstCodesLoop num l fc)[k]? = fc[k]?) ∧
    (∀ k : Nat, 1 ≤ k → k ≤ l → (firstCodesLoop num l fc)[k]?.getD 0 =
      ((firstCodesLoop num l fc)[k + 1]?.getD 0 + num[k + 1]?.getD 0) / 2) := by
  induction l generalizing fc with
  | zero => simp [firstCodesLoop]; intro k h1 h2; omega
  | succ l ih =>
    have hl' : l + 1 + 1 < fc.length := by omega
    rw [firstCodesLoop]
    obtain ⟨h1, h2, h3⟩ := ih (fc.set (l + 1) ((fc[l + 2]?.getD 0 + num[l + 2]?.getD 0) / 2))
      (by rw [List.length_set]; omega)
    refine ⟨by rw [h1, List.length_set], ?_, ?_⟩
    · intro k hk
      rw [h2 k (by omega), List.getElem?_set_ne (by omega)]
    · intro k k1 k2
      by_cases hkl : k = l + 1
      · subst hkl
        rw [h2 _ (by omega), h2 _ (by omega), getD_set _ _ _ _ (by omega), if_pos rfl,
          List.getElem?_set_ne (by omega)]
      · exact h3 k k1 (by omega)

/-- The symbols of length `l`, in table order. -/
def row {α : Type} (ps : List (α × Nat)) (l : Nat) : List α := (ps.filter (fun e => decide (e.2 = l))).map (·.1)

theorem row_length {α : Type} (ps : List (α × Nat)) (l : Nat) : (row ps l).length = (ps.map (·.2)).count l := by
  induction ps with
  | nil => rfl
  | cons e ps ih =>
    simp only [row, List.filter_cons, List.map_cons, List.count_cons] at *
    by_cases h : e.2 = l <;> simp [h, ih]

theorem row_append {α : Type} (ps qs : List (α × Nat)) (l : Nat) : row (ps ++ qs) l = row ps l ++ row qs l := by
  simp [row]

theorem mem_row {α : Type} (ps : List (α × Nat)) (l : Nat) (d : α) : d ∈ row ps l ↔ (d, l) ∈ ps := by
  simp only [row, List.mem_map, List.mem_filter]
  constructor
  · rintro ⟨⟨a, b⟩, ⟨h1, h2⟩, rfl⟩
    simp at h2; subst h2; exact h1
  · intro h; exact ⟨(d, l), ⟨h, by simp⟩, rfl⟩

theorem place_spec {α : Type} (idx first : List Nat) (n : Nat) (todo done : List (α × Nat))
    (next : List Nat) (t : List (Option α))
    (ht : t.length = n)
    (hsep : ∀ l l', l < l' → idx[l]?.getD 0 + (row (done ++ todo) l).length ≤ idx[l']?.getD 0 ∨ (row (done ++ todo) l').length = 0)
    (hin : ∀ l, (row (done ++ todo) l).length ≠ 0 → idx[l]?.getD 0 + (row (done ++ todo) l).length ≤ n)
    (hnl : ∀ e ∈ todo, e.2 < next.length)
    (hnext : ∀ l, l < next.length → next[l]?.getD 0 = first[l]?.getD 0 + (row done l).length)
    (hdone : ∀ l k d, (row done l)[k]? = some d → t[idx[l]?.getD 0 + k]? = some (some d)) :
    ∃ t', place idx first todo next t = some t' ∧ t'.length = n ∧
      ∀ l k d, (row (done ++ todo) l)[k]? = some d → t'[idx[l]?.getD 0 + k]? = some (some d) := by
  induction todo generalizing done next t with
  | nil => exact ⟨t, rfl, ht, by simpa using hdone⟩
  | cons e todo ih =>
    obtain ⟨d, l⟩ := e
    have hl : l < next.length := hnl (d, l) (by simp)
    have hcount : (row done l).length < (row (done ++ (d, l) :: todo) l).length := by
      rw [row_append]; simp [row]; 
    have hpos : idx[l]?.getD 0 + (next[l]?.getD 0 - first[l]?.getD 0) = idx[l]?.getD 0 + (row done l).length := by
      rw [hnext l hl]; omega
    rw [place]
    try simp only
    rw [hpos, if_pos (by have := hin l (by omega); omega)]
    have happ : done ++ (d, l) :: todo = (done ++ [(d, l)]) ++ todo := by simp
    have hrow1 : row (done ++ [(d, l)]) l = row done l ++ [d] := by
      rw [row_append]; simp [row]
    have hrowne : ∀ l', l' ≠ l → row (done ++ [(d, l)]) l' = row done l' := by
      intro l' h; rw [row_append]
      have : ¬ l = l' := fun e => h e.symm
      simp [row, this]
    rw [happ] at hsep hin hcount ⊢
    apply ih (done ++ [(d, l)])
    · simpa using ht
    · exact hsep
    · exact hin
    · intro e he; rw [List.length_set]; exact hnl e (by simp [he])
    · intro l' hl'
      rw [List.length_set] at hl'
      rw [getD_set _ _ _ _ hl]
      by_cases h : l' = l
      · subst h; rw [if_pos rfl, hnext _ hl, hrow1]; simp; omega
      · rw [if_neg h, hnext _ hl', hrowne l' h]
    · intro l' k d' hk
      by_cases h : l' = l
      · subst h
        rw [hrow1] at hk
        by_cases hkl : k < (row done l').length
        · rw [List.getElem?_append_left hkl] at hk
          rw [List.getElem?_set_ne (by omega)]
          exact hdone _ _ _ hk
        · rw [List.getElem?_append_right (by omega)] at hk
          have hk0 : k = (row done l').length := by
            have := (List.getElem?_eq_some_iff.1 hk).1
            simp at this; omega
          subst hk0
          simp at hk; subst hk
          rw [List.getElem?_set_self (by have := hin l' (by omega); omega)]
      · have hk' := hk
        rw [hrowne l' h] at hk'
        have hlt := (List.getElem?_eq_some_iff.1 hk').1
        have hle : (row done l').length ≤ (row ((done ++ [(d, l)]) ++ todo) l').length := by
          rw [row_append, hrowne l' h]; simp
        rw [List.getElem?_set_ne]
        · exact hdone _ _ _ hk'
        · rcases Nat.lt_or_gt_of_ne h with h' | h'
          · have := hsep l' l h'; omega
          · have := hsep l l' h'; omega

/-! ### The encoding map -/

/-- `x` is the symbol at row `l`, column `k`. -/
def At {α : Type} (c : Coder α) (l k : Nat) (x : α) : Prop :=
  (c.symbols[c.index[l]?.getD 0 + k]?).join = some x

theorem mapRow_spec {α : Type} [DecidableEq α] (c : Coder α) (l i cnt : Nat) (m : α → Nat × Nat) (x : α) :
    (mapRow c l i cnt m x = m x ∧ ∀ k, i ≤ k → k < i + cnt → ¬ At c l k x) ∨
    (∃ k, i ≤ k ∧ k < i + cnt ∧ mapRow c l i cnt m x = (l, k) ∧ At c l k x) := by
  induction cnt generalizing i m with
  | zero => left; exact ⟨rfl, fun k h1 h2 => by omega⟩
  | succ cnt ih =>
    rw [mapRow]
    rcases ih (i + 1) (match (c.symbols[c.index[l]?.getD 0 + i]?).join with
        | some d => fun x => if x = d then (l, i) else m x
        | none => m) with ⟨h1, h2⟩ | ⟨k, k1, k2, k3, k4⟩
    · cases hs : (c.symbols[c.index[l]?.getD 0 + i]?).join with
      | none =>
        rw [hs] at h1
        left
        refine ⟨h1, fun k k1 k2 hk => ?_⟩
        by_cases hki : k = i
        · subst hki; unfold At at hk; rw [hs] at hk; cases hk
        · exact h2 k (by omega) (by omega) hk
      | some d =>
        rw [hs] at h1
        by_cases hx : x = d
        · subst hx
          right
          refine ⟨i, Nat.le_refl _, by omega, ?_, hs⟩
          simpa using h1
        · left
          refine ⟨by simpa [hx] using h1, fun k k1 k2 hk => ?_⟩
          by_cases hki : k = i
          · subst hki; unfold At at hk; rw [hs] at hk; cases hk; exact hx rfl
          · exact h2 k (by omega) (by omega) hk
    · right
      exact ⟨k, by omega, by omega, k3, k4⟩

theorem mapRows_spec {α : Type} [DecidableEq α] (c : Coder α) (l cnt : Nat) (m : α → Nat × Nat) (x : α) :
    (mapRows c l cnt m x = m x ∧ ∀ l' k, l ≤ l' → l' < l + cnt → k < numCodes c l' → ¬ At c l' k x) ∨
    (∃ l' k, l ≤ l' ∧ l' < l + cnt ∧ k < numCodes c l' ∧ mapRows c l cnt m x = (l', k) ∧ At c l' k x) := by
  induction cnt generalizing l m with
  | zero => left; exact ⟨rfl, fun l' k h1 h2 => by omega⟩
  | succ cnt ih =>
    rw [mapRows]
    rcases ih (l + 1) (mapRow c l 0 (numCodes c l) m) with ⟨h1, h2⟩ | ⟨l', k, k1, k2, k3, k4, k5⟩
    · rcases mapRow_spec c l 0 (numCodes c l) m x with ⟨g1, g2⟩ | ⟨k, k1, k2, k3, k4⟩
      · left
        refine ⟨h1.trans g1, fun l' k l1 l2 hk => ?_⟩
        by_cases hll : l' = l
        · subst hll; exact g2 k (by omega) (by omega)
        · exact h2 l' k (by omega) (by omega) hk
      · right
        exact ⟨l, k, Nat.le_refl _, by omega, by omega, h1.trans k3, k4⟩
    · right
      exact ⟨l', k, by omega, by omega, k3, k4, k5⟩

/-! ### A valid code table -/

/-- What `CalcCodes` must deliver: `cnt l` codes of length `l`, from `first l` on, one above another. -/
structure Valid {α : Type} (c : Coder α) (ps : List (α × Nat)) (D : Nat) : Prop where
  firstLen : c.first.length = D + 1
  indexLen : c.index.length = D + 1
  lens : ∀ e ∈ ps, 1 ≤ e.2 ∧ e.2 ≤ D
  rows : ∀ l k d, (row ps l)[k]? = some d → c.symbols[c.index[l]?.getD 0 + k]? = some (some d)
  num : ∀ l, 1 ≤ l → l ≤ D → numCodes c l = (row ps l).length
  top : c.first[1]?.getD 0 + (row ps 1).length ≤ 2
  step : ∀ l, 1 ≤ l → l < D →
    c.first[l + 1]?.getD 0 + (row ps (l + 1)).length = 2 * c.first[l]?.getD 0

/-- The code of a symbol in the map: its length is the length given to the symbol, and it is a place of
that symbol. -/
theorem Valid.codeMap {α : Type} [DecidableEq α] {c : Coder α} {ps : List (α × Nat)} {D : Nat}
    (hv : Valid c ps D) {d : α} {l0 : Nat} (hd : (d, l0) ∈ ps) :
    ∃ l k, codeMap c d = (l, k) ∧ 1 ≤ l ∧ l ≤ D ∧ (row ps l)[k]? = some d := by
  have hl0 := hv.lens _ hd
  simp only at hl0
  have hm := (mem_row ps l0 d).2 hd
  obtain ⟨k0, hk0, hk0'⟩ := List.getElem_of_mem hm
  have hrow : (row ps l0)[k0]? = some d := by rw [List.getElem?_eq_getElem hk0, hk0']
  have hat : At c l0 k0 d := by unfold At; rw [hv.rows _ _ _ hrow]; rfl
  unfold Huffman.codeMap
  rw [hv.indexLen]
  rcases mapRows_spec c 1 (D + 1 - 1) (fun _ => (0, 0)) d with ⟨_, h2⟩ | ⟨l, k, k1, k2, k3, k4, k5⟩
  · exact absurd hat (h2 l0 k0 (by omega) (by omega) (by rw [hv.num l0 (by omega) (by omega)]; exact hk0))
  · refine ⟨l, k, k4, k1, by omega, ?_⟩
    rw [hv.num l (by omega) (by omega)] at k3
    have := hv.rows l k _ (List.getElem?_eq_getElem k3)
    unfold At at k5
    rw [this] at k5
    rw [List.getElem?_eq_getElem k3]
    exact k5

/-- Prefixes of a code of length `l` are below the first code of their length. -/
theorem Valid.prefix_lt {α : Type} {c : Coder α} {ps : List (α × Nat)} {D : Nat} (hv : Valid c ps D)
    {l i : Nat} (h1 : 1 ≤ l) (hD : l ≤ D) (hi : i < (row ps l).length) (j : Nat) (hj : j < l) (hj0 : 0 < j) :
    (c.first[l]?.getD 0 + i) / 2 ^ j < c.first[l - j]?.getD 0 := by
  induction j with
  | zero => omega
  | succ j ih =>
    rw [Nat.pow_succ, ← Nat.div_div_eq_div_mul]
    have hs := hv.step (l - (j + 1)) (by omega) (by omega)
    have e : l - (j + 1) + 1 = l - j := by omega
    rw [e] at hs
    by_cases hj1 : j = 0
    · subst hj1
      simp only [Nat.pow_zero, Nat.div_one, Nat.sub_zero, Nat.zero_add] at *
      omega
    · have := ih (by omega) (by omega)
      have hle : c.first[l - j]?.getD 0 ≤ 2 * c.first[l - (j + 1)]?.getD 0 := by omega
      omega

theorem Valid.code_lt {α : Type} {c : Coder α} {ps : List (α × Nat)} {D : Nat} (hv : Valid c ps D)
    {l i : Nat} (h1 : 1 ≤ l) (hD : l ≤ D) (hi : i < (row ps l).length) :
    (c.first[l]?.getD 0 + i) / 2 ^ (l - 1) < 2 := by
  have ht := hv.top
  by_cases h : l = 1
  · subst h; simp; omega
  · have := hv.prefix_lt h1 hD hi (l - 1) (by omega) (by omega)
    have e : l - (l - 1) = 1 := by omega
    rw [e] at this; omega

/-- The rest of the stream behind the reader starts with `bs`. -/
structure Ahead (w : BitStream.W) (bs : List Bool) : Prop where
  sync : BitStream.Sync w
  bits : bs <+: (BitStream.bitsOf w.data).drop w.bitPos

theorem Ahead.read {w : BitStream.W} {b : Bool} {bs : List Bool} (h : Ahead w (b :: bs)) :
    (BitStream.read w).1 = b ∧ Ahead (BitStream.read w).2 bs ∧
    (BitStream.read w).2.data = w.data ∧ (BitStream.read w).2.bitPos = w.bitPos + 1 ∧
    w.bitPos < w.data.length * 8 := by
  obtain ⟨rest, hrest⟩ := h.bits
  have hlen := congrArg List.length hrest
  simp only [List.length_append, List.length_cons, List.length_drop, BitStream.bitsOf_length] at hlen
  have hlt : w.bitPos < w.data.length * 8 := by omega
  obtain ⟨r1, r2, r3, r4⟩ := BitStream.read_spec w h.sync hlt
  have hl : w.bitPos < (BitStream.bitsOf w.data).length := by rw [BitStream.bitsOf_length]; omega
  rw [List.drop_eq_getElem_cons hl] at hrest
  simp only [List.cons_append, List.cons.injEq] at hrest
  refine ⟨?_, ⟨r2, ?_⟩, r3, r4, hlt⟩
  · have := BitStream.bitsOf_get w.data w.bitPos
    rw [← r1, List.getElem?_eq_getElem hl] at this
    simp only [Option.some.injEq] at this
    rw [hrest.1, this]
  · rw [r3, r4]
    exact ⟨rest, hrest.2⟩

theorem bit_step (v j : Nat) : v / 2 ^ j = 2 * (v / 2 ^ (j + 1)) + (v.testBit j).toNat := by
  rw [Nat.pow_succ, ← Nat.div_div_eq_div_mul, Nat.testBit_eq_decide_div_mod_eq]
  by_cases h : v / 2 ^ j % 2 = 1
  · rw [decide_eq_true h]; simp; omega
  · rw [decide_eq_false h]; simp; omega

theorem readLoop_spec {α : Type} {c : Coder α} {ps : List (α × Nat)} {D : Nat} (hv : Valid c ps D)
    {l i : Nat} {d : α} (h1 : 1 ≤ l) (hD : l ≤ D) (hi : (row ps l)[i]? = some d)
    (j : Nat) (hj : j < l) (w : BitStream.W) (bs : List Bool)
    (ha : Ahead w (bitsDown (c.first[l]?.getD 0 + i) j ++ bs)) :
    ∃ w', readLoop c ((c.first[l]?.getD 0 + i) / 2 ^ j) (l - j) w = some (d, w') ∧
      Ahead w' bs ∧ w'.data = w.data ∧ w'.bitPos = w.bitPos + j := by
  have hil := (List.getElem?_eq_some_iff.1 hi).1
  induction j generalizing w with
  | zero =>
    have hlf : l < c.first.length := by rw [hv.firstLen]; omega
    have hg : c.first[l]?.getD 0 = c.first[l] := by rw [List.getElem?_eq_getElem hlf]; rfl
    have hr := hv.rows l i d hi
    rw [readLoop, dif_pos (by simpa using hlf)]
    simp only [Nat.pow_zero, Nat.div_one, Nat.sub_zero]
    rw [if_neg (by rw [hg]; omega)]
    have : c.first[l]?.getD 0 + i - c.first[l] = i := by rw [hg]; omega
    rw [this, hr]
    simp only [bitsDown, List.nil_append] at ha
    exact ⟨w, rfl, ha, rfl, rfl⟩
  | succ j ih =>
    have hlf : l - (j + 1) < c.first.length := by rw [hv.firstLen]; omega
    have hg : c.first[l - (j + 1)]?.getD 0 = c.first[l - (j + 1)] := by
      rw [List.getElem?_eq_getElem hlf]; rfl
    have hlt := hv.prefix_lt h1 hD hil (j + 1) hj (by omega)
    rw [hg] at hlt
    rw [readLoop, dif_pos hlf, if_pos hlt]
    simp only [bitsDown, List.cons_append] at ha
    obtain ⟨r1, r2, r3, r4, r5⟩ := ha.read
    obtain ⟨w', w1, w2, w3, w4⟩ := ih (by omega) (BitStream.read w).2 r2
    refine ⟨w', ?_, w2, w3.trans r3, by rw [w4, r4]; omega⟩
    simp only
    rw [r1, ← bit_step]
    have : l - (j + 1) + 1 = l - j := by omega
    rw [this]; exact w1

theorem read_spec {α : Type} {c : Coder α} {ps : List (α × Nat)} {D : Nat} (hv : Valid c ps D)
    {l i : Nat} {d : α} (h1 : 1 ≤ l) (hD : l ≤ D) (hi : (row ps l)[i]? = some d)
    (w : BitStream.W) (bs : List Bool)
    (ha : Ahead w (bitsDown (c.first[l]?.getD 0 + i) l ++ bs)) :
    ∃ w', read c w = some (some d, w') ∧ Ahead w' bs ∧ w'.data = w.data ∧ w'.bitPos = w.bitPos + l := by
  have hil := (List.getElem?_eq_some_iff.1 hi).1
  obtain ⟨j, rfl⟩ : ∃ j, l = j + 1 := ⟨l - 1, by omega⟩
  simp only [bitsDown, List.cons_append] at ha
  obtain ⟨r1, r2, r3, r4, r5⟩ := ha.read
  obtain ⟨w', w1, w2, w3, w4⟩ := readLoop_spec hv h1 hD hi j (by omega) (BitStream.read w).2 bs r2
  refine ⟨w', ?_, w2, w3.trans r3, by rw [w4, r4]; omega⟩
  rw [read, if_pos (by simp [BitStream.tellFromEnd]; omega)]
  simp only
  have hlt := hv.code_lt h1 hD hil
  have hb : (BitStream.read w).1.toNat = (c.first[j + 1]?.getD 0 + i) / 2 ^ j := by
    rw [r1]
    have := bit_step (c.first[j + 1]?.getD 0 + i) j
    simp only [Nat.add_sub_cancel] at hlt
    have h0 : (c.first[j + 1]?.getD 0 + i) / 2 ^ (j + 1) = 0 := by
      rw [Nat.pow_succ, ← Nat.div_div_eq_div_mul]; omega
    omega
  have e : j + 1 - j = 1 := by omega
  rw [e] at w1
  rw [hb, w1]; rfl

end Verif.Huffman
