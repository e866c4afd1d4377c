import Verif.Zlib.Window

/-! Lemmas about the window of inflate and about copying from it. -/

namespace Verif.Zlib

/-- Where in the window the byte `k` back is. -/
def slot (size write k : Nat) : Nat := if k ≤ write then write - k else size + write - k

/-- The window holds the end of `hist`. -/
structure Holds (size : Nat) (w : Win) (hist : List Byte) : Prop where
  len : w.window.length = size
  use : w.wsize = size ∨ (w.wsize = 0 ∧ hist = [] ∧ w.whave = 0 ∧ w.write = 0)
  wr : w.write < size
  wrh : w.write ≤ hist.length
  hv : w.whave ≤ hist.length
  enough : min hist.length (size) ≤ w.whave
  bytes : ∀ k, 1 ≤ k → k ≤ w.whave → k ≤ size →
    w.window[slot (size) w.write k]? = hist[hist.length - k]?

theorem poke_some {win bs : List Byte} {i : Nat} (h : i + bs.length ≤ win.length) :
    ∃ r, poke win i bs = some r ∧ r.length = win.length ∧
      (∀ j, i ≤ j → j < i + bs.length → r[j]? = bs[j - i]?) ∧
      (∀ j, (j < i ∨ i + bs.length ≤ j) → r[j]? = win[j]?) := by
  refine ⟨win.take i ++ bs ++ win.drop (i + bs.length), ?_, ?_, ?_, ?_⟩
  · unfold poke; rw [if_pos h]
  · simp; omega
  · intro j h1 h2
    rw [List.getElem?_append_left (by simp; omega), List.getElem?_append_right (by simp; omega)]
    simp
    congr 1
    omega
  · intro j h1
    rcases h1 with h1 | h1
    · rw [List.getElem?_append_left (by simp; omega), List.getElem?_append_left (by simp; omega),
        List.getElem?_take_of_lt h1]
    · rw [List.getElem?_append_right (by simp; omega), List.getElem?_drop]
      congr 1
      simp
      omega

theorem end_get (hist made : List Byte) {k : Nat} (h1 : 1 ≤ k) (h2 : k ≤ made.length) :
    (hist ++ made)[(hist ++ made).length - k]? = made[made.length - k]? := by
  rw [List.getElem?_append_right (by simp; omega)]
  congr 1
  simp
  omega

theorem end_get' (hist made : List Byte) {k : Nat} (h2 : made.length < k)
    (h3 : k ≤ hist.length + made.length) :
    (hist ++ made)[(hist ++ made).length - k]? = hist[hist.length - (k - made.length)]? := by
  rw [List.getElem?_append_left (by simp; omega)]
  congr 1
  simp
  omega

theorem updatewindow_spec {wbits : Nat} {w : Win} {hist : List Byte} (h : Holds (2 ^ wbits) w hist)
    (made : List Byte) :
    ∃ w', updatewindow wbits w made = some w' ∧ Holds (2 ^ wbits) w' (hist ++ made) ∧
      w'.wsize = 2 ^ wbits := by
  have hpos : 0 < 2 ^ wbits := Nat.pow_pos (by decide)
  have hnorm : ∃ w1 : Win, (if w.wsize = 0 then { w with wsize := 2 ^ wbits, write := 0, whave := 0 }
      else w) = w1 ∧ Holds (2 ^ wbits) w1 hist ∧ w1.wsize = 2 ^ wbits := by
    rcases h.use with hs | ⟨hs, hh, hw, hr⟩
    · exact ⟨w, by rw [if_neg (by omega)], h, hs⟩
    · refine ⟨_, by rw [if_pos hs], ?_, rfl⟩
      subst hh
      exact ⟨h.len, Or.inl rfl, hpos, by simp, by simp, by simp, by
        intro k h1 h2; simp at h2; omega⟩
  obtain ⟨w1, e1, h1, hs⟩ := hnorm
  unfold updatewindow
  simp only
  rw [e1]
  clear e1 h w
  revert hs h1
  obtain ⟨wsize, window, write, whave⟩ := w1
  intro h hs
  simp only at hs
  subst hs
  have hlen := h.len
  have hwr := h.wr
  have hwrh := h.wrh
  have hhv := h.hv
  have hen := h.enough
  have hby := h.bytes
  simp only at hlen hwr hwrh hhv hen hby ⊢
  generalize 2 ^ wbits = size at *
  by_cases hbig : made.length ≥ size
  · rw [if_pos hbig]
    have hl : (made.drop (made.length - size)).length = size := by simp; omega
    obtain ⟨r, er, rl, rin, rout⟩ := poke_some (win := window) (i := 0)
      (bs := made.drop (made.length - size)) (by omega)
    rw [er]
    refine ⟨_, rfl, ⟨by simp only; omega, Or.inl rfl, hpos, by simp, by simp; omega, by
      simp only; exact Nat.min_le_right _ _, ?_⟩, rfl⟩
    intro k k1 k2 k3
    simp only at k2 ⊢
    have es : slot size 0 k = size - k := by unfold slot; rw [if_neg (by omega)]; omega
    rw [es, rin _ (by omega) (by omega), end_get _ _ k1 (by omega), List.getElem?_drop]
    congr 1
    omega
  · rw [if_neg hbig]
    have e0 : made.drop (made.length - made.length) = made := by simp
    rw [e0]
    by_cases hfit : size - write > made.length ∨ size - write = made.length
    · have ed : (if size - write > made.length then made.length else size - write) = made.length := by
        by_cases hh : size - write > made.length
        · rw [if_pos hh]
        · rw [if_neg hh]; omega
      rw [ed, List.take_length]
      obtain ⟨r, er, rl, rin, rout⟩ := poke_some (win := window) (i := write)
        (bs := made) (by omega)
      rw [er]
      simp only [Option.bind_some, Nat.sub_self, ne_eq, not_true_eq_false, if_false]
      refine ⟨_, rfl, ⟨by simp only; omega, Or.inl rfl, ?_, ?_, ?_, ?_, ?_⟩, rfl⟩
      · simp only
        split <;> omega
      · simp only [List.length_append]
        split <;> omega
      · simp only [List.length_append]
        split <;> omega
      · simp only [List.length_append]
        split <;> omega
      · intro k k1 k2 k3
        simp only at k2 ⊢
        by_cases hk : k ≤ made.length
        · rw [end_get _ _ k1 hk]
          have es : slot size (if write + made.length = size then 0 else write + made.length) k
              = write + (made.length - k) := by
            unfold slot
            by_cases hh : write + made.length = size
            · simp only [if_pos hh]; rw [if_neg (by omega)]; omega
            · simp only [if_neg hh]; rw [if_pos (by omega)]; omega
          rw [es, rin _ (by omega) (by omega)]
          congr 1
          omega
        · have kw : k - made.length ≤ whave := by
            by_cases hh : whave < size
            · rw [if_pos hh] at k2; omega
            · rw [if_neg hh] at k2; omega
          rw [end_get' _ _ (by omega) (by omega),
            ← hby (k - made.length) (by omega) kw (by omega)]
          have es : slot size (if write + made.length = size then 0 else write + made.length) k
              = slot size write (k - made.length) := by
            unfold slot
            by_cases hh : write + made.length = size
            · simp only [if_pos hh]
              rw [if_neg (by omega), if_pos (by omega)]
              omega
            · simp only [if_neg hh]
              by_cases h3 : k ≤ write + made.length
              · rw [if_pos h3, if_pos (by omega)]; omega
              · rw [if_neg h3, if_neg (by omega)]; omega
          rw [es]
          apply rout
          unfold slot
          by_cases h3 : k - made.length ≤ write
          · rw [if_pos h3]; omega
          · rw [if_neg h3]; omega
    · have ed : (if size - write > made.length then made.length else size - write)
          = size - write := by
        rw [if_neg (by omega)]
      rw [ed]
      obtain ⟨r, er, rl, rin, rout⟩ := poke_some (win := window) (i := write)
        (bs := made.take (size - write)) (by simp; omega)
      have tl : (made.take (size - write)).length = size - write := by simp; omega
      rw [er]
      simp only [Option.bind_some]
      rw [if_pos (by omega)]
      have e2 : made.length - (made.length - (size - write)) = size - write := by omega
      rw [e2]
      have dl : (made.drop (size - write)).length = made.length - (size - write) := by simp
      obtain ⟨r2, er2, rl2, rin2, rout2⟩ := poke_some (win := r) (i := 0)
        (bs := made.drop (size - write)) (by omega)
      rw [er2]
      refine ⟨_, rfl, ⟨by simp only; omega, Or.inl rfl, by simp only; omega, by
        simp only [List.length_append]; omega, by simp only [List.length_append]; omega, by
        simp only; exact Nat.min_le_right _ _, ?_⟩, rfl⟩
      intro k k1 k2 k3
      simp only at k2 ⊢
      by_cases hk1 : k ≤ made.length - (size - write)
      · rw [end_get _ _ k1 (by omega)]
        have es : slot size (made.length - (size - write)) k
            = made.length - (size - write) - k := by
          unfold slot; rw [if_pos hk1]
        rw [es, rin2 _ (by omega) (by omega), List.getElem?_drop]
        congr 1
        omega
      · have es : slot size (made.length - (size - write)) k = write + made.length - k := by
          unfold slot; rw [if_neg hk1]; omega
        rw [es, rout2 _ (by omega)]
        by_cases hk : k ≤ made.length
        · rw [end_get _ _ k1 hk, rin _ (by omega) (by omega),
            List.getElem?_take_of_lt (by omega)]
          congr 1
          omega
        · rw [end_get' _ _ (by omega) (by omega),
            ← hby (k - made.length) (by omega) (by omega) (by omega), rout _ (by omega)]
          have es2 : slot size write (k - made.length) = write + made.length - k := by
            unfold slot; rw [if_pos (by omega)]; omega
          rw [es2]

theorem setDictionary_spec {wbits : Nat} {memory : List Byte} (hm : memory.length = 2 ^ wbits)
    (dict : List Byte) :
    ∃ w', setDictionary wbits ⟨0, memory, 0, 0⟩ dict = some w' ∧ Holds (2 ^ wbits) w' dict := by
  have hpos : 0 < 2 ^ wbits := Nat.pow_pos (by decide)
  unfold setDictionary updatewindow
  simp only [if_true, List.length_nil]
  rw [if_neg (by omega)]
  have e1 : (if 2 ^ wbits - 0 > 0 then 0 else 2 ^ wbits - 0) = 0 := by rw [if_pos (by omega)]
  rw [e1]
  obtain ⟨r, er, rl, rin, rout⟩ := poke_some (win := memory) (i := 0) (bs := []) (by simp)
  simp only [Nat.sub_self, List.drop_nil, List.take_nil]
  rw [er]
  simp only [Option.bind_some, ne_eq, not_true_eq_false, if_false]
  simp only [Nat.add_zero, gt_iff_lt, ite_self]
  clear er rin rout
  generalize 2 ^ wbits = size at *
  by_cases hd : size < dict.length
  · rw [if_pos hd]
    have hl : (dict.drop (dict.length - size)).length = size := by simp; omega
    obtain ⟨r2, er2, rl2, rin2, rout2⟩ := poke_some (win := r) (i := 0)
      (bs := dict.drop (dict.length - size)) (by omega)
    rw [er2]
    refine ⟨_, rfl, ⟨by simp only; omega, Or.inl rfl, hpos, by simp, by simp; omega, by
      simp only; exact Nat.min_le_right _ _, ?_⟩⟩
    intro k k1 k2 k3
    simp only at k2 ⊢
    have es : slot size 0 k = size - k := by unfold slot; rw [if_neg (by omega)]; omega
    rw [es, rin2 _ (by omega) (by omega), List.getElem?_drop]
    congr 1
    omega
  · rw [if_neg hd]
    obtain ⟨r2, er2, rl2, rin2, rout2⟩ := poke_some (win := r) (i := size - dict.length)
      (bs := dict) (by omega)
    rw [er2]
    refine ⟨_, rfl, ⟨by simp only; omega, Or.inl rfl, hpos, by simp, by simp, by
      simp only; exact Nat.min_le_left _ _, ?_⟩⟩
    intro k k1 k2 k3
    simp only at k2 ⊢
    have es : slot size 0 k = size - k := by unfold slot; rw [if_neg (by omega)]; omega
    rw [es, rin2 _ (by omega) (by omega)]
    congr 1
    omega

/-! ### Copying -/

theorem copyBack_add (d : Nat) : ∀ (m n : Nat) (out : List Byte),
    copyBack out d (m + n) = copyBack (copyBack out d m) d n
  | 0, n, out => by simp [copyBack]
  | m + 1, n, out => by
    rw [Nat.succ_add]
    simp only [copyBack]
    exact copyBack_add d m n _

theorem copyBack_length (d : Nat) : ∀ (n : Nat) (out : List Byte),
    (copyBack out d n).length = out.length + n
  | 0, out => by simp [copyBack]
  | n + 1, out => by
    simp only [copyBack, copyBack_length d n, List.length_append, List.length_singleton]
    omega

theorem copyBack_prefix (d : Nat) : ∀ (n : Nat) (out : List Byte), out <+: copyBack out d n
  | 0, out => by simp [copyBack]
  | n + 1, out => by
    simp only [copyBack]
    exact (List.prefix_append _ _).trans (copyBack_prefix d n _)

theorem fromWindow_spec {window hist : List Byte} {dist : Nat} :
    ∀ (n i : Nat) (made : List Byte),
      dist ≤ hist.length + made.length →
      made.length + n ≤ dist →
      (∀ j < n, window[i + j]? = hist[hist.length + made.length - dist + j]?) →
      ∃ made', fromWindow window i n made = some made' ∧
        hist ++ made' = copyBack (hist ++ made) dist n ∧ made'.length = made.length + n
  | 0, i, made, _, _, _ => ⟨made, by simp [fromWindow], by simp [copyBack], by omega⟩
  | n + 1, i, made, h1, h2, h3 => by
    have h0 := h3 0 (by omega)
    have hlt : hist.length + made.length - dist < hist.length := by omega
    simp only [Nat.add_zero] at h0
    rw [List.getElem?_eq_getElem hlt] at h0
    obtain ⟨made', e1, e2, e3⟩ := fromWindow_spec (window := window) (hist := hist) (dist := dist)
      n (i + 1) (made ++ [hist[hist.length + made.length - dist]])
      (by simp; omega) (by simp; omega) (by
        intro j hj
        have := h3 (j + 1) (by omega)
        rw [show i + 1 + j = i + (j + 1) by omega, this]
        congr 1
        simp
        omega)
    refine ⟨made', ?_, ?_, ?_⟩
    · simp only [fromWindow, h0, e1]
    · rw [e2]
      simp only [copyBack]
      have : (hist ++ made).getD ((hist ++ made).length - dist) 0
          = hist[hist.length + made.length - dist] := by
        rw [List.getD_eq_getElem?_getD, List.length_append, List.getElem?_append_left hlt,
          List.getElem?_eq_getElem hlt]
        rfl
      rw [this, List.append_assoc]
    · rw [e3]; simp; omega

theorem fromOutput_spec {hist : List Byte} {dist : Nat} :
    ∀ (n : Nat) (made : List Byte), 1 ≤ dist → dist ≤ made.length →
      ∃ made', fromOutput (made.length - dist) n made = some made' ∧
        hist ++ made' = copyBack (hist ++ made) dist n ∧ made'.length = made.length + n
  | 0, made, _, _ => ⟨made, by simp [fromOutput], by simp [copyBack], by omega⟩
  | n + 1, made, h1, h2 => by
    have hlt : made.length - dist < made.length := by omega
    obtain ⟨made', e1, e2, e3⟩ := fromOutput_spec (hist := hist) (dist := dist)
      n (made ++ [made[made.length - dist]]) h1 (by simp; omega)
    have hi : (made ++ [made[made.length - dist]]).length - dist = made.length - dist + 1 := by
      simp; omega
    rw [hi] at e1
    refine ⟨made', ?_, ?_, ?_⟩
    · simp only [fromOutput, List.getElem?_eq_getElem hlt, e1]
    · rw [e2]
      simp only [copyBack]
      have : (hist ++ made).getD ((hist ++ made).length - dist) 0
          = made[made.length - dist] := by
        rw [List.getD_eq_getElem?_getD, List.getElem?_append_right (by simp; omega),
          List.getElem?_eq_getElem (by simp; omega)]
        simp only [List.length_append, Option.getD_some]
        congr 1
        omega
      rw [this, List.append_assoc]
    · rw [e3]; simp; omega

/-- Reading the window from the byte `k` back on, not over its end. -/
theorem window_run {size : Nat} {w : Win} {hist : List Byte} (h : Holds size w hist)
    {k n dist : Nat} {made : List Byte} (hk : dist - made.length = k) (h1 : 1 ≤ k)
    (h2 : k ≤ w.whave) (h3 : k ≤ size) (hn : n ≤ k)
    (hw : w.write < k → n ≤ k - w.write) :
    ∃ made', fromWindow w.window (slot size w.write k) n made = some made' ∧
      hist ++ made' = copyBack (hist ++ made) dist n ∧ made'.length = made.length + n := by
  have hv := h.hv
  apply fromWindow_spec
  · omega
  · omega
  · intro j hj
    have hb := h.bytes (k - j) (by omega) (by omega) (by omega)
    have e1 : slot size w.write k + j = slot size w.write (k - j) := by
      unfold slot
      by_cases hc : k ≤ w.write
      · rw [if_pos hc, if_pos (by omega)]; omega
      · have := hw (by omega)
        rw [if_neg hc, if_neg (by omega)]; omega
    rw [e1, hb]
    congr 1
    omega

theorem matchOnce_spec {size : Nat} {w : Win} {hist : List Byte} (h : Holds size w hist)
    {length offset left : Nat} {made : List Byte} (hl : 1 ≤ length) (ho : 1 ≤ offset)
    (hs : offset ≤ size) (hi : offset ≤ hist.length + made.length) (hleft : left ≠ 0) :
    ∃ c made', 1 ≤ c ∧ c ≤ length ∧ c ≤ left ∧
      matchOnce w length offset made left =
        some ⟨if length - c = 0 then .len else .mtch (length - c) offset, made', left - c⟩ ∧
      hist ++ made' = copyBack (hist ++ made) offset c ∧ made'.length = made.length + c := by
  have hen := h.enough
  have hwr := h.wr
  unfold matchOnce
  simp only
  by_cases hc : offset > made.length
  · have hne : hist ≠ [] := by rintro rfl; simp at hi; omega
    have hsz : w.wsize = size := by
      rcases h.use with hu | hu
      · exact hu
      · exact absurd hu.2.1 hne
    have hkw : offset - made.length ≤ w.whave := by omega
    rw [if_pos hc]
    by_cases hw : offset - made.length > w.write
    · rw [if_pos hw, if_neg (by omega)]
      generalize hcd : (if (if offset - made.length - w.write > length then length
        else offset - made.length - w.write) > left then left
        else if offset - made.length - w.write > length then length
        else offset - made.length - w.write) = c
      have hc3 : 1 ≤ c ∧ c ≤ length ∧ c ≤ left ∧ c ≤ offset - made.length - w.write := by
        subst hcd
        split <;> split <;> omega
      rw [if_neg (by omega)]
      obtain ⟨made', e1, e2, e3⟩ := window_run h (k := offset - made.length) (n := c)
        (dist := offset) (made := made) rfl (by omega) hkw (by omega) (by omega) (by omega)
      have es : slot size w.write (offset - made.length)
          = w.wsize - (offset - made.length - w.write) := by
        unfold slot; rw [if_neg (by omega)]; omega
      rw [es] at e1
      rw [e1]
      exact ⟨c, made', hc3.1, hc3.2.1, hc3.2.2.1, rfl, e2, e3⟩
    · rw [if_neg hw]
      generalize hcd : (if (if offset - made.length > length then length
        else offset - made.length) > left then left
        else if offset - made.length > length then length
        else offset - made.length) = c
      have hc3 : 1 ≤ c ∧ c ≤ length ∧ c ≤ left ∧ c ≤ offset - made.length := by
        subst hcd
        split <;> split <;> omega
      rw [if_neg (by omega)]
      obtain ⟨made', e1, e2, e3⟩ := window_run h (k := offset - made.length) (n := c)
        (dist := offset) (made := made) rfl (by omega) hkw (by omega) (by omega) (by omega)
      have es : slot size w.write (offset - made.length)
          = w.write - (offset - made.length) := by
        unfold slot; rw [if_pos (by omega)]
      rw [es] at e1
      rw [e1]
      exact ⟨c, made', hc3.1, hc3.2.1, hc3.2.2.1, rfl, e2, e3⟩
  · rw [if_neg hc]
    generalize hcd : (if length > left then left else length) = c
    have hc3 : 1 ≤ c ∧ c ≤ length ∧ c ≤ left := by
      subst hcd
      split <;> omega
    rw [if_neg (by omega)]
    obtain ⟨made', e1, e2, e3⟩ := fromOutput_spec (hist := hist) (dist := offset) c made ho
      (by omega)
    rw [e1]
    exact ⟨c, made', hc3.1, hc3.2.1, hc3.2.2, rfl, e2, e3⟩

/-- The output after a part from the window, continued from the output itself. -/
theorem out_rest {hist made made1 : List Byte} {dist m n : Nat}
    (e2 : hist ++ made1 = copyBack (hist ++ made) dist m) (hd : 1 ≤ dist)
    (hl : dist ≤ made1.length) :
    ∃ made', fromOutput (made1.length - dist) n made1 = some made' ∧
      hist ++ made' = copyBack (hist ++ made) dist (m + n) ∧
      made'.length = made1.length + n := by
  obtain ⟨made', a, b, c⟩ := fromOutput_spec (hist := hist) (dist := dist) n made1 hd hl
  exact ⟨made', a, by rw [b, e2, copyBack_add], c⟩

theorem fastCopy_spec {size : Nat} {w : Win} {hist : List Byte} (h : Holds size w hist)
    {len dist : Nat} {made : List Byte} (hl : 3 ≤ len) (ho : 1 ≤ dist)
    (hs : dist ≤ size) :
    (dist ≤ hist.length + made.length → ∃ made', fastCopy w len dist made = some (some made') ∧
      hist ++ made' = copyBack (hist ++ made) dist len ∧ made'.length = made.length + len) ∧
    (hist.length + made.length < dist → fastCopy w len dist made = some none) := by
  have hen := h.enough
  have hwr := h.wr
  have hv := h.hv
  unfold fastCopy
  simp only
  constructor
  · intro hi
    by_cases hc : dist > made.length
    · have hne : hist ≠ [] := by rintro rfl; simp at hi; omega
      have hsz : w.wsize = size := by
        rcases h.use with hu | hu
        · exact hu
        · exact absurd hu.2.1 hne
      have hkw : dist - made.length ≤ w.whave := by omega
      rw [if_pos hc, if_neg (by omega)]
      generalize hop : dist - made.length = op at *
      by_cases hw0 : w.write = 0
      · rw [if_pos hw0, if_neg (by omega)]
        have es : slot size w.write op = w.wsize - op := by
          unfold slot; rw [if_neg (by omega)]; omega
        by_cases hol : op < len
        · rw [if_pos hol]
          obtain ⟨made1, e1, e2, e3⟩ := window_run h (n := op)
            (dist := dist) (made := made) hop (by omega) hkw (by omega) (by omega) (by omega)
          rw [es] at e1
          rw [e1]
          simp only [Option.bind_some]
          rw [if_neg (by omega)]
          obtain ⟨made', a, b, c⟩ := out_rest (n := len - op) e2 ho (by omega)
          rw [a]
          refine ⟨made', rfl, ?_, by omega⟩
          rw [b]; congr 1; omega
        · rw [if_neg hol]
          obtain ⟨made1, e1, e2, e3⟩ := window_run h (n := len)
            (dist := dist) (made := made) hop (by omega) hkw (by omega) (by omega) (by omega)
          rw [es] at e1
          rw [e1]
          exact ⟨made1, rfl, e2, e3⟩
      · rw [if_neg hw0]
        by_cases hwo : w.write < op
        · rw [if_pos hwo, if_neg (by omega)]
          have es : slot size w.write op = w.wsize + w.write - op := by
            unfold slot; rw [if_neg (by omega)]; omega
          by_cases hol : op - w.write < len
          · rw [if_pos hol]
            obtain ⟨made1, e1, e2, e3⟩ := window_run h (n := op - w.write)
              (dist := dist) (made := made) hop (by omega) hkw (by omega) (by omega) (by omega)
            rw [es] at e1
            rw [e1]
            simp only [Option.bind_some]
            have es2 : slot size w.write w.write = 0 := by
              unfold slot; rw [if_pos (by omega)]; omega
            by_cases hwl : w.write < len - (op - w.write)
            · rw [if_pos hwl]
              obtain ⟨made2, f1, f2, f3⟩ := window_run h (k := w.write) (n := w.write)
                (dist := dist) (made := made1) (by omega) (by omega) (by omega) (by omega)
                (by omega) (by omega)
              rw [es2] at f1
              rw [f1]
              simp only [Option.bind_some]
              rw [if_neg (by omega)]
              rw [e2, ← copyBack_add] at f2
              obtain ⟨made', a, b, c⟩ := out_rest (n := len - (op - w.write) - w.write) f2 ho
                (by omega)
              rw [a]
              refine ⟨made', rfl, ?_, by omega⟩
              rw [b]; congr 1; omega
            · rw [if_neg hwl]
              obtain ⟨made2, f1, f2, f3⟩ := window_run h (k := w.write) (n := len - (op - w.write))
                (dist := dist) (made := made1) (by omega) (by omega) (by omega) (by omega)
                (by omega) (by omega)
              rw [es2] at f1
              rw [f1]
              rw [e2, ← copyBack_add] at f2
              refine ⟨made2, rfl, ?_, by omega⟩
              rw [f2]; congr 1; omega
          · rw [if_neg hol]
            obtain ⟨made1, e1, e2, e3⟩ := window_run h (n := len)
              (dist := dist) (made := made) hop (by omega) hkw (by omega) (by omega) (by omega)
            rw [es] at e1
            rw [e1]
            exact ⟨made1, rfl, e2, e3⟩
        · rw [if_neg hwo]
          have es : slot size w.write op = w.write - op := by
            unfold slot; rw [if_pos (by omega)]
          by_cases hol : op < len
          · rw [if_pos hol]
            obtain ⟨made1, e1, e2, e3⟩ := window_run h (n := op)
              (dist := dist) (made := made) hop (by omega) hkw (by omega) (by omega) (by omega)
            rw [es] at e1
            rw [e1]
            simp only [Option.bind_some]
            rw [if_neg (by omega)]
            obtain ⟨made', a, b, c⟩ := out_rest (n := len - op) e2 ho (by omega)
            rw [a]
            refine ⟨made', rfl, ?_, by omega⟩
            rw [b]; congr 1; omega
          · rw [if_neg hol]
            obtain ⟨made1, e1, e2, e3⟩ := window_run h (n := len)
              (dist := dist) (made := made) hop (by omega) hkw (by omega) (by omega) (by omega)
            rw [es] at e1
            rw [e1]
            exact ⟨made1, rfl, e2, e3⟩
    · rw [if_neg hc, if_neg (by omega)]
      obtain ⟨made', e1, e2, e3⟩ := fromOutput_spec (hist := hist) (dist := dist) len made ho
        (by omega)
      rw [e1]
      exact ⟨made', rfl, e2, e3⟩
  · intro hi
    rw [if_pos (by omega), if_pos (by omega)]

end Verif.Zlib
