import Verif.BitStream.Model

set_option linter.unusedVariables false
set_option linter.unusedSimpArgs false

namespace Verif.BitStream
open Verif

/-- Specification: bit `k` of a byte string, least significant bit of each byte first; positions
behind the end have no bit. -/
def bitAt (data : Str) (k : Nat) : Option Bool := (data[k / 8]?).map fun b => b.toNat.testBit (k % 8)

/-- Specification: all bits of a byte string. -/
def bitsOf (data : Str) : List Bool :=
  data.flatMap fun b => (List.range 8).map fun k => b.toNat.testBit k

theorem bitsOf_length (data : Str) : (bitsOf data).length = 8 * data.length := by
  induction data with
  | nil => rfl
  | cons b d ih => simp only [bitsOf, List.flatMap_cons, List.length_append] at *; simp at *; omega

theorem bitsOf_get (data : Str) (k : Nat) : (bitsOf data)[k]? = bitAt data k := by
  induction data generalizing k with
  | nil => simp [bitsOf, bitAt]
  | cons b d ih =>
    simp only [bitsOf, List.flatMap_cons] at *
    by_cases h : k < 8
    · rw [List.getElem?_append_left (by simpa using h)]
      have e1 : k / 8 = 0 := by omega
      have e2 : k % 8 = k := by omega
      simp [bitAt, e1, e2, h]
    · rw [List.getElem?_append_right (by simp; omega)]
      simp only [List.length_map, List.length_range]
      rw [ih]
      have e1 : k / 8 = (k - 8) / 8 + 1 := by omega
      have e2 : k % 8 = (k - 8) % 8 := by omega
      simp [bitAt, e1, e2]

/-- The reader state is consistent with its position. -/
structure Sync (w : W) : Prop where
  le : w.bitPos ≤ w.data.length * 8
  it : w.it = (w.bitPos + 7) / 8
  cur : w.bitPos % 8 ≠ 0 → ∃ b, w.data[w.bitPos / 8]? = some b ∧
    w.cur = b.toBitVec.sshiftRight (w.bitPos % 8 - 1)

theorem sshift_bit (b : BitVec 8) (k : Nat) (hk : k < 8) :
    (b.sshiftRight k).getLsbD 0 = b.getLsbD k := by
  rw [BitVec.getLsbD_sshiftRight]; simp [hk]

theorem sshift_add (b : BitVec 8) (k : Nat) : (b.sshiftRight k).sshiftRight 1 = b.sshiftRight (k + 1) := by
  rw [BitVec.sshiftRight_add]

theorem read_spec (w : W) (h : Sync w) (hlt : w.bitPos < w.data.length * 8) :
    some (read w).1 = bitAt w.data w.bitPos ∧ Sync (read w).2 ∧ (read w).2.data = w.data ∧
      (read w).2.bitPos = w.bitPos + 1 := by
  have hit := h.it
  unfold read
  by_cases h0 : w.bitPos % 8 = 0
  · have e : w.it = w.bitPos / 8 := by omega
    have hl : w.it < w.data.length := by omega
    have hg : w.data[w.it]? = some w.data[w.it] := List.getElem?_eq_getElem hl
    rw [if_pos h0, hg]
    dsimp only
    refine ⟨?_, ⟨?_, ?_, ?_⟩, rfl, rfl⟩
    · simp only [bitAt, ← e, hg, h0]; rfl
    · simp; omega
    · simp; omega
    · intro _
      refine ⟨w.data[w.it], ?_, ?_⟩
      · rw [← hg]; congr 1; simp; omega
      · have : (w.bitPos + 1) % 8 - 1 = 0 := by omega
        simp [this]
  · obtain ⟨b, hb, hc⟩ := h.cur h0
    rw [if_neg h0]
    dsimp only
    have hcur : w.cur.sshiftRight 1 = b.toBitVec.sshiftRight (w.bitPos % 8) := by
      rw [hc, sshift_add]; congr 1; omega
    refine ⟨?_, ⟨?_, ?_, ?_⟩, rfl, rfl⟩
    · simp only [bitAt, hb, Option.map_some, hcur]
      rw [sshift_bit _ _ (by omega)]; rfl
    · simp; omega
    · simp; omega
    · intro h1
      simp only at h1
      refine ⟨b, ?_, ?_⟩
      · rw [← hb]; congr 1; simp; omega
      · simp only [hcur]; congr 1; omega

theorem readN_spec (n : Nat) (w : W) (h : Sync w) (hle : w.bitPos + n ≤ w.data.length * 8) :
    (readN n w).1 = ((bitsOf w.data).drop w.bitPos).take n ∧ Sync (readN n w).2 ∧
      (readN n w).2.data = w.data ∧ (readN n w).2.bitPos = w.bitPos + n := by
  induction n generalizing w with
  | zero => simp [readN, h]
  | succ n ih =>
    obtain ⟨h1, h2, h3, h4⟩ := read_spec w h (by omega)
    obtain ⟨i1, i2, i3, i4⟩ := ih (read w).2 h2 (by rw [h3, h4]; omega)
    simp only [readN]
    refine ⟨?_, i2, i3.trans h3, by rw [i4, h4]; omega⟩
    rw [i1, h3, h4]
    have hl : w.bitPos < (bitsOf w.data).length := by rw [bitsOf_length]; omega
    rw [List.drop_eq_getElem_cons hl, List.take_succ_cons]
    congr 1
    have := bitsOf_get w.data w.bitPos
    rw [← h1, List.getElem?_eq_getElem hl] at this
    simpa using this.symm

theorem sync_new (data : Str) : Sync (new data) := by
  refine ⟨by simp [new], by simp [new], by simp [new]⟩

theorem seekOffset_eq (pos : Nat) (h0 : 0 < pos) (h : pos ≤ 2 ^ 34) : seekOffset pos = ((pos - 1) / 8 : Nat) := by
  have e : ((pos : Int) - 1) % 2 ^ 64 / 8 = ((pos - 1) / 8 : Nat) := by omega
  rw [seekOffset, e]
  apply Int.bmod_eq_of_le <;> omega

theorem sync_seek (w : W) (pos : Nat) (h0 : 0 < pos) (h : pos ≤ w.data.length * 8) (hl : w.data.length ≤ 2 ^ 31) :
    ∃ w', seek w pos = some w' ∧ Sync w' ∧ w'.data = w.data ∧ w'.bitPos = pos := by
  have hl : (pos - 1) / 8 < w.data.length := by omega
  have hg : w.data[(pos - 1) / 8]? = some w.data[(pos - 1) / 8] := List.getElem?_eq_getElem hl
  have ho := seekOffset_eq pos h0 (by omega)
  have hn : (seekOffset pos).toNat = (pos - 1) / 8 := by rw [ho]; exact Int.toNat_natCast _
  have e : (((pos : Int) - 1) % 2 ^ 64 % 8).toNat = (pos - 1) % 8 := by omega
  refine ⟨{ w with bitPos := pos
                   cur := (w.data[(pos - 1) / 8]).toBitVec.sshiftRight ((pos - 1) % 8)
                   it := (pos - 1) / 8 + 1 }, by rw [seek, if_neg (by omega), hn, hg, e], ⟨?_, ?_, ?_⟩, rfl, rfl⟩
  · simp; omega
  · simp; omega
  · intro h1
    simp only at h1
    refine ⟨w.data[(pos - 1) / 8], ?_, ?_⟩
    · simp only; rw [← hg]; congr 1; omega
    · simp only; congr 1; omega

/-- The written data: a prefix already present, then the bits written so far and zero padding. -/
structure Written (w : W) (pre : Str) (bs : List Bool) : Prop where
  pos : w.bitPos = bs.length
  len : w.data.length = pre.length + (bs.length + 7) / 8
  old : w.data.take pre.length = pre
  bits : ∀ k, k < 8 * ((bs.length + 7) / 8) →
    bitAt w.data (8 * pre.length + k) = some (bs[k]?.getD false)

theorem setLast_get (l : Str) (x : Byte) (h : l ≠ []) (i : Nat) :
    (l.set (l.length - 1) x)[i]? = if i = l.length - 1 then some x else l[i]? := by
  have : 0 < l.length := List.length_pos_iff.2 h
  by_cases hi : i = l.length - 1
  · subst hi; rw [List.getElem?_set_self (by omega)]; simp
  · rw [List.getElem?_set_ne (by omega)]; simp [hi]

theorem or_bit (b : Byte) (k j : Nat) (hk : k < 8) (hj : j < 8) :
    (UInt8.ofBitVec (b.toBitVec ||| ((1 : BitVec 8) <<< k))).toNat.testBit j =
      (b.toNat.testBit j || decide (j = k)) := by
  have e : (UInt8.ofBitVec (b.toBitVec ||| ((1 : BitVec 8) <<< k))).toNat.testBit j
      = (b.toBitVec ||| ((1 : BitVec 8) <<< k)).getLsbD j := rfl
  rw [e, BitVec.getLsbD_or]
  congr 1
  rw [BitVec.getLsbD_shiftLeft]
  have : (1 : BitVec 8).getLsbD (j - k) = decide (j - k = 0) := by
    have : (1 : BitVec 8) = BitVec.ofNat 8 1 := rfl
    rw [this, BitVec.getLsbD_ofNat]
    have : Nat.testBit 1 (j - k) = decide (j - k = 0) := by
      rw [Bool.eq_iff_iff, Nat.testBit_one_eq_true_iff_self_eq_zero]; simp
    rw [this]
    have : j - k < 8 := by omega
    simp [this]
  rw [this]
  by_cases h1 : j = k
  · subst h1; simp [hj]
  · by_cases h2 : j < k
    · simp [h2, h1]
    · have : ¬ j - k = 0 := by omega
      simp [this, h1]

theorem written_put (w : W) (pre : Str) (bs : List Bool) (h : Written w pre bs) (bit : Bool) :
    Written (put w bit) pre (bs ++ [bit]) := by
  obtain ⟨hpos, hlen, hpre, hbits⟩ := h
  -- the data after the possible `push_back(0)`
  obtain ⟨d, hd⟩ : ∃ d, d = (if w.bitPos % 8 = 0 then w.data ++ [0] else w.data) := ⟨_, rfl⟩
  have hdl : d.length = pre.length + (bs.length + 1 + 7) / 8 := by
    rw [hd]; split <;> (try simp) <;> omega
  have hdne : d ≠ [] := by
    intro e; rw [e] at hdl; simp at hdl; omega
  have hdp : d.take pre.length = pre := by
    rw [hd]; split
    · rw [List.take_append_of_le_length (by omega)]; exact hpre
    · exact hpre
  have hdb : ∀ k, k < 8 * ((bs.length + 1 + 7) / 8) →
      bitAt d (8 * pre.length + k) = some (bs[k]?.getD false) := by
    intro k hk
    by_cases hk' : k < 8 * ((bs.length + 7) / 8)
    · have hb := hbits k hk'
      rw [← hb, hd]
      split
      · simp only [bitAt]
        rw [List.getElem?_append_left (by omega)]
      · rfl
    · have h0 : w.bitPos % 8 = 0 := by omega
      rw [hd, if_pos h0]
      have hn : bs[k]? = none := List.getElem?_eq_none (by omega)
      have : (8 * pre.length + k) / 8 = w.data.length := by omega
      simp [bitAt, this, hn]
  have hlast : d.getLastD 0 = d[d.length - 1]'(by have := List.length_pos_iff.2 hdne; omega) := by
    rw [List.getLastD_eq_getLast?, List.getLast?_eq_getElem?, List.getElem?_eq_getElem]; rfl
  have hbk : bs.length / 8 = (bs.length + 1 + 7) / 8 - 1 := by omega
  cases bit with
  | false =>
    have hput : put w false = { w with data := d, bitPos := w.bitPos + 1 } := by
      simp [put, hd]
    rw [hput]
    refine ⟨by simp [hpos], by simpa using hdl, hdp, ?_⟩
    intro k hk
    simp only [List.length_append, List.length_singleton] at hk
    simp only
    rw [hdb k hk]
    by_cases hkl : k < bs.length
    · rw [List.getElem?_append_left hkl]
    · rw [List.getElem?_eq_none (by omega : bs.length ≤ k)]
      by_cases hke : k = bs.length
      · subst hke; simp
      · rw [List.getElem?_eq_none (by simp; omega)]
  | true =>
    have hput : put w true = { w with
        data := d.set (d.length - 1) (UInt8.ofBitVec ((d.getLastD 0).toBitVec ||| ((1 : BitVec 8) <<< (w.bitPos % 8)))),
        bitPos := w.bitPos + 1 } := by
      simp [put, hd]
    rw [hput]
    refine ⟨by simp [hpos], by simpa using hdl, ?_, ?_⟩
    · simp only
      rw [List.take_set_of_le (by omega)]; exact hdp
    · intro k hk
      simp only [List.length_append, List.length_singleton] at hk
      have hb := hdb k hk
      simp only [bitAt] at hb ⊢
      rw [setLast_get _ _ hdne]
      by_cases hi : (8 * pre.length + k) / 8 = d.length - 1
      · rw [if_pos hi]
        rw [hi, List.getElem?_eq_getElem (by have := List.length_pos_iff.2 hdne; omega)] at hb
        simp only [Option.map_some, Option.some.injEq] at hb ⊢
        rw [hlast, or_bit _ _ _ (by omega) (by omega), hb]
        by_cases hkl : k < bs.length
        · rw [List.getElem?_append_left hkl]
          have : ¬ (8 * pre.length + k) % 8 = w.bitPos % 8 := by omega
          rw [decide_eq_false this, Bool.or_false]
        · by_cases hke : k = bs.length
          · subst hke
            have : (8 * pre.length + bs.length) % 8 = w.bitPos % 8 := by omega
            simp [this]
          · rw [List.getElem?_eq_none (by omega : bs.length ≤ k),
              List.getElem?_eq_none (by simp; omega)]
            have : ¬ (8 * pre.length + k) % 8 = w.bitPos % 8 := by omega
            rw [decide_eq_false this, Bool.or_false]
      · rw [if_neg hi, hb]
        have hkl : k < bs.length := by omega
        rw [List.getElem?_append_left hkl]

theorem written_putAll (bs' : List Bool) (w : W) (pre : Str) (bs : List Bool) (h : Written w pre bs) :
    Written (putAll w bs') pre (bs ++ bs') := by
  induction bs' generalizing w bs with
  | nil => simpa [putAll] using h
  | cons b bs' ih =>
    have := ih _ _ (written_put w pre bs h b)
    simpa [putAll] using this

theorem written_new (pre : Str) : Written (new pre) pre [] :=
  ⟨rfl, by simp [new], by simp [new], by simp⟩

end Verif.BitStream
