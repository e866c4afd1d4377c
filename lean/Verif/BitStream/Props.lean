import Verif.BitStream.Lemmas

/-!
Property theorems C31 (bit stream wrapper).

`bitsOf data` lists the bits of a byte string, least significant bit of each byte first.
-/
set_option linter.unusedVariables false
set_option linter.unusedSimpArgs false

namespace Verif.BitStream
open Verif

/-- **C31** Writing: the bytes hold the written bits in order, padded with zero bits to a whole number
of bytes (fewer than eight). -/
theorem C31_put (bs : List Bool) :
    ∃ pad, pad < 8 ∧ bitsOf (putAll (new []) bs).data = bs ++ List.replicate pad false := by
  have h := written_putAll bs (new []) [] [] (written_new [])
  simp only [List.nil_append] at h
  refine ⟨8 * ((bs.length + 7) / 8) - bs.length, by omega, ?_⟩
  apply List.ext_getElem?
  intro k
  rw [bitsOf_get]
  by_cases hk : k < 8 * ((bs.length + 7) / 8)
  · have hb := h.bits k hk
    simp only [List.length_nil, Nat.mul_zero, Nat.zero_add] at hb
    rw [hb]
    by_cases hkl : k < bs.length
    · rw [List.getElem?_append_left hkl, List.getElem?_eq_getElem hkl]; rfl
    · rw [List.getElem?_append_right (by omega), List.getElem?_eq_none (by omega : bs.length ≤ k),
        List.getElem?_replicate, if_pos (by omega)]; rfl
  · have hl := h.len
    simp only [List.length_nil, Nat.zero_add] at hl
    have : (putAll (new []) bs).data[k / 8]? = none := List.getElem?_eq_none (by omega)
    rw [List.getElem?_eq_none (by simp; omega)]
    simp [bitAt, this]

/-- **C31** Reading: a new wrapper returns the bits of the bytes in order. -/
theorem C31_read (data : Str) (n : Nat) (h : n ≤ 8 * data.length) :
    (readN n (new data)).1 = (bitsOf data).take n := by
  have := (readN_spec n (new data) (sync_new data) (by simp [new]; omega)).1
  simpa [new] using this

/-- **C31** Round trip: the bits written one by one are read back in the same order. -/
theorem C31_roundtrip (bs : List Bool) :
    (readN bs.length (new (putAll (new []) bs).data)).1 = bs := by
  obtain ⟨pad, _, h⟩ := C31_put bs
  have hl := bitsOf_length (putAll (new []) bs).data
  rw [h] at hl; simp at hl
  rw [C31_read _ _ (by omega), h]
  simp

/-- **C31** Seeking: after `Seek` to any position but 0, from any state, the bits from that position
on are read (containers of up to 2^31 bytes: the offset is an `int`). -/
theorem C31_seek_partial (w : W) (pos n : Nat) (h0 : 0 < pos) (h : pos + n ≤ 8 * w.data.length)
    (hl : w.data.length ≤ 2 ^ 31) :
    ∃ w', seek w pos = some w' ∧ w'.bitPos = pos ∧ w'.data = w.data ∧
      (readN n w').1 = ((bitsOf w.data).drop pos).take n := by
  obtain ⟨w', h1, h2, h3, h4⟩ := sync_seek w pos h0 (by omega) hl
  refine ⟨w', h1, h4, h3, ?_⟩
  rw [(readN_spec n w' h2 (by rw [h3, h4]; omega)).1, h3, h4]

/-- **C31** Positions told from the end: after reading `n` bits `TellFromEnd` is the number of bits left, so it is
0 exactly at the end. -/
theorem C31_tell_from_end (data : Str) (n : Nat) (h : n ≤ 8 * data.length) :
    tellFromEnd (readN n (new data)).2 = ((bitsOf data).drop n).length := by
  obtain ⟨_, _, h3, h4⟩ := readN_spec n (new data) (sync_new data) (by simp [new]; omega)
  rw [tellFromEnd, h3, h4, List.length_drop, bitsOf_length]
  simp [new]; omega

/-- **C31** Seeking from the end: `SeekFromEnd(m)` makes the last `m` bits those that are read next, and
`TellFromEnd` returns `m` again. -/
theorem C31_seek_from_end_partial (w : W) (m : Nat) (h : m < 8 * w.data.length) (hl : w.data.length ≤ 2 ^ 31) :
    ∃ w', seekFromEnd w m = some w' ∧ tellFromEnd w' = m ∧
      ∀ n, n ≤ m → (readN n w').1 = ((bitsOf w.data).drop (8 * w.data.length - m)).take n := by
  have e : (((w.data.length : Int) * 8 - m) % 2 ^ 64).toNat = 8 * w.data.length - m := by omega
  obtain ⟨w', h1, h2, h3, h4⟩ := sync_seek w (8 * w.data.length - m) (by omega) (by omega) hl
  refine ⟨w', by rw [seekFromEnd, e]; exact h1, ?_, ?_⟩
  · rw [tellFromEnd, h3, h4]; omega
  · intro n hn
    rw [(readN_spec n w' h2 (by rw [h3, h4]; omega)).1, h3, h4]

/-- **C31** `Reset` goes back to the first bit. -/
theorem C31_reset (w : W) (n : Nat) (h : n ≤ 8 * w.data.length) :
    (readN n (reset w)).1 = (bitsOf w.data).take n := by
  have hs : Sync (reset w) := ⟨by simp [reset], by simp [reset], by simp [reset]⟩
  have := (readN_spec n (reset w) hs (by simp [reset]; omega)).1
  simpa [reset] using this

/-- **C31 (disagreement)** `Seek(0)`, the position told before the first read, is undefined behaviour whatever the
container holds: the offset is -1, and the element before the first one is read.  So is `SeekFromEnd` by the whole length. -/
theorem C31_seek_zero_false (w : W) (hl : w.data.length ≤ 2 ^ 31) :
    seek w (new w.data).bitPos = none ∧ seekFromEnd w (8 * w.data.length) = none := by
  have h0 : seekOffset 0 = -1 := by decide
  have e : (((w.data.length : Int) * 8 - (8 * w.data.length : Nat)) % 2 ^ 64).toNat = 0 := by omega
  constructor
  · simp [new, seek, h0]
  · rw [seekFromEnd, e]; simp [seek, h0]

/-- A concrete round trip over a byte border, and a seek into the second byte. -/
example : (putAll (new []) [true, false, true, true, false, false, true, false, true]).data = [0x4D, 1] ∧
    (readN 2 ((seek (new [0x4D, 1]) 7).getD (new []))).1 = [false, true] := by decide

end Verif.BitStream
