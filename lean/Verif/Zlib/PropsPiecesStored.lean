import Verif.Zlib.PropsPieces
import Verif.Zlib.PiecesStored

/-! Properties of the reading of stored blocks when the input comes in pieces. -/

namespace Verif.Zlib

/-! ### C211 -/

/-- The bytes of commands that are all contents of stored blocks. -/
def rawBytes : List Cmd → List Byte
  | [] => []
  | .raw bs :: cs => bs ++ rawBytes cs
  | _ :: cs => rawBytes cs

/-- C211.  The bytes of a stored block are taken from the pieces one behind the other, until there are as
many as the block has. -/
theorem C211_copy : ∀ (pieces : List (List Byte)) (length : Nat) (next : List Byte),
    copyPieces length next pieces =
      if (next ++ pieces.flatten).length < length then (next ++ pieces.flatten, .more)
      else ((next ++ pieces.flatten).take length, .ok () ⟨0, 0, (next ++ pieces.flatten).drop length⟩)
  | [], length, next => by
    simp only [copyPieces, List.flatten_nil, List.append_nil]
    by_cases h : length > next.length
    · simp only [if_pos h, List.take_length]
      rw [if_neg (by omega)]
    · simp only [if_neg h, Nat.sub_self, if_true]
  | p :: ps, length, next => by
    rw [copyPieces]
    by_cases h : length > next.length
    · simp only [if_pos h, List.take_length]
      rw [if_neg (by omega), C211_copy ps (length - next.length) p, List.flatten_cons]
      generalize p ++ ps.flatten = q
      rw [List.length_append]
      by_cases h2 : q.length < length - next.length
      · rw [if_pos h2, if_pos (by omega)]
      · rw [if_neg h2, if_neg (by omega), List.take_append, List.drop_append,
          List.take_of_length_le (l := next) (by omega), List.drop_eq_nil_of_le (as := next) (by omega),
          List.nil_append]
    · simp only [if_neg h, Nat.sub_self, if_true]
      rw [if_neg (by rw [List.length_append]; omega), List.take_append_of_le_length (by omega),
        List.drop_append_of_le_length (by omega)]

/-- Bytes in the bit buffer and behind it. -/
theorem fillBits_bytes (r : List Byte) : ∀ (v w : List Byte) (fuel : Nat), w.length + v.length = 4 →
    v.length ≤ fuel →
    needBits 32 fuel ⟨streamOf w, 8 * w.length, v ++ r⟩ = some ⟨streamOf (w ++ v), 32, r⟩
  | [], w, fuel, h, _ => by
    have hw : 8 * w.length = 32 := by simp at h; omega
    rw [hw, List.append_nil, List.nil_append]
    cases fuel <;> simp [needBits]
  | x :: v, w, 0, h, hf => by simp at hf
  | x :: v, w, fuel + 1, h, hf => by
    simp only [List.length_cons] at h hf
    have ih := fillBits_bytes r v (w ++ [x]) fuel (by simp; omega) (by omega)
    rw [needBits, if_neg (by simp only; omega)]
    simp only [List.cons_append, pullByte]
    rw [streamOf_append, List.append_assoc, List.length_append] at ih
    rw [← List.singleton_append (x := x) (l := v), ← ih]
    congr 2
    · simp only [streamOf, Nat.mul_zero, Nat.add_zero]
      rw [Nat.mul_comm]

theorem need_whole {w p : List Byte} (h : w.length ≤ 4) (h4 : 4 ≤ w.length + p.length) :
    need 32 ⟨streamOf w, 8 * w.length, p⟩ =
      some ⟨streamOf ((w ++ p).take 4), 32, (w ++ p).drop 4⟩ := by
  have hn := fillBits_bytes (p.drop (4 - w.length)) (p.take (4 - w.length)) w p.length
    (by rw [List.length_take]; omega) (by rw [List.length_take]; omega)
  rw [List.take_append_drop] at hn
  unfold need
  simp only
  rw [hn, List.take_append, List.drop_append, List.take_of_length_le (i := 4) (l := w) h,
    List.drop_eq_nil_of_le (as := w) h, List.nil_append]

theorem streamOf_small : ∀ bs : List Byte, streamOf bs < 2 ^ (8 * bs.length)
  | [] => by simp [streamOf]
  | x :: xs => by
    have := x.toNat_lt
    have := streamOf_small xs
    rw [streamOf, List.length_cons, show 8 * (xs.length + 1) = 8 * xs.length + 8 by omega, Nat.pow_add]
    omega

theorem need_part {w p : List Byte} (h4 : w.length + p.length < 4) :
    need 32 ⟨streamOf w, 8 * w.length, p⟩ = none :=
  need_none (streamOf_small w) (by simp only [Bits.total]; omega)

theorem byteBits_whole (w p : List Byte) :
    byteBits ⟨streamOf w, 8 * w.length, p⟩ = ⟨streamOf w, 8 * w.length, p⟩ := by
  simp [byteBits, dropBits]

theorem storedPieces_spec : ∀ (pieces : List (List Byte)) (w : List Byte), w.length < 4 →
    storedPieces ⟨streamOf w, 8 * w.length, []⟩ pieces =
      (rawBytes (takeStored ⟨0, 0, w ++ pieces.flatten⟩).1, (takeStored ⟨0, 0, w ++ pieces.flatten⟩).2)
  | [], w, h => by
    have e : need 32 (byteBits ⟨0, 0, w ++ [].flatten⟩) = none := by
      have := need_part (w := []) (p := w) (by simpa using h)
      simpa [byteBits, dropBits, streamOf] using this
    rw [storedPieces, takeStored, e]
    rfl
  | p :: ps, w, h => by
    rw [storedPieces]
    simp only [byteBits_whole]
    by_cases h4 : 4 ≤ w.length + p.length
    · rw [need_whole (by omega) h4]
      have e : need 32 (byteBits ⟨0, 0, w ++ (p :: ps).flatten⟩) =
          some ⟨streamOf ((w ++ p).take 4), 32, (w ++ p).drop 4 ++ ps.flatten⟩ := by
        have := need_whole (w := []) (p := w ++ (p :: ps).flatten) (by simp) (by simp; omega)
        rw [List.nil_append, List.flatten_cons, ← List.append_assoc,
          List.take_append_of_le_length (by simp; omega),
          List.drop_append_of_le_length (by simp; omega)] at this
        rw [List.flatten_cons, ← List.append_assoc]
        simpa [byteBits, dropBits, streamOf] using this
      unfold takeStored
      rw [e]
      simp only
      split
      · rfl
      · rw [C211_copy]
        split <;> simp [rawBytes]
    · rw [need_part (by omega)]
      simp only [pullAll_eq]
      have e1 : (⟨streamOf w, 8 * w.length, p⟩ : Bits).stream = streamOf (w ++ p) := by
        rw [streamOf_append]
        rfl
      have e2 : (⟨streamOf w, 8 * w.length, p⟩ : Bits).total = 8 * (w ++ p).length := by
        simp only [Bits.total, List.length_append]
        omega
      rw [e1, e2, storedPieces_spec ps (w ++ p) (by rw [List.length_append]; omega), List.flatten_cons,
        List.append_assoc]

/-- C211.  However a stored block is divided among the calls, also within its length, the bytes that are
written, the outcome and what is left of the input are the same as if all of it were there at once. -/
theorem C211_stored {hold bits : Nat} (hb : hold < 2 ^ bits) (h8 : bits < 8)
    (pieces : List (List Byte)) :
    storedPieces ⟨hold, bits, []⟩ pieces =
      (rawBytes (takeStored ⟨hold, bits, pieces.flatten⟩).1,
        (takeStored ⟨hold, bits, pieces.flatten⟩).2) := by
  have e : ∀ l, byteBits ⟨hold, bits, l⟩ = ⟨0, 0, l⟩ := by
    intro l
    simp only [byteBits, dropBits, Nat.mod_eq_of_lt h8, Nat.sub_self, Nat.div_eq_of_lt hb]
  have e0 : ∀ l, byteBits ⟨0, 0, l⟩ = ⟨0, 0, l⟩ := by simp [byteBits, dropBits]
  have h1 : takeStored ⟨hold, bits, pieces.flatten⟩ = takeStored ⟨0, 0, pieces.flatten⟩ := by
    unfold takeStored
    rw [e, e0]
  have h2 : storedPieces ⟨hold, bits, []⟩ pieces = storedPieces ⟨0, 0, []⟩ pieces := by
    cases pieces with
    | nil => rfl
    | cons p ps => rw [storedPieces, storedPieces]; simp only [e, e0]
  rw [h1, h2]
  exact storedPieces_spec pieces [] (by simp)

/-- C211.  So what is written is what the input as a whole says. -/
theorem C211_block {hold bits : Nat} (hb : hold < 2 ^ bits) (h8 : bits < 8)
    (pieces : List (List Byte)) {cs : List Cmd} {r : Outcome Unit}
    (h : Block 0 (hold + 2 ^ bits * streamOf pieces.flatten) (bits + 8 * pieces.flatten.length) cs r) :
    (storedPieces ⟨hold, bits, []⟩ pieces).1 = rawBytes cs ∧
      Agrees Eq r (storedPieces ⟨hold, bits, []⟩ pieces).2 := by
  cases h with
  | stored h =>
    have hd := takeStored_spec (b := ⟨hold, bits, pieces.flatten⟩) ⟨hb, h8⟩ h
    rw [C211_stored hb h8]
    exact ⟨by rw [hd.1], hd.2⟩

/-! ### Examples -/

/-- A block of two bytes, divided within its length and within its content. -/
example : storedPieces ⟨5, 3, []⟩ [[2, 0, 253], [], [255, 7], [8, 9]] =
    ([7, 8], .ok () ⟨0, 0, [9]⟩) := by decide +kernel

example : storedPieces ⟨5, 3, []⟩ [[2], [0, 253, 255, 7], []] = ([7], .more) := by decide +kernel

/-- The second number does not fit to the first one. -/
example : storedPieces ⟨5, 3, []⟩ [[2], [0, 253, 254, 7], []] = ([], .bad) := by decide +kernel

end Verif.Zlib
