import Verif.Fex.Model
import Verif.Fex.Spec

/-! Properties of copying. -/

namespace Verif.Fex

/-- Between the calls: behind the buffered bytes the buffer is at its end unless the file is. -/
def Inv (s : Inflater) (file : List Byte) : Prop :=
  match s.next with
  | none => s.avail = [] ∧ file = []
  | some n => n + s.avail.length ≤ s.size ∧ (n + s.avail.length < s.size → file = [])

theorem inv_ended : Inv ended [] := ⟨rfl, rfl⟩

theorem fillBuf_inv {s : Inflater} {file : List Byte} {count : Nat} (h : count ≤ s.size) :
    ∃ s', fillBuf s file count = some (s', file.drop count) ∧ Inv s' (file.drop count) ∧
      s'.avail = file.take count ∧ s'.size = s.size ∧ s'.total = s.total ∧
      s'.next = some (s.size - count) := by
  unfold fillBuf
  rw [if_neg (by omega)]
  refine ⟨_, rfl, ⟨?_, ?_⟩, rfl, rfl, rfl, rfl⟩
  · simp only [List.length_take]
    omega
  · simp only [List.length_take]
    intro hlt
    apply List.drop_eq_nil_of_le
    omega

theorem copyLoop_spec : ∀ (fuel : Nat) (s : Inflater) (file : List Byte) (remain n : Nat),
    Inv s file → s.next = some n →
    (file.length + 2 ≤ fuel ∨ 1 ≤ fuel ∧ s.avail = [] ∧ n < s.size) →
    ∃ s' file', copyLoop fuel s file remain = some (s', file', (s.avail ++ file).take remain) ∧
      Inv s' file' ∧ s'.avail ++ file' = (s.avail ++ file).drop remain
  | 0, s, file, remain, n, hi, hn, hf => by omega
  | fuel + 1, s, file, remain, n, hi, hn, hf => by
    have hi0 := hi
    unfold Inv at hi
    rw [hn] at hi
    obtain ⟨hi1, hi2⟩ := hi
    have hout : (copyBuffered s n remain).1 = s.avail.take (min s.avail.length remain) := rfl
    have hlen : (copyBuffered s n remain).1.length = min s.avail.length remain := by
      rw [hout, List.length_take]
      omega
    have htake : s.avail.take (min s.avail.length remain) = s.avail.take remain := by
      rcases Nat.le_total s.avail.length remain with h | h
      · rw [Nat.min_eq_left h, List.take_length, List.take_of_length_le h]
      · rw [Nat.min_eq_right h]
    have hdrop : s.avail.drop (min s.avail.length remain) = s.avail.drop remain := by
      rcases Nat.le_total s.avail.length remain with h | h
      · rw [Nat.min_eq_left h, List.drop_length, List.drop_of_length_le h]
      · rw [Nat.min_eq_right h]
    have hrem : remain - min s.avail.length remain = remain - s.avail.length := by omega
    rw [copyLoop.eq_2, hn]
    simp only [hlen, hrem]
    simp only [copyBuffered, htake, hdrop, Inflater.mk.injEq]
    rw [List.take_append, List.drop_append]
    split
    · rename_i hend
      obtain ⟨h1, h2⟩ := hend
      have h3 : s.avail.length ≤ remain := List.drop_eq_nil_iff.mp h1
      rw [Nat.min_eq_left h3] at h2
      obtain rfl := hi2 h2
      exact ⟨ended, [], by simp, inv_ended, by simp [ended, h1]⟩
    · rename_i hend
      have hinv : ∀ total, Inv ⟨s.size, some (n + min s.avail.length remain), s.avail.drop remain,
          total⟩ file := by
        intro total
        unfold Inv
        simp only [List.length_drop]
        exact ⟨by omega, fun h => hi2 (by omega)⟩
      split
      · split
        · rename_i hne
          simp only [List.length_take] at hne
          have h0 : file.drop (remain - s.avail.length) = [] := List.drop_of_length_le (by omega)
          have h1 : s.avail.drop remain = [] := List.drop_of_length_le (by omega)
          exact ⟨ended, [], by rw [h0], inv_ended, by simp [ended, h0, h1]⟩
        · refine ⟨_, _, rfl, ?_, rfl⟩
          have := hinv (s.total + min s.avail.length remain +
            (file.take (remain - s.avail.length)).length)
          unfold Inv at this ⊢
          refine ⟨this.1, fun h => ?_⟩
          simp only [this.2 h, List.drop_nil]
      · rename_i hbig
        split
        · rename_i h0
          refine ⟨_, _, ?_, hinv (s.total + min s.avail.length remain), ?_⟩
          · rw [h0, List.take_zero, List.append_nil]
          · rw [h0, List.drop_zero]
        · rename_i h0
          have h1 : s.avail.drop remain = [] := List.drop_of_length_le (by omega)
          have hmin : min s.avail.length remain = s.avail.length := by omega
          have hfull : ¬ n + s.avail.length < s.size := by
            intro h
            exact hend ⟨h1, by rwa [hmin]⟩
          obtain ⟨s', e1, e2, e3, e4, e5, e6⟩ := fillBuf_inv (file := file)
            (s := ⟨s.size, some (n + min s.avail.length remain), s.avail.drop remain,
              s.total + min s.avail.length remain⟩)
            (count := s.size - (s.total + min s.avail.length remain) % blockSize)
            (Nat.sub_le _ _)
          rw [e1]
          simp only
          have hfuel : (file.drop (s.size - (s.total + min s.avail.length remain) % blockSize)).length
              + 2 ≤ fuel ∨ 1 ≤ fuel ∧ s'.avail = [] ∧
              s.size - (s.size - (s.total + min s.avail.length remain) % blockSize) < s'.size := by
            have hbig2 : (s.total + min s.avail.length remain) % blockSize < s.size := by omega
            rcases hf with hf | ⟨_, hf1, hf2⟩
            · by_cases hnil : file = []
              · right
                refine ⟨by omega, by rw [e3, hnil, List.take_nil], ?_⟩
                rw [e4]
                simp only
                omega
              · left
                have : 0 < file.length := List.length_pos_iff.mpr hnil
                rw [List.length_drop]
                omega
            · exfalso
              rw [hf1] at hfull
              simp only [List.length_nil] at hfull
              omega
          obtain ⟨s2, file2, g1, g2, g3⟩ := copyLoop_spec fuel s' _ (remain - s.avail.length) _ e2 e6
            hfuel
          rw [g1]
          rw [e3, List.take_append_drop] at g1 g3 ⊢
          exact ⟨s2, file2, rfl, g2, by rw [h1, List.nil_append]; exact g3⟩

/-- A call gives the next bytes, as many as asked for or all that are left, and the next call goes
on behind them. -/
theorem read_spec {s : Inflater} {file : List Byte} (h : Inv s file) (count : Nat) :
    ∃ s' file', read s file count = some (s', file', (s.avail ++ file).take count) ∧
      Inv s' file' ∧ s'.avail ++ file' = (s.avail ++ file).drop count := by
  unfold read
  cases hn : s.next with
  | none =>
    have h' := h
    unfold Inv at h'
    rw [hn] at h'
    obtain ⟨h1, rfl⟩ := h'
    rw [if_neg (by simp)]
    exact ⟨s, [], by simp [h1], h, by simp [h1]⟩
  | some n =>
    by_cases h0 : count = 0
    · rw [if_neg (by simp [h0])]
      exact ⟨s, file, by simp [h0], h, by simp [h0]⟩
    · rw [if_pos ⟨h0, by simp⟩]
      exact copyLoop_spec _ s file count n h hn (Or.inl (Nat.le_refl _))

theorem readAll_spec : ∀ (counts : List Nat) (s : Inflater) (file : List Byte), Inv s file →
    readAll s file counts = some (pieces (s.avail ++ file) counts)
  | [], _, _, _ => rfl
  | count :: counts, s, file, h => by
    obtain ⟨s', file', e1, e2, e3⟩ := read_spec h count
    unfold readAll
    rw [e1]
    simp only
    rw [readAll_spec counts s' file' e2, e3]
    rfl

/-- C207.  For any file and any sizes of the buffer and of the first read that fit, the calls of `read`
give the bytes of the file one behind the other, each as many as it was asked for, or all that were
left. -/
theorem C207_copy (file : List Byte) (size initial : Nat) (room : Bool)
    (hsize : size = 0 ∨ (if initial = 0 then blockSize else initial) ≤ size) :
    ∃ s rest, begin size initial room file = some (s, rest) ∧
      ∀ counts, readAll s rest counts = some (pieces file counts) := by
  unfold begin
  simp only
  generalize hns : (if size ≠ 0 ∧ room = false then 0 else size) = ns
  have hfit : (if (if ns = 0 then 0 else initial) ≠ 0 then (if ns = 0 then 0 else initial)
      else blockSize) ≤ (if ns = 0 then 4 * blockSize else ns) := by
    by_cases h0 : ns = 0
    · simp [h0, blockSize]
    · have : ns = size := by
        rw [← hns]
        split
        · rename_i hc
          rw [if_pos hc] at hns
          exact absurd hns.symm h0
        · rfl
      simp only [if_neg h0]
      rw [this]
      rcases hsize with hs | hs
      · exact absurd (this.trans hs) h0
      · by_cases hi : initial = 0
        · simpa [hi] using hs
        · simpa [hi] using hs
  obtain ⟨s, e1, e2, e3, _⟩ := fillBuf_inv (file := file)
    (s := { ended with size := if ns = 0 then 4 * blockSize else ns }) hfit
  refine ⟨s, _, e1, fun counts => ?_⟩
  rw [readAll_spec counts s _ e2, e3, List.take_append_drop]

/-- C207.  As `Gzip_Reader::open` uses it. -/
theorem C207_default (file : List Byte) :
    ∃ s rest, begin 0 0 true file = some (s, rest) ∧
      ∀ counts, readAll s rest counts = some (pieces file counts) :=
  C207_copy file 0 0 true (Or.inl rfl)

/-- C207, the claim without the condition is false: with a buffer of 100 bytes and nothing said about the
first read, 4096 bytes are read to before the buffer. -/
theorem C207_sizes_false :
    ¬ ∀ (file : List Byte) (size initial : Nat), ∃ r, begin size initial true file = some r := by
  intro h
  obtain ⟨r, hr⟩ := h [] 100 0
  simp [begin, fillBuf, ended, blockSize] at hr

/-- C207.  What is taken for compressed are the files of at least 18 bytes with the first two bytes
of gzip files. -/
theorem C207_detects (file : List Byte) :
    ∃ s rest, begin 0 0 true file = some (s, rest) ∧
      (looksGz s = true ↔ 18 ≤ file.length ∧ [0x1f, 0x8b] <+: file) := by
  obtain ⟨s, e1, _, e3, _⟩ := fillBuf_inv (file := file) (count := blockSize)
    (s := { ended with size := 4 * blockSize }) (by simp [blockSize])
  refine ⟨s, _, by simpa [begin] using e1, ?_⟩
  unfold looksGz
  rw [e3]
  simp only [Bool.and_eq_true, decide_eq_true_eq, List.length_take, blockSize, beq_iff_eq]
  rw [List.getElem?_take_of_lt (by decide), List.getElem?_take_of_lt (by decide)]
  constructor
  · rintro ⟨⟨h1, h2⟩, h3⟩
    refine ⟨by omega, ?_⟩
    match file, h2, h3 with
    | a :: b :: t, h2, h3 =>
      simp only [List.getElem?_cons_zero, Option.some.injEq, List.getElem?_cons_succ] at h2 h3
      rw [h2, h3]
      exact ⟨t, rfl⟩
  · rintro ⟨h1, t, rfl⟩
    exact ⟨⟨by omega, rfl⟩, rfl⟩

/-- Buffers are filled several times, and the last request is not met. -/
example : ∃ s rest, begin 8 4 true [1, 2, 3, 4, 5, 6, 7, 8, 9, 10] = some (s, rest) ∧
    readAll s rest [3, 2, 0, 4, 9, 1] = some [[1, 2, 3], [4, 5], [], [6, 7, 8, 9], [10], []] :=
  ⟨_, _, rfl, by decide +kernel⟩

end Verif.Fex
