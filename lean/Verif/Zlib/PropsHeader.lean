import Verif.Zlib.HeaderTop

/-! Properties of the reading of the head of a dynamic block. -/

namespace Verif.Zlib

/-- The input gives the lengths of the two codes: the tables of exactly these lengths are built, and
what comes after them in the input is left, with less than a byte in the buffer. -/
theorem C201_got (old : Nat → Nat) {b : Bits} (hb : b.hold < 2 ^ b.bits) (h8 : b.bits < 8)
    {ll dl : List Nat} {s t : Nat} (h : Header b.stream b.total (.got (ll, dl) s t)) :
    ∃ lt lroot lused dt droot dused b',
      readHeader old b = .ok ⟨lt, lroot, dt, droot⟩ b' ∧
      inflateTable .lens ll 9 = some (.ok lt lroot lused) ∧
      inflateTable .dists dl 6 = some (.ok dt droot dused) ∧
      (∀ l ∈ ll ++ dl, l ≤ 15) ∧ ll.length ≤ 286 ∧ dl.length ≤ 30 ∧
      b'.stream = s ∧ b'.total = t ∧ b'.hold < 2 ^ b'.bits ∧ b'.bits < 8 := by
  obtain ⟨x, b', h1, ⟨⟨lu, h2⟩, ⟨du, h3⟩, h4, h5, h6, h7⟩, h8, h9, h10⟩ :=
    readHeader_spec old ⟨hb, h8⟩ h
  refine ⟨x.lencode, x.lenbits, lu, x.distcode, x.distbits, du, b', h1, h2, h3, ?_, h6, h7, h9, h10,
    h8.hold, h8.bits⟩
  intro l hm
  rcases List.mem_append.mp hm with hm | hm
  · exact h4 l hm
  · exact h5 l hm

/-- The input ends within the head: more is asked for. -/
theorem C201_more (old : Nat → Nat) {b : Bits} (hb : b.hold < 2 ^ b.bits) (h8 : b.bits < 8)
    (h : Header b.stream b.total .more) : readHeader old b = .more :=
  readHeader_spec old ⟨hb, h8⟩ h

/-- The head makes no sense: it is refused. -/
theorem C201_bad (old : Nat → Nat) {b : Bits} (hb : b.hold < 2 ^ b.bits) (h8 : b.bits < 8)
    (h : Header b.stream b.total .bad) : readHeader old b = .bad :=
  readHeader_spec old ⟨hb, h8⟩ h

/-- Every input is one of these three. -/
theorem C201_outcome (s t : Nat) : ∃ r, Header s t r := by
  by_cases h14 : t < 14
  · exact ⟨_, .cut h14⟩
  by_cases hn : 286 < (headNumbers s).1 ∨ 30 < (headNumbers s).2.1
  · exact ⟨_, .numbers (by omega) hn⟩
  by_cases hl : t < 14 + 3 * (headNumbers s).2.2
  · exact ⟨_, .cutLengths (by omega) (by omega) (by omega) hl⟩
  have hok : HeadOk s t := ⟨by omega, by omega, by omega⟩
  by_cases hk : kraft (headLengths s) = 2 ^ 15
  · have hle : ∀ l ∈ headLengths s, l ≤ 15 := fun l hm => by
      have := lol_le _ _ l hm; omega
    obtain ⟨r, hr⟩ := lengths_exists hle hk (n := (headNumbers s).1 + (headNumbers s).2.1) _ []
      (s / 2 ^ (14 + 3 * (headNumbers s).2.2)) (t - (14 + 3 * (headNumbers s).2.2)) (by simp)
      (Nat.le_refl _)
    cases r with
    | more => exact ⟨_, .cutBoth hok hk hr⟩
    | bad => exact ⟨_, .wrongBoth hok hk hr⟩
    | got out s' t' =>
      by_cases hu : Usable .lens (out.take (headNumbers s).1) ∧
          Usable .dists (out.drop (headNumbers s).1)
      · exact ⟨_, .got hok hk hr hu.1 hu.2⟩
      · exact ⟨_, .unusableBoth hok hk hr hu⟩
  · by_cases hz : ∀ l ∈ headLengths s, l = 0
    · by_cases hc : t < 14 + 3 * (headNumbers s).2.2 + ((headNumbers s).1 + (headNumbers s).2.1)
      · exact ⟨_, .cutNone hok hz hc⟩
      · exact ⟨_, .noCodes hok hz (by omega)⟩
    · refine ⟨_, .unusable hok ?_⟩
      rintro (h | h | h)
      · exact hk h
      · exact hz h
      · exact h.1 rfl

/-- A head: 257 and 1 lengths, a code for lengths with one bit for `1` and one for `18`; then 138
zeros, 118 zeros, and twice a one. -/
def sampleHead : Nat := 16320240310380461925873664

example : Header sampleHead 96
    (.got (List.replicate 256 0 ++ [1], [1]) 0 10) := by
  have hb : Both sampleHead 96 (.got (List.replicate 256 0 ++ [1] ++ [1]) 0 10) := by
    refine .next (sym := 18) (out' := List.replicate 138 0) (by decide +kernel)
      (by unfold BeginsWith; decide +kernel) (by decide +kernel) (by decide +kernel)
      (by decide +kernel) ?_
    refine .next (sym := 18) (out' := List.replicate 256 0) (by decide +kernel)
      (by unfold BeginsWith; decide +kernel) (by decide +kernel) (by decide +kernel)
      (by decide +kernel) ?_
    refine .next (sym := 1) (out' := List.replicate 256 0 ++ [1]) (by decide +kernel)
      (by unfold BeginsWith; decide +kernel) (by decide +kernel) (by decide +kernel)
      (by decide +kernel) ?_
    refine .next (sym := 1) (out' := List.replicate 256 0 ++ [1] ++ [1]) (by decide +kernel)
      (by unfold BeginsWith; decide +kernel) (by decide +kernel) (by decide +kernel)
      (by decide +kernel) ?_
    have e1 : sampleHead / 2 ^ (14 + 3 * (headNumbers sampleHead).2.2) /
      2 ^ ((headLengths sampleHead).getD 18 0 + extraBits 18) /
      2 ^ ((headLengths sampleHead).getD 18 0 + extraBits 18) /
      2 ^ ((headLengths sampleHead).getD 1 0 + extraBits 1) /
      2 ^ ((headLengths sampleHead).getD 1 0 + extraBits 1) = 0 := by decide +kernel
    have e2 : 96 - (14 + 3 * (headNumbers sampleHead).2.2) -
      ((headLengths sampleHead).getD 18 0 + extraBits 18) -
      ((headLengths sampleHead).getD 18 0 + extraBits 18) -
      ((headLengths sampleHead).getD 1 0 + extraBits 1) -
      ((headLengths sampleHead).getD 1 0 + extraBits 1) = 10 := by decide +kernel
    rw [e1, e2]
    exact .done (by decide +kernel)
  have e3 : (List.replicate 256 0 ++ [1] ++ [1]).take (headNumbers sampleHead).1
      = List.replicate 256 0 ++ [1] := by decide +kernel
  have e4 : (List.replicate 256 0 ++ [1] ++ [1]).drop (headNumbers sampleHead).1 = [1] := by
    decide +kernel
  have := Header.got (s := sampleHead) (t := 96) (by unfold HeadOk; decide +kernel)
    (by decide +kernel) hb (by rw [e3]; unfold Usable; decide +kernel)
    (by rw [e4]; unfold Usable; decide +kernel)
  rwa [e3, e4] at this

example : Header 31 40 .bad := .numbers (by decide) (by decide)

example : Header sampleHead 60 .more :=
  .cutLengths (by decide) (by decide) (by decide) (by decide)

end Verif.Zlib
