import Verif.Zlib.HeadPiecesLemmas

/-! Properties of the reading of the head of a dynamic block when the input comes in pieces. -/

namespace Verif.Zlib

/-! ### C212 -/

/-- C212.  However the head of a dynamic block is divided among the calls, the tables, the outcome and what
is left of the input are the same as if all of it were there at once. -/
theorem C212_same (old : Nat → Nat) (hold bits : Nat) {pieces : List (List Byte)} (hp : pieces ≠ []) :
    headPieces (.table old) ⟨hold, bits, []⟩ pieces =
      some (readHeader old ⟨hold, bits, pieces.flatten⟩) := by
  obtain ⟨R, h1, h2⟩ := table_read old ⟨hold, bits, pieces.flatten⟩
  rw [← h2]
  exact headPieces_spec pieces (.table old) ⟨hold, bits, []⟩ 400 R trivial hp h1

/-- C212.  So the tables are made of the lengths that the input as a whole says. -/
theorem C212_got (old : Nat → Nat) {hold bits : Nat} (hb : hold < 2 ^ bits) (h8 : bits < 8)
    {pieces : List (List Byte)} (hp : pieces ≠ []) {ll dl : List Nat} {s t : Nat}
    (h : Header (hold + 2 ^ bits * streamOf pieces.flatten) (bits + 8 * pieces.flatten.length)
      (.got (ll, dl) s t)) :
    ∃ lt lroot lused dt droot dused b',
      headPieces (.table old) ⟨hold, bits, []⟩ pieces = some (.ok ⟨lt, lroot, dt, droot⟩ b') ∧
      inflateTable .lens ll 9 = some (.ok lt lroot lused) ∧
      inflateTable .dists dl 6 = some (.ok dt droot dused) ∧
      b'.stream = s ∧ b'.total = t ∧ b'.hold < 2 ^ b'.bits ∧ b'.bits < 8 := by
  obtain ⟨lt, lroot, lused, dt, droot, dused, b', g1, g2, g3, _, _, _, g4⟩ :=
    C201_got old (b := ⟨hold, bits, pieces.flatten⟩) hb h8 h
  exact ⟨lt, lroot, lused, dt, droot, dused, b', by rw [C212_same old hold bits hp, g1], g2, g3, g4⟩

/-- C212.  The calls wait for more exactly where the input as a whole is cut. -/
theorem C212_more (old : Nat → Nat) {hold bits : Nat} (hb : hold < 2 ^ bits) (h8 : bits < 8)
    {pieces : List (List Byte)} (hp : pieces ≠ [])
    (h : Header (hold + 2 ^ bits * streamOf pieces.flatten) (bits + 8 * pieces.flatten.length) .more) :
    headPieces (.table old) ⟨hold, bits, []⟩ pieces = some .more := by
  rw [C212_same old hold bits hp, C201_more old (b := ⟨hold, bits, pieces.flatten⟩) hb h8 h]

/-- C212.  A head is refused exactly if it makes no sense as a whole. -/
theorem C212_bad (old : Nat → Nat) {hold bits : Nat} (hb : hold < 2 ^ bits) (h8 : bits < 8)
    {pieces : List (List Byte)} (hp : pieces ≠ [])
    (h : Header (hold + 2 ^ bits * streamOf pieces.flatten) (bits + 8 * pieces.flatten.length) .bad) :
    headPieces (.table old) ⟨hold, bits, []⟩ pieces = some .bad := by
  rw [C212_same old hold bits hp, C201_bad old (b := ⟨hold, bits, pieces.flatten⟩) hb h8 h]

/-! ### Examples -/

/-- The numbers are divided, and are not allowed. -/
example : headPieces (.table fun _ => 0) ⟨7, 3, []⟩ [[], [3], [0]] = some .bad :=
  C212_bad _ (by decide) (by decide) (by simp) (.numbers (by decide) (by decide))

example : headPieces (.table fun _ => 0) ⟨7, 3, []⟩ [[], [3], []] = some .more :=
  C212_more _ (by decide) (by decide) (by simp) (.cut (by decide))

/-- The sample of C201, divided within the numbers, within the lengths and within a repetition: the tables
are made, and ten bits are left. -/
example : (match headPieces (.table fun _ => 9) ⟨0, 0, []⟩
      [[0], [56, 16, 0], [], [0, 0, 0, 0, 242], [127], [13, 0]] with
    | some (.ok x b) => (x.lencode 0, x.distcode 0, b.hold, b.bits, b.next)
    | _ => (none, none, 0, 0, [])) = (some ⟨96, 1, 0⟩, some ⟨16, 1, 1⟩, 0, 2, [0]) := by
  decide +kernel

end Verif.Zlib
