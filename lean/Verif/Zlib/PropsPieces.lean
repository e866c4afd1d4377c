import Verif.Zlib.PiecesTop

/-! Properties of the reading of commands when the input comes in pieces. -/

namespace Verif.Zlib

/-! ### C210 -/

theorem pieces_same {ll dl : List Nat} {x : Tables}
    (rx : Reads .lens ll x.lencode x.lenbits) (ry : Reads .dists dl x.distcode x.distbits)
    (hx : FastReads .lens ll x.lencode x.lenbits) (hy : FastReads .dists dl x.distcode x.distbits)
    (px : PReads .lens ll x.lencode x.lenbits) (py : PReads .dists dl x.distcode x.distbits)
    (space : Nat → Nat → Nat) {hold bits : Nat} (hb : hold < 2 ^ bits) (h8 : bits < 8)
    {pieces : List (List Byte)} (hp : pieces ≠ []) :
    runPieces x space .len ⟨hold, bits, []⟩ pieces =
      some (takeCommands x (bits + 8 * pieces.flatten.length + 1) ⟨hold, bits, pieces.flatten⟩) := by
  obtain ⟨y, cs, r, y1, y2, y3⟩ := runPieces_spec hx hy px py space pieces .len ⟨hold, bits, []⟩
    (ready_small hb h8 _) rfl (fun h => absurd h hp)
  have hd := takeCommands_spec rx ry y2 (bits + 8 * pieces.flatten.length + 1)
    ⟨hold, bits, pieces.flatten⟩ ⟨hb, h8⟩ rfl rfl (by simp only [Bits.total]; omega)
  rw [y1, does_unique y3 hd]

/-- C210.  With tables built from the lengths of two codes, however the input is divided among the calls and
wherever `inflate_fast` is called, the commands, the outcome and what is left of the input are the same as
if all of the input were there at once. -/
theorem C210_pieces {ll dl : List Nat} {lt dt : Table} {lroot droot lused dused lbits dbits : Nat}
    (hl : ∀ l ∈ ll ++ dl, l ≤ 15) (hll : ll.length ≤ 288) (hdl : dl.length ≤ 32)
    (h1 : inflateTable .lens ll lbits = some (.ok lt lroot lused))
    (h2 : inflateTable .dists dl dbits = some (.ok dt droot dused)) (space : Nat → Nat → Nat)
    {hold bits : Nat} (hb : hold < 2 ^ bits) (h8 : bits < 8)
    {pieces : List (List Byte)} (hp : pieces ≠ []) :
    runPieces ⟨lt, lroot, dt, droot⟩ space .len ⟨hold, bits, []⟩ pieces =
      some (takeCommands ⟨lt, lroot, dt, droot⟩ (bits + 8 * pieces.flatten.length + 1)
        ⟨hold, bits, pieces.flatten⟩) := by
  have hl1 : ∀ l ∈ ll, l ≤ 15 := fun l hm => hl l (List.mem_append_left _ hm)
  have hl2 : ∀ l ∈ dl, l ≤ 15 := fun l hm => hl l (List.mem_append_right _ hm)
  exact pieces_same (x := ⟨lt, lroot, dt, droot⟩)
    (made_reads hl1 hll (by decide) h1) (made_reads hl2 hdl (by decide) h2)
    (made_fast hl1 hll (by decide) h1) (made_fast hl2 hdl (by decide) h2)
    (made_pieces hl1 hll (by decide) h1) (made_pieces hl2 hdl (by decide) h2) space hb h8 hp

/-- C210.  The same with the fixed codes. -/
theorem C210_fixed (space : Nat → Nat → Nat) {hold bits : Nat} (hb : hold < 2 ^ bits) (h8 : bits < 8)
    {pieces : List (List Byte)} (hp : pieces ≠ []) :
    runPieces fixedTables space .len ⟨hold, bits, []⟩ pieces =
      some (takeCommands fixedTables (bits + 8 * pieces.flatten.length + 1)
        ⟨hold, bits, pieces.flatten⟩) :=
  pieces_same fixed_reads.1 fixed_reads.2 fixed_fast.1 fixed_fast.2 fixed_pieces.1 fixed_pieces.2
    space hb h8 hp

/-- C210.  So the calls together read the commands that the input as a whole gives in the codes. -/
theorem C210_commands {ll dl : List Nat} {lt dt : Table}
    {lroot droot lused dused lbits dbits : Nat}
    (hl : ∀ l ∈ ll ++ dl, l ≤ 15) (hll : ll.length ≤ 288) (hdl : dl.length ≤ 32)
    (h1 : inflateTable .lens ll lbits = some (.ok lt lroot lused))
    (h2 : inflateTable .dists dl dbits = some (.ok dt droot dused)) (space : Nat → Nat → Nat)
    {hold bits : Nat} (hb : hold < 2 ^ bits) (h8 : bits < 8)
    {pieces : List (List Byte)} (hp : pieces ≠ []) {cs : List Cmd} {r : Outcome Unit}
    (h : Commands ll dl (hold + 2 ^ bits * streamOf pieces.flatten) (bits + 8 * pieces.flatten.length)
      cs r) :
    ∃ y, runPieces ⟨lt, lroot, dt, droot⟩ space .len ⟨hold, bits, []⟩ pieces = some y ∧ Does cs r y := by
  have hl1 : ∀ l ∈ ll, l ≤ 15 := fun l hm => hl l (List.mem_append_left _ hm)
  have hl2 : ∀ l ∈ dl, l ≤ 15 := fun l hm => hl l (List.mem_append_right _ hm)
  refine ⟨_, C210_pieces hl hll hdl h1 h2 space hb h8 hp, ?_⟩
  exact takeCommands_spec (x := ⟨lt, lroot, dt, droot⟩)
    (made_reads hl1 hll (by decide) h1) (made_reads hl2 hdl (by decide) h2)
    h _ ⟨hold, bits, pieces.flatten⟩ ⟨hb, h8⟩ rfl rfl (by omega)

/-! ### Examples -/

deriving instance DecidableEq for Read

/-- The codes of a byte, of a copy and of the end of the block are divided among four calls. -/
example : runPieces fixedTables (fun _ _ => 300) .len ⟨9, 5, []⟩ [[4], [], [2], [0, 7, 9]] =
    some ([.lit 97, .copy 3 1], .ok () ⟨0, 2, [7, 9]⟩) := by decide +kernel

deriving instance DecidableEq for Stop

/-- A call is left within a code of nine bits, with a whole byte in the bit buffer … -/
example : runMode fixedTables (fun _ => 300) 18 .len ⟨0, 0, [19]⟩ =
    some ([], .wait .len ⟨19, 8, []⟩) := by decide +kernel

/-- … and in the next one `inflate_fast` begins with this byte. -/
example : inflateFast fixedTables 258 ⟨19, 8, [1, 2, 3, 4, 5, 6]⟩ =
    some ([.lit 145], .paused ⟨0, 7, [2, 3, 4, 5, 6]⟩) := by decide +kernel

example : runPieces fixedTables (fun _ _ => 300) .len ⟨0, 0, []⟩ [[19], [1, 2, 3, 4, 5, 6]] =
    some (takeCommands fixedTables 57 ⟨0, 0, [19, 1, 2, 3, 4, 5, 6]⟩) := by decide +kernel

end Verif.Zlib
