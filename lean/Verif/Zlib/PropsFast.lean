import Verif.Zlib.FastLemmas

/-! Properties of the decoding in `inflate_fast`. -/

namespace Verif.Zlib

/-! ### C209 -/

/-- C209.  With tables built from the lengths of two codes, whenever there is input and space enough and
`inflate_fast` is called, the commands and what is left of the input are the same as without it; it reads
nothing behind the input and writes nothing behind the output. -/
theorem C209_same {ll dl : List Nat} {lt dt : Table} {lroot droot lused dused lbits dbits : Nat}
    (hl : ∀ l ∈ ll ++ dl, l ≤ 15) (hll : ll.length ≤ 288) (hdl : dl.length ≤ 32)
    (h1 : inflateTable .lens ll lbits = some (.ok lt lroot lused))
    (h2 : inflateTable .dists dl dbits = some (.ok dt droot dused)) (space : Nat → Nat)
    {b : Bits} (hb : b.hold < 2 ^ b.bits) (h8 : b.bits < 8) :
    takeMixed ⟨lt, lroot, dt, droot⟩ space (b.total + 1) b =
      some (takeCommands ⟨lt, lroot, dt, droot⟩ (b.total + 1) b) := by
  obtain ⟨cs, r, h⟩ := C202_outcome ll dl b.stream b.total
  have hl1 : ∀ l ∈ ll, l ≤ 15 := fun l hm => hl l (List.mem_append_left _ hm)
  have hl2 : ∀ l ∈ dl, l ≤ 15 := fun l hm => hl l (List.mem_append_right _ hm)
  obtain ⟨y, y1, y2⟩ := takeMixed_spec (x := ⟨lt, lroot, dt, droot⟩)
    (made_reads hl1 hll (by decide) h1) (made_reads hl2 hdl (by decide) h2)
    (made_fast hl1 hll (by decide) h1) (made_fast hl2 hdl (by decide) h2)
    space (b.total + 1) b cs r ⟨hb, h8⟩ (by omega) h
  have hd := takeCommands_spec (x := ⟨lt, lroot, dt, droot⟩)
    (made_reads hl1 hll (by decide) h1) (made_reads hl2 hdl (by decide) h2)
    h (b.total + 1) b ⟨hb, h8⟩ rfl rfl (by omega)
  rw [y1, does_unique y2 hd]

/-- C209.  The same with the fixed codes. -/
theorem C209_fixed (space : Nat → Nat) {b : Bits} (hb : b.hold < 2 ^ b.bits) (h8 : b.bits < 8) :
    takeMixed fixedTables space (b.total + 1) b = some (takeCommands fixedTables (b.total + 1) b) := by
  obtain ⟨cs, r, h⟩ := C202_outcome fixedLens fixedDists b.stream b.total
  obtain ⟨y, y1, y2⟩ := takeMixed_spec fixed_reads.1 fixed_reads.2 fixed_fast.1 fixed_fast.2
    space (b.total + 1) b cs r ⟨hb, h8⟩ (by omega) h
  have hd := takeCommands_spec fixed_reads.1 fixed_reads.2 h (b.total + 1) b ⟨hb, h8⟩ rfl rfl
    (by omega)
  rw [y1, does_unique y2 hd]

theorem dynamicFast_same (old space : Nat → Nat) {b : Bits} (hb : b.Ok) :
    takeDynamicFast old space b = some (takeDynamic old b) := by
  obtain ⟨r, h⟩ := C201_outcome b.stream b.total
  unfold takeDynamicFast takeDynamic
  cases r with
  | more =>
    have := readHeader_spec old hb h
    simp only [Agrees] at this
    rw [this]
  | bad =>
    have := readHeader_spec old hb h
    simp only [Agrees] at this
    rw [this]
  | got p s1 t1 =>
    obtain ⟨x, b1, g1, ⟨⟨lu, g2⟩, ⟨du, g3⟩, g4, g5, g6, g7⟩, g8, g9, g10⟩ := readHeader_spec old hb h
    rw [g1]
    simp only at g2 g3 g4 g5 g6 g7 ⊢
    obtain ⟨lt, lroot, dt, droot⟩ := x
    refine C209_same ?_ (by omega) (by omega) g2 g3 space g8.hold g8.bits
    intro l hm
    rcases List.mem_append.mp hm with hm | hm
    · exact g4 l hm
    · exact g5 l hm

theorem blocksFast_same (old space : Nat → Nat → Nat) : ∀ (fuel : Nat) (b : Bits), b.Ok →
    takeBlocksFast old space fuel b = some (takeBlocks old fuel b)
  | 0, _, _ => rfl
  | fuel + 1, b, hb => by
    rw [takeBlocks.eq_2, takeBlocksFast.eq_2]
    by_cases h3 : b.total < 3
    · rw [need_none hb.hold h3]
    · obtain ⟨b1, n1, n2, n3, n4⟩ := need_some hb.hold (n := 3) (by omega)
      have h8 := hb.bits
      obtain ⟨d1, d2, d3, d4, d5⟩ := bits_drop n2.hold (n := 1) (by omega)
      obtain ⟨e1, e2, e3, e4, e5⟩ := bits_drop d4 (n := 2) (by omega)
      have hB : (dropBits (dropBits b1 1) 2).Ok := ⟨e4, by omega⟩
      have hk : lowBits (dropBits b1 1) 2 < 4 := by
        rw [e1]
        exact Nat.mod_lt _ (by decide)
      rw [n1]
      simp only
      generalize lowBits (dropBits b1 1) 2 = k at *
      generalize dropBits (dropBits b1 1) 2 = B at *
      have hsame : (if k = 0 then some (takeStored B)
          else if k = 1 then takeMixed fixedTables (space fuel) (B.bits + 8 * B.next.length + 1) B
          else if k = 2 then takeDynamicFast (old fuel) (space fuel) B
          else some ([], .bad)) =
        some (if k = 0 then takeStored B
          else if k = 1 then takeCommands fixedTables (B.bits + 8 * B.next.length + 1) B
          else if k = 2 then takeDynamic (old fuel) B
          else ([], .bad)) := by
        split
        · rfl
        · split
          · exact C209_fixed _ hB.hold hB.bits
          · split
            · exact dynamicFast_same _ _ hB
            · rfl
      rw [hsame, Option.bind_some]
      obtain ⟨cs, r, hbl⟩ := block_exists k B.stream B.total hk
      have hd : Does cs r (if k = 0 then takeStored B
          else if k = 1 then takeCommands fixedTables (B.bits + 8 * B.next.length + 1) B
          else if k = 2 then takeDynamic (old fuel) B
          else ([], .bad)) := by
        cases hbl with
        | stored h => exact takeStored_spec hB h
        | fixed h =>
          simp only [Nat.one_ne_zero, if_false, if_true]
          exact takeCommands_spec fixed_reads.1 fixed_reads.2 h _ B hB rfl rfl
            (by rw [Bits.total]; omega)
        | cutHead h => exact takeDynamic_spec _ hB (.cutHead h)
        | wrongHead h => exact takeDynamic_spec _ hB (.wrongHead h)
        | dynamic h hc => exact takeDynamic_spec _ hB (.dynamic h hc)
        | wrong => exact ⟨rfl, rfl⟩
      generalize (if k = 0 then takeStored B
          else if k = 1 then takeCommands fixedTables (B.bits + 8 * B.next.length + 1) B
          else if k = 2 then takeDynamic (old fuel) B
          else ([], .bad)) = y at *
      obtain ⟨y1, y2⟩ := y
      cases y2 with
      | more => rfl
      | bad => rfl
      | ok u b' =>
        simp only
        split
        · rfl
        · have hok : b'.Ok := by
            obtain ⟨_, hr⟩ := hd
            cases r with
            | more => simp [Agrees] at hr
            | bad => simp [Agrees] at hr
            | got a s t =>
              obtain ⟨_, b2, q1, _, q2, _⟩ := hr
              simp only [Read.ok.injEq] at q1
              rw [q1.2]
              exact q2
          rw [blocksFast_same old space fuel b' hok]
          rfl

/-- C209.  A whole stream is read in the same way, wherever `inflate_fast` is called. -/
theorem C209_stream (old space : Nat → Nat → Nat) (input : List Byte) :
    takeStreamFast old space input = some (takeStream old input) :=
  blocksFast_same old space _ _ ⟨by simp, by simp⟩

/-- C209.  So `inflate_fast` reads what the stream says. -/
theorem C209_follows (old space : Nat → Nat → Nat) (input : List Byte) {cs : List Cmd}
    {r : Outcome Unit} (h : Blocks (streamOf input) (8 * input.length) cs r) :
    ∃ y, takeStreamFast old space input = some y ∧ Follows cs r y :=
  ⟨_, C209_stream old space input, C203_stream old input h⟩

/-! ### Examples -/

deriving instance DecidableEq for Left

/-- After one command there is not enough input; the byte that was read too much is given back. -/
example : inflateFast fixedTables 258 ⟨9, 5, [4, 2, 0, 7, 9, 9]⟩ =
    some ([.lit 97], .paused ⟨0, 5, [2, 0, 7, 9, 9]⟩) := by decide +kernel

/-- The block ends within `inflate_fast`, if there is space and input enough. -/
example : inflateFast fixedTables 259 ⟨9, 5, [4, 2, 0, 7, 9, 9, 1, 2, 3, 4, 5, 6]⟩ =
    some ([.lit 97, .copy 3 1], .paused ⟨0, 1, [0, 7, 9, 9, 1, 2, 3, 4, 5, 6]⟩) := by decide +kernel

example : inflateFast fixedTables 300 ⟨9, 5, [4, 2, 0, 7, 9, 9, 1, 2, 3, 4, 5, 6]⟩ =
    some ([.lit 97, .copy 3 1], .ended ⟨0, 2, [7, 9, 9, 1, 2, 3, 4, 5, 6]⟩) := by decide +kernel

end Verif.Zlib
