import Verif.Zlib.StreamPiecesLemmas

/-! Properties of the reading of streams when the input comes in pieces. -/

namespace Verif.Zlib

/-! ### C213 -/

/-- The same outcome, and commands that mean the same. -/
def Alike (r : Option (List Cmd × Fed Unit)) (y : List Cmd × Read Unit) : Prop :=
  ∃ q, r = some q ∧ single q.1 = single y.1 ∧ q.2.read = y.2

theorem alike_cmds {x : Tables} {space : Nat → Nat → Nat} {b : Bits} {ps : List (List Byte)}
    {y : List Cmd × Read Unit}
    (h : runPieces x space .len ⟨b.hold, b.bits, []⟩ (b.next :: ps) = some y) :
    Alike (cmdsIn x space .len b ps) y := by
  rw [← cmdsIn_read, Option.map_eq_some_iff] at h
  obtain ⟨q, h1, rfl⟩ := h
  exact ⟨q, h1, rfl, rfl⟩

theorem alike_stored {b : Bits} (hb : b.Ok) (ps : List (List Byte)) :
    Alike (some ([.raw (storedIn b ps).1], (storedIn b ps).2)) (takeStored (b.app ps.flatten)) := by
  have h := C211_stored hb.hold hb.bits (b.next :: ps)
  rw [← storedIn_read] at h
  have e : (⟨b.hold, b.bits, (b.next :: ps).flatten⟩ : Bits) = b.app ps.flatten := rfl
  rw [e] at h
  simp only [Prod.mk.injEq] at h
  refine ⟨_, rfl, ?_, h.2⟩
  rw [h.1]
  unfold takeStored
  cases need 32 (byteBits (b.app ps.flatten)) with
  | none => rfl
  | some b1 =>
    simp only
    split_ifs <;> simp [rawBytes, single]

theorem alike_fixed (space : Nat → Nat → Nat) {b : Bits} (hb : b.Ok) (ps : List (List Byte)) :
    Alike (cmdsIn fixedTables space .len b ps)
      (takeCommands fixedTables ((b.app ps.flatten).bits + 8 * (b.app ps.flatten).next.length + 1)
        (b.app ps.flatten)) :=
  alike_cmds (C210_fixed space hb.hold hb.bits (pieces := b.next :: ps) (by simp))

theorem alike_dynamic (old : Nat → Nat) (space : Nat → Nat → Nat) {b : Bits} (hb : b.Ok)
    (ps : List (List Byte)) :
    Alike (dynamicIn old space b ps) (takeDynamic old (b.app ps.flatten)) := by
  have h := C212_same old b.hold b.bits (pieces := b.next :: ps) (by simp)
  rw [← headIn_read] at h
  have e : (⟨b.hold, b.bits, (b.next :: ps).flatten⟩ : Bits) = b.app ps.flatten := rfl
  rw [e, Option.map_eq_some_iff] at h
  obtain ⟨y, h1, h2⟩ := h
  have hW : (b.app ps.flatten).Ok := ⟨hb.hold, hb.bits⟩
  generalize b.app ps.flatten = W at *
  obtain ⟨r, hr⟩ := C201_outcome W.stream W.total
  have hs := readHeader_spec old hW hr
  rw [dynamicIn, h1, takeDynamic]
  cases y with
  | more =>
    rw [← h2]
    exact ⟨_, rfl, rfl, rfl⟩
  | bad =>
    rw [← h2]
    exact ⟨_, rfl, rfl, rfl⟩
  | ok x b1 ps1 =>
    rw [← h2] at hs ⊢
    cases r with
    | more => simp [Agrees, Fed.read] at hs
    | bad => simp [Agrees, Fed.read] at hs
    | got p s1 t1 =>
      obtain ⟨x', b', g1, ⟨⟨lu, g2⟩, ⟨du, g3⟩, g4, g5, g6, g7⟩, g8, g9, g10⟩ := hs
      simp only [Fed.read, Read.ok.injEq] at g1
      obtain ⟨rfl, rfl⟩ := g1
      obtain ⟨lt, lroot, dt, droot⟩ := x
      simp only at g2 g3 g4 g5 g6 g7
      refine alike_cmds (C210_pieces ?_ (by omega) (by omega) g2 g3 space g8.hold g8.bits
        (pieces := b1.next :: ps1) (by simp))
      intro l hm
      rcases List.mem_append.mp hm with hm | hm
      · exact g4 l hm
      · exact g5 l hm

theorem blocksIn_same (old : Nat → Nat → Nat) (space : Nat → Nat → Nat → Nat) :
    ∀ (fuel : Nat) (b : Bits) (ps : List (List Byte)), b.Ok →
      Alike (blocksIn old space fuel b ps) (takeBlocks old fuel (b.app ps.flatten))
  | 0, _, _, _ => ⟨_, rfl, rfl, rfl⟩
  | fuel + 1, b, ps, hb => by
    rw [takeBlocks.eq_2, blocksIn.eq_2]
    have ht := typeIn_read ps b
    cases hty : typeIn b ps with
    | none =>
      rw [hty] at ht
      rw [← ht]
      exact ⟨_, rfl, rfl, rfl⟩
    | some y =>
      obtain ⟨b1, ps1⟩ := y
      rw [hty] at ht
      have hB' : (b.app ps.flatten).hold < 2 ^ (b.app ps.flatten).bits := hb.hold
      have h3 : 3 ≤ (b.app ps.flatten).total := by
        by_contra hc
        rw [need_none hB' (by omega)] at ht
        simp at ht
      obtain ⟨b2, n1, n2, n3, n4⟩ := need_some hB' h3
      rw [n1] at ht
      simp only [Option.map_some, Option.some.injEq] at ht
      have h8 : (b.app ps.flatten).bits < 8 := hb.bits
      rw [n1]
      subst ht
      obtain ⟨d1, d2, d3, d4, d5⟩ := bits_drop n2.hold (n := 1) (by omega)
      obtain ⟨e1, e2, e3, e4, e5⟩ := bits_drop d4 (n := 2) (by omega)
      have hB : (dropBits (dropBits b1 1) 2).Ok := by
        refine ⟨e4, ?_⟩
        have : (dropBits (dropBits (b1.app ps1.flatten) 1) 2).bits < 8 := by omega
        exact this
      have hW : (dropBits (dropBits (b1.app ps1.flatten) 1) 2) =
          (dropBits (dropBits b1 1) 2).app ps1.flatten := rfl
      have hk' : lowBits (dropBits (b1.app ps1.flatten) 1) 2 = lowBits (dropBits b1 1) 2 := rfl
      have hl' : lowBits (b1.app ps1.flatten) 1 = lowBits b1 1 := rfl
      have hk : lowBits (dropBits b1 1) 2 < 4 := Nat.mod_lt _ (by decide)
      simp only [hW, hk', hl']
      generalize lowBits (dropBits b1 1) 2 = k at *
      generalize lowBits b1 1 = last at *
      generalize dropBits (dropBits b1 1) 2 = B at *
      have hsame : Alike
          (if k = 0 then some ([.raw (storedIn B ps1).1], (storedIn B ps1).2)
          else if k = 1 then cmdsIn fixedTables (space fuel) .len B ps1
          else if k = 2 then dynamicIn (old fuel) (space fuel) B ps1
          else some ([], .bad))
          (if k = 0 then takeStored (B.app ps1.flatten)
          else if k = 1 then takeCommands fixedTables
            ((B.app ps1.flatten).bits + 8 * (B.app ps1.flatten).next.length + 1) (B.app ps1.flatten)
          else if k = 2 then takeDynamic (old fuel) (B.app ps1.flatten)
          else ([], .bad)) := by
        split
        · exact alike_stored hB ps1
        · split
          · exact alike_fixed _ hB ps1
          · split
            · exact alike_dynamic _ _ hB ps1
            · exact ⟨_, rfl, rfl, rfl⟩
      have hBW : (B.app ps1.flatten).Ok := ⟨hB.hold, hB.bits⟩
      obtain ⟨cs, r, hbl⟩ := block_exists k (B.app ps1.flatten).stream (B.app ps1.flatten).total hk
      have hd : Does cs r (if k = 0 then takeStored (B.app ps1.flatten)
          else if k = 1 then takeCommands fixedTables
            ((B.app ps1.flatten).bits + 8 * (B.app ps1.flatten).next.length + 1) (B.app ps1.flatten)
          else if k = 2 then takeDynamic (old fuel) (B.app ps1.flatten)
          else ([], .bad)) := by
        cases hbl with
        | stored h => exact takeStored_spec hBW h
        | fixed h =>
          simp only [Nat.one_ne_zero, if_false, if_true]
          exact takeCommands_spec fixed_reads.1 fixed_reads.2 h _ _ hBW rfl rfl
            (by rw [Bits.total]; omega)
        | cutHead h => exact takeDynamic_spec _ hBW (.cutHead h)
        | wrongHead h => exact takeDynamic_spec _ hBW (.wrongHead h)
        | dynamic h hc => exact takeDynamic_spec _ hBW (.dynamic h hc)
        | wrong => exact ⟨rfl, rfl⟩
      generalize (if k = 0 then takeStored (B.app ps1.flatten)
          else if k = 1 then takeCommands fixedTables
            ((B.app ps1.flatten).bits + 8 * (B.app ps1.flatten).next.length + 1) (B.app ps1.flatten)
          else if k = 2 then takeDynamic (old fuel) (B.app ps1.flatten)
          else ([], .bad)) = y at *
      obtain ⟨q, q1, q2, q3⟩ := hsame
      rw [q1, Option.bind_some]
      obtain ⟨qc, qf⟩ := q
      obtain ⟨y1, y2⟩ := y
      simp only at q2 q3
      subst q3
      cases qf with
      | more => exact ⟨_, rfl, q2, rfl⟩
      | bad => exact ⟨_, rfl, q2, rfl⟩
      | ok u b' ps' =>
        simp only [Fed.read]
        have hok : b'.Ok := by
          obtain ⟨_, hr⟩ := hd
          cases r with
          | more => simp [Agrees, Fed.read] at hr
          | bad => simp [Agrees, Fed.read] at hr
          | got a s t =>
            obtain ⟨_, b2, q1, _, q2, _⟩ := hr
            simp only [Fed.read, Read.ok.injEq] at q1
            rw [← q1.2] at q2
            exact ⟨q2.hold, q2.bits⟩
        by_cases hlast : last ≠ 0
        · rw [if_pos hlast, if_pos hlast]
          exact ⟨_, rfl, q2, rfl⟩
        · rw [if_neg hlast, if_neg hlast]
          obtain ⟨z, z1, z2, z3⟩ := blocksIn_same old space fuel b' ps' hok
          refine ⟨(qc ++ z.1, z.2), by rw [z1]; rfl, ?_, z3⟩
          rw [single_append, single_append, q2, z2]

/-- C213.  However a raw stream is divided among the calls and wherever `inflate_fast` is called, the outcome
and what is left of the input are as if all of it were there at once, and so are the commands (with the
contents of stored blocks as single bytes). -/
theorem C213_stream (old : Nat → Nat → Nat) (space : Nat → Nat → Nat → Nat) (pieces : List (List Byte)) :
    ∃ q, streamIn old space pieces = some q ∧
      single q.1 = single (takeStream old pieces.flatten).1 ∧
      q.2.read = (takeStream old pieces.flatten).2 :=
  blocksIn_same old space _ ⟨0, 0, []⟩ pieces ⟨by simp, by simp⟩

/-- C213.  So the calls read what the stream says: what their commands mean is what the commands of the
stream mean, and they end as the stream says. -/
theorem C213_follows (old : Nat → Nat → Nat) (space : Nat → Nat → Nat → Nat) (pieces : List (List Byte))
    {cs : List Cmd} {r : Outcome Unit}
    (h : Blocks (streamOf pieces.flatten) (8 * pieces.flatten.length) cs r) :
    ∃ q, streamIn old space pieces = some q ∧ (∀ out, expand out q.1 = expand out cs) ∧
      match r with
      | .got _ s t => ∃ b ps, q.2 = .ok () b ps ∧ b.hold < 2 ^ b.bits ∧ b.bits < 8 ∧
          b.hold + 2 ^ b.bits * streamOf (b.next ++ ps.flatten) = s ∧
          b.bits + 8 * (b.next ++ ps.flatten).length = t
      | .more => q.2 = .more
      | .bad => q.2 = .bad := by
  obtain ⟨q, q1, q2, q3⟩ := C213_stream old space pieces
  obtain ⟨f1, f2⟩ := C203_stream old pieces.flatten h
  refine ⟨q, q1, fun out => ?_, ?_⟩
  · rw [← expand_single q.1, q2, expand_single, f1]
  · cases r with
    | more =>
      rw [f2] at q3
      cases hq : q.2 with
      | more => rfl
      | bad => rw [hq] at q3; cases q3
      | ok u b ps => rw [hq] at q3; cases q3
    | bad =>
      rw [f2] at q3
      cases hq : q.2 with
      | more => rw [hq] at q3; cases q3
      | bad => rfl
      | ok u b ps => rw [hq] at q3; cases q3
    | got u s t =>
      obtain ⟨b, g1, g2, g3, g4, g5⟩ := f2
      rw [g1] at q3
      cases hq : q.2 with
      | more => rw [hq] at q3; cases q3
      | bad => rw [hq] at q3; cases q3
      | ok u b' ps =>
        rw [hq] at q3
        simp only [Fed.read, Read.ok.injEq] at q3
        obtain ⟨_, rfl⟩ := q3
        exact ⟨b', ps, rfl, g4, g5, g2, g3⟩

theorem copy_single {len dist : Nat} : ∀ (cs : List Cmd), Cmd.copy len dist ∈ single cs ↔ Cmd.copy len dist ∈ cs
  | [] => by simp [single]
  | .raw x :: cs => by simp [single, copy_single cs]
  | .lit x :: cs => by simp [single, copy_single cs]
  | .copy l d :: cs => by simp [single, copy_single cs]

/-- C213.  However the commands that are read from a stream in pieces fall into calls, what is written is
what the blocks of the stream mean. -/
theorem C213_output (old : Nat → Nat → Nat) (space : Nat → Nat → Nat → Nat) (pieces : List (List Byte))
    {cs : List Cmd} {r : Outcome Unit}
    (h : Blocks (streamOf pieces.flatten) (8 * pieces.flatten.length) cs r) {memory : List Byte}
    (hm : memory.length = 32768) {q : List Cmd × Fed Unit} (hq : streamIn old space pieces = some q)
    (calls : List (Nat × List (Bool × Cmd))) (room : Nat) (cmds : List (Bool × Cmd))
    (hcs : allCmds calls ++ plain cmds = q.1) :
    (∀ out, expand out (allCmds calls ++ plain cmds) = expand out cs) ∧
      Delivered 15 (freshStream memory) [] calls room cmds := by
  obtain ⟨q', q1, q2, _⟩ := C213_stream old space pieces
  rw [hq] at q1
  cases q1
  rw [(C203_stream old pieces.flatten h).1] at q2
  have hsane : ∀ c ∈ q.1, c.Sane := by
    intro c hc
    cases c with
    | lit x => trivial
    | raw x => trivial
    | copy l d =>
      have h1 := (copy_single _).mpr hc
      rw [q2] at h1
      exact C203_sane h _ ((copy_single _).mp h1)
  refine ⟨fun out => ?_, C198_full_window hm calls room cmds ?_ ?_⟩
  · rw [hcs, ← expand_single q.1, q2, expand_single]
  · intro c hc x hx
    apply hsane
    rw [← hcs]
    apply List.mem_append_left
    simp only [allCmds, List.mem_flatMap, plain, List.mem_map]
    exact ⟨c, hc, x, hx, rfl⟩
  · intro x hx
    apply hsane
    rw [← hcs]
    apply List.mem_append_right
    simp only [plain, List.mem_map]
    exact ⟨x, hx, rfl⟩

/-! ### Examples -/

deriving instance DecidableEq for Fed

/-- A stored block of two bytes and a block with fixed codes, divided within the numbers, within the bytes
and within a copy. -/
example : streamIn (fun _ _ => 9) (fun _ _ _ => 300) [[], [0, 2, 0], [253, 255, 7], [8, 75, 4], [2], [0, 9]] =
    some ([.raw [7, 8], .lit 97, .copy 3 1], .ok () ⟨0, 0, [9]⟩ []) := by decide +kernel

/-- The same, cut. -/
example : streamIn (fun _ _ => 9) (fun _ _ _ => 300) [[0, 2, 0], [253, 255, 7], [8, 75, 4], []] =
    some ([.raw [7, 8], .lit 97], .more) := by decide +kernel

example : streamIn (fun _ _ => 9) (fun _ _ _ => 300) [[6]] = some ([], .bad) := by decide +kernel

/-- What is written. -/
example : expand [] [.raw [7, 8], .lit 97, .copy 3 1] = ([7, 8, 97, 97, 97, 97], true) := by decide

end Verif.Zlib
