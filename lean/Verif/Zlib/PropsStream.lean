import Verif.Zlib.PropsHeader
import Verif.Zlib.PropsWindow
import Verif.Zlib.StreamTop

/-! Properties of the reading of the blocks of a stream. -/

namespace Verif.Zlib

/-! ### C202 -/

/-- What a reader returns is what the input says: the commands, and then the rest of the input (with
less than a byte in the bit buffer), the wish for more input, or an error. -/
def Follows (cs : List Cmd) (r : Outcome Unit) (x : List Cmd × Read Unit) : Prop :=
  x.1 = cs ∧
    match r with
    | .got _ s t => ∃ b, x.2 = .ok () b ∧ b.stream = s ∧ b.total = t ∧
        b.hold < 2 ^ b.bits ∧ b.bits < 8
    | .more => x.2 = .more
    | .bad => x.2 = .bad

theorem follows_of {cs : List Cmd} {r : Outcome Unit} {x : List Cmd × Read Unit} (h : Does cs r x) :
    Follows cs r x := by
  obtain ⟨h1, h2⟩ := h
  refine ⟨h1, ?_⟩
  cases r with
  | more => exact h2
  | bad => exact h2
  | got a s t =>
    obtain ⟨c, b, g1, _, g2, g3, g4⟩ := h2
    exact ⟨b, g1, g3, g4, g2.hold, g2.bits⟩

/-- C202.  With tables built from the lengths of two codes the commands up to the end of the block are
those that the input gives in these codes. -/
theorem C202_commands {ll dl : List Nat} {lt dt : Table} {lroot droot lused dused lbits dbits : Nat}
    (hl : ∀ l ∈ ll ++ dl, l ≤ 15) (hll : ll.length ≤ 288) (hdl : dl.length ≤ 32)
    (h1 : inflateTable .lens ll lbits = some (.ok lt lroot lused))
    (h2 : inflateTable .dists dl dbits = some (.ok dt droot dused))
    {b : Bits} (hb : b.hold < 2 ^ b.bits) (h8 : b.bits < 8) {cs : List Cmd} {r : Outcome Unit}
    (h : Commands ll dl b.stream b.total cs r) :
    Follows cs r (takeCommands ⟨lt, lroot, dt, droot⟩ (b.total + 1) b) :=
  follows_of (takeCommands_spec
    (made_reads (fun l hm => hl l (List.mem_append_left _ hm)) hll (by decide) h1)
    (made_reads (fun l hm => hl l (List.mem_append_right _ hm)) hdl (by decide) h2)
    h _ b ⟨hb, h8⟩ rfl rfl (by omega))

/-- C202.  The same with the fixed codes and the tables that are written out for them. -/
theorem C202_fixed {b : Bits} (hb : b.hold < 2 ^ b.bits) (h8 : b.bits < 8) {cs : List Cmd}
    {r : Outcome Unit} (h : Commands fixedLens fixedDists b.stream b.total cs r) :
    Follows cs r (takeCommands fixedTables (b.total + 1) b) :=
  follows_of (takeCommands_spec fixed_reads.1 fixed_reads.2 h _ b ⟨hb, h8⟩ rfl rfl (by omega))

theorem code_exists (type : CodeType) (lens : List Nat) (s t : Nat) : ∃ r, Code type lens s t r := by
  by_cases hs : ∃ sym, BeginsWith lens s sym
  · obtain ⟨sym, hs⟩ := hs
    by_cases ht : lens.getD sym 0 ≤ t
    · by_cases hm : meaning type sym = .invalid
      · exact ⟨_, .invalid hs ht hm⟩
      · exact ⟨_, .got hs ht hm⟩
    · exact ⟨_, .cut hs (by omega)⟩
  · by_cases ht : 1 ≤ t
    · exact ⟨_, .none hs ht⟩
    · exact ⟨_, .empty hs (by omega)⟩

theorem code_meaning {type : CodeType} {lens : List Nat} {s t : Nat} {r : Outcome Meaning}
    (h : Code type lens s t r) : ∀ m s1 t1, r = .got m s1 t1 →
      ∃ sym, meaning type sym = m ∧ m ≠ .invalid := by
  cases h with
  | got _ _ hm =>
    intro m s1 t1 e
    injection e with e
    exact ⟨_, e, by rwa [← e]⟩
  | invalid _ _ _ => intro m s1 t1 e; cases e
  | none _ _ => intro m s1 t1 e; cases e
  | cut _ _ => intro m s1 t1 e; cases e
  | empty _ _ => intro m s1 t1 e; cases e

theorem number_exists (n s t : Nat) : ∃ r, Number n s t r := by
  by_cases h : n ≤ t
  · exact ⟨_, .got h⟩
  · exact ⟨_, .more (by omega)⟩

theorem command_exists (ll dl : List Nat) (s t : Nat) : ∃ r, Command ll dl s t r := by
  obtain ⟨r, hr⟩ := code_exists .lens ll s t
  cases r with
  | more => exact ⟨_, .cut hr⟩
  | bad => exact ⟨_, .wrong hr⟩
  | got m s1 t1 =>
    cases m with
    | number n => exact ⟨_, .lit hr⟩
    | endOfBlock => exact ⟨_, .stop hr⟩
    | invalid =>
      obtain ⟨_, _, h⟩ := code_meaning hr _ _ _ rfl
      exact absurd rfl h
    | copy base extra =>
      obtain ⟨r, hn⟩ := number_exists extra s1 t1
      cases hn with
      | more h => exact ⟨_, .cutLength hr (.more h)⟩
      | got h =>
        obtain ⟨r, hd⟩ := code_exists .dists dl (s1 / 2 ^ extra) (t1 - extra)
        cases r with
        | more => exact ⟨_, .cutDist hr (.got h) hd⟩
        | bad => exact ⟨_, .wrongDist hr (.got h) hd⟩
        | got m s3 t3 =>
          have hm : ∃ base' extra', m = .copy base' extra' := by
            obtain ⟨sym, e, hm⟩ := code_meaning hd _ _ _ rfl
            simp only [meaning] at e
            split at e
            · exact ⟨_, _, e.symm⟩
            · exact absurd e.symm hm
          obtain ⟨base', extra', rfl⟩ := hm
          obtain ⟨r, hx⟩ := number_exists extra' s3 t3
          cases hx with
          | more h' => exact ⟨_, .cutExtra hr (.got h) hd (.more h')⟩
          | got h' => exact ⟨_, .copy hr (.got h) hd (.got h')⟩

/-- C202.  Every input says something in two codes. -/
theorem C202_outcome (ll dl : List Nat) (s t : Nat) : ∃ cs r, Commands ll dl s t cs r := by
  induction t using Nat.strongRecOn generalizing s with
  | ind t ih =>
    obtain ⟨r, hr⟩ := command_exists ll dl s t
    cases r with
    | more => exact ⟨_, _, .cut hr⟩
    | bad => exact ⟨_, _, .wrong hr⟩
    | got c s1 t1 =>
      cases c with
      | none => exact ⟨_, _, .stop hr⟩
      | some c =>
        obtain ⟨cs, r, h⟩ := ih t1 (command_shorter hr) s1
        exact ⟨_, _, .next hr h⟩

/-! ### C203 -/

/-- C203.  From a raw stream exactly those commands are read that its blocks give; the bytes behind the
last block are left, more input is asked for when it ends too early, and errors are reported when it
makes no sense. -/
theorem C203_stream (old : Nat → Nat → Nat) (input : List Byte) {cs : List Cmd} {r : Outcome Unit}
    (h : Blocks (streamOf input) (8 * input.length) cs r) :
    Follows cs r (takeStream old input) := by
  have hs : (⟨0, 0, input⟩ : Bits).stream = streamOf input := by simp [Bits.stream]
  have ht : (⟨0, 0, input⟩ : Bits).total = 8 * input.length := by simp [Bits.total]
  exact follows_of (takeBlocks_spec old h _ _ ⟨by simp, by simp⟩ hs ht (by omega))

theorem stored_exists (s t : Nat) : ∃ cs r, Stored s t cs r := by
  by_cases h32 : t < 32
  · exact ⟨_, _, .cut h32⟩
  · by_cases hc : s % 2 ^ 16 + s / 2 ^ 16 % 2 ^ 16 = 2 ^ 16 - 1
    · by_cases hl : t < 32 + 8 * (s % 2 ^ 16)
      · exact ⟨_, _, .cutBytes (by omega) hc hl⟩
      · exact ⟨_, _, .got (by omega) hc⟩
    · exact ⟨_, _, .wrong (by omega) hc⟩

theorem block_exists (k s t : Nat) (hk : k < 4) : ∃ cs r, Block k s t cs r := by
  obtain rfl | rfl | rfl | rfl : k = 0 ∨ k = 1 ∨ k = 2 ∨ k = 3 := by omega
  · obtain ⟨cs, r, h⟩ := stored_exists (toByte s t).1 (toByte s t).2
    exact ⟨_, _, .stored h⟩
  · obtain ⟨cs, r, h⟩ := C202_outcome fixedLens fixedDists s t
    exact ⟨_, _, .fixed h⟩
  · obtain ⟨r, h⟩ := C201_outcome s t
    cases r with
    | more => exact ⟨_, _, .cutHead h⟩
    | bad => exact ⟨_, _, .wrongHead h⟩
    | got p s1 t1 =>
      obtain ⟨cs, r, h'⟩ := C202_outcome p.1 p.2 s1 t1
      exact ⟨_, _, .dynamic h h'⟩
  · exact ⟨_, _, .wrong⟩

/-- C203.  Every input says something as a stream, so that the reading is fully determined. -/
theorem C203_outcome (s t : Nat) : ∃ cs r, Blocks s t cs r := by
  induction t using Nat.strongRecOn generalizing s with
  | ind t ih =>
    by_cases h3 : t < 3
    · exact ⟨_, _, .cut h3⟩
    · obtain ⟨cs, r, h⟩ := block_exists (s / 2 % 4) (s / 8) (t - 3) (by omega)
      cases r with
      | more => exact ⟨_, _, .more (by omega) h⟩
      | bad => exact ⟨_, _, .wrong (by omega) h⟩
      | got u s1 t1 =>
        have hle := block_shorter h
        by_cases hl : s % 2 = 1
        · exact ⟨_, _, .last (by omega) hl h⟩
        · obtain ⟨cs', r', h'⟩ := ih t1 (by omega) s1
          exact ⟨_, _, .next (by omega) (by omega) h h'⟩

theorem Block.sane {k s t : Nat} {cs : List Cmd} {r : Outcome Unit} (h : Block k s t cs r) :
    ∀ c ∈ cs, c.Sane := by
  have commands : ∀ {ll dl s t cs r}, Commands ll dl s t cs r → ∀ c ∈ cs, c.Sane := by
    intro ll dl s t cs r h
    induction h with
    | stop _ => intro c hc; simp at hc
    | cut _ => intro c hc; simp at hc
    | wrong _ => intro c hc; simp at hc
    | next h _ ih =>
      intro c hc
      rcases List.mem_cons.mp hc with rfl | hc
      · cases h with
        | lit _ => trivial
        | copy a1 a2 a3 a4 =>
          have hlen : ∀ sym, ∀ base extra, meaning .lens sym = .copy base extra →
              3 ≤ base ∧ base + 2 ^ extra ≤ 259 := by
            intro sym base extra hm
            have : sym < 286 := by
              simp only [meaning] at hm
              split at hm
              · omega
              · split at hm
                · omega
                · split at hm
                  · omega
                  · split at hm
                    · omega
                    · cases hm
            have all : ∀ sym < 286, copyWithin 3 259 (meaning .lens sym) = true := by decide +kernel
            have := all sym this
            rw [hm] at this
            simpa [copyWithin] using this
          have hdist : ∀ sym, ∀ base extra, meaning .dists sym = .copy base extra →
              1 ≤ base ∧ base + 2 ^ extra ≤ 32769 := by
            intro sym base extra hm
            have : sym < 30 := by
              simp only [meaning] at hm
              split at hm
              · omega
              · cases hm
            have all : ∀ sym < 30, copyWithin 1 32769 (meaning .dists sym) = true := by
              decide +kernel
            have := all sym this
            rw [hm] at this
            simpa [copyWithin] using this
          have num : ∀ {n s t k s1 t1}, Number n s t (.got k s1 t1) → k < 2 ^ n := by
            intro n s t k s1 t1 h
            cases h
            exact Nat.mod_lt _ (Nat.pow_pos (by decide))
          obtain ⟨sym, e1, _⟩ := code_meaning a1 _ _ _ rfl
          obtain ⟨sym', e2, _⟩ := code_meaning a3 _ _ _ rfl
          have := hlen sym _ _ e1
          have := hdist sym' _ _ e2
          have := num a2
          have := num a4
          exact ⟨by omega, by omega, by omega, by omega⟩
      · exact ih c hc
  cases h with
  | stored h =>
    cases h with
    | cut _ => intro c hc; simp at hc
    | wrong _ _ => intro c hc; simp at hc
    | cutBytes _ _ _ => intro c hc; simp at hc; subst hc; trivial
    | got _ _ => intro c hc; simp at hc; subst hc; trivial
  | fixed h => exact commands h
  | cutHead _ => intro c hc; simp at hc
  | wrongHead _ => intro c hc; simp at hc
  | dynamic _ h => exact commands h
  | wrong => intro c hc; simp at hc

/-- C203.  The lengths and distances of all commands are in the ranges that are relied upon where the
commands are carried out (C198). -/
theorem C203_sane {s t : Nat} {cs : List Cmd} {r : Outcome Unit} (h : Blocks s t cs r) :
    ∀ c ∈ cs, c.Sane := by
  induction h with
  | cut _ => intro c hc; simp at hc
  | more _ h => exact h.sane
  | wrong _ h => exact h.sane
  | last _ _ h => exact h.sane
  | next _ _ h _ ih =>
    intro c hc
    rcases List.mem_append.mp hc with hc | hc
    · exact h.sane c hc
    · exact ih c hc

/-- C203.  However the commands that are read fall into calls, what is written is what the blocks of
the stream mean. -/
theorem C203_output (old : Nat → Nat → Nat) (input : List Byte) {cs : List Cmd} {r : Outcome Unit}
    (h : Blocks (streamOf input) (8 * input.length) cs r) {memory : List Byte}
    (hm : memory.length = 32768) (calls : List (Nat × List (Bool × Cmd))) (space : Nat)
    (cmds : List (Bool × Cmd)) (hcs : allCmds calls ++ plain cmds = (takeStream old input).1) :
    allCmds calls ++ plain cmds = cs ∧ Delivered 15 (freshStream memory) [] calls space cmds := by
  have he : allCmds calls ++ plain cmds = cs := hcs.trans (C203_stream old input h).1
  have hsane := C203_sane h
  rw [← he] at hsane
  refine ⟨he, C198_full_window hm calls space cmds ?_ ?_⟩
  · intro c hc x hx
    apply hsane
    apply List.mem_append_left
    simp only [allCmds, List.mem_flatMap, plain, List.mem_map]
    exact ⟨c, hc, x, hx, rfl⟩
  · intro x hx
    apply hsane
    apply List.mem_append_right
    simp only [plain, List.mem_map]
    exact ⟨x, hx, rfl⟩

/-! ### Examples -/

/-- A last block with the fixed codes: `a`, then three bytes from one byte back, and the end; two more
bytes follow. -/
def sampleStream : List Byte := [75, 4, 2, 0, 7, 9]

example : Blocks (streamOf sampleStream) (8 * sampleStream.length) [.lit 97, .copy 3 1]
    (.got () (streamOf [7, 9]) 16) := by
  have c1 : Code .lens fixedLens 1240708694153 45 (.got (.number 97) 4846518336 37) := by
    have := Code.got (type := .lens) (lens := fixedLens) (s := 1240708694153) (t := 45) (sym := 97)
      (by unfold BeginsWith; decide +kernel) (by decide +kernel) (by decide +kernel)
    rw [show meaning .lens 97 = .number 97 by decide +kernel,
      show fixedLens.getD 97 0 = 8 by decide +kernel] at this
    exact this
  have c2 : Code .lens fixedLens 4846518336 37 (.got (.copy 3 0) 37863424 30) := by
    have := Code.got (type := .lens) (lens := fixedLens) (s := 4846518336) (t := 37) (sym := 257)
      (by unfold BeginsWith; decide +kernel) (by decide +kernel) (by decide +kernel)
    rw [show meaning .lens 257 = .copy 3 0 by decide +kernel,
      show fixedLens.getD 257 0 = 7 by decide +kernel] at this
    exact this
  have c3 : Code .dists fixedDists 37863424 30 (.got (.copy 1 0) 1183232 25) := by
    have := Code.got (type := .dists) (lens := fixedDists) (s := 37863424) (t := 30) (sym := 0)
      (by unfold BeginsWith; decide +kernel) (by decide +kernel) (by decide +kernel)
    rw [show meaning .dists 0 = .copy 1 0 by decide +kernel,
      show fixedDists.getD 0 0 = 5 by decide +kernel] at this
    exact this
  have c4 : Code .lens fixedLens 1183232 25 (.got .endOfBlock 9244 18) := by
    have := Code.got (type := .lens) (lens := fixedLens) (s := 1183232) (t := 25) (sym := 256)
      (by unfold BeginsWith; decide +kernel) (by decide +kernel) (by decide +kernel)
    rw [show meaning .lens 256 = .endOfBlock by decide +kernel,
      show fixedLens.getD 256 0 = 7 by decide +kernel] at this
    exact this
  have n0 : ∀ s t, Number 0 s t (.got 0 s t) := by
    intro s t
    have := Number.got (n := 0) (s := s) (t := t) (by omega)
    simpa [Nat.mod_one] using this
  have cmds : Commands fixedLens fixedDists 1240708694153 45 [.lit 97, .copy 3 1] (.got () 9244 18) :=
    .next (.lit c1) (.next (.copy c2 (n0 _ _) c3 (n0 _ _)) (.stop (.stop c4)))
  have hs : streamOf sampleStream = 9925669553227 := by decide +kernel
  have ht : 8 * sampleStream.length = 48 := by decide +kernel
  rw [hs, ht]
  exact .last (s := 9925669553227) (t := 48) (by decide) (by decide) (.fixed cmds)

example : Blocks 6 8 [] .bad := .wrong (by decide) .wrong

end Verif.Zlib
