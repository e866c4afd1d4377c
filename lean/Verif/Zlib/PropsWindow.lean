import Verif.Zlib.WindowRun

/-! What is proved of the output of inflate over many calls. -/

namespace Verif.Zlib

/-- The outcome of a series of calls and one more: nothing goes wrong, what has been written is
the beginning of what the commands mean, each byte is written as soon as there is space for it,
and an error is reported exactly when a distance goes back too far. -/
def Delivered (wbits : Nat) (s : Stream) (hist : List Byte)
    (calls : List (Nat × List (Bool × Cmd))) (space : Nat) (cmds : List (Bool × Cmd)) : Prop :=
  ∃ s1 out s2 made,
    inflateCalls wbits s calls = some (s1, out) ∧
    inflateCall wbits s1 space cmds = some (s2, made) ∧
    hist ++ out ++ made <+: (expand hist (allCmds calls ++ plain cmds)).1 ∧
    made.length ≤ space ∧
    (made.length < space →
      hist ++ out ++ made = (expand hist (allCmds calls ++ plain cmds)).1 ∧
      (s2.mode = .bad ↔ (expand hist (allCmds calls ++ plain cmds)).2 = false)) ∧
    (s2.mode = .bad → (expand hist (allCmds calls ++ plain cmds)).2 = false) ∧
    s2.total = s.total + out.length + made.length

theorem delivered_of_between {wbits : Nat} {s : Stream} {hist : List Byte}
    (h : Between (2 ^ wbits) s hist (fun cs => expand hist cs))
    (calls : List (Nat × List (Bool × Cmd))) (space : Nat) (cmds : List (Bool × Cmd))
    (hc : ∀ c ∈ calls, ∀ x ∈ c.2, x.2.Sane ∧ x.2.Within (2 ^ wbits))
    (hd : ∀ x ∈ cmds, x.2.Sane ∧ x.2.Within (2 ^ wbits)) :
    Delivered wbits s hist calls space cmds := by
  obtain ⟨s1, out, e1, e2, e3⟩ := inflateCalls_spec calls h hc
  obtain ⟨s2, made, f1, f2, f3, f4, f5⟩ := inflateCall_spec e2 space cmds hd
  have hall := f2.all []
  simp only [List.append_nil] at hall
  refine ⟨s1, out, s2, made, e1, f1, ?_, f3, ?_, ?_, by omega⟩
  · rw [← hall]
    exact future_prefix _ _ _
  · intro hlt
    rcases f4 with f4 | f4 | ⟨f4, f4'⟩
    · omega
    · rw [← hall]
      simp [future, f4]
    · rw [← hall]
      simp [future, f4, f4', Mode.todo, expand]
  · intro hb
    rw [← hall]
    simp [future, hb]

theorem between_fresh {wbits : Nat} {memory : List Byte} (hm : memory.length = 2 ^ wbits) :
    Between (2 ^ wbits) (freshStream memory) [] (fun cs => expand [] cs) := by
  refine ⟨Or.inl ⟨hm, Or.inr ⟨rfl, rfl, rfl, rfl⟩, Nat.pow_pos (by decide), by simp [freshStream],
    by simp [freshStream], by simp, ?_⟩, trivial, by simp [freshStream], ?_⟩
  · intro k h1 h2
    simp [freshStream] at h2
    omega
  · intro cs
    simp [freshStream, future, Mode.todo]

/-! ### C198 -/

/-- C198.  However the input and the output are cut into calls, and whichever of the commands go
through `inflate_fast`, `inflate` writes what the commands mean. -/
theorem C198_calls {wbits : Nat} {memory : List Byte} (hm : memory.length = 2 ^ wbits)
    (calls : List (Nat × List (Bool × Cmd))) (space : Nat) (cmds : List (Bool × Cmd))
    (hc : ∀ c ∈ calls, ∀ x ∈ c.2, x.2.Sane ∧ x.2.Within (2 ^ wbits))
    (hd : ∀ x ∈ cmds, x.2.Sane ∧ x.2.Within (2 ^ wbits)) :
    Delivered wbits (freshStream memory) [] calls space cmds :=
  delivered_of_between (between_fresh hm) calls space cmds hc hd

/-- C198, for the windows of 32768 bytes that the program uses: there all commands that deflate
can express are within the window. -/
theorem C198_full_window {memory : List Byte} (hm : memory.length = 32768)
    (calls : List (Nat × List (Bool × Cmd))) (space : Nat) (cmds : List (Bool × Cmd))
    (hc : ∀ c ∈ calls, ∀ x ∈ c.2, x.2.Sane) (hd : ∀ x ∈ cmds, x.2.Sane) :
    Delivered 15 (freshStream memory) [] calls space cmds := by
  have hw : ∀ c : Cmd, c.Sane → c.Within (2 ^ 15) := by
    intro c h
    cases c with
    | copy l d => exact h.2.2.2
    | lit b => trivial
    | raw b => trivial
  exact C198_calls (by rw [hm]) calls space cmds
    (fun c hx x hy => ⟨hc c hx x hy, hw _ (hc c hx x hy)⟩) (fun x hx => ⟨hd x hx, hw _ (hd x hx)⟩)

/-- C198, the claim for all windows is false: with a window of 256 bytes a distance of 600 is
accepted as long as the output of the same call is long enough; if the copying is interrupted,
the next call reads before the window. -/
theorem C198_small_window_false :
    ¬ ∀ (wbits : Nat) (memory : List Byte) (calls : List (Nat × List (Bool × Cmd))) (space : Nat)
      (cmds : List (Bool × Cmd)), 8 ≤ wbits → wbits ≤ 15 → memory.length = 2 ^ wbits →
      (∀ c ∈ calls, ∀ x ∈ c.2, x.2.Sane) → (∀ x ∈ cmds, x.2.Sane) →
      Delivered wbits (freshStream memory) [] calls space cmds := by
  intro h
  obtain ⟨s1, out, s2, made, e1, e2, _⟩ := h 8 (List.replicate 256 0)
    [(602, [(false, .raw (List.replicate 600 1)), (false, .copy 10 600)])] 100 []
    (by decide) (by decide) (by rw [List.length_replicate])
    (by simp [Cmd.Sane, -List.reduceReplicate]) (by simp)
  have hbad : ((inflateCalls 8 (freshStream (List.replicate 256 0))
      [(602, [(false, .raw (List.replicate 600 1)), (false, .copy 10 600)])]).bind
      fun r => inflateCall 8 r.1 100 []) = none := by decide +kernel
  rw [e1] at hbad
  simp only [Option.bind_some] at hbad
  rw [e2] at hbad
  cases hbad

/-- The hypotheses of C198 are met by commands with copies that overlap themselves and that go
on over two calls. -/
example : ∃ (calls : List (Nat × List (Bool × Cmd))),
    (∀ c ∈ calls, ∀ x ∈ c.2, x.2.Sane ∧ x.2.Within (2 ^ 8)) ∧
    (inflateCalls 8 (freshStream (List.replicate 256 0)) calls).map (·.2)
      = some [97, 98, 97, 98, 97, 98, 97] :=
  ⟨[(2, [(false, .lit 97), (true, .lit 98), (true, .copy 5 2)]), (3, []), (9, [])], by
    simp [Cmd.Sane, Cmd.Within], by decide +kernel⟩

/-! ### C199 -/

/-- C199.  Between the calls the window holds the last bytes of all that was written, the byte
`k` back being `k` places before `write`, around the end of the window. -/
theorem C199_window {wbits : Nat} {memory : List Byte} (hm : memory.length = 2 ^ wbits)
    (calls : List (Nat × List (Bool × Cmd)))
    (hc : ∀ c ∈ calls, ∀ x ∈ c.2, x.2.Sane ∧ x.2.Within (2 ^ wbits)) {s : Stream} {out : List Byte}
    (h : inflateCalls wbits (freshStream memory) calls = some (s, out)) (hb : s.mode ≠ .bad) :
    ∀ k, 1 ≤ k → k ≤ 2 ^ wbits → k ≤ out.length →
      s.win.window[(s.win.write + 2 ^ wbits - k) % 2 ^ wbits]? = out[out.length - k]? := by
  obtain ⟨s1, out1, e1, e2, _⟩ := inflateCalls_spec calls (between_fresh hm) hc
  rw [h] at e1
  cases e1
  rw [List.nil_append] at e2
  have hh : Holds (2 ^ wbits) s.win out := by
    rcases e2.win with hw | hw
    · exact hw
    · exact absurd hw.1 hb
  intro k k1 k2 k3
  have hen := hh.enough
  have hwr := hh.wr
  rw [← hh.bytes k k1 (by omega) k2]
  unfold slot
  generalize 2 ^ wbits = size at *
  by_cases hk : k ≤ s.win.write
  · rw [if_pos hk]
    have : s.win.write + size - k = s.win.write - k + size := by omega
    rw [this, Nat.add_mod_right, Nat.mod_eq_of_lt (by omega)]
  · rw [if_neg hk, Nat.mod_eq_of_lt (by omega)]
    congr 1
    omega

/-- A case of C199 in which the window has been written around its end. -/
example : ∃ s out, inflateCalls 2 (freshStream [9, 9, 9, 9])
      [(3, [(false, .raw [1, 2, 3])]), (3, [(false, .raw [4, 5, 6])])] = some (s, out) ∧
    s.mode ≠ .bad ∧ s.win.window = [5, 6, 3, 4] ∧ s.win.write = 2 ∧ out = [1, 2, 3, 4, 5, 6] :=
  ⟨_, _, rfl, by decide, by decide, by decide, by decide⟩

/-! ### C200 -/

/-- C200.  After `inflateSetDictionary` on a fresh stream the output continues the dictionary:
copies may go back into it. -/
theorem C200_dictionary {wbits : Nat} {memory : List Byte} (hm : memory.length = 2 ^ wbits)
    (dict : List Byte) (calls : List (Nat × List (Bool × Cmd))) (space : Nat)
    (cmds : List (Bool × Cmd))
    (hc : ∀ c ∈ calls, ∀ x ∈ c.2, x.2.Sane ∧ x.2.Within (2 ^ wbits))
    (hd : ∀ x ∈ cmds, x.2.Sane ∧ x.2.Within (2 ^ wbits)) :
    ∃ w, setDictionary wbits (freshStream memory).win dict = some w ∧
      Delivered wbits { freshStream memory with win := w } dict calls space cmds := by
  obtain ⟨w, e1, e2⟩ := setDictionary_spec hm dict
  have hb : Between (2 ^ wbits) { freshStream memory with win := w } dict
      (fun cs => expand dict cs) := by
    refine ⟨Or.inl e2, trivial, by simp [freshStream], ?_⟩
    intro cs
    simp [freshStream, future, Mode.todo]
  exact ⟨w, e1, delivered_of_between hb calls space cmds hc hd⟩

/-- C200, the claim for all windows is false: after a dictionary of 255 bytes and 100 bytes more
a window of 256 bytes is said to hold 355; a distance of 300 is accepted, and what is copied is
something else. -/
theorem C200_small_window_false :
    ¬ ∀ (wbits : Nat) (memory dict : List Byte) (calls : List (Nat × List (Bool × Cmd)))
      (space : Nat) (cmds : List (Bool × Cmd)), 8 ≤ wbits → wbits ≤ 15 →
      memory.length = 2 ^ wbits →
      (∀ c ∈ calls, ∀ x ∈ c.2, x.2.Sane) → (∀ x ∈ cmds, x.2.Sane) →
      ∀ w, setDictionary wbits (freshStream memory).win dict = some w →
      ∀ s1 out s2 made,
        inflateCalls wbits { freshStream memory with win := w } calls = some (s1, out) →
        inflateCall wbits s1 space cmds = some (s2, made) → s2.mode ≠ .bad →
        dict ++ out ++ made <+: (expand dict (allCmds calls ++ plain cmds)).1 := by
  intro h
  have hrun : ((setDictionary 8 (freshStream (List.replicate 256 0)).win
      (List.replicate 255 0)).bind fun w =>
      (inflateCalls 8 { freshStream (List.replicate 256 0) with win := w }
        [(100, [(false, .raw (List.replicate 100 1))])]).bind fun r =>
      (inflateCall 8 r.1 3 [(false, .copy 3 300)]).map fun q =>
        (r.2, q.2, decide (q.1.mode = .bad))) = some (List.replicate 100 1, [1, 1, 1], false) := by
    decide +kernel
  obtain ⟨w, e1, hrun⟩ := Option.bind_eq_some_iff.mp hrun
  obtain ⟨⟨s1, out⟩, e2, hrun⟩ := Option.bind_eq_some_iff.mp hrun
  obtain ⟨⟨s2, made⟩, e3, hrun⟩ := Option.map_eq_some_iff.mp hrun
  simp only [Prod.mk.injEq, decide_eq_false_iff_not] at hrun
  obtain ⟨e5, e6, e4⟩ := hrun
  have := h 8 _ _ _ 3 [(false, .copy 3 300)] (by decide) (by decide)
    (by rw [List.length_replicate]) (by simp [Cmd.Sane, -List.reduceReplicate])
    (by simp [Cmd.Sane]) w e1 s1 out s2 made e2 e3 e4
  rw [e5, e6] at this
  revert this
  decide +kernel

/-- A case of C200: the copy begins in the dictionary and goes on in the output. -/
example : ((setDictionary 8 (freshStream (List.replicate 256 0)).win [97, 98, 99]).bind fun w =>
    (inflateCalls 8 { freshStream (List.replicate 256 0) with win := w }
      [(4, [(false, .lit 100), (false, .copy 6 3)]), (10, [])]).map (·.2))
      = some [100, 98, 99, 100, 98, 99, 100] := by decide +kernel

end Verif.Zlib
