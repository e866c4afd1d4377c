import Verif.Zlib.WindowLemmas

/-! Lemmas about whole calls of inflate. -/

namespace Verif.Zlib

/-- The commands that a state still has to carry out. -/
def Mode.todo : Mode → List Cmd
  | .len => []
  | .lit b => [.lit b]
  | .mtch length offset => [.copy length offset]
  | .stored bs => [.raw bs]
  | .bad => []

/-- What will be the output in the end. -/
def future (out : List Byte) (m : Mode) (cs : List Cmd) : List Byte × Bool :=
  if m = .bad then (out, false) else expand out (m.todo ++ cs)

/-- A match in progress can be carried out. -/
def ModeOk (size n : Nat) : Mode → Prop
  | .mtch length offset => 1 ≤ length ∧ 1 ≤ offset ∧ offset ≤ size ∧ offset ≤ n
  | _ => True

theorem expand_prefix : ∀ (cs : List Cmd) (out : List Byte), out <+: (expand out cs).1
  | [], out => by simp [expand]
  | .lit b :: cs, out => by
    simp only [expand]
    exact (List.prefix_append _ _).trans (expand_prefix cs _)
  | .raw bs :: cs, out => by
    simp only [expand]
    exact (List.prefix_append _ _).trans (expand_prefix cs _)
  | .copy len dist :: cs, out => by
    simp only [expand]
    split
    · exact (copyBack_prefix _ _ _).trans (expand_prefix cs _)
    · exact List.prefix_refl _

theorem future_prefix (out : List Byte) (m : Mode) (cs : List Cmd) :
    out <+: (future out m cs).1 := by
  unfold future
  split
  · exact List.prefix_refl _
  · exact expand_prefix _ _

/-- What `settle` and `call` do not change. -/
structure Kept (size : Nat) (hist : List Byte) (p : Put) (cs : List Cmd) (p' : Put)
    (cs' : List Cmd) : Prop where
  future : future (hist ++ p'.made) p'.mode cs' = future (hist ++ p.made) p.mode cs
  space : p'.made.length + p'.left = p.made.length + p.left
  ok : ModeOk size (hist.length + p'.made.length) p'.mode

theorem Kept.trans {size : Nat} {hist : List Byte} {p q r : Put} {a b c : List Cmd}
    (h1 : Kept size hist p a q b) (h2 : Kept size hist q b r c) : Kept size hist p a r c :=
  ⟨h2.future.trans h1.future, h2.space.trans h1.space, h2.ok⟩

theorem settle_spec {size : Nat} {w : Win} {hist : List Byte} (h : Holds size w hist)
    (cs : List Cmd) : ∀ (fuel : Nat) (p : Put),
      p.mode.steps ≤ fuel → ModeOk size (hist.length + p.made.length) p.mode →
      ∃ p', settle w fuel p = some p' ∧ Kept size hist p cs p' cs ∧
        (p'.left = 0 ∨ p'.mode = .len ∨ p'.mode = .bad) ∧ (p'.mode = .bad → p.mode = .bad)
  | 0, p, hf, _ => by
    exfalso
    revert hf
    cases p.mode <;> simp [Mode.steps]
  | fuel + 1, ⟨m, made, left⟩, hf, hok => by
    cases m with
    | len => exact ⟨_, rfl, ⟨rfl, rfl, hok⟩, by simp, by simp⟩
    | bad => exact ⟨_, rfl, ⟨rfl, rfl, hok⟩, by simp, by simp⟩
    | lit b =>
      by_cases hl : left = 0
      · exact ⟨⟨.lit b, made, left⟩, by simp [settle, hl], ⟨rfl, rfl, hok⟩, by simp [hl], by simp⟩
      · refine ⟨⟨.len, made ++ [b], left - 1⟩, by simp [settle, hl], ⟨?_, ?_, trivial⟩, by simp,
          by simp⟩
        · simp [future, Mode.todo, expand]
        · simp; omega
    | stored bs =>
      by_cases hb : bs = []
      · refine ⟨⟨.len, made, left⟩, by simp [settle, hb], ⟨?_, rfl, trivial⟩, by simp, by simp⟩
        simp [future, Mode.todo, expand, hb]
      · have hbl : 0 < bs.length := List.length_pos_iff.mpr hb
        generalize hcd : (if bs.length > left then left else bs.length) = c
        by_cases hc : c = 0
        · refine ⟨⟨.stored bs, made, left⟩, ?_, ⟨rfl, rfl, hok⟩, ?_, by simp⟩
          · simp only [settle, if_neg hb, hcd, if_pos hc]
          · left
            simp only
            revert hcd
            split <;> omega
        · have hc2 : c ≤ left ∧ c ≤ bs.length := by
            subst hcd
            split <;> omega
          obtain ⟨p', e1, e2, e3, e4⟩ := settle_spec h cs fuel
            ⟨.stored (bs.drop c), made ++ bs.take c, left - c⟩
            (by simp only [Mode.steps, List.length_drop] at hf ⊢; omega) trivial
          have hk : Kept size hist ⟨.stored bs, made, left⟩ cs
              ⟨.stored (bs.drop c), made ++ bs.take c, left - c⟩ cs := by
            refine ⟨?_, ?_, trivial⟩
            · simp [future, Mode.todo, expand]
            · simp only [List.length_append, List.length_take]
              omega
          refine ⟨p', ?_, hk.trans e2, e3, by simpa using e4⟩
          simp only [settle, if_neg hb, hcd, if_neg hc, e1]
    | mtch length offset =>
      obtain ⟨h1, h2, h3, h4⟩ := hok
      replace h4 : offset ≤ hist.length + made.length := h4
      by_cases hl : left = 0
      · exact ⟨⟨.mtch length offset, made, left⟩, by simp [settle, hl], ⟨rfl, rfl, h1, h2, h3, h4⟩,
          by simp [hl], by simp⟩
      · obtain ⟨c, made', c1, c2, c3, e1, e2, e3⟩ := matchOnce_spec h h1 h2 h3 h4 hl
        have hk : Kept size hist ⟨.mtch length offset, made, left⟩ cs
            ⟨if length - c = 0 then .len else .mtch (length - c) offset, made', left - c⟩ cs := by
          refine ⟨?_, ?_, ?_⟩
          · simp only [e2]
            have hx : future (hist ++ made) (.mtch length offset) cs
                = expand (copyBack (copyBack (hist ++ made) offset c) offset (length - c)) cs := by
              simp only [future, Mode.todo, expand, reduceCtorEq, if_false, List.cons_append,
                List.nil_append, ← copyBack_add]
              rw [if_pos (by simp; omega)]
              congr 2
              omega
            rw [hx]
            by_cases hz : length - c = 0
            · rw [if_pos hz, hz]
              simp [future, Mode.todo, copyBack]
            · rw [if_neg hz]
              simp only [future, Mode.todo, expand, reduceCtorEq, if_false, List.cons_append,
                List.nil_append]
              rw [if_pos (by rw [copyBack_length]; simp; omega)]
          · simp only; omega
          · simp only
            split
            · trivial
            · exact ⟨by omega, h2, h3, by omega⟩
        obtain ⟨p', f1, f2, f3, f4⟩ := settle_spec h cs fuel _ (by
          simp only [Mode.steps] at hf
          simp only
          split <;> simp only [Mode.steps] <;> omega) hk.ok
        refine ⟨p', ?_, hk.trans f2, f3, ?_⟩
        · simp only [settle, if_neg hl, e1, f1]
        · intro hb
          have := f4 hb
          simp only at this
          split at this <;> cases this

theorem begin_spec {size : Nat} {w : Win} {hist : List Byte} (h : Holds size w hist)
    (fast : Bool) (c : Cmd) (cs : List Cmd) (made : List Byte) (left : Nat)
    (hc : c.Sane) (hr : c.Within size) :
    ∃ p', begin w fast c made left = some p' ∧
      Kept size hist ⟨.len, made, left⟩ (c :: cs) p' cs := by
  have hen := h.enough
  have hv := h.hv
  cases c with
  | raw bs =>
    exact ⟨_, rfl, ⟨by simp [future, Mode.todo], rfl, trivial⟩⟩
  | lit b =>
    by_cases hf : fast = true ∧ left ≥ 258
    · refine ⟨⟨.len, made ++ [b], left - 1⟩, by simp only [begin, if_pos hf], ⟨?_, ?_, trivial⟩⟩
      · simp [future, Mode.todo, expand]
      · simp; omega
    · exact ⟨⟨.lit b, made, left⟩, by simp only [begin, if_neg hf],
        ⟨by simp [future, Mode.todo], rfl, trivial⟩⟩
  | copy len dist =>
    obtain ⟨h1, h2, h3, h4⟩ := hc
    simp only [Cmd.Within] at hr
    have hbad : hist.length + made.length < dist →
        Kept size hist ⟨.len, made, left⟩ (.copy len dist :: cs) ⟨.bad, made, left⟩ cs := by
      intro hi
      refine ⟨?_, rfl, trivial⟩
      simp only [future, Mode.todo, if_true, reduceCtorEq, if_false, List.nil_append, expand]
      rw [if_neg (by simp; omega)]
    by_cases hf : fast = true ∧ left ≥ 258
    · simp only [begin, if_pos hf]
      rw [if_neg (by omega)]
      obtain ⟨f1, f2⟩ := fastCopy_spec h (made := made) (len := len) (dist := dist) h1 h3 hr
      by_cases hi : dist ≤ hist.length + made.length
      · obtain ⟨made', e1, e2, e3⟩ := f1 hi
        rw [e1]
        refine ⟨_, rfl, ⟨?_, ?_, trivial⟩⟩
        · simp only [future, Mode.todo, reduceCtorEq, if_false, List.nil_append, expand, e2]
          rw [if_pos (by simp; omega)]
        · simp only; omega
      · rw [f2 (by omega)]
        exact ⟨_, rfl, hbad (by omega)⟩
    · simp only [begin, if_neg hf]
      by_cases hi : dist > w.whave + made.length
      · rw [if_pos hi]
        exact ⟨_, rfl, hbad (by omega)⟩
      · rw [if_neg hi]
        refine ⟨_, rfl, ⟨?_, rfl, ⟨by omega, h3, hr, ?_⟩⟩⟩
        · simp [future, Mode.todo]
        · simp only; omega

theorem call_spec {size : Nat} {w : Win} {hist : List Byte} (h : Holds size w hist) :
    ∀ (cs : List (Bool × Cmd)) (p : Put),
      (∀ x ∈ cs, x.2.Sane ∧ x.2.Within size) →
      ModeOk size (hist.length + p.made.length) p.mode →
      ∃ p' rest, call w p cs = some (p', rest) ∧ rest <:+ cs ∧
        Kept size hist p (plain cs) p' (plain rest) ∧
        (p'.left = 0 ∨ p'.mode = .bad ∨ (p'.mode = .len ∧ rest = []))
  | [], p, _, hok => by
    obtain ⟨p', e1, e2, e3, e4⟩ := settle_spec h [] _ p (Nat.le_refl _) hok
    refine ⟨p', [], ?_, List.suffix_refl _, e2, ?_⟩
    · simp [call, e1]
    · rcases e3 with e3 | e3 | e3
      · exact Or.inl e3
      · exact Or.inr (Or.inr ⟨e3, rfl⟩)
      · exact Or.inr (Or.inl e3)
  | (fast, c) :: cs, p, hcs, hok => by
    obtain ⟨q, e1, e2, e3, e4⟩ := settle_spec h (plain ((fast, c) :: cs)) _ p (Nat.le_refl _) hok
    by_cases hq : q.mode = .len
    · obtain ⟨q', f1, f2⟩ := begin_spec h fast c (plain cs) q.made q.left
        (hcs _ (List.mem_cons_self ..)).1 (hcs _ (List.mem_cons_self ..)).2
      obtain ⟨p', rest, g1, g2, g3, g4⟩ := call_spec h cs q'
        (fun x hx => hcs x (List.mem_cons_of_mem _ hx)) f2.ok
      refine ⟨p', rest, ?_, g2.trans (List.suffix_cons _ _), ?_, g4⟩
      · simp only [call, e1, if_pos hq, f1, g1]
      · have hqe : q = ⟨.len, q.made, q.left⟩ := by rw [← hq]
        rw [hqe] at e2
        exact e2.trans (f2.trans g3)
    · refine ⟨q, (fast, c) :: cs, ?_, List.suffix_refl _, e2, ?_⟩
      · simp only [call, e1, if_neg hq]
      · rcases e3 with e3 | e3 | e3
        · exact Or.inl e3
        · exact absurd e3 hq
        · exact Or.inr (Or.inl e3)

/-- What holds between calls: `out` is what has been written so far, `all` what will have been
written in the end of what has been put in so far. -/
structure Between (size : Nat) (s : Stream) (out : List Byte) (all : List Cmd → List Byte × Bool) :
    Prop where
  win : Holds size s.win out ∨ (s.mode = .bad ∧ s.win.wsize = 0)
  ok : ModeOk size out.length s.mode
  rest : ∀ x ∈ s.rest, x.2.Sane ∧ x.2.Within size
  all : ∀ cs, future out s.mode (plain s.rest ++ cs) = all cs

theorem call_bad (w : Win) (space : Nat) (cs : List (Bool × Cmd)) :
    call w ⟨.bad, [], space⟩ cs = some (⟨.bad, [], space⟩, cs) := by
  cases cs with
  | nil => simp [call, Mode.steps, settle]
  | cons c cs => obtain ⟨f, c⟩ := c; simp [call, Mode.steps, settle]

theorem future_append (out : List Byte) (m : Mode) (cs ds : List Cmd) :
    future out m (cs ++ ds) =
      if m = .bad then (out, false)
      else if (future out m cs).2 = true then expand (future out m cs).1 ds
      else future out m cs := by
  have key : ∀ (cs : List Cmd) (out : List Byte), expand out (cs ++ ds) =
      if (expand out cs).2 = true then expand (expand out cs).1 ds else expand out cs := by
    intro cs
    induction cs with
    | nil => intro out; simp [expand]
    | cons c cs ih =>
      intro out
      cases c with
      | lit b => simp only [List.cons_append, expand]; exact ih _
      | raw b => simp only [List.cons_append, expand]; exact ih _
      | copy l d =>
        simp only [List.cons_append, expand]
        split
        · exact ih _
        · simp
  unfold future
  split
  · rfl
  · rw [← List.append_assoc, key]

theorem inflateCall_spec {wbits : Nat} {s : Stream} {out : List Byte}
    {all : List Cmd → List Byte × Bool} (h : Between (2 ^ wbits) s out all) (space : Nat)
    (cmds : List (Bool × Cmd)) (hc : ∀ x ∈ cmds, x.2.Sane ∧ x.2.Within (2 ^ wbits)) :
    ∃ s' made, inflateCall wbits s space cmds = some (s', made) ∧
      Between (2 ^ wbits) s' (out ++ made) (fun cs => all (plain cmds ++ cs)) ∧
      made.length ≤ space ∧
      (made.length = space ∨ s'.mode = .bad ∨ (s'.mode = .len ∧ s'.rest = [])) ∧
      s'.total = s.total + made.length := by
  by_cases hb : s.mode = .bad
  · have hcall := call_bad s.win space (s.rest ++ cmds)
    unfold inflateCall
    rw [hb, hcall]
    simp only
    have hall : ∀ cs, all cs = (out, false) := by
      intro cs
      rw [← h.all cs]
      simp [future, hb]
    by_cases hw : s.win.wsize = 0
    · rw [if_neg (by simp [hw])]
      refine ⟨_, _, rfl, ⟨Or.inr ⟨rfl, hw⟩, trivial, ?_, ?_⟩, by simp, by simp, by simp⟩
      · intro x hx
        rcases List.mem_append.mp hx with hx | hx
        · exact h.rest x hx
        · exact hc x hx
      · intro cs
        simp [future, hall]
    · rw [if_pos (Or.inl hw)]
      have hh : Holds (2 ^ wbits) s.win out := by
        rcases h.win with hh | hh
        · exact hh
        · exact absurd hh.2 hw
      obtain ⟨w', u1, u2, u3⟩ := updatewindow_spec hh []
      rw [u1]
      refine ⟨_, _, rfl, ⟨Or.inl u2, trivial, ?_, ?_⟩, by simp, by simp, by simp⟩
      · intro x hx
        rcases List.mem_append.mp hx with hx | hx
        · exact h.rest x hx
        · exact hc x hx
      · intro cs
        simp [future, hall]
  · have hh : Holds (2 ^ wbits) s.win out := by
      rcases h.win with hh | hh
      · exact hh
      · exact absurd hh.1 hb
    have hsane : ∀ x ∈ s.rest ++ cmds, x.2.Sane ∧ x.2.Within (2 ^ wbits) := by
      intro x hx
      rcases List.mem_append.mp hx with hx | hx
      · exact h.rest x hx
      · exact hc x hx
    obtain ⟨p', rest, e1, e2, e3, e4⟩ := call_spec hh (s.rest ++ cmds) ⟨s.mode, [], space⟩
      hsane (by simpa using h.ok)
    have hsp : p'.made.length + p'.left = space := by simpa using e3.space
    have hfut : ∀ cs, future (out ++ p'.made) p'.mode (plain rest ++ cs)
        = all (plain cmds ++ cs) := by
      intro cs
      have e5 := e3.future
      simp only [List.append_nil] at e5
      rw [← h.all]
      have e6 : plain s.rest ++ (plain cmds ++ cs) = plain (s.rest ++ cmds) ++ cs := by simp
      rw [e6, future_append, future_append, e5]
      by_cases hpb : p'.mode = .bad
      · rw [if_pos hpb, if_neg hb]
        have e7 : future out s.mode (plain (s.rest ++ cmds)) = (out ++ p'.made, false) := by
          rw [← e5]; simp [future, hpb]
        rw [e7]
        simp
      · rw [if_neg hpb, if_neg hb]
    have hrest : ∀ x ∈ rest, x.2.Sane ∧ x.2.Within (2 ^ wbits) :=
      fun x hx => hsane x (e2.subset hx)
    have hok : ModeOk (2 ^ wbits) (out ++ p'.made).length p'.mode := by
      rw [List.length_append]; exact e3.ok
    have hfull : p'.made.length = space ∨ p'.mode = .bad ∨ (p'.mode = .len ∧ rest = []) := by
      rcases e4 with e4 | e4
      · left; omega
      · exact Or.inr e4
    unfold inflateCall
    rw [e1]
    simp only
    by_cases hw : s.win.wsize ≠ 0 ∨ (p'.mode ≠ .bad ∧ p'.made ≠ [])
    · rw [if_pos hw]
      obtain ⟨w', u1, u2, u3⟩ := updatewindow_spec hh p'.made
      rw [u1]
      exact ⟨_, _, rfl, ⟨Or.inl u2, hok, hrest, hfut⟩, by omega, hfull, rfl⟩
    · rw [if_neg hw]
      refine ⟨_, _, rfl, ⟨?_, hok, hrest, hfut⟩, by omega, hfull, rfl⟩
      by_cases hm : p'.made = []
      · left
        rw [hm, List.append_nil]
        exact hh
      · right
        refine ⟨?_, ?_⟩
        · by_cases hpb : p'.mode = .bad
          · exact hpb
          · exact absurd (Or.inr ⟨hpb, hm⟩) hw
        · by_cases hz : s.win.wsize = 0
          · exact hz
          · exact absurd (Or.inl hz) hw

theorem inflateCalls_spec {wbits : Nat} : ∀ (calls : List (Nat × List (Bool × Cmd)))
    {s : Stream} {out : List Byte} {all : List Cmd → List Byte × Bool},
    Between (2 ^ wbits) s out all →
    (∀ c ∈ calls, ∀ x ∈ c.2, x.2.Sane ∧ x.2.Within (2 ^ wbits)) →
    ∃ s' made, inflateCalls wbits s calls = some (s', made) ∧
      Between (2 ^ wbits) s' (out ++ made) (fun cs => all (allCmds calls ++ cs)) ∧
      s'.total = s.total + made.length
  | [], s, out, all, h, _ => ⟨s, [], rfl, by simpa [allCmds] using h, by simp⟩
  | (space, cmds) :: more, s, out, all, h, hc => by
    obtain ⟨s1, made1, e1, e2, e3, e4, e5⟩ := inflateCall_spec h space cmds
      (hc _ (List.mem_cons_self ..))
    obtain ⟨s2, made2, f1, f2, f3⟩ := inflateCalls_spec more e2
      (fun c hx => hc c (List.mem_cons_of_mem _ hx))
    refine ⟨s2, made1 ++ made2, ?_, ?_, by rw [f3, e5, List.length_append]; omega⟩
    · simp only [inflateCalls, e1, f1, Option.map_some]
    · have : (fun cs => all (allCmds ((space, cmds) :: more) ++ cs))
          = (fun cs => all (plain cmds ++ (allCmds more ++ cs))) := by
        funext cs
        simp [allCmds]
      rw [this, ← List.append_assoc]
      exact f2

end Verif.Zlib
