import Verif.Lattice.Outcome

/-!
Property theorems C01, C02, C03, C06 (the lattice and its edges).
-/
set_option linter.unusedVariables false
set_option linter.unusedSimpArgs false

namespace Verif.Lattice
open Verif Verif.Tags Verif.Tags.Spec Verif.Lattice.Spec

/-! ## Tags for examples -/

theorem made_symbol {s : State} (h : Lattice.Spec.Reachable s) : Made s.mgr symbolTag := by
  have h1 : createTagCollection Tags.initial [[115, 121, 109, 98, 111, 108]] =
      some (Tags.initial, symbolTag) := rfl
  exact .later (.create .refl h1) (reachable_inv' h).mgr

theorem made_discarded {s : State} (h : Lattice.Spec.Reachable s) : Made s.mgr discardedTag := by
  have h0 := inv_initial.mgr
  have h1 : createTagCollection initial.mgr [discardedName] = some (initial.mgr, discardedTag) := rfl
  exact .later (.create h0 h1) (steps_grow inv_initial h).mgr

theorem made_token {s : State} (h : Lattice.Spec.Reachable s) : Made s.mgr (bit 2) := by
  have h0 := inv_initial.mgr
  have h1 : createTagCollection initial.mgr [tokenName] = some (initial.mgr, bit 2) := rfl
  exact .later (.create h0 h1) (steps_grow inv_initial h).mgr

theorem reachable_append {s : State} (h : Lattice.Spec.Reachable s) (t : Str) :
    Lattice.Spec.Reachable (appendString s t) := .step h trivial .append

theorem reachable_add {s : State} (h : Lattice.Spec.Reachable s) {a : Args}
    (hm : Made s.mgr a.tags) (hr : (addEdge s a).1 ≠ .error .undefined) :
    Lattice.Spec.Reachable (addEdge s a).2 := .step h trivial (.add (r := (addEdge s a).1) hm rfl hr)

/-- "aé" as text. -/
def sample0 : State := appendString initial [97, 195, 169]
/-- The symbol edge of the first character. -/
def sampleArgs1 : Args := { src := 0, tgt := 1, item := ⟨[39, 97], [], []⟩, tags := symbolTag }
/-- A token over both characters. -/
def sampleArgs2 : Args :=
  { src := 0, tgt := 3, item := ⟨[84], [97, 195, 169], []⟩, tags := bit 2, score := 1 }
/-- The same token with a better score and the tag "discarded". -/
def sampleArgs3 : Args :=
  { src := 0, tgt := 3, item := ⟨[84], [97, 195, 169], []⟩, tags := discardedTag, score := 2 }
def sample1 : State := (addEdge sample0 sampleArgs1).2
def sample2 : State := (addEdge sample1 sampleArgs2).2
def sample3 : State := (addEdge sample2 sampleArgs3).2

theorem sample0_reachable : Lattice.Spec.Reachable sample0 := reachable_append .refl _
theorem sample1_reachable : Lattice.Spec.Reachable sample1 :=
  reachable_add sample0_reachable (made_symbol sample0_reachable) (by decide +kernel)
theorem sample2_reachable : Lattice.Spec.Reachable sample2 :=
  reachable_add sample1_reachable (made_token sample1_reachable) (by decide +kernel)
theorem sample_step : Steps sample2 sample3 :=
  .step .refl trivial (.add (a := sampleArgs3) (r := (addEdge sample2 sampleArgs3).1)
    (made_discarded sample2_reachable) rfl (by decide +kernel))

/-! ## C01 -/

/-- **C01** Text read earlier stays a prefix of the text. -/
theorem C01_text_append_only {s s' : State} (h : Lattice.Spec.Reachable s) (hs : Steps s s') :
    s.text <+: s'.text := (steps_grow (reachable_inv' h) hs).text

theorem present_keeps {s s' : State} (hi : Inv s) (hg : Grow s s') {e : Edge} (he : Present s e) :
    s'.src e = s.src e ∧ s'.tgt e = s.tgt e := by
  cases e with
  | impl i =>
    have := hi.implicitOk i (present_impl.1 he)
    have hp := symLen_pos s i
    simp only [State.src, State.tgt]
    rw [hg.symLen (by omega)]
    exact ⟨trivial, rfl⟩
  | expl k =>
    have := present_expl.1 he
    exact ⟨hg.src k this, hg.tgt k this⟩

theorem present_span {s : State} (hi : Inv s) {e : Edge} (he : Present s e) (h0 : 0 ≤ s.src e)
    (h1 : 0 ≤ s.tgt e) : s.src e < s.tgt e ∧ s.tgt e ≤ s.text.length := by
  cases e with
  | impl i =>
    have := hi.implicitOk i (present_impl.1 he)
    have hp := symLen_pos s i
    simp only [State.src, State.tgt]
    omega
  | expl k =>
    have hk := hi.entries k (present_expl.1 he)
    have c1 := hk.tgt
    have c2 := hk.loop
    have c3 := hk.forward
    simp only [State.validVertex, Bool.and_eq_true, decide_eq_true_eq] at c1
    simp only [State.src, State.tgt] at *
    omega

theorem take_drop_prefix {t t' : Str} (h : t <+: t') {i n : Nat} (hl : i + n ≤ t.length) :
    (t'.drop i).take n = (t.drop i).take n := by
  obtain ⟨r, rfl⟩ := h
  rw [List.drop_append_of_le_length (by omega), List.take_append_of_le_length]
  rw [List.length_drop]; omega

/-- **C01** The text of an edge between two text positions is the part of the text between them,
and stays so whatever is appended or annotated later. -/
theorem C01_edge_text {s s' : State} (h : Lattice.Spec.Reachable s) (hs : Steps s s') {e : Edge}
    (he : Present s e) (h0 : 0 ≤ s.src e) (h1 : 0 ≤ s.tgt e) :
    s.src e < s.tgt e ∧ s.tgt e ≤ s.text.length ∧ s'.src e = s.src e ∧ s'.tgt e = s.tgt e ∧
    s'.edgeText e = (s.text.drop (s.src e).toNat).take (s.tgt e - s.src e).toNat := by
  have hi := reachable_inv' h
  have hg := steps_grow hi hs
  obtain ⟨c1, c2⟩ := present_span hi he h0 h1
  obtain ⟨c3, c4⟩ := present_keeps hi hg he
  refine ⟨c1, c2, c3, c4, ?_⟩
  unfold State.edgeText
  rw [c3, c4]
  have : (isLoose (s.src e) || isLoose (s.tgt e)) = false := by
    simp [isLoose]; omega
  simp only [this, Bool.false_eq_true, if_false]
  exact take_drop_prefix hg.text (by omega)

example : Lattice.Spec.Reachable sample2 ∧ Steps sample2 sample3 ∧ Present sample2 (.expl 0) ∧
    0 ≤ sample2.src (.expl 0) ∧ 0 ≤ sample2.tgt (.expl 0) ∧
    sample3.edgeText (.expl 0) = [97, 195, 169] :=
  ⟨sample2_reachable, sample_step, present_expl.2 (by decide +kernel), by decide +kernel,
    by decide +kernel, by decide +kernel⟩

/-! ## C02 -/

/-- **C02** No edge is a loop, and no edge between text positions points backwards. -/
theorem C02_no_loops {s : State} (h : Lattice.Spec.Reachable s) {e : Edge} (he : Present s e) :
    s.src e ≠ s.tgt e ∧ (0 ≤ s.src e → 0 ≤ s.tgt e → s.src e < s.tgt e) := by
  have hi := reachable_inv' h
  refine ⟨?_, fun h0 h1 => (present_span hi he h0 h1).1⟩
  cases e with
  | impl i =>
    have hp := symLen_pos s i
    simp only [State.src, State.tgt]
    omega
  | expl k => exact (hi.entries k (present_expl.1 he)).loop

example : Lattice.Spec.Reachable sample2 ∧ Present sample2 (.expl 0) :=
  ⟨sample2_reachable, present_expl.2 (by decide +kernel)⟩

/-- **C02** A loop edge is rejected and nothing changes. -/
theorem C02_loop_rejected (s : State) (a : Args) (hv : s.validVertex a.src = true)
    (hq : s.validSequence a.seq = true) (h : a.src = a.tgt) :
    addEdge s a = (.error .loopEdge, s) := by
  unfold addEdge
  rw [← h, hv, hq]
  simp only [Bool.and_self, if_true]
  unfold addEdgeCore inheritTags
  dsimp only
  rw [if_pos h]

/-- **C02** An edge pointing backwards in the text is rejected and nothing changes. -/
theorem C02_backward_rejected (s : State) (a : Args) (hv : s.validVertex a.src = true)
    (hw : s.validVertex a.tgt = true) (hq : s.validSequence a.seq = true) (h0 : 0 ≤ a.tgt)
    (h : a.tgt < a.src) : addEdge s a = (.error .reversedEdge, s) := by
  unfold addEdge
  rw [hv, hw, hq]
  simp only [Bool.and_self, if_true]
  unfold addEdgeCore inheritTags
  dsimp only
  rw [if_neg (by omega), if_pos (by omega)]

example : sample2.validVertex 3 = true ∧ sample2.validSequence Sequence.empty = true ∧
    (addEdge sample2 { sampleArgs2 with src := 3, tgt := 1 }).1 = .error .reversedEdge := by
  decide +kernel

theorem addNew_error {s : State} (hi : Inv s) {a : Args} {x : Exn} {s' : State}
    (h : addNew s a = (.error x, s')) (hx : x ≠ .undefined) (ht : s.validVertex a.tgt = true) :
    a.tags = symbolTag ∧ ¬ Boundary s a.tgt ∧ x = .utf8 := by
  unfold addNew at h
  dsimp only at h
  split at h
  · rename_i hsym
    refine ⟨hsym, ?_⟩
    split at h
    · rename_i y s1 h1
      simp only [Prod.mk.injEq, Except.error.injEq] at h
      obtain ⟨rfl, rfl⟩ := h
      exact updateVisible_error (s := bumpCounter s a.src a.tgt) (inv_micro hi (.bump _ _ _)) h1 hx ht
    · simp at h
  · simp at h

theorem sequenceContains_error {s : State} {q : Sequence} {e : Edge} {x : Exn} {s' : State}
    (h : sequenceContains s q e = (.error x, s')) : x = .noEdge := by
  have key : ∀ (s : State) (end_ n si : Nat) (x : Exn), findInRange s e end_ n si = .error x → x = .noEdge := by
    intro s end_ n
    induction n with
    | zero => intro si x h; simp [findInRange] at h
    | succ n ih =>
      intro si x h
      unfold findInRange at h
      split at h
      · split at h
        · simp at h; exact h.symm
        · split at h
          · simp at h
          · exact ih _ _ h
      · simp at h
  unfold sequenceContains at h
  repeat' split at h
  · simp only [Prod.mk.injEq] at h; exact key _ _ _ _ _ h.1
  · simp at h
  · simp at h

/-- **C02** A rejected call changes nothing that can be observed, unless the UTF-8 library has thrown,
which never happens if the target is a loose vertex or a character boundary.  Not covered: symbol
edges ending within a character or in ill-formed text (see `C02_rejected_false`). -/
theorem C02_rejected_unchanged_partial {s s' : State} (h : Lattice.Spec.Reachable s) {a : Args}
    {x : Exn} (hm : Made s.mgr a.tags) (hr : addEdge s a = (.error x, s')) (hx : x ≠ .undefined)
    (hb : x ≠ .utf8 ∨ Boundary s a.tgt) : SameView s s' := by
  have hi := reachable_inv' h
  unfold addEdge at hr
  split at hr
  · rename_i hv
    simp only [Bool.and_eq_true] at hv
    have hb' : x ≠ .utf8 ∨ Boundary s (inheritTags s a).tgt := hb
    have ht' : s.validVertex (inheritTags s a).tgt = true := hv.1.2
    generalize inheritTags s a = b at hr hb' ht'
    unfold addEdgeCore at hr
    split at hr
    · simp only [Prod.mk.injEq] at hr; rw [← hr.2]; exact SameView.refl s
    · split at hr
      · simp only [Prod.mk.injEq] at hr; rw [← hr.2]; exact SameView.refl s
      · split at hr
        · have := (addNew_error hi hr hx ht').2
          exact absurd hb' (by rintro (c | c); exacts [c this.2, this.1 c])
        · rename_i e he
          unfold mergeWith at hr
          have hst := sequenceContains_state s b.seq e
          have hq := quiet_sequenceContains s b.seq e
          have hview : SameView s (sequenceContains s b.seq e).2 := by
            rcases hst with h1 | h1 <;> rw [h1]
            · exact SameView.refl s
            · exact view_register hi rfl
          split at hr
          · rename_i y s1 h1
            rw [h1] at hview
            simp only [Prod.mk.injEq] at hr; rw [← hr.2]; exact hview
          · rename_i s1 h1
            rw [h1] at hview
            simp only [Prod.mk.injEq] at hr; rw [← hr.2]; exact hview
          · rename_i s1 h1
            rw [h1] at hq
            split at hr
            · simp at hr
            · have hq2 : Alike s { s1 with implicit := s1.implicit.set b.src.toNat false } :=
                hq.alike.trans ⟨rfl, rfl, rfl, rfl, rfl, rfl⟩
              have hi2 := inv_micros hi (hq.micros.step (.clear s1 b.src.toNat))
              have := (addNew_error hi2 hr hx (by rw [hq2.validVertex]; exact ht')).2
              refine absurd hb' ?_
              rintro (c | c)
              · exact c this.2
              · exact this.1 (by unfold Boundary; rw [hq2.text]; exact c)
  · simp at hr; exact absurd hr.1.symm hx

/-- An edge that is part of itself. -/
def sampleArgsSelf : Args := { sampleArgs2 with seq := ⟨[⟨.expl 0, none⟩], 0, 0⟩ }

example : Lattice.Spec.Reachable sample2 ∧ Made sample2.mgr sampleArgsSelf.tags ∧
    (addEdge sample2 sampleArgsSelf).1 = .error .selfReference ∧
    Boundary sample2 sampleArgsSelf.tgt := by
  refine ⟨sample2_reachable, made_token sample2_reachable, by decide +kernel, Or.inr ?_⟩
  exact ⟨[97, 233], by simp [Utf8.Spec.Scalar], by decide +kernel⟩

/-- The text "é". -/
def bad0 : State := appendString initial [195, 169]
/-- A symbol edge. -/
def badArgs1 : Args := { src := 0, tgt := 2, item := ⟨[39], [], []⟩, tags := symbolTag }
/-- A symbol edge ending within the character. -/
def badArgs2 : Args := { src := 0, tgt := 1, item := ⟨[120], [], []⟩, tags := symbolTag }
def bad1 : State := (addEdge bad0 badArgs1).2

theorem bad1_reachable : Lattice.Spec.Reachable bad1 :=
  reachable_add (reachable_append .refl _) (made_symbol (reachable_append .refl _)) (by decide +kernel)

/-- **C02** fails of the code: a call that is rejected by the UTF-8 library has already counted the
edge. -/
theorem C02_rejected_false : ∃ (s s' : State) (a : Args), Lattice.Spec.Reachable s ∧
    Made s.mgr a.tags ∧ addEdge s a = (.error .utf8, s') ∧
    s'.countEdges a.src a.tgt ≠ s.countEdges a.src a.tgt := by
  refine ⟨bad1, (addEdge bad1 badArgs2).2, badArgs2, bad1_reachable, made_symbol bad1_reachable, ?_,
    by decide +kernel⟩
  exact Prod.ext (by decide +kernel) rfl

/-! ## C03 -/

/-- **C03** An ordinary edge keeps its endpoints and item, its tags only grow, its partitions are
only extended at the end, and its score is the largest score of a partition. -/
theorem C03_edges_accumulate {s s' : State} (h : Lattice.Spec.Reachable s) (hs : Steps s s')
    {e : Edge} (he : Present s e) (hx : Explicit e) :
    Present s' e ∧ s'.src e = s.src e ∧ s'.tgt e = s.tgt e ∧ s'.item e = s.item e ∧
    SubTags (s.tags e) (s'.tags e) ∧ s.parts e <+: s'.parts e ∧
    Largest (s'.score e) ((s'.parts e).map (·.score)) := by
  have hi := reachable_inv' h
  have hg := steps_grow hi hs
  have hi' := inv_micros hi (run_micros hi hs)
  cases e with
  | impl i => exact absurd hx (by simp [Explicit])
  | expl k =>
    have hk := present_expl.1 he
    have hk' : k < s'.edges.length := Nat.lt_of_lt_of_le hk hg.len
    exact ⟨present_expl.2 hk', hg.src k hk, hg.tgt k hk, by simp [State.item, hg.item k hk],
      hg.tags k hk, hg.parts k hk, (hi'.entries k hk').score⟩

example : Lattice.Spec.Reachable sample2 ∧ Steps sample2 sample3 ∧ Present sample2 (.expl 0) ∧
    sample2.tags (.expl 0) ≠ sample3.tags (.expl 0) ∧ sample3.score (.expl 0) = 2 ∧
    (sample3.parts (.expl 0)).length = 2 :=
  ⟨sample2_reachable, sample_step, present_expl.2 (by decide +kernel), by decide +kernel,
    by decide +kernel, by decide +kernel⟩

/-- The decoder looks only at the bytes of the character. -/
theorem validateNext_append (b : Byte) (l t : Str) (h : Utf8.symbolLength b ≤ l.length + 1) :
    Utf8.validateNext (b :: l ++ t) =
      (Utf8.validateNext (b :: l)).map (fun r => (r.1, r.2 ++ t)) := by
  have hs : ∀ n, (n = 0 ∨ n ≤ l.length + 1) → Utf8.getSequence (b :: l ++ t) n =
      (Utf8.getSequence (b :: l) n).map (fun r => (r.1, r.2 ++ t)) := by
    intro n hn
    match n with
    | 0 => rfl
    | 1 => rfl
    | 2 =>
      match l with
      | [] => simp at hn
      | c :: l =>
        simp only [Utf8.getSequence, Utf8.getSequence2, List.cons_append]
        split <;> rfl
    | 3 =>
      match l with
      | [] => simp at hn
      | [c] => simp at hn
      | c :: d :: l =>
        simp only [Utf8.getSequence, Utf8.getSequence3, List.cons_append]
        repeat' split
        all_goals rfl
    | 4 =>
      match l with
      | [] => simp at hn
      | [c] => simp at hn
      | [c, d] => simp at hn
      | c :: d :: e :: l =>
        simp only [Utf8.getSequence, Utf8.getSequence4, List.cons_append]
        repeat' split
        all_goals rfl
    | n + 5 => rfl
  have hl : Utf8.sequenceLength b = 0 ∨ Utf8.sequenceLength b ≤ l.length + 1 := by
    unfold Utf8.symbolLength at h
    split at h
    · exact Or.inr h
    · left; omega
  simp only [List.cons_append] at hs ⊢
  unfold Utf8.validateNext
  dsimp only
  split
  · rfl
  · rw [hs _ hl]
    cases Utf8.getSequence (b :: l) (Utf8.sequenceLength b) with
    | error e => rfl
    | ok r =>
      obtain ⟨cp, rest⟩ := r
      simp only [Except.map]
      split
      · split <;> rfl
      · rfl

/-- **C03** A symbol edge stored implicitly always has the same endpoints, item and tags, score 0 and
no partitions. -/
theorem C03_symbol_edges_fixed {s s' : State} (h : Lattice.Spec.Reachable s) (hs : Steps s s')
    {i : Nat} (he : Present s (.impl i)) :
    s'.src (.impl i) = s.src (.impl i) ∧ s'.tgt (.impl i) = s.tgt (.impl i) ∧
    s'.item (.impl i) = s.item (.impl i) ∧ s'.tags (.impl i) = s.tags (.impl i) ∧
    s'.score (.impl i) = 0 ∧ s'.parts (.impl i) = [] := by
  have hi := reachable_inv' h
  have hg := steps_grow hi hs
  obtain ⟨c1, c2⟩ := present_keeps hi hg he
  refine ⟨c1, c2, ?_, rfl, rfl, rfl⟩
  have hb := hi.implicitOk i (present_impl.1 he)
  have hp := symLen_pos s i
  have hlt : i < s.text.length := by omega
  simp only [State.item]
  rw [hg.symLen hlt]
  obtain ⟨t, ht⟩ := hg.text
  have hd : s'.text.drop i = s.text.drop i ++ t := by
    rw [← ht, List.drop_append_of_le_length (by omega)]
  have hcons := List.drop_eq_getElem_cons hlt
  have hsl : s.symLen i = Utf8.symbolLength s.text[i] := by
    unfold State.symLen; rw [List.getD_eq_getElem?_getD, List.getElem?_eq_getElem hlt]; rfl
  have hv : Utf8.validateNext (s'.text.drop i) =
      (Utf8.validateNext (s.text.drop i)).map (fun r => (r.1, r.2 ++ t)) := by
    rw [hd, hcons]
    apply validateNext_append
    rw [← hsl, List.length_drop]; omega
  rw [hv]
  have htk : (s'.text.drop i).take (s.symLen i) = (s.text.drop i).take (s.symLen i) :=
    take_drop_prefix hg.text hb
  rw [htk]
  cases Utf8.validateNext (s.text.drop i) with
  | error e => rfl
  | ok r => rfl

example : Lattice.Spec.Reachable sample2 ∧ Present sample2 (.impl 0) :=
  ⟨sample2_reachable, present_impl.2 (by decide +kernel)⟩

/-! ## C06 -/

/-- **C06** An ordinary edge is among the out-edges of its source only, and among the in-edges of its
target only. -/
theorem C06_edges_agree (s : State) (k : Nat) (u v : Vertex) (l : List Edge)
    (hl : s.allInEdges v = .ok l) :
    (.expl k ∈ s.allOutEdges u ∧ s.tgt (.expl k) = v) ↔ (.expl k ∈ l ∧ s.src (.expl k) = u) := by
  have hin : .expl k ∈ l ↔ k < s.edges.length ∧ (s.entry k).tgt = v := by
    unfold State.allInEdges at hl
    split at hl
    · simp at hl
    · rename_i l1 h1
      simp only [Except.ok.injEq] at hl
      rw [← hl]
      have : .expl k ∉ l1 := by
        intro hk
        unfold State.implicitIn at h1
        repeat' split at h1
        all_goals simp at h1
        all_goals subst h1
        all_goals simp at hk
      simp [this, mem_graphIn]
  rw [hin, expl_mem_allOut]
  show _ ∧ (s.entry k).tgt = v ↔ _ ∧ (s.entry k).src = u
  tauto

/-- What follows a well-formed beginning of a well-formed text is well-formed. -/
theorem wellFormed_cancel {a b : Str} (ha : Utf8.Spec.WellFormed a)
    (hab : Utf8.Spec.WellFormed (a ++ b)) : Utf8.Spec.WellFormed b := by
  obtain ⟨l, hl, rfl⟩ := ha
  induction l with
  | nil => simpa [Utf8.Spec.encodeAll] using hab
  | cons c l ih =>
    apply ih (fun x hx => hl x (List.mem_cons_of_mem _ hx))
    obtain ⟨m, hm, he⟩ := hab
    have e1 : Utf8.Spec.encodeAll (c :: l) ++ b = Utf8.Spec.encode c ++ (Utf8.Spec.encodeAll l ++ b) := by
      simp [Utf8.Spec.encodeAll]
    rw [e1] at he
    cases m with
    | nil => simp [Utf8.Spec.encodeAll, Utf8.encode_ne_nil] at he
    | cons d m =>
      have e2 : Utf8.Spec.encodeAll (d :: m) = Utf8.Spec.encode d ++ Utf8.Spec.encodeAll m := by
        simp [Utf8.Spec.encodeAll]
      rw [e2] at he
      have h1 := (Utf8.validateNext_iff (s := Utf8.Spec.encode c ++ (Utf8.Spec.encodeAll l ++ b))
        (cp := c) (rest := Utf8.Spec.encodeAll l ++ b)).2 ⟨hl c (by simp), rfl⟩
      have h2 := (Utf8.validateNext_iff (s := Utf8.Spec.encode d ++ Utf8.Spec.encodeAll m)
        (cp := d) (rest := Utf8.Spec.encodeAll m)).2 ⟨hm d (by simp), rfl⟩
      rw [he, h2] at h1
      simp only [Except.ok.injEq, Prod.mk.injEq] at h1
      exact ⟨m, fun x hx => hm x (List.mem_cons_of_mem _ hx), h1.2.symm⟩

/-- The vertex before the end of a character that starts at a boundary. -/
theorem prior_of_symLen {s : State} {i : Nat} (hb : Utf8.Spec.WellFormed (s.text.take i))
    (hb' : Utf8.Spec.WellFormed (s.text.take (i + s.symLen i))) (hl : i + s.symLen i ≤ s.text.length) :
    s.priorVertex ((i + s.symLen i : Nat) : Int) = .ok i := by
  have hp := symLen_pos s i
  have e1 : s.text.take (i + s.symLen i) = s.text.take i ++ (s.text.drop i).take (s.symLen i) := by
    rw [List.take_add]
  rw [e1] at hb'
  obtain ⟨cps, hc, he⟩ := wellFormed_cancel hb hb'
  have hlen : ((s.text.drop i).take (s.symLen i)).length = s.symLen i := by
    rw [List.length_take, List.length_drop]; omega
  cases cps with
  | nil =>
    rw [he] at hlen; simp [Utf8.Spec.encodeAll] at hlen; omega
  | cons d ds =>
    have e2 : Utf8.Spec.encodeAll (d :: ds) = Utf8.Spec.encode d ++ Utf8.Spec.encodeAll ds := by
      simp [Utf8.Spec.encodeAll]
    rw [e2] at he
    have e3 : s.text = s.text.take i ++ Utf8.Spec.encode d ++
        (Utf8.Spec.encodeAll ds ++ (s.text.drop i).drop (s.symLen i)) := by
      have := List.take_append_drop (s.symLen i) (s.text.drop i)
      rw [he] at this
      have h4 := List.take_append_drop i s.text
      rw [← this] at h4
      rw [List.append_assoc, ← List.append_assoc (Utf8.Spec.encode d)]
      exact h4.symm
    have e4 : (s.text.take i).length = i := by rw [List.length_take]; omega
    have e5 := symLen_encode (hc d (by simp)) e3
    rw [e4] at e5
    have e6 : s.text.take (i + s.symLen i) = s.text.take i ++ Utf8.Spec.encode d := by
      rw [e1, he]
      have : Utf8.Spec.encodeAll ds = [] := by
        rw [he] at hlen
        rw [List.length_append, e5] at hlen
        exact List.eq_nil_of_length_eq_zero (by omega)
      rw [this]; simp
    unfold State.priorVertex
    have h7 : ¬ (((i + s.symLen i : Nat) : Int) ≤ 0) := by omega
    rw [if_neg h7]
    have : (((i + s.symLen i : Nat) : Int)).toNat = i + s.symLen i := by omega
    rw [this, e6, priorLength_encode _ _ (hc d (by simp))]
    dsimp only
    congr 1; omega

/-- **C06** Between vertices at character boundaries (or loose vertices), out-edges and in-edges
agree.  Not covered: positions within a character (see `C06_inside_character_false`). -/
theorem C06_agree_partial {s : State} (h : Lattice.Spec.Reachable s)
    {u v : Vertex} (hu : Boundary s u) (hv : Boundary s v) (hv' : s.validVertex v = true) :
    ∃ l, s.allInEdges v = .ok l ∧
      ∀ e, (e ∈ s.allOutEdges u ∧ s.tgt e = v) ↔ (e ∈ l ∧ s.src e = u) := by
  have hi := reachable_inv' h
  obtain ⟨l1, h1⟩ := implicitIn_ok hv' hv
  have hl : s.allInEdges v = .ok (l1 ++ (s.graphIn v).map .expl) := by
    unfold State.allInEdges; rw [h1]
  refine ⟨_, hl, ?_⟩
  intro e
  cases e with
  | expl k => exact C06_edges_agree s k u v _ hl
  | impl i =>
    rw [impl_mem_allOut]
    simp only [List.mem_append, List.mem_map, reduceCtorEq, and_false, exists_false, or_false,
      State.tgt, State.src]
    constructor
    · rintro ⟨⟨rfl, hb⟩, rfl⟩
      refine ⟨?_, rfl⟩
      have hok := hi.implicitOk i hb
      have hp := symLen_pos s i
      have hbi : Utf8.Spec.WellFormed (s.text.take i) := by
        rcases hu with hu | hu
        · omega
        · simpa using hu
      have hbv : Utf8.Spec.WellFormed (s.text.take (i + s.symLen i)) := by
        rcases hv with hv | hv
        · omega
        · have hn : (((i + s.symLen i : Nat) : Int)).toNat = i + s.symLen i := by omega
          rw [hn] at hv; exact hv
      have := prior_of_symLen hbi hbv hok
      unfold State.implicitIn at h1
      rw [if_neg (by omega), this] at h1
      dsimp only at h1
      rw [hb] at h1
      simp at h1
      rw [← h1]; simp
    · rintro ⟨hm, rfl⟩
      unfold State.implicitIn at h1
      split at h1
      · simp at h1; subst h1; simp at hm
      · rename_i hv0
        by_cases h0 : v = 0
        · subst h0
          simp [State.priorVertex] at h1
          subst h1; simp at hm
        · obtain ⟨n, rfl⟩ : ∃ n : Nat, v = n := ⟨v.toNat, by omega⟩
          have hbn : Utf8.Spec.WellFormed (s.text.take n) := by
            rcases hv with hv | hv
            · omega
            · simpa using hv
          simp only [State.validVertex, Bool.and_eq_true, decide_eq_true_eq] at hv'
          obtain ⟨pre, c, post, _, hc, ht, hn, hp⟩ :=
            prior_boundary (s := s) (v := n) (by omega) (by omega) hbn
          rw [hp] at h1
          simp only [Except.ok.injEq] at h1
          subst h1
          split at hm
          · rename_i hb
            simp only [List.mem_singleton, Edge.impl.injEq] at hm
            subst hm
            refine ⟨⟨rfl, hb⟩, ?_⟩
            rw [symLen_encode hc ht, hn]
          · simp at hm

example : Lattice.Spec.Reachable sample2 ∧ Boundary sample2 0 ∧ Boundary sample2 1 ∧
    sample2.validVertex 1 = true ∧ .impl 0 ∈ sample2.allOutEdges 0 := by
  refine ⟨sample2_reachable, Or.inr ⟨[], by simp, by decide +kernel⟩,
    Or.inr ⟨[97], by simp [Utf8.Spec.Scalar], by decide +kernel⟩, by decide +kernel,
    by decide +kernel⟩

/-- A symbol edge that starts within a character. -/
def insideArgs : Args := { src := 1, tgt := 2, item := ⟨[39], [], []⟩, tags := symbolTag }
def inside1 : State := (addEdge bad0 insideArgs).2

/-- **C06** fails of the code within characters: a symbol edge starting in the middle of "é" is an
out-edge, but it is not among the in-edges of its target. -/
theorem C06_inside_character_false : ∃ (s : State) (e : Edge) (l : List Edge) (u v : Vertex),
    Lattice.Spec.Reachable s ∧ Utf8.Spec.WellFormed s.text ∧
    e ∈ s.allOutEdges u ∧ s.tgt e = v ∧ s.allInEdges v = .ok l ∧ e ∉ l := by
  refine ⟨inside1, .impl 1, [], 1, 2, ?_, ⟨[233], by simp [Utf8.Spec.Scalar], by decide +kernel⟩,
    by decide +kernel, by decide +kernel, by decide +kernel, by simp⟩
  exact reachable_add (reachable_append .refl _) (made_symbol (reachable_append .refl _))
    (by decide +kernel)

end Verif.Lattice
