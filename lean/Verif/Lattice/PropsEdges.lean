import Verif.Lattice.EdgeLemmas
import Verif.Lattice.Props

/-!
Property theorems C04 (no duplicate annotations) and C08 (discarding).
-/
set_option linter.unusedVariables false
set_option linter.unusedSimpArgs false

namespace Verif.Lattice
open Verif Verif.Tags Verif.Tags.Spec Verif.Lattice.Spec

/-! ## C04 -/

/-- **C04** Two edges of the graph with the same ends, item and plane are the same edge.  Not covered:
symbol edges that are stored implicitly or have been so (see `C04_symbol_twice_false`). -/
theorem C04_no_duplicates_partial {s : State} (h : Lattice.Spec.Reachable s) {e e' : Edge} {it : Item}
    (he : Present s e) (he' : Present s e') (hx : Explicit e) (hx' : Explicit e')
    (hs : s.src e = s.src e') (ht : s.tgt e = s.tgt e') (hit : s.item e = .ok it)
    (hit' : s.item e' = .ok it) (hp : SamePlane s (s.tags e) (s.tags e'))
    (ho : Ordinary s ⟨s.src e, s.tgt e, it⟩) : e = e' := by
  have hi := reachable_inv' h
  cases e with
  | impl i => exact absurd hx (by simp [Explicit])
  | expl j =>
    cases e' with
    | impl i => exact absurd hx' (by simp [Explicit])
    | expl k =>
      have hj := present_expl.1 he
      have hk := present_expl.1 he'
      simp only [State.item, Except.ok.injEq] at hit hit'
      have hkey : (s.entry j).key = (s.entry k).key := by
        simp only [Entry.key, Key.mk.injEq]
        exact ⟨hs, ht, hit.trans hit'.symm⟩
      have hpl := (samePlane_iff hi.mgrInv (hi.entries j hj).okay (hi.entries k hk).okay).2 hp
      have hpn := plain_of_ordinary h ho
      rcases hi.unique j k hj hk hkey hpl with h1 | ⟨i, h1⟩
      · rw [h1]
      · rw [← hkey] at h1
        have : (s.entry j).key = ⟨s.src (.expl j), s.tgt (.expl j), it⟩ := by
          rw [← hit]; rfl
        rw [this] at h1
        exact absurd h1 (hpn i)

/-- The text "aé", a symbol edge, and the same token in two planes. -/
def planes0 : State := { sample0 with mgr := ⟨sample0.mgr.names ++ [[33, 112]], bit 3⟩ }
def planes1 : State := (addEdge planes0 sampleArgs2).2
def planes2 : State := (addEdge planes1 { sampleArgs2 with tags := bit 2 ||| bit 3 }).2

theorem planes0_reachable : Lattice.Spec.Reachable planes0 := by
  refine .step sample0_reachable trivial (.manager ?_)
  have h1 : createTagCollection sample0.mgr [tokenName, [33, 112]] =
      some (⟨sample0.mgr.names ++ [[33, 112]], bit 3⟩, bit 2 ||| bit 3) := rfl
  exact .create .refl h1

theorem planes1_reachable : Lattice.Spec.Reachable planes1 :=
  reachable_add planes0_reachable (made_token planes0_reachable) (by decide +kernel)

theorem planes2_reachable : Lattice.Spec.Reachable planes2 := by
  refine reachable_add planes1_reachable ?_ (by decide +kernel)
  have h1 : createTagCollection planes1.mgr [tokenName, [33, 112]] =
      some (planes1.mgr, bit 2 ||| bit 3) := rfl
  exact .create (reachable_inv' planes1_reachable).mgr h1

/-- The hypotheses of `C04_no_duplicates_partial` for an edge and itself; and two edges that differ
only in their plane. -/
example : Lattice.Spec.Reachable planes2 ∧ Present planes2 (.expl 0) ∧ Present planes2 (.expl 1) ∧
    planes2.src (.expl 0) = planes2.src (.expl 1) ∧ planes2.tgt (.expl 0) = planes2.tgt (.expl 1) ∧
    planes2.item (.expl 0) = planes2.item (.expl 1) ∧
    Ordinary planes2 ⟨planes2.src (.expl 0), planes2.tgt (.expl 0), ⟨[84], [97, 195, 169], []⟩⟩ := by
  refine ⟨planes2_reachable, present_expl.2 (by decide +kernel), present_expl.2 (by decide +kernel),
    by decide +kernel, by decide +kernel, by decide +kernel, Or.inl ?_⟩
  rintro ⟨_, _, h⟩
  exact absurd h (by decide +kernel)

/-- What merging into an edge changes. -/
theorem merge_effect {s s1 : State} (hq : Quiet s s1) {k : Nat} (hk : k < s.edges.length) (b : Args) :
    (∀ d, Present (mergeInto s1 k b) d ↔ Present s d) ∧
    (mergeInto s1 k b).parts (.expl k) = s.parts (.expl k) ++
      [⟨createUnion (s.tags (.expl k)) b.tags, b.seq, b.score, b.ruleId, b.treeChoice⟩] ∧
    (mergeInto s1 k b).tags (.expl k) = createUnion (s.tags (.expl k)) b.tags ∧
    (∀ d, d ≠ .expl k → (mergeInto s1 k b).tags d = s.tags d ∧
      (mergeInto s1 k b).score d = s.score d ∧ (mergeInto s1 k b).parts d = s.parts d) := by
  have hl : s1.edges.length = s.edges.length := by rw [hq.alike.edges]
  have hen := hq.alike.entry
  refine ⟨?_, ?_, ?_, ?_⟩
  · intro d
    cases d with
    | impl i =>
      rw [present_impl, present_impl]
      show bitAt s1.implicit i = true ↔ _
      rw [hq.implicit]
    | expl j =>
      rw [present_expl, present_expl]
      show j < (s1.edges.set k _).length ↔ _
      rw [List.length_set, hl]
  · simp only [State.parts, entry_merge, hl, hk, and_self, if_true, hen, State.tags]
    simp only [merged, mergedTags_eq]
  · simp only [State.tags, entry_merge, hl, hk, and_self, if_true, hen]
    simp only [merged, mergedTags_eq]
  · intro d hd
    cases d with
    | impl i => exact ⟨rfl, rfl, rfl⟩
    | expl j =>
      have : j ≠ k := by intro h; exact hd (by rw [h])
      simp only [State.tags, State.score, State.parts, entry_merge, this, false_and, if_false, hen]
      exact ⟨trivial, trivial, trivial⟩

/-- Adding an annotation that an edge of the graph has already. -/
theorem add_again {s : State} (h : Lattice.Spec.Reachable s) {k : Nat} (hk : k < s.edges.length)
    {a : Args} (hkey : (s.entry k).key = a.key) (hm : Okay s.mgr a.tags)
    (hq : s.validSequence a.seq = true)
    (hp : ∀ n, PlaneName n → (NewPlane s a n ↔ Has s.mgr (s.entry k).tags n))
    (hpn : Plain s a.key) : s.isoplanar (inheritTags s a).key (inheritTags s a).tags = some (.expl k) := by
  have hi := reachable_inv' h
  have h1 : areInTheSamePlane s.mgr (inheritTags s a).tags (s.entry k).tags = true := by
    rw [samePlane_iff hi.mgrInv (inherit_okay hi hm hq) (hi.entries k hk).okay]
    intro n hn
    rw [has_inherit hi hm hq hn]
    exact hp n hn
  have h2 := isoplanar_plain hi hk (t := (inheritTags s a).tags) (by rw [hkey]; exact hpn) h1
  rw [hkey] at h2
  exact h2

/-- **C04** Adding an annotation again returns the edge that has it, adds a partition to this edge,
creates no edge, and changes no other edge.  Not covered: see `C04_no_duplicates_partial`. -/
theorem C04_add_again_partial {s s' : State} (h : Lattice.Spec.Reachable s) {e e' : Edge} {a : Args}
    (he : Present s e) (hx : Explicit e) (hm : Made s.mgr a.tags)
    (hs : s.src e = a.src) (ht : s.tgt e = a.tgt) (hit : s.item e = .ok a.item)
    (hp : ∀ n, PlaneName n → (NewPlane s a n ↔ Has s.mgr (s.tags e) n))
    (ho : Ordinary s ⟨a.src, a.tgt, a.item⟩) (hr : addEdge s a = (.ok e', s')) :
    e' = e ∧ (∀ d, Present s' d ↔ Present s d) ∧
    (∃ p, s'.parts e = s.parts e ++ [p] ∧ p.seq = a.seq ∧ p.score = a.score) ∧
    (∀ d, d ≠ e → s'.tags d = s.tags d ∧ s'.score d = s.score d ∧ s'.parts d = s.parts d) := by
  have hi := reachable_inv' h
  cases e with
  | impl i => exact absurd hx (by simp [Explicit])
  | expl k =>
    have hk := present_expl.1 he
    simp only [State.item, Except.ok.injEq] at hit
    have hkey : (s.entry k).key = a.key := by
      simp only [Entry.key, Args.key, Key.mk.injEq]; exact ⟨hs, ht, hit⟩
    have hq : s.validSequence a.seq = true := by
      unfold addEdge at hr
      split at hr
      · rename_i hv; simp only [Bool.and_eq_true] at hv; exact hv.2
      · simp at hr
    have hiso := add_again h hk hkey (okay_of_made hm) hq hp (plain_of_ordinary h ho)
    have hout := addEdge_outcome hi (okay_of_made hm)
    rw [hr] at hout
    generalize hpair : ((Except.ok e' : Except Exn Edge), s') = r at hout
    cases hout with
    | rejected _ _ => simp at hpair
    | @merged s1 j hq1 he1 hj _ =>
      rw [hiso] at he1
      simp only [Option.some.injEq, Edge.expl.injEq] at he1
      subst he1
      simp only [Prod.mk.injEq, Except.ok.injEq] at hpair
      obtain ⟨rfl, rfl⟩ := hpair
      obtain ⟨c1, c2, c3, c4⟩ := merge_effect hq1 hk (inheritTags s a)
      exact ⟨rfl, c1, ⟨_, c2, rfl, rfl⟩, c4⟩
    | new _ hn _ => rw [hiso] at hn; simp at hn
    | promoted _ hn => rw [hiso] at hn; simp at hn

/-- **C04** Adding an annotation again succeeds, unless the edge is part of its own sequence. -/
theorem C04_add_again_succeeds_partial {s : State} (h : Lattice.Spec.Reachable s) {e : Edge} {a : Args}
    (he : Present s e) (hx : Explicit e) (hm : Made s.mgr a.tags)
    (hs : s.src e = a.src) (ht : s.tgt e = a.tgt) (hit : s.item e = .ok a.item)
    (hp : ∀ n, PlaneName n → (NewPlane s a n ↔ Has s.mgr (s.tags e) n))
    (ho : Ordinary s ⟨a.src, a.tgt, a.item⟩) (hq : s.validSequence a.seq = true)
    (hl : ∀ u ∈ a.seq.links, u.edge ≠ e) (hb : a.seq.links = [] → a.seq.end_ ≤ a.seq.begin_) :
    (addEdge s a).1 = .ok e := by
  have hi := reachable_inv' h
  cases e with
  | impl i => exact absurd hx (by simp [Explicit])
  | expl k =>
    have hk := present_expl.1 he
    have hok := hi.entries k hk
    simp only [State.item, Except.ok.injEq] at hit
    have hkey : (s.entry k).key = a.key := by
      simp only [Entry.key, Args.key, Key.mk.injEq]; exact ⟨hs, ht, hit⟩
    have hiso := add_again h hk hkey (okay_of_made hm) hq hp (plain_of_ordinary h ho)
    have hs' : (s.entry k).src = a.src := hs
    have ht' : (s.entry k).tgt = a.tgt := ht
    unfold addEdge
    rw [← hs', ← ht', hok.src, hok.tgt, hq]
    simp only [Bool.and_self, if_true]
    unfold addEdgeCore
    have e1 : (inheritTags s a).src = (s.entry k).src := hs'.symm
    have e2 : (inheritTags s a).tgt = (s.entry k).tgt := ht'.symm
    rw [if_neg (by rw [e1, e2]; exact hok.loop), if_neg (by rw [e1, e2]; exact hok.forward), hiso]
    dsimp only
    unfold mergeWith
    have hc : sequenceContains s (inheritTags s a).seq (.expl k) = (.ok false, s) := by
      show sequenceContains s a.seq (.expl k) = _
      unfold sequenceContains
      split
      · rename_i h0
        rw [if_neg (by have := hb h0; omega)]
      · congr 2
        rw [List.any_eq_false]
        intro u hu
        simpa using hl u hu
    rw [hc]

/-- The token of `sample2` with other tags and another score. -/
example : Lattice.Spec.Reachable sample2 ∧ Present sample2 (.expl 0) ∧
    Made sample2.mgr sampleArgs3.tags ∧ sample2.item (.expl 0) = .ok sampleArgs3.item ∧
    (∀ n, PlaneName n → (NewPlane sample2 sampleArgs3 n ↔ Has sample2.mgr (sample2.tags (.expl 0)) n)) ∧
    Ordinary sample2 ⟨0, 3, sampleArgs3.item⟩ ∧ (addEdge sample2 sampleArgs3).1 = .ok (.expl 0) := by
  refine ⟨sample2_reachable, present_expl.2 (by decide +kernel), made_discarded sample2_reachable,
    by decide +kernel, ?_, Or.inl ?_, by decide +kernel⟩
  · intro n hn
    have hi := reachable_inv' sample2_reachable
    rw [← has_inherit hi (okay_of_made (made_discarded sample2_reachable)) (by decide +kernel) hn]
    revert n
    exact (samePlane_iff hi.mgrInv (inherit_okay hi (okay_of_made (made_discarded sample2_reachable))
      (by decide +kernel)) (hi.entries 0 (by decide +kernel)).okay).1 (by decide +kernel)
  · rintro ⟨_, _, h⟩
    exact absurd h (by decide +kernel)

/-- The symbol edge of "a" is annotated as a token twice. -/
def twiceArgs : Args := { src := 0, tgt := 1, item := ⟨[39, 97], [], []⟩, tags := bit 2 }
def twice1 : State := (addEdge sample1 twiceArgs).2
def twice2 : State := (addEdge twice1 twiceArgs).2

theorem twice1_reachable : Lattice.Spec.Reachable twice1 :=
  reachable_add sample1_reachable (made_token sample1_reachable) (by decide +kernel)
theorem twice2_reachable : Lattice.Spec.Reachable twice2 :=
  reachable_add twice1_reachable (made_token twice1_reachable) (by decide +kernel)

/-- **C04** fails of the code for symbol edges: once a symbol edge has been annotated further, every
repetition of the call makes another edge with the same ends, item and tags. -/
theorem C04_symbol_twice_false : ∃ (s : State) (e e' : Edge), Lattice.Spec.Reachable s ∧ e ≠ e' ∧
    Present s e ∧ Present s e' ∧ s.src e = s.src e' ∧ s.tgt e = s.tgt e' ∧ s.item e = s.item e' ∧
    s.tags e = s.tags e' :=
  ⟨twice2, .expl 0, .expl 1, twice2_reachable, by simp, present_expl.2 (by decide +kernel),
    present_expl.2 (by decide +kernel), by decide +kernel, by decide +kernel, by decide +kernel,
    by decide +kernel⟩

/-- The annotation that the lattice itself reports for the symbol edge of "a". -/
def reportedArgs : Args := { src := 0, tgt := 1, item := ⟨[39, 97], [97], []⟩, tags := symbolTag }
def reported : State := (addEdge sample1 reportedArgs).2

/-- **C04** fails of the code for symbol edges: adding an edge just as the lattice reports it makes a
second edge with the same ends, item and tags. -/
theorem C04_reported_item_false : ∃ (s : State) (e e' : Edge), Lattice.Spec.Reachable s ∧ e ≠ e' ∧
    Present s e ∧ Present s e' ∧ s.src e = s.src e' ∧ s.tgt e = s.tgt e' ∧ s.item e = s.item e' ∧
    s.tags e = s.tags e' :=
  ⟨reported, .impl 0, .expl 0,
    reachable_add sample1_reachable (made_symbol sample1_reachable) (by decide +kernel), by simp,
    present_impl.2 (by decide +kernel), present_expl.2 (by decide +kernel), by decide +kernel,
    by decide +kernel, by decide +kernel, by decide +kernel⟩

/-! ## C08 -/

theorem isThere_discarded {s : State} (hi : Inv s) (t : TagSet) :
    isThere s.mgr discardedName t = some (s.mgr, t.getLsbD 1) := by
  obtain ⟨l, hl⟩ := hi.names
  unfold isThere
  have hmem : discardedName ∈ s.mgr.names := by rw [← hl]; simp
  have hins : s.mgr.insert discardedName = s.mgr := by
    unfold Manager.insert; rw [if_pos hmem]
  have hidx : s.mgr.names.idxOf discardedName = 1 := by
    rw [← hl]
    simp [List.idxOf_cons, discardedName]
  rw [hins]
  simp only [hidx]
  rfl

theorem isDiscarded_eq {s : State} (hi : Inv s) (e : Edge) :
    s.isDiscarded e = (s.tags e).getLsbD 1 := by
  unfold State.isDiscarded
  rw [isThere_discarded hi]

theorem discardedTag_bits (j : Nat) : discardedTag.getLsbD j = decide (1 = j) := getLsbD_bit (by omega) j

/-- **C08** Discarding an ordinary edge succeeds with this edge, which is discarded forever; no other
edge changes its tags, score or partitions.  Not covered: symbol edges that are stored implicitly or
have been so (see `C08_symbol_edge_false`). -/
theorem C08_discard_partial {s : State} (h : Lattice.Spec.Reachable s) {e : Edge} {it : Item}
    (he : Present s e) (hx : Explicit e) (hit : s.item e = .ok it)
    (ho : Ordinary s ⟨s.src e, s.tgt e, it⟩) :
    ∃ s', discard s e = (.ok e, s') ∧
      (∀ s'', Steps s' s'' → s''.isDiscarded e = true) ∧
      (∀ d, Present s' d ↔ Present s d) ∧
      (∀ d, d ≠ e → s'.tags d = s.tags d ∧ s'.score d = s.score d ∧ s'.parts d = s.parts d) := by
  have hi := reachable_inv' h
  cases e with
  | impl i => exact absurd hx (by simp [Explicit])
  | expl k =>
    have hk := present_expl.1 he
    have hok := hi.entries k hk
    simp only [State.item, Except.ok.injEq] at hit
    have hdis : discard s (.expl k) = addEdge s ⟨(s.entry k).src, (s.entry k).tgt, (s.entry k).item,
        createUnion discardedTag (onlyPlaneTags s.mgr (s.entry k).tags), Sequence.empty, lowestScore,
        -1, -1⟩ := by
      unfold Lattice.discard addPartitionToEdge
      rw [if_pos (by simpa [State.validEdge] using hk)]
      rfl
    generalize ha : (⟨(s.entry k).src, (s.entry k).tgt, (s.entry k).item,
        createUnion discardedTag (onlyPlaneTags s.mgr (s.entry k).tags), Sequence.empty, lowestScore,
        -1, -1⟩ : Args) = a at hdis
    have hkey : (s.entry k).key = a.key := by rw [← ha]; rfl
    have hokay : Okay s.mgr a.tags := by
      rw [← ha]; exact hi.discardedOkay.union hok.okay.plane
    have hq : s.validSequence a.seq = true := by rw [← ha]; simp [State.validSequence, Sequence.empty]
    have hnoplane : ∀ n, PlaneName n → ¬ Has s.mgr discardedTag n := by
      rintro n ⟨r, rfl⟩ ⟨i, hn, hb⟩
      rw [discardedTag_bits] at hb
      have : 1 = i := by simpa using hb
      subst this
      obtain ⟨t, ht⟩ := hi.names
      rw [← ht] at hn
      simp [discardedName] at hn
    have hp : ∀ n, PlaneName n → (NewPlane s a n ↔ Has s.mgr (s.entry k).tags n) := by
      intro n hn
      have h1 : Has s.mgr a.tags n ↔ Has s.mgr (s.entry k).tags n := by
        rw [← ha]
        show Has s.mgr (createUnion _ _) n ↔ _
        rw [has_union, has_plane hi.mgrInv hok.okay hn]
        simp [hnoplane n hn]
      unfold NewPlane
      rw [h1]
      have h2 : a.seq.links = [] := by rw [← ha]; rfl
      simp [h2]
    have hpn : Plain s a.key := by
      have := plain_of_ordinary h ho
      rw [← hkey]
      have h3 : (s.entry k).key = ⟨s.src (.expl k), s.tgt (.expl k), it⟩ := by rw [← hit]; rfl
      rw [h3]; exact this
    have hiso := add_again h hk hkey hokay hq hp hpn
    have hfst : (addEdge s a).1 = .ok (.expl k) := by
      unfold addEdge
      have e1 : a.src = (s.entry k).src := by rw [← ha]
      have e2 : a.tgt = (s.entry k).tgt := by rw [← ha]
      rw [e1, e2, hok.src, hok.tgt, hq]
      simp only [Bool.and_self, if_true]
      unfold addEdgeCore
      have e1 : (inheritTags s a).src = (s.entry k).src := e1
      have e2 : (inheritTags s a).tgt = (s.entry k).tgt := e2
      rw [if_neg (by rw [e1, e2]; exact hok.loop), if_neg (by rw [e1, e2]; exact hok.forward), hiso]
      dsimp only
      unfold mergeWith
      have hc : sequenceContains s (inheritTags s a).seq (.expl k) = (.ok false, s) := by
        show sequenceContains s a.seq (.expl k) = _
        rw [← ha]
        rfl
      rw [hc]
    have hout := addEdge_outcome hi hokay
    refine ⟨(addEdge s a).2, by rw [hdis]; exact Prod.ext hfst rfl, ?_⟩
    have hmic := addEdge_micros hi hokay
    generalize addEdge s a = r at hout hfst hmic
    cases hout with
    | rejected _ _ => simp at hfst
    | @merged s1 j hq1 he1 hj _ =>
      rw [hiso] at he1
      simp only [Option.some.injEq, Edge.expl.injEq] at he1
      subst he1
      obtain ⟨c1, c2, c3, c4⟩ := merge_effect hq1 hk (inheritTags s a)
      refine ⟨?_, c1, c4⟩
      intro s'' hs''
      have hi' := inv_micros hi hmic
      have hg := steps_grow hi' hs''
      have hi'' := inv_micros hi' (run_micros hi' hs'')
      rw [isDiscarded_eq hi'']
      refine hg.tags k ?_ 1 ?_
      · exact present_expl.1 ((c1 (.expl k)).2 he)
      · show ((mergeInto s1 k (inheritTags s a)).tags (.expl k)).getLsbD 1 = true
        rw [c3]
        simp only [createUnion, BitVec.getLsbD_or, inherit_low hi (j := 1) (by omega)]
        rw [← ha]
        simp [createUnion, discardedTag_bits]
    | new _ hn _ => rw [hiso] at hn; simp at hn
    | promoted _ hn => rw [hiso] at hn; simp at hn

example : Lattice.Spec.Reachable sample2 ∧ Present sample2 (.expl 0) ∧
    sample2.item (.expl 0) = .ok sampleArgs2.item ∧
    Ordinary sample2 ⟨sample2.src (.expl 0), sample2.tgt (.expl 0), sampleArgs2.item⟩ ∧
    sample2.isDiscarded (.expl 0) = false := by
  refine ⟨sample2_reachable, present_expl.2 (by decide +kernel), by decide +kernel, Or.inl ?_,
    by decide +kernel⟩
  rintro ⟨_, _, h⟩
  exact absurd h (by decide +kernel)

/-- The call does not tag the annotation `key` as discarded. -/
def NeverDiscarded (key : Key) (s : State) (c : Call) : Prop :=
  ∀ a, Annotates s c a → a.src = key.src → a.tgt = key.tgt → a.item = key.item →
    ¬ Has s.mgr a.tags discardedName

theorem has_discarded {s : State} (hi : Inv s) {t : TagSet} :
    Has s.mgr t discardedName ↔ t.getLsbD 1 = true := by
  have hn : s.mgr.names[1]? = some discardedName := by
    obtain ⟨l, hl⟩ := hi.names
    rw [← hl]; rfl
  constructor
  · rintro ⟨i, h1, h2⟩
    have := nodup_get hi.mgrInv.1 h1 hn
    subst this; exact h2
  · intro h; exact ⟨1, hn, h⟩

theorem newOutcome_tags {s : State} {b : Args} {r : Except Exn Edge × State} (h : NewOutcome s b r)
    {k : Nat} (hk : k < r.2.edges.length) :
    (k < s.edges.length ∧ r.2.entry k = s.entry k) ∨
      ((r.2.entry k).key = b.key ∧ (r.2.entry k).tags = b.tags) := by
  cases h with
  | failed hmid _ _ =>
    left
    exact ⟨by rw [← hmid.alike.edges]; exact hk, hmid.alike.entry k⟩
  | @added s1 hmid =>
    rcases addNewRest_cases s1 b with ⟨hc, he⟩ | ⟨hc, he⟩
    · rw [he] at hk ⊢
      left
      have h1 : k < s1.edges.length := hk
      exact ⟨by rw [← hmid.alike.edges]; exact h1, hmid.alike.entry k⟩
    · rw [he] at hk ⊢
      have hk : k < (s1.edges ++ [_]).length := hk
      rw [List.length_append, List.length_singleton] at hk
      rcases Nat.lt_or_ge k s1.edges.length with h1 | h1
      · left
        refine ⟨by rw [← hmid.alike.edges]; exact h1, ?_⟩
        exact (entry_append_lt h1).trans (hmid.alike.entry k)
      · right
        have : k = s1.edges.length := by omega
        subst this
        have h2 : (addExplicit s1 b).2.entry s1.edges.length = _ := entry_append_eq s1 _
        rw [h2]; exact ⟨rfl, rfl⟩

/-- An edge after a call: as before, or annotated by the call. -/
theorem outcome_tags {s : State} {b : Args} {r : Except Exn Edge × State} (h : Outcome s b r)
    {k : Nat} (hk : k < r.2.edges.length) :
    (k < s.edges.length ∧ (r.2.entry k).key = (s.entry k).key ∧ (r.2.entry k).tags = (s.entry k).tags) ∨
    ((r.2.entry k).key = b.key ∧ ((r.2.entry k).tags = b.tags ∨
      (r.2.entry k).tags = createUnion symbolTag b.tags ∨
      (k < s.edges.length ∧ (s.entry k).key = b.key ∧
        (r.2.entry k).tags = createUnion (s.entry k).tags b.tags))) := by
  cases h with
  | rejected hq _ =>
    left
    rw [hq.alike.entry]
    exact ⟨by rw [← hq.alike.edges]; exact hk, rfl, rfl⟩
  | @merged s1 j hq he hj hkey =>
    have hk : k < (s1.edges.set j _).length := hk
    rw [List.length_set, hq.alike.edges] at hk
    simp only [entry_merge, hq.alike.entry, hq.alike.edges]
    by_cases h1 : k = j ∧ j < s.edges.length
    · rw [if_pos h1]
      obtain ⟨rfl, h1⟩ := h1
      right
      refine ⟨hkey, Or.inr (Or.inr ⟨h1, hkey, ?_⟩)⟩
      exact mergedTags_eq _ _
    · rw [if_neg h1]
      exact Or.inl ⟨hk, rfl, rfl⟩
  | new _ _ hn =>
    rcases newOutcome_tags hn hk with ⟨h1, h2⟩ | ⟨h1, h2⟩
    · rw [h2]; exact Or.inl ⟨h1, rfl, rfl⟩
    · exact Or.inr ⟨h1, Or.inl h2⟩
  | @promoted s1 _ i _ _ _ _ _ hmid hn =>
    rcases newOutcome_tags hn hk with ⟨h1, h2⟩ | ⟨h1, h2⟩
    · rw [h2, hmid.alike.entry]
      exact Or.inl ⟨by rw [← hmid.alike.edges]; exact h1, rfl, rfl⟩
    · exact Or.inr ⟨h1, Or.inr (Or.inl h2)⟩

/-- **C08** An edge whose annotation has never been tagged as discarded is not discarded. -/
theorem C08_never_discarded {s : State} {key : Key} (h : Run (NeverDiscarded key) initial s) {e : Edge}
    (he : Present s e) (hs : s.src e = key.src) (ht : s.tgt e = key.tgt)
    (hit : s.item e = .ok key.item) : s.isDiscarded e = false := by
  have hi := inv_micros inv_initial (run_micros inv_initial h)
  rw [isDiscarded_eq hi]
  cases e with
  | impl i =>
    show symbolTag.getLsbD 1 = false
    rw [symbolTag_bits]; rfl
  | expl k =>
    have hk := present_expl.1 he
    simp only [State.item, Except.ok.injEq] at hit
    have hkey : (s.entry k).key = key := by
      obtain ⟨x, y, z⟩ := key
      simp only [Entry.key, Key.mk.injEq]; exact ⟨hs, ht, hit⟩
    clear he hs ht hit hi
    show (s.entry k).tags.getLsbD 1 = false
    induction h generalizing k with
    | refl => simp [initial] at hk
    | @step s1 s2 c hr hp hst ih =>
      have hi1 := inv_micros inv_initial (run_micros inv_initial hr)
      cases step_kind hi1 hst with
      | other he _ _ _ =>
        have hen : s2.entry k = s1.entry k := by unfold State.entry; rw [he]
        rw [he] at hk
        rw [hen] at hkey ⊢
        exact ih k hk hkey
      | annotate a r ha he _ ho =>
        have hout := addEdge_outcome hi1 ho
        rw [he] at hout
        have hbit : (inheritTags s1 a).key = key → (inheritTags s1 a).tags.getLsbD 1 = false := by
          intro hk2
          rw [inherit_low hi1 (by omega)]
          have h1 : a.src = key.src := congrArg Key.src hk2
          have h2 : a.tgt = key.tgt := congrArg Key.tgt hk2
          have h3 : a.item = key.item := congrArg Key.item hk2
          have := hp a ha h1 h2 h3
          rw [has_discarded hi1] at this
          simpa using this
        rcases outcome_tags hout hk with ⟨h1, h2, h3⟩ | ⟨h1, h2⟩
        · have h2 : (s2.entry k).key = _ := h2
          have h3 : (s2.entry k).tags = _ := h3
          rw [h3]
          exact ih k h1 (h2 ▸ hkey)
        · have h1 : (s2.entry k).key = _ := h1
          have hb := hbit (h1 ▸ hkey)
          rcases h2 with h2 | h2 | ⟨h3, h4, h2⟩
          · have h2 : (s2.entry k).tags = _ := h2
            rw [h2]; exact hb
          · have h2 : (s2.entry k).tags = _ := h2
            rw [h2]
            simp only [createUnion, BitVec.getLsbD_or, hb, symbolTag_bits]; rfl
          · have h2 : (s2.entry k).tags = _ := h2
            rw [h2]
            have := ih k h3 (h4 ▸ h1 ▸ hkey)
            simp only [createUnion, BitVec.getLsbD_or, hb, this]; rfl

/-- A token and, elsewhere, a discarded edge. -/
def otherDiscarded : State := (discard sample2 (.impl 0)).2

example : ∃ s, Run (NeverDiscarded ⟨0, 3, sampleArgs2.item⟩) initial s ∧ Present s (.expl 0) ∧
    s.src (.expl 0) = 0 ∧ s.tgt (.expl 0) = 3 ∧ s.item (.expl 0) = .ok sampleArgs2.item ∧
    s.isDiscarded (.expl 1) = true := by
  refine ⟨otherDiscarded, ?_, present_expl.2 (by decide +kernel), by decide +kernel,
    by decide +kernel, by decide +kernel, by decide +kernel⟩
  have h0 : Run (NeverDiscarded ⟨0, 3, sampleArgs2.item⟩) initial sample0 := by
    refine .step .refl ?_ .append
    intro a ha; cases ha
  have h1 : Run (NeverDiscarded ⟨0, 3, sampleArgs2.item⟩) initial sample1 := by
    refine .step h0 ?_ (.add (a := sampleArgs1) (r := (addEdge sample0 sampleArgs1).1) (made_symbol sample0_reachable) rfl
      (by decide +kernel))
    intro a ha; cases ha
    intro _ h; exact absurd h (by decide +kernel)
  have h2 : Run (NeverDiscarded ⟨0, 3, sampleArgs2.item⟩) initial sample2 := by
    refine .step h1 ?_ (.add (a := sampleArgs2) (r := (addEdge sample1 sampleArgs2).1) (made_token sample1_reachable) rfl
      (by decide +kernel))
    intro a ha; cases ha
    intro _ _ _
    rw [has_discarded (reachable_inv' sample1_reachable)]
    decide +kernel
  refine .step h2 ?_ (.discard (e := .impl 0) (r := (discard sample2 (.impl 0)).1) rfl (by decide +kernel))
  intro a ha; cases ha
  intro _ h
  have h : sample2.tgt (.impl 0) = 3 := h
  exact absurd h (by decide +kernel)

/-- **C08** fails of the code for symbol edges: discarding one leaves it as it was and makes a new
edge instead, which is discarded. -/
theorem C08_symbol_edge_false : ∃ (s s' : State) (e e' : Edge), Lattice.Spec.Reachable s ∧ Present s e ∧
    discard s e = (.ok e', s') ∧ Present s' e ∧ e' ≠ e ∧ s'.isDiscarded e = false := by
  refine ⟨sample2, otherDiscarded, .impl 0, .expl 1, sample2_reachable,
    present_impl.2 (by decide +kernel), ?_, present_impl.2 (by decide +kernel), by simp,
    by decide +kernel⟩
  exact Prod.ext (by decide +kernel) rfl

end Verif.Lattice
