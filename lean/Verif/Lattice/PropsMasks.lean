import Verif.Lattice.PropsCount

/-!
Property theorems C05 (queries by masks).
-/
set_option linter.unusedVariables false
set_option linter.unusedSimpArgs false

namespace Verif.Lattice
open Verif Verif.Tags Verif.Tags.Spec Verif.Lattice.Spec

theorem proper_none {m : Mask} (h : ProperMask m) (hn : m.none_ = true) :
    m.any = false ∧ ∀ alt ∈ m.alts, alt = 0 := by
  induction h with
  | alts l => simp [Mask.ofAlts] at hn
  | flag b =>
    simp only [Mask.ofBool] at hn ⊢
    exact ⟨by simpa using hn, by simp⟩
  | @isNone m hm ih =>
    unfold Mask.isNone at hn ⊢
    split at hn
    · rename_i h; rw [if_pos h]; exact ih hn
    · rename_i h
      rw [if_neg h]
      split at hn
      · exact absurd hn h
      · rename_i h2
        rw [if_neg h2]
        split at hn
        · exact absurd hn h
        · rename_i h3
          rw [if_neg h3]
          refine ⟨by simpa using h2, ?_⟩
          intro alt ha
          simp only [Bool.not_eq_true, List.any_eq_false, bne_iff_ne, ne_eq, not_not] at h3
          exact h3 alt ha

theorem symbol_eq (t : TagSet) : (t == Tags.symbolTag) = (t == symbolTag) := rfl

theorem symbol_ne_zero : symbolTag ≠ 0 := by decide

/-- When implicit edges are listed, they match. -/
theorem canBe_matches {mask : Mask} (hp : ProperMask mask)
    (h : canBeAppliedToImplicitSymbol mask = true) : «matches» symbolTag mask = true := by
  unfold canBeAppliedToImplicitSymbol at h
  rw [matches_iff]
  cases hn : mask.none_ with
  | true =>
    obtain ⟨h1, h2⟩ := proper_none hp hn
    rw [h1] at h
    simp only [Bool.false_eq_true, if_false, List.any_eq_true, beq_iff_eq] at h
    obtain ⟨alt, ha, he⟩ := h
    exact absurd (he.symm.trans (h2 alt ha)) symbol_ne_zero
  | false =>
    refine ⟨rfl, ?_⟩
    cases hany : mask.any with
    | true => exact Or.inl rfl
    | false =>
      right
      rw [hany] at h
      simp only [Bool.false_eq_true, if_false, List.any_eq_true, beq_iff_eq] at h
      obtain ⟨alt, ha, he⟩ := h
      exact ⟨alt, ha, by rw [he]; exact fun j hj => hj⟩

/-- Implicit edges that match are listed, if no alternative is empty. -/
theorem matches_canBe {mask : Mask} (h0 : 0 ∉ mask.alts) (h : «matches» symbolTag mask = true) :
    canBeAppliedToImplicitSymbol mask = true := by
  unfold canBeAppliedToImplicitSymbol
  rw [matches_iff] at h
  rcases h.2 with h1 | ⟨alt, ha, hs⟩
  · rw [h1]; rfl
  · split
    · rfl
    · rw [List.any_eq_true]
      refine ⟨alt, ha, ?_⟩
      rw [beq_iff_eq]
      apply BitVec.eq_of_getLsbD_eq
      intro j hj
      show alt.getLsbD j = symbolTag.getLsbD j
      have hz : ∀ j, alt.getLsbD j = true → j = 0 := by
        intro j hj
        have := hs j hj
        rw [symbolTag_bits] at this
        have h2 : 0 = j := by simpa using this
        exact h2.symm
      have h00 : alt.getLsbD 0 = true := by
        cases hb : alt.getLsbD 0 with
        | true => rfl
        | false =>
          exfalso
          apply h0
          have : alt = 0 := by
            apply BitVec.eq_of_getLsbD_eq
            intro j hj
            cases hb2 : alt.getLsbD j with
            | true => have := hz j hb2; subst this; rw [hb] at hb2; simp at hb2
            | false => simp
          rw [← this]; exact ha
      rw [symbolTag_bits]
      by_cases hj0 : 0 = j
      · subst hj0; simp [h00]
      · cases hb2 : alt.getLsbD j with
        | true => exact absurd (hz j hb2).symm hj0
        | false => simp [hj0]

theorem mem_implicitIn {s : State} {v : Vertex} {l : List Edge} (h : s.implicitIn v = .ok l) :
    ∀ e ∈ l, ∃ i, e = .impl i ∧ bitAt s.implicit i = true := by
  intro e he
  unfold State.implicitIn at h
  split at h
  · simp at h; subst h; simp at he
  · cases hp : s.priorVertex v with
    | error x =>
      rw [hp] at h
      cases x <;> simp at h
      subst h; simp at he
    | ok p =>
      rw [hp] at h
      simp only [Except.ok.injEq] at h
      subst h
      split at he
      · rename_i hb
        simp only [List.mem_singleton] at he
        exact ⟨p, he, hb⟩
      · simp at he

/-! ## C05 -/

/-- **C05** A query returns only edges of the vertex that match the mask. -/
theorem C05_sound {s : State} (h : Lattice.Spec.Reachable s) {mask : Mask} (hp : ProperMask mask)
    (v : Vertex) :
    (∀ e ∈ (outEdges s v mask).1, e ∈ s.allOutEdges v ∧ «matches» (s.tags e) mask = true) ∧
    (∀ l, (inEdges s v mask).1 = .ok l → ∃ all, s.allInEdges v = .ok all ∧
      ∀ e ∈ l, e ∈ all ∧ «matches» (s.tags e) mask = true) := by
  have hi := reachable_inv' h
  have hany : mask.any = true → ∀ t, «matches» t mask = true := by
    intro ha t
    rw [matches_iff]
    refine ⟨?_, Or.inl ha⟩
    cases hn : mask.none_ with
    | false => rfl
    | true => have := (proper_none hp hn).1; rw [ha] at this; simp at this
  constructor
  · intro e he
    rw [outEdges_fst] at he
    split at he
    · rename_i ha; exact ⟨he, hany ha _⟩
    · rename_i ha
      rw [List.mem_append] at he
      rcases he with he | he
      · split at he
        · rename_i hc
          refine ⟨List.mem_append_left _ he, ?_⟩
          obtain ⟨i, rfl, _⟩ := mem_implicitOut.1 he
          exact canBe_matches hp hc
        · simp at he
      · simp only [List.mem_map, List.mem_filter, decide_eq_true_eq] at he
        obtain ⟨k, ⟨hk, hs⟩, rfl⟩ := he
        have := mem_matching.1 ((indexFor_sublist hi (by simpa using ha)).subset hk)
        exact ⟨expl_mem_allOut.2 ⟨this.1, hs⟩, this.2⟩
  · intro l hl
    rw [inEdges_fst hi] at hl
    split at hl
    · rename_i ha; exact ⟨l, hl, fun e he => ⟨he, hany ha _⟩⟩
    · rename_i ha
      split at hl
      · simp at hl
      · rename_i l1 h1
        simp only [Except.ok.injEq] at hl
        refine ⟨l1 ++ (s.graphIn v).map .expl, by unfold State.allInEdges; rw [h1], ?_⟩
        intro e he
        rw [← hl, List.mem_append] at he
        rcases he with he | he
        · split at he
          · rename_i hc
            refine ⟨List.mem_append_left _ he, ?_⟩
            obtain ⟨i, rfl, _⟩ := mem_implicitIn h1 e he
            exact canBe_matches hp hc
          · simp at he
        · simp only [List.mem_map, List.mem_filter, decide_eq_true_eq] at he
          obtain ⟨k, ⟨hk, hs⟩, rfl⟩ := he
          have := mem_matching.1 ((indexFor_sublist hi (by simpa using ha)).subset hk)
          refine ⟨List.mem_append_right _ ?_, this.2⟩
          simp only [List.mem_map]
          exact ⟨k, mem_graphIn.2 ⟨this.1, hs⟩, rfl⟩

example : Lattice.Spec.Reachable sample2 ∧ ProperMask (Mask.ofTags (bit 2)) ∧
    .expl 0 ∈ (outEdges sample2 0 (Mask.ofTags (bit 2))).1 :=
  ⟨sample2_reachable, .alts [bit 2], by decide +kernel⟩

/-! ### Masks that are up to date -/

/-- The index of the mask, if there is one, is up to date. -/
def Fresh (mask : Mask) (s : State) : Prop :=
  ∀ mi ∈ s.masks, mi.mask.eq mask = true → mi.outs = s.matching mi.mask

theorem fresh_register {s : State} {mask m : Mask} (h : Fresh mask s) : Fresh mask (addTagMaskIndex s m) := by
  intro mi hmi he
  have hmat : (addTagMaskIndex s m).matching mi.mask = s.matching mi.mask := by
    unfold State.matching; simp only [register_edges, register_entry]
  rw [hmat]
  unfold addTagMaskIndex at hmi
  split at hmi
  · exact h mi hmi he
  · simp only [List.mem_append, List.mem_singleton] at hmi
    rcases hmi with hmi | rfl
    · exact h mi hmi he
    · rfl

theorem matching_congr {s s' : State} {m mask : Mask} (hl : s'.edges.length = s.edges.length)
    (hmt : ∀ k, k < s.edges.length → «matches» (s'.entry k).tags m = «matches» (s.entry k).tags m) :
    s'.matching m = s.matching m := by
  unfold State.matching
  rw [hl]
  apply List.filter_congr
  intro k hk
  exact hmt k (by simpa using hk)

theorem fresh_micros {s s' : State} {mask : Mask} (hi : Inv s) (hm : Micros s s')
    (ha : mask.any = false)
    (hl : s'.edges.length = s.edges.length)
    (hk : ∀ k, k < s.edges.length → «matches» (s'.entry k).tags mask = true →
      «matches» (s.entry k).tags mask = true) (hf : Fresh mask s) : Fresh mask s' := by
  induction hm with
  | refl => exact hf
  | @step s1 s2 h1 h2 ih =>
    have hi1 := inv_micros hi h1
    have hg1 := grow_micros h1
    have hg2 := grow_micro h2
    have hl1 : s1.edges.length = s.edges.length := by have := hg1.len; have := hg2.len; omega
    have hk1 : ∀ k, k < s.edges.length → «matches» (s1.entry k).tags mask = true →
        «matches» (s.entry k).tags mask = true := by
      intro k hk' hm1
      exact hk k hk' (matches_mono (hg2.tags k (by omega)) hm1)
    have hf1 := ih hl1 hk1
    -- same edges match before and after the last change
    have hsame : ∀ k, k < s1.edges.length →
        «matches» (s2.entry k).tags mask = «matches» (s1.entry k).tags mask := by
      intro k hk'
      rw [Bool.eq_iff_iff]
      constructor
      · intro h
        exact matches_mono (hg1.tags k (by omega)) (hk k (by omega) h)
      · exact fun h => matches_mono (hg2.tags k hk') h
    have hmatch : ∀ m, m.any = false → m.eq mask = true → s2.matching m = s1.matching m := by
      intro m hma hme
      apply matching_congr (mask := mask) (by omega)
      intro k hk'
      rw [matches_of_eq hma ha hme, matches_of_eq hma ha hme]
      exact hsame k hk'
    have keep : s2.masks = s1.masks → Fresh mask s2 := by
      intro hms mi hmi he
      rw [hms] at hmi
      rw [hmatch mi.mask (hi1.masks mi hmi).1 he]
      exact hf1 mi hmi he
    cases h2 with
    | append t => exact keep rfl
    | loose => exact keep rfl
    | manager m hlat => exact keep rfl
    | register m hma => exact fresh_register hf1
    | visible i => exact keep rfl
    | bump u v => exact keep rfl
    | clear i => exact keep rfl
    | addImplicit a c1 c2 => exact keep rfl
    | addExplicit a c => simp [addExplicit] at hl; omega
    | merge k a c1 c2 => exact keep rfl

theorem fresh_addExplicit {s : State} {mask : Mask} (hi : Inv s) (b : Args) (hf : Fresh mask s) :
    Fresh mask (addExplicit s b).2 := by
  intro mi hmi he
  simp only [addExplicit, List.mem_map] at hmi
  obtain ⟨mj, hmj, rfl⟩ := hmi
  have hma := matching_append s b mj.mask
  split at he
  · rename_i hm
    rw [if_pos hm]
    have := hf mj hmj he
    show mj.outs ++ [s.edges.length] = (addExplicit s b).2.matching mj.mask
    rw [hma, if_pos hm, this]
  · rename_i hm
    rw [if_neg hm]
    have := hf mj hmj he
    rw [hma, if_neg hm, this]; simp

theorem fresh_newOutcome {s : State} {mask : Mask} (hi : Inv s) (ha : mask.any = false) {b : Args}
    {r : Except Exn Edge × State} (h : NewOutcome s b r) (hf : Fresh mask s) : Fresh mask r.2 := by
  have key : ∀ {s1 im ct}, Mid s s1 im ct → Fresh mask s1 := by
    intro s1 im ct hmid
    refine fresh_micros hi hmid.micros ha (by rw [hmid.alike.edges]) ?_ hf
    intro k _ hm; rw [hmid.alike.entry] at hm; exact hm
  cases h with
  | failed hmid _ _ => exact key hmid
  | @added s1 hmid =>
    have hf1 := key hmid
    rcases addNewRest_cases s1 b with ⟨hc, he⟩ | ⟨hc, he⟩
    · rw [he]; exact hf1
    · rw [he]; exact fresh_addExplicit (inv_micros hi hmid.micros) b hf1

theorem fresh_step {s s' : State} {c : Call} {mask : Mask} (hi : Inv s) (ha : mask.any = false)
    (hs : Step s c s') (hn : NoNewMatch mask s c) (hf : Fresh mask s) : Fresh mask s' := by
  have hkeep : ∀ k, k < s.edges.length → «matches» (s'.entry k).tags mask = true →
      «matches» (s.entry k).tags mask = true := by
    intro k hk hm
    exact hn s' hs (.expl k) (present_expl.2 hk) trivial hm
  have same : s'.edges.length = s.edges.length → Fresh mask s' :=
    fun hl => fresh_micros hi (step_micros hi hs) ha hl hkeep hf
  cases step_kind hi hs with
  | other he _ _ _ => exact same (by rw [he])
  | annotate a r hann he _ ho =>
    have hout := addEdge_outcome hi ho
    rw [he] at hout
    generalize hpair : ((r, s') : Except Exn Edge × State) = p at hout
    have hs2 : s' = p.2 := by rw [← hpair]
    cases hout with
    | rejected hq _ => exact same (by rw [hs2]; exact congrArg _ hq.alike.edges)
    | @merged s3 k hq _ _ _ =>
      refine same ?_
      rw [hs2]
      show (s3.edges.set k _).length = _
      rw [List.length_set, hq.alike.edges]
    | new hc hn ho => rw [hs2]; exact fresh_newOutcome hi ha ho hf
    | @promoted s3 _ i hc hn e1 e2 e3 hmid ho =>
      rw [hs2]
      refine fresh_newOutcome (inv_micros hi hmid.micros) ha ho ?_
      refine fresh_micros hi hmid.micros ha (by rw [hmid.alike.edges]) ?_ hf
      intro k _ hm; rw [hmid.alike.entry] at hm; exact hm

/-! ### Masks that have not been queried -/

/-- The masks of `s'` are those of `s`, possibly with the symbol mask. -/
def FewMasks (s s' : State) : Prop :=
  ∀ mi ∈ s'.masks, mi.mask = symbolMask ∨ ∃ mj ∈ s.masks, mj.mask = mi.mask

theorem FewMasks.refl (s : State) : FewMasks s s := fun mi h => Or.inr ⟨mi, h, rfl⟩
theorem FewMasks.trans {a b c : State} (h : FewMasks a b) (h' : FewMasks b c) : FewMasks a c := by
  intro mi hmi
  rcases h' mi hmi with h1 | ⟨mj, h1, h2⟩
  · exact Or.inl h1
  · rw [← h2]; exact h mj h1
theorem FewMasks.of_eq {s s' : State} (h : s'.masks = s.masks) : FewMasks s s' := by
  intro mi hmi; rw [h] at hmi; exact Or.inr ⟨mi, hmi, rfl⟩

theorem few_register (s : State) : FewMasks s (addTagMaskIndex s symbolMask) := by
  intro mi hmi
  unfold addTagMaskIndex at hmi
  split at hmi
  · exact Or.inr ⟨mi, hmi, rfl⟩
  · simp only [List.mem_append, List.mem_singleton] at hmi
    rcases hmi with hmi | rfl
    · exact Or.inr ⟨mi, hmi, rfl⟩
    · exact Or.inl rfl

theorem few_outEdges (s : State) (v : Vertex) : FewMasks s (outEdges s v symbolMask).2 := by
  rcases outEdges_state s v symbolMask with h | ⟨_, h⟩ <;> rw [h]
  · exact .refl _
  · exact few_register _

theorem few_inEdges (s : State) (v : Vertex) : FewMasks s (inEdges s v symbolMask).2 := by
  rcases inEdges_state s v symbolMask with h | ⟨_, h⟩ <;> rw [h]
  · exact .refl _
  · exact few_register _

theorem few_updateVisibleIn (s : State) (t : Vertex) : FewMasks s (updateVisibleIn s t).2 := by
  unfold updateVisibleIn
  have h := few_inEdges s t
  split
  · rename_i e s1 h1; rw [h1] at h; exact h
  · rename_i s1 h1; rw [h1] at h; exact h
  · rename_i e es s1 h1
    rw [h1] at h
    split
    · exact h
    · exact h.trans (.of_eq rfl)

theorem few_updateVisible (s : State) (f t : Vertex) : FewMasks s (updateVisible s f t).2 := by
  unfold updateVisible
  have h := few_outEdges s f
  split
  · rename_i s1 h1; rw [h1] at h; exact h
  · rename_i e es s1 h1
    rw [h1] at h
    split
    · exact h
    · refine (h.trans (b := s1) (.of_eq rfl)).trans ?_
      refine FewMasks.trans (b := { s1 with visible := s1.visible.set f.toNat true }) (.of_eq rfl) ?_
      exact few_updateVisibleIn _ _

theorem few_addNewRest (s : State) (b : Args) : FewMasks s (addNewRest s b).2 := by
  rcases addNewRest_cases s b with ⟨_, he⟩ | ⟨_, he⟩ <;> rw [he]
  · exact .of_eq rfl
  · intro mi hmi
    simp only [addExplicit, List.mem_map] at hmi
    obtain ⟨mj, hmj, rfl⟩ := hmi
    right
    refine ⟨mj, hmj, ?_⟩
    split <;> rfl

theorem few_addNew (s : State) (b : Args) : FewMasks s (addNew s b).2 := by
  unfold addNew
  dsimp only
  have h0 : FewMasks s (bumpCounter s b.src b.tgt) := .of_eq rfl
  split
  · have h := few_updateVisible (bumpCounter s b.src b.tgt) b.src b.tgt
    split
    · rename_i x s1 h1; rw [h1] at h; exact h0.trans h
    · rename_i x s1 h1; rw [h1] at h; exact (h0.trans h).trans (few_addNewRest _ _)
  · exact h0.trans (few_addNewRest _ _)

theorem few_addEdge (s : State) (a : Args) : FewMasks s (addEdge s a).2 := by
  unfold addEdge
  split
  · generalize inheritTags s a = b
    unfold addEdgeCore
    split
    · exact .refl _
    · split
      · exact .refl _
      · split
        · exact few_addNew _ _
        · rename_i e he
          unfold mergeWith
          have hst := sequenceContains_state s b.seq e
          have h : FewMasks s (sequenceContains s b.seq e).2 := by
            rcases hst with h | h <;> rw [h]
            · exact .refl _
            · exact few_register _
          split
          · rename_i x s1 h1; rw [h1] at h; exact h
          · rename_i s1 h1; rw [h1] at h; exact h
          · rename_i s1 h1; rw [h1] at h
            split
            · exact h.trans (.of_eq rfl)
            · refine (h.trans (b := s1) (.of_eq rfl)).trans ?_
              refine FewMasks.trans (b := { s1 with implicit := s1.implicit.set b.src.toNat false })
                (.of_eq rfl) (few_addNew _ _)
  · exact .refl _

theorem few_step {s s' : State} {c : Call} {mask : Mask} (hs : Step s c s')
    (hn : NotQueried mask s c) (he : symbolMask.eq mask = false)
    (h : ∀ mi ∈ s.masks, mi.mask.eq mask = false) : ∀ mi ∈ s'.masks, mi.mask.eq mask = false := by
  have few : FewMasks s s' → ∀ mi ∈ s'.masks, mi.mask.eq mask = false := by
    intro hf mi hmi
    rcases hf mi hmi with h1 | ⟨mj, h1, h2⟩
    · rw [h1]; exact he
    · rw [← h2]; exact h mj h1
  have reg : ∀ m, m.eq mask = false → ∀ mi ∈ (addTagMaskIndex s m).masks, mi.mask.eq mask = false := by
    intro m hm mi hmi
    unfold addTagMaskIndex at hmi
    split at hmi
    · exact h mi hmi
    · simp only [List.mem_append, List.mem_singleton] at hmi
      rcases hmi with hmi | rfl
      · exact h mi hmi
      · exact hm
  have part : ∀ e t q x i j, FewMasks s (addPartitionToEdge s e t q x i j).2 := by
    intro e t q x i j
    unfold addPartitionToEdge
    split
    · split
      · exact .refl _
      · exact few_addEdge _ _
    · exact .refl _
  cases hs with
  | append => exact few (.of_eq rfl)
  | loose => exact few (.of_eq rfl)
  | @add a r _ hm h1 h2 =>
    have := few_addEdge s a
    rw [h1] at this; exact few this
  | @addPartition e t q x i j r _ hm h1 h2 =>
    have := part e t q x i j
    rw [h1] at this; exact few this
  | @discard e r _ h1 h2 =>
    have := part e discardedTag Sequence.empty lowestScore (-1) (-1)
    rw [show addPartitionToEdge _ e _ _ _ _ _ = _ from h1] at this
    exact few this
  | @out v m hv =>
    rcases outEdges_state s v m with h1 | ⟨_, h1⟩ <;> rw [h1]
    · exact h
    · exact reg m hn
  | @into v m hv =>
    rcases inEdges_state s v m with h1 | ⟨_, h1⟩ <;> rw [h1]
    · exact h
    · exact reg m hn
  | manager hl => exact few (.of_eq rfl)

theorem not_queried {s : State} {mask : Mask} (h : Run (NotQueried mask) initial s)
    (he : symbolMask.eq mask = false) : ∀ mi ∈ s.masks, mi.mask.eq mask = false := by
  induction h with
  | refl => simp [initial]
  | step hr hp hs ih => exact few_step hs hp he ih

/-- **C05** A query returns exactly the edges of the vertex that match the mask, if since the first
query with this mask (for the mask of the tag "symbol": since the beginning) no edge that was there
before has come to match the mask, and if no alternative of the mask is empty.  Not covered: see
`C05_stale_index_false` and `C05_empty_alternative_false`. -/
theorem C05_exact_partial {s0 s : State} {mask : Mask} (hp : ProperMask mask)
    (h0 : Run (NotQueried mask) initial s0) (hm : symbolMask.eq mask = false ∨ s0 = initial)
    (h : Run (NoNewMatch mask) s0 s) (ha : 0 ∉ mask.alts) (v : Vertex) :
    (outEdges s v mask).1 = (s.allOutEdges v).filter (fun e => «matches» (s.tags e) mask) ∧
    (∀ l, s.allInEdges v = .ok l →
      (inEdges s v mask).1 = .ok (l.filter (fun e => «matches» (s.tags e) mask))) := by
  have hi0 := inv_micros inv_initial (run_micros inv_initial h0)
  have hi := inv_micros hi0 (run_micros hi0 h)
  cases hany : mask.any with
  | true =>
    have hall : ∀ t, «matches» t mask = true := by
      intro t
      rw [matches_iff]
      refine ⟨?_, Or.inl hany⟩
      cases hn : mask.none_ with
      | false => rfl
      | true => have := (proper_none hp hn).1; rw [hany] at this; simp at this
    rw [outEdges_fst, hany]
    have hfil : ∀ l : List Edge, l.filter (fun e => «matches» (s.tags e) mask) = l :=
      fun l => List.filter_eq_self.2 (fun e _ => hall _)
    refine ⟨by rw [if_pos rfl, hfil], ?_⟩
    intro l hl
    rw [inEdges_fst hi, hany, if_pos rfl, hl, hfil]
  | false =>
    have hf0 : Fresh mask s0 := by
      rcases hm with hm | rfl
      · intro mi hmi he
        have := not_queried h0 hm mi hmi
        rw [he] at this; simp at this
      · intro mi hmi; simp [initial] at hmi
    have hf : Fresh mask s := by
      clear hi
      induction h with
      | refl => exact hf0
      | step hr hp' hs ih => exact fresh_step (inv_micros hi0 (run_micros hi0 hr)) hany hs hp' ih
    have hidx : s.indexFor mask = s.matching mask := by
      unfold State.indexFor
      split
      · rename_i mi hmi
        have hmem := List.mem_of_find?_eq_some hmi
        have heq := List.find?_some hmi
        rw [hf mi hmem heq]
        unfold State.matching
        congr 1; funext k
        exact matches_of_eq (hi.masks mi hmem).1 hany heq _
      · rfl
    have himp : ∀ l : List Edge, (∀ e ∈ l, ∃ i, e = .impl i) →
        (if canBeAppliedToImplicitSymbol mask then l else []) =
          l.filter (fun e => «matches» (s.tags e) mask) := by
      intro l hl
      split
      · rename_i hc
        symm
        rw [List.filter_eq_self]
        intro e he
        obtain ⟨i, rfl⟩ := hl e he
        exact canBe_matches hp hc
      · rename_i hc
        symm
        rw [List.filter_eq_nil_iff]
        intro e he hm
        obtain ⟨i, rfl⟩ := hl e he
        exact hc (matches_canBe ha hm)
    have hexp : ∀ p : Nat → Bool, ((s.matching mask).filter p).map Edge.expl =
        (((List.range s.edges.length).filter p).map Edge.expl).filter
          (fun e => «matches» (s.tags e) mask) := by
      intro p
      rw [List.filter_map]
      congr 1
      unfold State.matching
      rw [List.filter_filter, List.filter_filter]
      apply List.filter_congr
      intro k _
      simp only [Function.comp, State.tags]
      exact Bool.and_comm _ _
    constructor
    · rw [outEdges_fst, hany]
      simp only [Bool.false_eq_true, if_false]
      unfold State.allOutEdges
      rw [List.filter_append, hidx, himp _ (fun e he => ?_), hexp]
      · rfl
      · obtain ⟨i, rfl, _⟩ := mem_implicitOut.1 he; exact ⟨i, rfl⟩
    · intro l hl
      rw [inEdges_fst hi, hany]
      simp only [Bool.false_eq_true, if_false]
      unfold State.allInEdges at hl
      cases h1 : s.implicitIn v with
      | error x => rw [h1] at hl; simp at hl
      | ok l1 =>
        rw [h1] at hl
        simp only [Except.ok.injEq] at hl
        dsimp only
        rw [← hl, List.filter_append, hidx, himp _ (fun e he => ?_), hexp]
        · rfl
        · obtain ⟨i, rfl, _⟩ := mem_implicitIn h1 e he; exact ⟨i, rfl⟩

/-- Tokens are queried before and after the token is added. -/
example : ∃ s, Run (NotQueried (Mask.ofTags (bit 2))) initial sample1 ∧
    symbolMask.eq (Mask.ofTags (bit 2)) = false ∧
    Run (NoNewMatch (Mask.ofTags (bit 2))) sample1 s ∧
    (outEdges s 0 (Mask.ofTags (bit 2))).1 = [.expl 0] := by
  refine ⟨(addEdge (outEdges sample1 0 (Mask.ofTags (bit 2))).2 sampleArgs2).2, ?_, by decide +kernel,
    ?_, by decide +kernel⟩
  · refine .step (s1 := sample0) (c := .add sampleArgs1) (.step (c := .append [97, 195, 169]) .refl trivial .append) trivial ?_
    exact .add (r := (addEdge sample0 sampleArgs1).1) (made_symbol sample0_reachable) rfl
      (by decide +kernel)
  · have h1 : Step sample1 (.out 0 (Mask.ofTags (bit 2))) (outEdges sample1 0 (Mask.ofTags (bit 2))).2 :=
      .out (by decide +kernel)
    have hr : Lattice.Spec.Reachable (outEdges sample1 0 (Mask.ofTags (bit 2))).2 :=
      .step sample1_reachable trivial h1
    refine .step (.step .refl ?_ h1) ?_ (.add (a := sampleArgs2)
      (r := (addEdge (outEdges sample1 0 (Mask.ofTags (bit 2))).2 sampleArgs2).1) (made_token hr) rfl
      (by decide +kernel))
    · intro s' _ e he hx
      cases e with
      | impl i => exact absurd hx (by simp [Explicit])
      | expl k =>
        have := present_expl.1 he
        have hl : sample1.edges.length = 0 := by decide +kernel
        omega
    · intro s' _ e he hx
      cases e with
      | impl i => exact absurd hx (by simp [Explicit])
      | expl k =>
        have := present_expl.1 he
        have hl : (outEdges sample1 0 (Mask.ofTags (bit 2))).2.edges.length = 0 := by decide +kernel
        omega

/-- The discarded edges are queried, then the token of `sample2` is discarded. -/
def stale1 : State := (outEdges sample2 0 (Mask.ofTags discardedTag)).2
def stale2 : State := (addEdge stale1 sampleArgs3).2

/-- **C05** fails of the code: an edge that comes to match a mask by merging is not found by a query
with this mask, if there has been a query with the mask before. -/
theorem C05_stale_index_false : ∃ (s : State) (v : Vertex) (mask : Mask) (e : Edge),
    Lattice.Spec.Reachable s ∧ ProperMask mask ∧ 0 ∉ mask.alts ∧ e ∈ s.allOutEdges v ∧
    «matches» (s.tags e) mask = true ∧ e ∉ (outEdges s v mask).1 := by
  have h1 : Lattice.Spec.Reachable stale1 :=
    .step sample2_reachable trivial (.out (v := 0) (mask := Mask.ofTags discardedTag) (by decide +kernel))
  refine ⟨stale2, 0, Mask.ofTags discardedTag, .expl 0, reachable_add h1 (made_discarded h1)
    (by decide +kernel), .alts [discardedTag], by decide +kernel, by decide +kernel,
    by decide +kernel, by decide +kernel⟩

/-- **C05** fails of the code: a mask with an empty alternative matches every edge, but implicit
symbol edges are not found. -/
theorem C05_empty_alternative_false : ∃ (s : State) (v : Vertex) (mask : Mask) (e : Edge),
    Lattice.Spec.Reachable s ∧ ProperMask mask ∧ e ∈ s.allOutEdges v ∧
    «matches» (s.tags e) mask = true ∧ e ∉ (outEdges s v mask).1 :=
  ⟨sample1, 0, Mask.ofAlts [0], .impl 0, sample1_reachable, .alts [0], by decide +kernel,
    by decide +kernel, by decide +kernel⟩

end Verif.Lattice
