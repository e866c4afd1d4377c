import Verif.Lattice.Outcome

/-!
Single edges: planes, keys that never belong to symbol edges, and the effect of a call.
-/
set_option linter.unusedVariables false
set_option linter.unusedSimpArgs false

namespace Verif.Lattice
open Verif Verif.Tags Verif.Tags.Spec Verif.Lattice.Spec

/-! ### Planes -/

theorem plane_bit_iff {m : Manager} (hm : Tags.Inv m) {t : TagSet} (ht : Okay m t) {j : Nat} {n : Str}
    (hn : m.names[j]? = some n) (hp : PlaneName n) :
    (onlyPlaneTags m t).getLsbD j = true ↔ Has m t n := by
  simp only [onlyPlaneTags, createIntersection, BitVec.getLsbD_and, Bool.and_eq_true]
  constructor
  · rintro ⟨_, h⟩; exact ⟨j, hn, h⟩
  · rintro ⟨i, hi2, h⟩
    have := nodup_get hm.1 hi2 hn
    subst this
    exact ⟨ht.2 i n h hn ((isPlaneName_iff n).2 hp), h⟩

theorem plane_ext {m : Manager} (hm : Tags.Inv m) {a b : TagSet} (ha : Okay m a) (hb : Okay m b)
    (h : ∀ n, PlaneName n → (Has m a n ↔ Has m b n)) : onlyPlaneTags m a = onlyPlaneTags m b := by
  apply BitVec.eq_of_getLsbD_eq
  intro j hj
  by_cases hp : m.planeTags.getLsbD j = true
  · obtain ⟨n, hn, hpn⟩ := hm.2 j hp
    rw [isPlaneName_iff] at hpn
    rw [Bool.eq_iff_iff, plane_bit_iff hm ha hn hpn, plane_bit_iff hm hb hn hpn]
    exact h n hpn
  · simp [onlyPlaneTags, createIntersection, hp]

theorem samePlane_iff {s : State} (hm : Tags.Inv s.mgr) {a b : TagSet} (ha : Okay s.mgr a)
    (hb : Okay s.mgr b) : areInTheSamePlane s.mgr a b = true ↔ SamePlane s a b := by
  rw [same_iff]
  refine ⟨?_, plane_ext hm ha hb⟩
  intro h n hp
  constructor
  · rintro ⟨i, hi, hbit⟩
    have h1 := (plane_bit_iff hm ha hi hp).2 ⟨i, hi, hbit⟩
    rw [h] at h1
    exact (plane_bit_iff hm hb hi hp).1 h1
  · rintro ⟨i, hi, hbit⟩
    have h1 := (plane_bit_iff hm hb hi hp).2 ⟨i, hi, hbit⟩
    rw [← h] at h1
    exact (plane_bit_iff hm ha hi hp).1 h1

theorem has_union {m : Manager} {a b : TagSet} {n : Str} :
    Has m (createUnion a b) n ↔ Has m a n ∨ Has m b n := by
  unfold Has createUnion
  constructor
  · rintro ⟨i, hi, hb⟩
    simp only [BitVec.getLsbD_or, Bool.or_eq_true] at hb
    exact hb.imp (fun h => ⟨i, hi, h⟩) (fun h => ⟨i, hi, h⟩)
  · rintro (⟨i, hi, hb⟩ | ⟨i, hi, hb⟩) <;> exact ⟨i, hi, by simp [hb]⟩

theorem has_plane {m : Manager} (hm : Tags.Inv m) {a : TagSet} (ha : Okay m a) {n : Str}
    (hp : PlaneName n) : Has m (onlyPlaneTags m a) n ↔ Has m a n := by
  constructor
  · rintro ⟨i, hi, hb⟩; exact (plane_bit_iff hm ha hi hp).1 hb
  · rintro ⟨i, hi, hb⟩; exact ⟨i, hi, (plane_bit_iff hm ha hi hp).2 ⟨i, hi, hb⟩⟩

theorem has_zero {m : Manager} {n : Str} : ¬ Has m 0 n := by
  rintro ⟨i, _, h⟩; simp at h

theorem plane_zero_iff {m : Manager} (hm : Tags.Inv m) {a : TagSet} (ha : Okay m a) :
    onlyPlaneTags m a = 0 ↔ ∀ n, PlaneName n → ¬ Has m a n := by
  constructor
  · intro h n hp hh
    have := (has_plane hm ha hp).2 hh
    rw [h] at this
    exact has_zero this
  · intro h
    have := plane_ext hm ha (okay_zero m) (fun n hp => ⟨fun x => absurd x (h n hp), fun x => absurd x has_zero⟩)
    rw [this]; simp [onlyPlaneTags, createIntersection]

theorem has_gather {s : State} (hm : Tags.Inv s.mgr) {n : Str} (hp : PlaneName n) (l : List Usage)
    (hl : ∀ u ∈ l, Okay s.mgr (s.tags u.edge)) (t : TagSet) :
    Has s.mgr (l.foldl (fun t u => createUnion t (onlyPlaneTags s.mgr (s.tags u.edge))) t) n ↔
      Has s.mgr t n ∨ ∃ u ∈ l, Has s.mgr (s.tags u.edge) n := by
  induction l generalizing t with
  | nil => simp
  | cons u l ih =>
    rw [List.foldl_cons, ih (fun u hu => hl u (List.mem_cons_of_mem _ hu)), has_union,
      has_plane hm (hl u (by simp)) hp]
    simp only [List.mem_cons, exists_eq_or_imp, or_assoc]

/-- The plane tags of an annotation. -/
theorem has_inherit {s : State} (hi : Inv s) {a : Args} (ha : Okay s.mgr a.tags)
    (hq : s.validSequence a.seq = true) {n : Str} (hp : PlaneName n) :
    Has s.mgr (inheritTags s a).tags n ↔ NewPlane s a n := by
  have hm := hi.mgrInv
  unfold inheritTags NewPlane
  dsimp only
  split
  · rename_i h0
    rw [plane_zero_iff hm ha] at h0
    rw [has_union]
    unfold gatherPlaneTags
    rw [has_gather hm hp _ (fun u hu => hi.tagsOkay (validSequence_edges hq u hu))]
    simp only [has_zero, false_or]
    constructor
    · rintro (h | h)
      · exact Or.inl h
      · exact Or.inr ⟨h0, h⟩
    · rintro (h | h)
      · exact Or.inl h
      · exact Or.inr h.2
  · rename_i h0
    rw [plane_zero_iff hm ha] at h0
    constructor
    · exact Or.inl
    · rintro (h | h)
      · exact h
      · exact absurd h.1 h0

/-- Plane tags are neither "symbol" nor "discarded". -/
theorem plane_low {s : State} (hi : Inv s) {j : Nat} (hj : j < 3) : s.mgr.planeTags.getLsbD j = false := by
  cases hb : s.mgr.planeTags.getLsbD j with
  | false => rfl
  | true =>
    exfalso
    obtain ⟨n, hn, hp⟩ := hi.mgrInv.2 j hb
    obtain ⟨t, ht⟩ := hi.names
    rw [← ht] at hn
    match j, hj with
    | 0, _ => simp at hn; subst hn; simp [isPlaneName] at hp
    | 1, _ => simp at hn; subst hn; simp [isPlaneName, discardedName] at hp
    | 2, _ => simp at hn; subst hn; simp [isPlaneName, tokenName] at hp

theorem onlyPlane_low {s : State} (hi : Inv s) {j : Nat} (hj : j < 3) (t : TagSet) :
    (onlyPlaneTags s.mgr t).getLsbD j = false := by
  simp [onlyPlaneTags, createIntersection, plane_low hi hj]

theorem gather_low {s : State} (hi : Inv s) {j : Nat} (hj : j < 3) (q : Sequence) :
    (gatherPlaneTags s q).getLsbD j = false := by
  unfold gatherPlaneTags
  suffices h : ∀ (l : List Usage) (t : TagSet), t.getLsbD j = false →
      (l.foldl (fun t u => createUnion t (onlyPlaneTags s.mgr (s.tags u.edge))) t).getLsbD j = false by
    exact h _ 0 (by simp)
  intro l
  induction l with
  | nil => intro t ht; exact ht
  | cons u l ih =>
    intro t ht
    rw [List.foldl_cons]
    apply ih
    simp [createUnion, ht, onlyPlane_low hi hj]

theorem inherit_low {s : State} (hi : Inv s) {j : Nat} (hj : j < 3) (a : Args) :
    (inheritTags s a).tags.getLsbD j = a.tags.getLsbD j := by
  unfold inheritTags
  dsimp only
  split
  · simp [createUnion, gather_low hi hj]
  · rfl

theorem symbolTag_bits (j : Nat) : symbolTag.getLsbD j = decide (0 = j) := getLsbD_bit (by omega) j

/-- Adding tags other than bit 0 to a collection cannot give just the symbol tag. -/
theorem union_symbol {t g : TagSet} (hg : g.getLsbD 0 = false) (h : createUnion t g = symbolTag) :
    t = symbolTag := by
  apply BitVec.eq_of_getLsbD_eq
  intro j hj
  have h1 := congrArg (fun x : TagSet => x.getLsbD j) h
  simp only [createUnion, BitVec.getLsbD_or, symbolTag_bits] at h1
  rw [symbolTag_bits]
  by_cases h0 : 0 = j
  · subst h0; rw [hg] at h1; simpa using h1
  · simp [h0] at h1 ⊢; exact h1.1

theorem inherit_symbol {s : State} (hi : Inv s) {a : Args} (h : (inheritTags s a).tags = symbolTag) :
    a.tags = symbolTag := by
  unfold inheritTags at h
  dsimp only at h
  split at h
  · exact union_symbol (gather_low hi (by omega) _) h
  · exact h

/-! ### Steps -/

/-- A step is a call of `addEdge` or leaves the edges alone. -/
inductive StepKind (s : State) (c : Call) (s' : State) : Prop
  | annotate (a : Args) (r : Except Exn Edge) : Annotates s c a → addEdge s a = (r, s') →
      r ≠ .error .undefined → Okay s.mgr a.tags → StepKind s c s'
  | other : s'.edges = s.edges → s'.vvc = s.vvc → s'.counter = s.counter →
      (∀ i, bitAt s'.implicit i = bitAt s.implicit i) → StepKind s c s'

theorem partition_kind {s : State} {c : Call} {e : Edge} {t : TagSet} {q : Sequence} {x : Score}
    {i j : Int} (hi : Inv s) {r : Except Exn Edge} {s' : State} (ho : Okay s.mgr t)
    (ha : ∀ item, s.item e = .ok item → Annotates s c ⟨s.src e, s.tgt e, item,
        Tags.createUnion t (Tags.onlyPlaneTags s.mgr (s.tags e)), q, x, i, j⟩)
    (h : addPartitionToEdge s e t q x i j = (r, s')) (hr : r ≠ .error .undefined) :
    StepKind s c s' := by
  unfold addPartitionToEdge at h
  split at h
  · rename_i hv
    split at h
    · simp only [Prod.mk.injEq] at h
      obtain ⟨rfl, rfl⟩ := h
      exact .other rfl rfl rfl (fun _ => rfl)
    · rename_i item hit
      exact .annotate _ r (ha item hit) h hr (ho.union (hi.tagsOkay hv).plane)
  · simp only [Prod.mk.injEq] at h
    exact absurd h.1.symm hr

theorem step_kind {s s' : State} {c : Call} (hi : Inv s) (h : Step s c s') : StepKind s c s' := by
  cases h with
  | append =>
    refine .other rfl rfl rfl ?_
    intro i
    exact bitAt_resize_eq (by rw [hi.implicitLen]; simp)
  | loose => exact .other rfl rfl rfl (fun _ => rfl)
  | @add a r _ hm h1 h2 => exact .annotate a r .add h1 h2 (okay_of_made hm)
  | @addPartition e t q x i j r _ hm h1 h2 =>
    exact partition_kind hi (okay_of_made hm) (fun item hit => .addPartition hit) h1 h2
  | @discard e r _ h1 h2 =>
    exact partition_kind hi hi.discardedOkay (fun item hit => .discard hit) h1 h2
  | @out v mask hv =>
    have := quiet_outEdges s v mask
    exact .other this.alike.edges this.alike.vvc this.counter (fun i => by rw [this.implicit])
  | @into v mask hv =>
    have := quiet_inEdges s v mask
    exact .other this.alike.edges this.alike.vvc this.counter (fun i => by rw [this.implicit])
  | manager hl => exact .other rfl rfl rfl (fun _ => rfl)

/-- What `addNewRest` does to `vvcHash_`. -/
theorem addNewRest_cases (s : State) (b : Args) :
    (implicitCondition s b = true ∧ addNewRest s b = addImplicit s b) ∨
    (implicitCondition s b = false ∧ addNewRest s b = addExplicit s b) := by
  unfold addNewRest
  cases h : implicitCondition s b <;> simp

theorem implicitCondition_tags {s : State} {b : Args} (h : implicitCondition s b = true) :
    b.tags = symbolTag := by
  simp only [implicitCondition, Bool.and_eq_true, decide_eq_true_eq] at h
  exact h.1.1.2

/-! ### Keys that do not belong to symbol edges -/

/-- No symbol edge was recorded for this key. -/
def Plain (s : State) (key : Key) : Prop := ∀ i, (key, Edge.impl i) ∉ s.vvc

theorem plain_of_span {s : State} (hi : Inv s) {key : Key} (h : ¬ SymbolSpan s key.src key.tgt) :
    Plain s key := by
  intro i hm
  obtain ⟨c1, c2, c3⟩ := hi.vvcImpl key i hm
  have hp := symLen_pos s i
  apply h
  refine ⟨by omega, by omega, ?_⟩
  have : key.src.toNat = i := by omega
  rw [c2, c1, this.symm]
  simp [this]

theorem newOutcome_vvc {s : State} {b : Args} {r : Except Exn Edge × State} (h : NewOutcome s b r)
    {key : Key} {i : Nat} (hm : (key, Edge.impl i) ∈ r.2.vvc) :
    (key, Edge.impl i) ∈ s.vvc ∨ (key = b.key ∧ b.tags = symbolTag) := by
  cases h with
  | failed hmid _ _ => left; rw [← hmid.alike.vvc]; exact hm
  | @added s1 hmid =>
    rcases addNewRest_cases s1 b with ⟨hc, he⟩ | ⟨hc, he⟩
    · rw [he] at hm
      simp only [addImplicit, List.mem_append, List.mem_singleton, Prod.mk.injEq] at hm
      rcases hm with hm | hm
      · left; rw [← hmid.alike.vvc]; exact hm
      · exact Or.inr ⟨hm.1, implicitCondition_tags hc⟩
    · rw [he] at hm
      simp only [addExplicit, List.mem_append, List.mem_singleton, Prod.mk.injEq, reduceCtorEq,
        and_false, or_false] at hm
      left; rw [← hmid.alike.vvc]; exact hm

theorem outcome_vvc {s : State} {b : Args} {r : Except Exn Edge × State} (h : Outcome s b r)
    {key : Key} {i : Nat} (hm : (key, Edge.impl i) ∈ r.2.vvc) :
    (key, Edge.impl i) ∈ s.vvc ∨ (key = b.key ∧ b.tags = symbolTag) ∨
      (key = b.key ∧ ∃ j, (key, Edge.impl j) ∈ s.vvc) := by
  cases h with
  | rejected hq _ => left; rw [← hq.alike.vvc]; exact hm
  | merged hq _ _ _ => left; rw [← hq.alike.vvc]; exact hm
  | new _ _ hn =>
    rcases newOutcome_vvc hn hm with h | h
    · exact Or.inl h
    · exact Or.inr (Or.inl h)
  | @promoted s1 _ j _ he _ _ _ hmid hn =>
    rcases newOutcome_vvc hn hm with h | h
    · left; rw [← hmid.alike.vvc]; exact h
    · right; right
      have hk : key = b.key := h.1
      refine ⟨hk, j, ?_⟩
      rw [hk]; exact inv_vvcEntry_mem.1 (isoplanar_mem he).1

theorem plain_run {s s0 : State} {key : Key} (hi : Inv s0) (h0 : Plain s0 key)
    (h : Run (NeverSymbol key) s0 s) : Plain s key := by
  induction h with
  | refl => exact h0
  | @step s1 s2 c hr hp hs ih =>
    intro i hm
    have hi1 := inv_micros hi (run_micros hi hr)
    cases step_kind hi1 hs with
    | other _ hv _ _ => rw [hv] at hm; exact ih i hm
    | annotate a r ha he _ ho =>
      have hout := addEdge_outcome hi1 ho
      rw [he] at hout
      rcases outcome_vvc hout hm with h | ⟨h1, h2⟩ | ⟨h1, j, h2⟩
      · exact ih i h
      · subst h1
        exact hp a ha rfl rfl rfl (inherit_symbol hi1 h2)
      · exact ih j h2

theorem plain_of_ordinary {s : State} (h : Lattice.Spec.Reachable s) {key : Key}
    (ho : Ordinary s key) : Plain s key := by
  rcases ho with ho | ho
  · exact plain_of_span (reachable_inv' h) ho
  · exact plain_run inv_initial (by intro i; simp [initial]) ho

/-- The edge found for a plain key that some edge has already. -/
theorem isoplanar_plain {s : State} (hi : Inv s) {k : Nat} (hk : k < s.edges.length) {t : TagSet}
    (hp : Plain s (s.entry k).key) (ht : areInTheSamePlane s.mgr t (s.entry k).tags = true) :
    s.isoplanar (s.entry k).key t = some (.expl k) := by
  have hmem : Edge.expl k ∈ s.vvcEntry (s.entry k).key := inv_vvcEntry_mem.2 (hi.vvcAll k hk)
  cases h : s.isoplanar (s.entry k).key t with
  | none => exact absurd ht (find?_none_all h _ hmem)
  | some e =>
    obtain ⟨h1, h2⟩ := isoplanar_mem h
    have h1 := inv_vvcEntry_mem.1 h1
    cases e with
    | impl i => exact absurd h1 (hp i)
    | expl j =>
      obtain ⟨c1, c2⟩ := hi.vvcExpl _ _ h1
      have : areInTheSamePlane s.mgr (s.entry j).tags (s.entry k).tags = true := by
        rw [same_iff] at ht h2 ⊢
        exact h2.symm.trans ht
      rcases hi.unique j k c1 hk c2.symm this with h3 | ⟨i, h3⟩
      · rw [h3]
      · exact absurd h3 (hp i)

end Verif.Lattice
