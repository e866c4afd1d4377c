import Verif.Lattice.Spec
import Verif.Tags.Lemmas
import Verif.Utf8.Lemmas
import Mathlib.Algebra.Order.Ring.Rat
import Mathlib.Tactic.Linarith

/-!
The calls split into elementary changes, the invariant of a lattice and its growth.
-/
set_option linter.unusedVariables false
set_option linter.unusedSimpArgs false

namespace Verif.Lattice
open Verif Verif.Tags Verif.Tags.Spec Verif.Lattice.Spec

/-! ## Tags -/

/-- What is known of a collection made with the manager. -/
def Okay (m : Manager) (t : TagSet) : Prop :=
  (∀ j, t.getLsbD j = true → ∃ n, m.names[j]? = some n) ∧
  (∀ j n, t.getLsbD j = true → m.names[j]? = some n → isPlaneName n = true →
    m.planeTags.getLsbD j = true)

theorem okay_of_made {m : Manager} {t : TagSet} (h : Made m t) : Okay m t := (made_spec h).2

theorem Okay.union {m : Manager} {a b : TagSet} (ha : Okay m a) (hb : Okay m b) :
    Okay m (createUnion a b) := by
  refine ⟨?_, ?_⟩
  · intro j hj
    simp only [createUnion, BitVec.getLsbD_or, Bool.or_eq_true] at hj
    exact hj.elim (ha.1 j) (hb.1 j)
  · intro j n hj
    simp only [createUnion, BitVec.getLsbD_or, Bool.or_eq_true] at hj
    exact hj.elim (ha.2 j n) (hb.2 j n)

theorem Okay.mono {m : Manager} {a b : TagSet} (hb : Okay m b) (h : SubTags a b) : Okay m a :=
  ⟨fun j hj => hb.1 j (h j hj), fun j n hj => hb.2 j n (h j hj)⟩

theorem Okay.plane {m : Manager} {a : TagSet} (ha : Okay m a) : Okay m (onlyPlaneTags m a) :=
  ha.mono (fun i hi => by simp [onlyPlaneTags, createIntersection] at hi; exact hi.2)

theorem okay_zero (m : Manager) : Okay m 0 := ⟨by simp, by simp⟩

/-- Planes do not change as the manager grows. -/
theorem plane_later {m m' : Manager} {t : TagSet} (ht : Okay m t) (hm : Inv m) (hl : Later m m') :
    onlyPlaneTags m' t = onlyPlaneTags m t := by
  obtain ⟨hi, hg⟩ := later_spec hl hm
  apply BitVec.eq_of_getLsbD_eq
  intro j hj
  simp only [onlyPlaneTags, createIntersection, BitVec.getLsbD_and]
  cases htj : t.getLsbD j with
  | false => simp
  | true =>
    simp only [Bool.and_true]
    obtain ⟨n, hn⟩ := ht.1 j htj
    rw [Bool.eq_iff_iff]
    constructor
    · intro h
      obtain ⟨n', hn', hp⟩ := hi.2 j h
      rw [hg.get hn] at hn'
      cases hn'
      exact ht.2 j n htj hn hp
    · exact hg.2 j

theorem Okay.later {m m' : Manager} {t : TagSet} (ht : Okay m t) (hm : Inv m) (hl : Later m m') :
    Okay m' t := by
  obtain ⟨hi, hg⟩ := later_spec hl hm
  refine ⟨fun j hj => ?_, fun j n hj hn hp => ?_⟩
  · obtain ⟨n, hn⟩ := ht.1 j hj
    exact ⟨n, hg.get hn⟩
  · obtain ⟨n', hn'⟩ := ht.1 j hj
    have := hg.get hn'
    rw [hn] at this
    cases this
    exact hg.2 j (ht.2 j n hj hn' hp)

theorem plane_union (m : Manager) (a b : TagSet) :
    onlyPlaneTags m (createUnion a b) = onlyPlaneTags m a ||| onlyPlaneTags m b := by
  apply BitVec.eq_of_getLsbD_eq
  intro j hj
  simp only [onlyPlaneTags, createIntersection, createUnion, BitVec.getLsbD_and, BitVec.getLsbD_or]
  cases m.planeTags.getLsbD j <;> simp

/-- Merging with a collection of the same plane stays in the plane. -/
theorem plane_union_same {m : Manager} {a b : TagSet} (h : onlyPlaneTags m a = onlyPlaneTags m b) :
    onlyPlaneTags m (createUnion a b) = onlyPlaneTags m a := by
  rw [plane_union, h, BitVec.or_self]

theorem same_iff (m : Manager) (a b : TagSet) :
    areInTheSamePlane m a b = true ↔ onlyPlaneTags m a = onlyPlaneTags m b := by
  simp [areInTheSamePlane]

theorem Mask.eq_refl (m : Mask) : m.eq m = true := by
  unfold Mask.eq
  cases m.any <;> cases m.none_ <;> simp

theorem matches_mono {a b : TagSet} {mask : Mask} (h : SubTags a b)
    (hm : «matches» a mask = true) : «matches» b mask = true := by
  rw [matches_iff] at hm ⊢
  refine ⟨hm.1, hm.2.imp id ?_⟩
  rintro ⟨alt, ha, hs⟩
  exact ⟨alt, ha, fun j hj => h j (hs j hj)⟩

theorem matches_of_eq {a b : Mask} (ha : a.any = false) (hb : b.any = false) (h : a.eq b = true)
    (t : TagSet) : «matches» t a = «matches» t b := by
  unfold Mask.eq at h
  unfold «matches»
  cases h3 : a.none_ <;> cases h4 : b.none_ <;> simp_all

theorem subTags_refl (a : TagSet) : SubTags a a := fun _ h => h
theorem subTags_left (a b : TagSet) : SubTags a (createUnion a b) := by
  intro i hi; simp [createUnion, hi]
theorem subTags_right (a b : TagSet) : SubTags b (createUnion a b) := by
  intro i hi; simp [createUnion, hi]

theorem subTags_eq {a b : TagSet} (h : SubTags b a) : createUnion a b = a := by
  apply BitVec.eq_of_getLsbD_eq
  intro j hj
  simp only [createUnion, BitVec.getLsbD_or]
  cases hb : b.getLsbD j with
  | false => simp
  | true => simp [h j hb]

/-! ## Elementary changes -/

/-- The tags of the edge after merging. -/
def mergedTags (old new : TagSet) : TagSet := if new ≠ old then createUnion old new else new

theorem mergedTags_eq (old new : TagSet) : mergedTags old new = createUnion old new := by
  unfold mergedTags
  split
  · rfl
  · rename_i h
    have : new = old := by simpa using h
    subst this
    exact (subTags_eq (subTags_refl _)).symm

theorem mergedWithImplicit_eq (t : TagSet) : mergedWithImplicit t = createUnion symbolTag t :=
  mergedTags_eq symbolTag t

/-- The conditions under which `addEdge` creates an edge of the graph. -/
structure CanAdd (s : State) (a : Args) : Prop where
  src : s.validVertex a.src = true
  tgt : s.validVertex a.tgt = true
  loop : a.src ≠ a.tgt
  forward : ¬ (0 ≤ a.src ∧ 0 ≤ a.tgt ∧ a.src > a.tgt)
  okay : Okay s.mgr a.tags
  fresh : (∀ e ∈ s.vvcEntry a.key, ¬ areInTheSamePlane s.mgr a.tags (s.tags e) = true) ∨
    ∃ i, .impl i ∈ s.vvcEntry a.key

/-- The elementary changes of a lattice. -/
inductive Micro : State → State → Prop
  | append (s t) : Micro s (appendString s t)
  | loose (s) : Micro s (addLooseVertex s).2
  | manager (s m) : Later s.mgr m → Micro s { s with mgr := m }
  | register (s mask) : mask.any = false → Micro s (addTagMaskIndex s mask)
  | visible (s : State) (i : Nat) : Micro s { s with visible := s.visible.set i true }
  | bump (s u v) : Micro s (bumpCounter s u v)
  | clear (s : State) (i : Nat) : Micro s { s with implicit := s.implicit.set i false }
  | addImplicit (s a) : s.validVertex a.tgt = true → implicitCondition s a = true →
      Micro s (addImplicit s a).2
  | addExplicit (s a) : CanAdd s a → Micro s (addExplicit s a).2
  | merge (s k a) : s.isoplanar a.key a.tags = some (.expl k) → Okay s.mgr a.tags →
      Micro s (mergeInto s k a)

/-- Several elementary changes. -/
inductive Micros : State → State → Prop
  | refl (s) : Micros s s
  | step {s s1 s2} : Micros s s1 → Micro s1 s2 → Micros s s2

theorem Micros.single {s s' : State} (h : Micro s s') : Micros s s' := .step (.refl _) h

theorem Micros.trans {a b c : State} (h : Micros a b) (h' : Micros b c) : Micros a c := by
  induction h' with
  | refl => exact h
  | step _ h2 ih => exact .step ih h2

/-! ## Indexing a mask -/

@[simp] theorem register_text (s : State) (m) : (addTagMaskIndex s m).text = s.text := by
  unfold addTagMaskIndex; split <;> rfl
@[simp] theorem register_implicit (s : State) (m) : (addTagMaskIndex s m).implicit = s.implicit := by
  unfold addTagMaskIndex; split <;> rfl
@[simp] theorem register_hidden (s : State) (m) : (addTagMaskIndex s m).hidden = s.hidden := by
  unfold addTagMaskIndex; split <;> rfl
@[simp] theorem register_visible (s : State) (m) : (addTagMaskIndex s m).visible = s.visible := by
  unfold addTagMaskIndex; split <;> rfl
@[simp] theorem register_verts (s : State) (m) : (addTagMaskIndex s m).verts = s.verts := by
  unfold addTagMaskIndex; split <;> rfl
@[simp] theorem register_nLoose (s : State) (m) : (addTagMaskIndex s m).nLoose = s.nLoose := by
  unfold addTagMaskIndex; split <;> rfl
@[simp] theorem register_edges (s : State) (m) : (addTagMaskIndex s m).edges = s.edges := by
  unfold addTagMaskIndex; split <;> rfl
@[simp] theorem register_vvc (s : State) (m) : (addTagMaskIndex s m).vvc = s.vvc := by
  unfold addTagMaskIndex; split <;> rfl
@[simp] theorem register_counter (s : State) (m) : (addTagMaskIndex s m).counter = s.counter := by
  unfold addTagMaskIndex; split <;> rfl
@[simp] theorem register_mgr (s : State) (m) : (addTagMaskIndex s m).mgr = s.mgr := by
  unfold addTagMaskIndex; split <;> rfl

/-- Two states that differ at most in the mask index, the visible bits and the counters. -/
structure Alike (s s' : State) : Prop where
  text : s'.text = s.text
  hidden : s'.hidden = s.hidden
  nLoose : s'.nLoose = s.nLoose
  edges : s'.edges = s.edges
  vvc : s'.vvc = s.vvc
  mgr : s'.mgr = s.mgr

theorem Alike.refl (s : State) : Alike s s := ⟨rfl, rfl, rfl, rfl, rfl, rfl⟩
theorem Alike.trans {a b c : State} (h : Alike a b) (h' : Alike b c) : Alike a c :=
  ⟨h'.1.trans h.1, h'.2.trans h.2, h'.3.trans h.3, h'.4.trans h.4, h'.5.trans h.5, h'.6.trans h.6⟩

theorem Alike.entry {s s' : State} (h : Alike s s') (k : Nat) : s'.entry k = s.entry k := by
  unfold State.entry; rw [h.edges]
theorem Alike.tags {s s' : State} (h : Alike s s') (e : Edge) : s'.tags e = s.tags e := by
  cases e with
  | impl i => rfl
  | expl k => exact congrArg Entry.tags (h.entry k)
theorem Alike.vvcEntry {s s' : State} (h : Alike s s') (key : Key) :
    s'.vvcEntry key = s.vvcEntry key := by unfold State.vvcEntry; rw [h.vvc]
theorem Alike.isoplanar {s s' : State} (h : Alike s s') (key : Key) (t : TagSet) :
    s'.isoplanar key t = s.isoplanar key t := by
  unfold State.isoplanar
  rw [h.vvcEntry, h.mgr]
  congr 1
  funext e
  rw [h.tags]
theorem Alike.validVertex {s s' : State} (h : Alike s s') (v : Vertex) :
    s'.validVertex v = s.validVertex v := by
  unfold State.validVertex; rw [h.nLoose, h.text]
theorem Alike.symLen {s s' : State} (h : Alike s s') (i : Nat) : s'.symLen i = s.symLen i := by
  unfold State.symLen; rw [h.text]

theorem alike_register (s : State) (m : Mask) : Alike s (addTagMaskIndex s m) :=
  ⟨by simp, by simp, by simp, by simp, by simp, by simp⟩

theorem Alike.canAdd {s s' : State} (h : Alike s s') {a : Args} (hc : CanAdd s a) : CanAdd s' a := by
  refine ⟨?_, ?_, hc.loop, hc.forward, ?_, ?_⟩
  · rw [h.validVertex]; exact hc.src
  · rw [h.validVertex]; exact hc.tgt
  · rw [h.mgr]; exact hc.okay
  · rw [h.vvcEntry, h.mgr]
    rcases hc.fresh with h1 | h1
    · left; intro e he; rw [h.tags]; exact h1 e he
    · right; exact h1

/-- A state with the symbol mask indexed and some positions made visible. -/
theorem outEdges_state (s : State) (v : Vertex) (mask : Mask) :
    (outEdges s v mask).2 = s ∨ (mask.any = false ∧ (outEdges s v mask).2 = addTagMaskIndex s mask) := by
  unfold outEdges
  split
  · exact Or.inl rfl
  · rename_i h; exact Or.inr ⟨by simpa using h, rfl⟩

theorem inEdges_state (s : State) (v : Vertex) (mask : Mask) :
    (inEdges s v mask).2 = s ∨ (mask.any = false ∧ (inEdges s v mask).2 = addTagMaskIndex s mask) := by
  unfold inEdges
  split
  · exact Or.inl rfl
  · rename_i h
    refine Or.inr ⟨by simpa using h, ?_⟩
    dsimp only
    split <;> rfl

theorem micros_outEdges (s : State) (v : Vertex) (mask : Mask) : Micros s (outEdges s v mask).2 := by
  rcases outEdges_state s v mask with h | ⟨h1, h⟩ <;> rw [h]
  · exact .refl _
  · exact .single (.register _ _ h1)

theorem micros_inEdges (s : State) (v : Vertex) (mask : Mask) : Micros s (inEdges s v mask).2 := by
  rcases inEdges_state s v mask with h | ⟨h1, h⟩ <;> rw [h]
  · exact .refl _
  · exact .single (.register _ _ h1)

theorem alike_outEdges (s : State) (v : Vertex) (mask : Mask) : Alike s (outEdges s v mask).2 := by
  rcases outEdges_state s v mask with h | ⟨h1, h⟩ <;> rw [h]
  · exact .refl _
  · exact alike_register _ _

theorem alike_inEdges (s : State) (v : Vertex) (mask : Mask) : Alike s (inEdges s v mask).2 := by
  rcases inEdges_state s v mask with h | ⟨h1, h⟩ <;> rw [h]
  · exact .refl _
  · exact alike_register _ _

theorem implicit_outEdges (s : State) (v : Vertex) (mask : Mask) :
    (outEdges s v mask).2.implicit = s.implicit := by
  rcases outEdges_state s v mask with h | ⟨h1, h⟩ <;> rw [h]
  simp

theorem implicit_inEdges (s : State) (v : Vertex) (mask : Mask) :
    (inEdges s v mask).2.implicit = s.implicit := by
  rcases inEdges_state s v mask with h | ⟨h1, h⟩ <;> rw [h]
  simp

theorem counter_outEdges (s : State) (v : Vertex) (mask : Mask) :
    (outEdges s v mask).2.counter = s.counter := by
  rcases outEdges_state s v mask with h | ⟨h1, h⟩ <;> rw [h]
  simp

theorem counter_inEdges (s : State) (v : Vertex) (mask : Mask) :
    (inEdges s v mask).2.counter = s.counter := by
  rcases inEdges_state s v mask with h | ⟨h1, h⟩ <;> rw [h]
  simp

/-- What a state change that only concerns masks and visible bits keeps. -/
structure Quiet (s s' : State) : Prop where
  micros : Micros s s'
  alike : Alike s s'
  implicit : s'.implicit = s.implicit
  counter : s'.counter = s.counter

theorem Quiet.refl (s : State) : Quiet s s := ⟨.refl _, .refl _, rfl, rfl⟩
theorem Quiet.trans {a b c : State} (h : Quiet a b) (h' : Quiet b c) : Quiet a c :=
  ⟨h.1.trans h'.1, h.2.trans h'.2, h'.3.trans h.3, h'.4.trans h.4⟩

theorem quiet_outEdges (s : State) (v : Vertex) (mask : Mask) : Quiet s (outEdges s v mask).2 :=
  ⟨micros_outEdges s v mask, alike_outEdges s v mask, implicit_outEdges s v mask,
    counter_outEdges s v mask⟩

theorem quiet_inEdges (s : State) (v : Vertex) (mask : Mask) : Quiet s (inEdges s v mask).2 :=
  ⟨micros_inEdges s v mask, alike_inEdges s v mask, implicit_inEdges s v mask,
    counter_inEdges s v mask⟩

theorem quiet_visible (s : State) (i : Nat) : Quiet s { s with visible := s.visible.set i true } :=
  ⟨.single (.visible s i), ⟨rfl, rfl, rfl, rfl, rfl, rfl⟩, rfl, rfl⟩

theorem quiet_register (s : State) (mask : Mask) (h : mask.any = false) :
    Quiet s (addTagMaskIndex s mask) :=
  ⟨.single (.register s mask h), alike_register s mask, by simp, by simp⟩

theorem quiet_updateVisibleIn (s : State) (t : Vertex) : Quiet s (updateVisibleIn s t).2 := by
  unfold updateVisibleIn
  have h := quiet_inEdges s t symbolMask
  split
  · rename_i e s1 h1; rw [h1] at h; exact h
  · rename_i s1 h1; rw [h1] at h; exact h
  · rename_i e es s1 h1
    rw [h1] at h
    split
    · exact h
    · exact h.trans (quiet_visible _ _)

theorem quiet_updateVisible (s : State) (f t : Vertex) : Quiet s (updateVisible s f t).2 := by
  unfold updateVisible
  have h := quiet_outEdges s f symbolMask
  split
  · rename_i s1 h1; rw [h1] at h; exact h
  · rename_i e es s1 h1
    rw [h1] at h
    split
    · exact h
    · exact (h.trans (quiet_visible _ _)).trans (quiet_updateVisibleIn _ _)

theorem quiet_sequenceContains (s : State) (q : Sequence) (e : Edge) :
    Quiet s (sequenceContains s q e).2 := by
  unfold sequenceContains
  repeat' split
  · exact quiet_register s symbolMask rfl
  · exact .refl _
  · exact .refl _

/-! ## Calls as elementary changes -/

theorem addNewRest_micro {s : State} {a : Args} (h : CanAdd s a) : Micro s (addNewRest s a).2 := by
  unfold addNewRest
  split
  · rename_i hc; exact .addImplicit s a h.tgt hc
  · exact .addExplicit s a h

theorem alike_bump (s : State) (u v : Vertex) : Alike s (bumpCounter s u v) :=
  ⟨rfl, rfl, rfl, rfl, rfl, rfl⟩

theorem addNew_micros {s : State} {a : Args} (h : CanAdd s a) : Micros s (addNew s a).2 := by
  unfold addNew
  have hb : Micros s (bumpCounter s a.src a.tgt) := .single (.bump _ _ _)
  have hab := alike_bump s a.src a.tgt
  dsimp only
  split
  · have hq := quiet_updateVisible (bumpCounter s a.src a.tgt) a.src a.tgt
    split
    · rename_i e s1 h1; rw [h1] at hq; exact hb.trans hq.micros
    · rename_i x s1 h1; rw [h1] at hq
      exact (hb.trans hq.micros).step (addNewRest_micro ((hab.trans hq.alike).canAdd h))
  · exact hb.step (addNewRest_micro (hab.canAdd h))

theorem find?_none_all {s : State} {key : Key} {t : TagSet} (h : s.isoplanar key t = none) :
    ∀ e ∈ s.vvcEntry key, ¬ areInTheSamePlane s.mgr t (s.tags e) = true := by
  unfold State.isoplanar at h
  rw [List.find?_eq_none] at h
  exact h

theorem isoplanar_mem {s : State} {key : Key} {t : TagSet} {e : Edge}
    (h : s.isoplanar key t = some e) :
    e ∈ s.vvcEntry key ∧ areInTheSamePlane s.mgr t (s.tags e) = true := by
  unfold State.isoplanar at h
  exact ⟨List.mem_of_find?_eq_some h, by simpa using List.find?_some h⟩

theorem okay_symbol {s : State} (h : [115, 121, 109, 98, 111, 108] ∈ s.mgr.names.head?) :
    Okay s.mgr symbolTag := by
  have hn : s.mgr.names[0]? = some [115, 121, 109, 98, 111, 108] := by
    rw [← List.head?_eq_getElem?]; exact h
  have hb : ∀ j, symbolTag.getLsbD j = decide (0 = j) := getLsbD_bit (by omega)
  refine ⟨?_, ?_⟩
  · intro j hj
    rw [hb] at hj
    have : 0 = j := by simpa using hj
    subst this
    exact ⟨_, hn⟩
  · intro j n hj hn' hp
    rw [hb] at hj
    have : 0 = j := by simpa using hj
    subst this
    rw [hn] at hn'
    cases hn'
    simp [isPlaneName] at hp

end Verif.Lattice
