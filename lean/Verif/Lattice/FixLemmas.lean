import Verif.Lattice.FixSpec
import Verif.Lattice.CutLemmas
import Verif.Utf8.Boundary

/-!
Lemmas on the corrections of the text of a lattice.
-/
set_option linter.unusedVariables false
set_option linter.unusedSimpArgs false

namespace Verif.Lattice
open Verif Verif.Tags Verif.Tags.Spec Verif.Lattice.Spec

/-! ## Changes that leave the text and the symbols alone -/

/-- `s'` comes from `s` by calls that leave the text and the implicit edges alone. -/
structure Keep (s s' : State) : Prop where
  steps : Steps s s'
  text : s'.text = s.text
  implicit : s'.implicit = s.implicit

theorem Keep.refl (s : State) : Keep s s := ⟨.refl, rfl, rfl⟩
theorem Keep.trans {a b c : State} (h : Keep a b) (h' : Keep b c) : Keep a c :=
  ⟨steps_trans h.steps h'.steps, h'.text.trans h.text, h'.implicit.trans h.implicit⟩
theorem Calm.keep {s s' : State} (h : Calm s s') : Keep s s' := ⟨h.steps, h.text, h.implicit⟩

theorem keep_loose (s : State) : Keep s (addLooseVertex s).2 := ⟨.step .refl trivial .loose, rfl, rfl⟩

theorem Keep.inv {s s' : State} (hi : Inv s) (h : Keep s s') : Inv s' := inv_micros hi (run_micros hi h.steps)
theorem Keep.reachable {s s' : State} (hr : Lattice.Spec.Reachable s) (h : Keep s s') : Lattice.Spec.Reachable s' :=
  steps_trans hr h.steps
theorem Keep.symLen {s s' : State} (h : Keep s s') (i : Nat) : s'.symLen i = s.symLen i := by
  unfold State.symLen; rw [h.text]

theorem Keep.present {s s' : State} (hi : Inv s) (h : Keep s s') {e : Edge} (he : Present s e) : Present s' e := by
  cases e with
  | impl i => rw [present_impl] at he ⊢; rw [h.implicit]; exact he
  | expl k => rw [present_expl] at he ⊢; exact Nat.lt_of_lt_of_le he (steps_grow hi h.steps).len

theorem Keep.src {s s' : State} (hi : Inv s) (h : Keep s s') {e : Edge} (he : Present s e) : s'.src e = s.src e :=
  (present_keeps hi (steps_grow hi h.steps) he).1
theorem Keep.tgt {s s' : State} (hi : Inv s) (h : Keep s s') {e : Edge} (he : Present s e) : s'.tgt e = s.tgt e :=
  (present_keeps hi (steps_grow hi h.steps) he).2
theorem Keep.item {s s' : State} (hi : Inv s) (h : Keep s s') {e : Edge} (he : Present s e) : s'.item e = s.item e := by
  cases e with
  | impl i => unfold State.item; simp only [h.symLen, h.text]
  | expl k => simp only [State.item, (steps_grow hi h.steps).item k (present_expl.1 he)]
theorem Keep.tags {s s' : State} (hi : Inv s) (h : Keep s s') {e : Edge} (he : Present s e) : SubTags (s.tags e) (s'.tags e) := by
  cases e with
  | impl i => exact fun _ h => h
  | expl k => exact (steps_grow hi h.steps).tags k (present_expl.1 he)
theorem Keep.validVertex {s s' : State} (hi : Inv s) (h : Keep s s') {v : Vertex} (hv : s.validVertex v = true) :
    s'.validVertex v = true := by
  have := (steps_grow hi h.steps).nLoose
  unfold State.validVertex at *
  rw [h.text]
  simp only [Bool.and_eq_true, decide_eq_true_eq] at *
  omega

theorem Keep.readings {s s' : State} (hi : Inv s) (h : Keep s s') : KeepsReadings s s' := by
  intro u w v hr
  induction hr with
  | nil => exact .nil
  | cons he ht hit _ ih =>
    rw [← h.src hi he]
    refine .cons (h.present hi he) (fun i hb => h.tags hi he i (ht i hb)) (by rw [h.item hi he]; exact hit) ?_
    rw [h.tgt hi he]; exact ih

theorem reads_append {s : State} {u v w : Vertex} {a b : Str} (h : Reads s u a v) (h' : Reads s v b w) : Reads s u (a ++ b) w := by
  induction h with
  | nil => exact h'
  | cons he ht hit _ ih =>
    rw [List.append_assoc]
    exact .cons he ht hit (ih h')

theorem reads_single {s : State} {e : Edge} {it : Item} (he : Present s e) (ht : SubTags symbolTag (s.tags e))
    (hit : s.item e = .ok it) : Reads s (s.src e) it.text (s.tgt e) := by
  have := Reads.cons (w := []) he ht hit .nil
  rwa [List.append_nil] at this

/-! ## `addEdge` for a symbol edge -/

theorem inherit_self {s : State} {a : Args} (hq : a.seq = Sequence.empty) (ht : a.tags = symbolTag) : inheritTags s a = a := by
  have h : gatherPlaneTags s Sequence.empty = 0 := rfl
  unfold inheritTags
  rw [hq, h]
  cases a
  simp_all [createUnion]

theorem updateVisible_masks (s : State) (f t : Vertex) : (updateVisible s f t).2.masks = (addTagMaskIndex s symbolMask).masks := by
  have ho : (outEdges s f symbolMask).2 = addTagMaskIndex s symbolMask := rfl
  have hin : ∀ x : State, (inEdges x t symbolMask).2 = addTagMaskIndex x symbolMask := by
    intro x
    unfold inEdges
    have : symbolMask.any = false := rfl
    rw [this]
    simp only [Bool.false_eq_true, if_false]
    split <;> rfl
  have htw : ∀ y : State, y.masks = (addTagMaskIndex s symbolMask).masks →
      (addTagMaskIndex y symbolMask).masks = (addTagMaskIndex s symbolMask).masks := by
    intro y hy
    obtain ⟨mi, h1, _⟩ := findMask_register s symbolMask
    have h2 : y.findMask symbolMask = some mi := by unfold State.findMask at *; rw [hy]; exact h1
    rw [← hy]
    unfold addTagMaskIndex
    rw [h2]
  unfold updateVisible
  split
  · rename_i s1 h1; rw [h1] at ho; exact congrArg State.masks ho
  · rename_i e es s1 h1
    rw [h1] at ho
    have ho : s1 = addTagMaskIndex s symbolMask := ho
    split
    · exact congrArg State.masks ho
    · have h2 := hin { s1 with visible := s1.visible.set f.toNat true }
      have h3 := htw { s1 with visible := s1.visible.set f.toNat true } (congrArg State.masks ho : s1.masks = _)
      unfold updateVisibleIn
      split
      · rename_i x s2 h4; rw [h4] at h2; rw [← h3]; exact congrArg State.masks h2
      · rename_i s2 h4; rw [h4] at h2; rw [← h3]; exact congrArg State.masks h2
      · rename_i s2 h4
        rw [h4] at h2
        have h5 : s2.masks = (addTagMaskIndex s symbolMask).masks := by rw [← h3]; exact congrArg State.masks h2
        split <;> exact h5

theorem indexFor_masks {s s' : State} (h : s'.masks = (addTagMaskIndex s symbolMask).masks) : s'.indexFor symbolMask = s.indexFor symbolMask := by
  obtain ⟨mi, h1, h2, _⟩ := findMask_register s symbolMask
  have : s'.findMask symbolMask = some mi := by unfold State.findMask at *; rw [h]; exact h1
  unfold State.indexFor
  rw [this]
  exact h2

/-- Nothing undefined happens when the visible edges are updated. -/
def Visible (s : State) (f t : Vertex) : Prop :=
  (outEdges s f symbolMask).1 = [] ∨ 0 ≤ f ∧ ∃ l, (inEdges s t symbolMask).1 = .ok l ∧ ∀ e, l.head? = some e → 0 ≤ s.src e

theorem updateVisible_fine {s : State} (hi : Inv s) {f t : Vertex} (h : Visible s f t) :
    ∃ s1, updateVisible s f t = (.ok (), s1) ∧ Quiet s s1 ∧ s1.indexFor symbolMask = s.indexFor symbolMask := by
  suffices hs : ∃ s1, updateVisible s f t = (.ok (), s1) by
    obtain ⟨s1, h1⟩ := hs
    have hq := quiet_updateVisible s f t
    have hm := updateVisible_masks s f t
    rw [h1] at hq hm
    exact ⟨s1, h1, hq, indexFor_masks hm⟩
  unfold updateVisible
  rcases h with h | ⟨h0, l, hl, hsrc⟩
  · split
    · exact ⟨_, rfl⟩
    · rename_i e es s1 h1; rw [h1] at h; simp at h
  · split
    · exact ⟨_, rfl⟩
    · rename_i e es s1 h1
      have hs1 : s1 = addTagMaskIndex s symbolMask := (congrArg Prod.snd h1).symm
      have hloose : isLoose f = false := by unfold isLoose; simpa using h0
      rw [hloose]
      simp only [Bool.false_eq_true, if_false]
      have hi1 : Inv s1 := hs1 ▸ inv_micro hi (.register s symbolMask rfl)
      have hi2 : Inv { s1 with visible := s1.visible.set f.toNat true } := inv_micro hi1 (.visible s1 f.toNat)
      have hin : (inEdges { s1 with visible := s1.visible.set f.toNat true } t symbolMask).1 = .ok l := by
        rw [inEdges_fst hi2, ← hl, inEdges_fst hi]
        have hix : ({ s1 with visible := s1.visible.set f.toNat true } : State).indexFor symbolMask = s.indexFor symbolMask := by
          apply indexFor_masks; rw [hs1]
        have him : ({ s1 with visible := s1.visible.set f.toNat true } : State).implicitIn t = s.implicitIn t := by
          rw [← register_implicitIn s symbolMask t, ← hs1]; rfl
        have hent : ∀ k, ({ s1 with visible := s1.visible.set f.toNat true } : State).entry k = s.entry k := by
          intro k; rw [← register_entry s symbolMask k, ← hs1]; rfl
        have hany : symbolMask.any = false := rfl
        simp only [hany, Bool.false_eq_true, if_false]
        rw [hix, him]
        simp only [hent]
      have hq := quiet_inEdges { s1 with visible := s1.visible.set f.toNat true } t symbolMask
      unfold updateVisibleIn
      split
      · rename_i x s2 h2; rw [h2] at hin; simp at hin
      · exact ⟨_, rfl⟩
      · rename_i d ds s2 h2
        rw [h2] at hin hq
        have hl' : l = d :: ds := by simpa using hin.symm
        have hd := hsrc d (by rw [hl']; rfl)
        have hsd : s2.src d = s.src d := by
          have ha := hq.alike
          cases d with
          | impl i => rfl
          | expl k =>
            have h1 : s2.entry k = s1.entry k := ha.entry k
            have h3 : s1.entry k = s.entry k := by rw [hs1]; exact register_entry s symbolMask k
            simp only [State.src, h1, h3]
        have : isLoose (s2.src d) = false := by unfold isLoose; rw [hsd]; simpa using hd
        rw [this]
        simp

/-- A query for symbol edges depends on little. -/
theorem outs_eq (s : State) (v : Vertex) : (outEdges s v symbolMask).1 =
    s.implicitOut v ++ ((s.indexFor symbolMask).filter (fun k => decide ((s.entry k).src = v))).map .expl := by
  rw [outEdges_fst]
  have h1 : symbolMask.any = false := rfl
  have h2 : canBeAppliedToImplicitSymbol symbolMask = true := by decide +kernel
  rw [h1, h2]
  simp

/-- The counter does not matter. -/
theorem inv_bump {s : State} (hi : Inv s) (u v : Vertex) : Inv (bumpCounter s u v) := inv_micro hi (.bump _ _ _)

theorem addNew_plain {s : State} (hi : Inv s) {a : Args} (htag : a.tags = symbolTag) (hc : implicitCondition s a = false)
    (hv : Visible s a.src a.tgt) :
    ∃ s1, addNew s a = (.ok (addExplicit s1 a).1, (addExplicit s1 a).2) ∧ Alike s s1 ∧ s1.implicit = s.implicit ∧
      s1.indexFor symbolMask = s.indexFor symbolMask ∧ (∃ mi, s1.findMask symbolMask = some mi) ∧ Inv s1 := by
  have hv' : Visible (bumpCounter s a.src a.tgt) a.src a.tgt := by
    have h1 : ∀ v, (outEdges (bumpCounter s a.src a.tgt) v symbolMask).1 = (outEdges s v symbolMask).1 := by
      intro v; rw [outs_eq, outs_eq]; rfl
    have h2 : ∀ v, (inEdges (bumpCounter s a.src a.tgt) v symbolMask).1 = (inEdges s v symbolMask).1 := by
      intro v; rw [inEdges_fst hi, inEdges_fst (inv_bump hi _ _)]; rfl
    have h3 : ∀ e, (bumpCounter s a.src a.tgt).src e = s.src e := by intro e; cases e <;> rfl
    unfold Visible; simp only [h1, h2, h3]; exact hv
  obtain ⟨s1, h1, hq, hx⟩ := updateVisible_fine (inv_bump hi a.src a.tgt) hv'
  refine ⟨s1, ?_, (alike_bump s a.src a.tgt).trans hq.alike, hq.implicit, hx, ?_, inv_micros (inv_bump hi _ _) hq.micros⟩
  · unfold addNew
    simp only [htag, if_true, h1]
    have : implicitCondition s1 a = false := by
      rw [← hc]
      unfold implicitCondition State.symLen
      rw [hq.alike.text, hq.implicit]; rfl
    unfold addNewRest
    rw [this]
    simp
  · have hm := updateVisible_masks (bumpCounter s a.src a.tgt) a.src a.tgt
    rw [h1] at hm
    obtain ⟨mi, h2, _⟩ := findMask_register (bumpCounter s a.src a.tgt) symbolMask
    refine ⟨mi, ?_⟩
    unfold State.findMask at *
    rw [show s1.masks = _ from hm]; exact h2

theorem outs_explicit {s s1 : State} (hi : Inv s) (hany : ∀ mi ∈ s1.masks, mi.mask.any = false) (ha : Alike s s1) (him : s1.implicit = s.implicit)
    (hx : s1.indexFor symbolMask = s.indexFor symbolMask) {mi : MaskIndex} (hm : s1.findMask symbolMask = some mi) {a : Args}
    (htag : a.tags = symbolTag) (v : Vertex) :
    (outEdges (addExplicit s1 a).2 v symbolMask).1 =
      (outEdges s v symbolMask).1 ++ if a.src = v then [.expl s.edges.length] else [] := by
  rw [outs_eq, outs_eq]
  have hmat : «matches» a.tags symbolMask = true := by rw [htag]; decide +kernel
  have hix : (addExplicit s1 a).2.indexFor symbolMask = s.indexFor symbolMask ++ [s.edges.length] := by
    have hl : s1.edges.length = s.edges.length := by rw [ha.edges]
    have hf : (addExplicit s1 a).2.findMask symbolMask = some ⟨mi.mask, mi.outs ++ [s.edges.length], mi.ins ++ [s.edges.length]⟩ := by
      unfold State.findMask at hm ⊢
      simp only [addExplicit, List.find?_map]
      have hc : ((fun mi : MaskIndex => mi.mask.eq symbolMask) ∘ fun mi : MaskIndex =>
          if «matches» a.tags mi.mask = true then ⟨mi.mask, mi.outs ++ [s1.edges.length], mi.ins ++ [s1.edges.length]⟩ else mi) =
          fun mi : MaskIndex => mi.mask.eq symbolMask := by
        funext mj
        simp only [Function.comp]
        split <;> rfl
      rw [hc, hm]
      have he : mi.mask.eq symbolMask = true := by simpa using List.find?_some hm
      have : «matches» a.tags mi.mask = true := by
        rw [matches_of_eq (hany mi (List.mem_of_find?_eq_some hm)) rfl he]; exact hmat
      simp [this, hl]
    unfold State.indexFor
    rw [hf]
    have h2 := hx
    unfold State.indexFor at h2
    rw [hm] at h2
    simp only at h2
    simp only [h2]
  have hio : (addExplicit s1 a).2.implicitOut v = s.implicitOut v := by
    unfold State.implicitOut; simp only [addExplicit, him]
  rw [hix, hio, List.filter_append, List.map_append, List.append_assoc]
  have hold : ∀ k ∈ s.indexFor symbolMask, (addExplicit s1 a).2.entry k = s.entry k := by
    intro k hk
    have hk' : k < s.edges.length := (mem_matching.1 ((indexFor_sublist hi rfl).subset hk)).1
    unfold State.entry
    simp only [addExplicit, ha.edges]
    simp only [List.getD_eq_getElem?_getD, List.getElem?_append_left hk']
  have hnew : (addExplicit s1 a).2.entry s.edges.length = ⟨a.src, a.tgt, a.item, a.tags, a.score, [⟨a.tags, a.seq, a.score, a.ruleId, a.treeChoice⟩]⟩ := by
    unfold State.entry
    simp only [addExplicit, ha.edges]
    simp only [List.getD_eq_getElem?_getD, List.getElem?_append_right (Nat.le_refl _)]
    simp
  congr 1
  congr 1
  · congr 1
    apply List.filter_congr
    intro k hk
    rw [hold k hk]
  · simp only [List.filter_cons, List.filter_nil, hnew, decide_eq_true_eq]
    split <;> rfl

/-- What is known after a symbol edge has been added. -/
structure Added (s s' : State) (a : Args) : Prop where
  keep : Keep s s'
  nLoose : s'.nLoose = s.nLoose
  reads : Reads s' a.src a.item.text a.tgt
  impl : ∀ key i, (key, Edge.impl i) ∈ s'.vvc → (key, Edge.impl i) ∈ s.vvc

theorem reads_says {s s' : State} {a : Args} {e : Edge} (h : Says s s' a e) (ht : a.tags = symbolTag) :
    Reads s' a.src a.item.text a.tgt := by
  have := reads_single h.present (by rw [← ht]; exact h.tags) h.item
  rwa [h.src, h.tgt] at this

theorem add_new {s : State} (hr : Lattice.Spec.Reachable s) {a : Args} (hs : s.validVertex a.src = true)
    (ht : s.validVertex a.tgt = true) (hne : a.src ≠ a.tgt) (hf : ¬ (0 ≤ a.src ∧ 0 ≤ a.tgt ∧ a.src > a.tgt))
    (hq : a.seq = Sequence.empty) (htag : a.tags = symbolTag) (hc : implicitCondition s a = false)
    (hv : Visible s a.src a.tgt) (hiso : s.isoplanar a.key a.tags = none) :
    ∃ s', addEdge s a = (.ok (.expl s.edges.length), s') ∧ Added s s' a ∧
      s'.vvc = s.vvc ++ [(a.key, .expl s.edges.length)] ∧
      ∀ v, (outEdges s' v symbolMask).1 = (outEdges s v symbolMask).1 ++ if a.src = v then [.expl s.edges.length] else [] := by
  have hi := reachable_inv' hr
  obtain ⟨s1, h1, ha, him, hx, ⟨mi, hm⟩, hi1⟩ := addNew_plain hi htag hc hv
  have hl : s1.edges.length = s.edges.length := by rw [ha.edges]
  have hadd : addEdge s a = (.ok (.expl s.edges.length), (addExplicit s1 a).2) := by
    have hseq : s.validSequence a.seq = true := by rw [hq]; simp [State.validSequence, Sequence.empty]
    unfold addEdge
    rw [hs, ht, hseq, inherit_self hq htag]
    simp only [Bool.and_self, if_true]
    unfold addEdgeCore
    rw [if_neg hne, if_neg hf, hiso]
    simp only
    rw [h1]
    simp only [addExplicit, hl]
  refine ⟨_, hadd, ⟨⟨.step .refl trivial (.add (htag ▸ made_symbol hr) hadd (by simp)), ha.text, him⟩, ha.nLoose, ?_, ?_⟩, ?_, ?_⟩
  · exact reads_says (C52_added_partial hr (htag ▸ made_symbol hr) hadd trivial) htag
  · intro key i h
    simp only [addExplicit, List.mem_append, List.mem_singleton, Prod.mk.injEq, reduceCtorEq, and_false, or_false] at h
    rw [← ha.vvc]; exact h
  · simp only [addExplicit, ha.vvc, hl]
  · exact outs_explicit hi (fun mi h => (hi1.masks mi h).1) ha him hx hm htag

theorem add_text {s : State} (hr : Lattice.Spec.Reachable s) {a : Args} (hs : s.validVertex a.src = true)
    (ht : s.validVertex a.tgt = true) (hne : a.src ≠ a.tgt) (hf : ¬ (0 ≤ a.src ∧ 0 ≤ a.tgt ∧ a.src > a.tgt))
    (hq : a.seq = Sequence.empty) (htag : a.tags = symbolTag) (hc : implicitCondition s a = false)
    (hv : Visible s a.src a.tgt) (hni : ∀ i, (a.key, Edge.impl i) ∉ s.vvc) :
    ∃ k s', addEdge s a = (.ok (.expl k), s') ∧ Added s s' a := by
  cases hiso : s.isoplanar a.key a.tags with
  | none =>
    obtain ⟨s', h1, h2, _⟩ := add_new hr hs ht hne hf hq htag hc hv hiso
    exact ⟨_, s', h1, h2⟩
  | some e =>
    have hmem := inv_vvcEntry_mem.1 (isoplanar_mem hiso).1
    cases e with
    | impl i => exact absurd hmem (hni i)
    | expl k =>
      have hadd : addEdge s a = (.ok (.expl k), mergeInto s k a) := by
        have hseq : s.validSequence a.seq = true := by rw [hq]; simp [State.validSequence, Sequence.empty]
        unfold addEdge
        rw [hs, ht, hseq, inherit_self hq htag]
        simp only [Bool.and_self, if_true]
        unfold addEdgeCore
        rw [if_neg hne, if_neg hf, hiso]
        simp only
        unfold mergeWith
        have : sequenceContains s a.seq (.expl k) = (.ok false, s) := by rw [hq]; rfl
        rw [this]
      refine ⟨k, _, hadd, ⟨.step .refl trivial (.add (htag ▸ made_symbol hr) hadd (by simp)), rfl, rfl⟩, rfl, ?_, ?_⟩
      · exact reads_says (C52_added_partial hr (htag ▸ made_symbol hr) hadd trivial) htag
      · intro key i h; exact h

/-! ## Inserting -/

/-- No edge has to do with the vertex. -/
def Unused (s : State) (v : Vertex) : Prop := ∀ key e, (key, e) ∈ s.vvc → key.src ≠ v ∧ key.tgt ≠ v

theorem unused_new {s : State} (hi : Inv s) : Unused (addLooseVertex s).2 (addLooseVertex s).1 := by
  intro key e h
  have h : (key, e) ∈ s.vvc := h
  have hv : (addLooseVertex s).1 = -((s.nLoose : Int) + 1) := rfl
  rw [hv]
  cases e with
  | impl i =>
    obtain ⟨h1, h2, _⟩ := hi.vvcImpl _ _ h
    rw [h1, h2]; omega
  | expl k =>
    obtain ⟨h1, h2⟩ := hi.vvcExpl _ _ h
    have h3 := hi.entries k h1
    have h4 := h3.src; have h5 := h3.tgt
    rw [h2]
    simp only [State.validVertex, Bool.and_eq_true, decide_eq_true_eq] at h4 h5
    constructor <;> (simp only [Entry.key]; omega)

theorem unused_outs {s : State} (hi : Inv s) {v : Vertex} (hneg : v < 0) (h : Unused s v) : (outEdges s v symbolMask).1 = [] := by
  rw [outs_eq]
  have h1 : s.implicitOut v = [] := by unfold State.implicitOut; rw [if_neg (by omega)]
  rw [h1, List.nil_append, List.map_eq_nil_iff, List.filter_eq_nil_iff]
  intro k hk hsrc
  have hk' : k < s.edges.length := (mem_matching.1 ((indexFor_sublist hi rfl).subset hk)).1
  exact (h _ _ (hi.vvcAll k hk')).1 (by simpa [Entry.key] using hsrc)

theorem unused_ins {s : State} (hi : Inv s) {v : Vertex} (hneg : v < 0) (h : Unused s v) : (inEdges s v symbolMask).1 = .ok [] := by
  rw [inEdges_fst hi]
  have h1 : s.implicitIn v = .ok [] := by unfold State.implicitIn; rw [if_pos hneg]
  have h2 : (s.indexFor symbolMask).filter (fun k => decide ((s.entry k).tgt = v)) = [] := by
    rw [List.filter_eq_nil_iff]
    intro k hk htgt
    have hk' : k < s.edges.length := (mem_matching.1 ((indexFor_sublist hi rfl).subset hk)).1
    exact (h _ _ (hi.vvcAll k hk')).2 (by simpa [Entry.key] using htgt)
  have h3 : symbolMask.any = false := rfl
  rw [h3, h1, h2]
  simp

theorem iso_none {s : State} {key : Key} {t : TagSet} (h : ∀ e, (key, e) ∉ s.vvc) : s.isoplanar key t = none := by
  unfold State.isoplanar
  rw [List.find?_eq_none]
  intro e he
  exact absurd (inv_vvcEntry_mem.1 he) (h e)

theorem loose_valid (s : State) : (addLooseVertex s).2.validVertex (addLooseVertex s).1 = true := by
  simp [State.validVertex, addLooseVertex]
  omega

/-- One round of the loop. -/
theorem insert_round {s : State} (hr : Lattice.Spec.Reachable s) {f : Vertex} (hf : s.validVertex f = true)
    (hs : (outEdges s f symbolMask).1 = [] ∨ 0 ≤ f) (w : Str) :
    ∃ s', addEdge (addLooseVertex s).2 { src := f, tgt := (addLooseVertex s).1, item := symbolItem w, tags := symbolTag } =
        (.ok (.expl s.edges.length), s') ∧ Keep s s' ∧ s'.nLoose = s.nLoose + 1 ∧ Reads s' f w (addLooseVertex s).1 ∧
      (∀ v, (outEdges s' v symbolMask).1 = (outEdges s v symbolMask).1 ++ if f = v then [.expl s.edges.length] else []) ∧
      (outEdges s' (addLooseVertex s).1 symbolMask).1 = [] ∧
      s'.vvc = s.vvc ++ [(⟨f, (addLooseVertex s).1, symbolItem w⟩, .expl s.edges.length)] := by
  have hi := reachable_inv' hr
  have hk := keep_loose s
  have hr1 := hk.reachable hr
  have hi1 := hk.inv hi
  have hun := unused_new hi
  have hneg : (addLooseVertex s).1 < 0 := by simp [addLooseVertex]; omega
  have hfv : f ≠ (addLooseVertex s).1 := by
    have : (addLooseVertex s).1 = -((s.nLoose : Int) + 1) := rfl
    simp only [State.validVertex, Bool.and_eq_true, decide_eq_true_eq] at hf
    omega
  have houts : ∀ v, (outEdges (addLooseVertex s).2 v symbolMask).1 = (outEdges s v symbolMask).1 := by
    intro v; rw [outs_eq, outs_eq]; rfl
  obtain ⟨s', h1, h2, h3, h4⟩ := add_new (a := { src := f, tgt := (addLooseVertex s).1, item := symbolItem w, tags := symbolTag })
    hr1 (hk.validVertex hi hf) (loose_valid s) hfv (by simp only; omega) rfl rfl
    (by
      have : isLoose (addLooseVertex s).1 = true := by unfold isLoose; simpa using hneg
      simp [implicitCondition, this])
    (by
      rcases hs with h | h
      · left; rw [houts]; exact h
      · right; exact ⟨h, [], unused_ins hi1 hneg hun, by simp⟩)
    (iso_none (fun e he => (hun _ _ he).2 rfl))
  refine ⟨s', h1, hk.trans h2.keep, h2.nLoose, h2.reads, ?_, ?_, h3⟩
  · intro v; rw [h4, houts]; rfl
  · rw [h4, unused_outs hi1 hneg hun]
    simp only [List.nil_append]
    rw [if_neg hfv]


theorem next_cons {c : Nat} (hc : Utf8.Spec.Scalar c) (rest : Str) :
    Utf8.validateNext (Utf8.Spec.encode c ++ rest) = .ok (c, rest) := (Utf8.validateNext_iff _ _ _).2 ⟨hc, rfl⟩

theorem encodeAll_cons (c : Nat) (cs : List Nat) : Utf8.Spec.encodeAll (c :: cs) = Utf8.Spec.encode c ++ Utf8.Spec.encodeAll cs := by
  simp [Utf8.Spec.encodeAll]

/-- The loop of an insertion. -/
theorem insert_loop (cs : List Nat) : ∀ {n : Nat} {s : State} {f : Vertex} {o : Option Vertex}, (∀ c ∈ cs, Utf8.Spec.Scalar c) →
    Lattice.Spec.Reachable s → (Utf8.Spec.encodeAll cs).length ≤ n → s.validVertex f = true →
    ((outEdges s f symbolMask).1 = [] ∨ 0 ≤ f) →
    ∃ s' v, insertLoop n s f o (Utf8.Spec.encodeAll cs) = (.ok (if cs = [] then o else some v), s') ∧ Keep s s' ∧
      Reads s' f (Utf8.Spec.encodeAll cs) v ∧ s'.validVertex v = true ∧
      (∀ x, (outEdges s x symbolMask).1 <+: (outEdges s' x symbolMask).1) ∧ (cs = [] → v = f ∧ s' = s) ∧
      (cs ≠ [] → v < -(s.nLoose : Int) ∧ (outEdges s' v symbolMask).1 = [] ∧ ∀ key e, (key, e) ∈ s'.vvc → key.src ≠ v) := by
  induction cs with
  | nil =>
    intro n s f o _ hr _ hf _
    refine ⟨s, f, ?_, .refl s, .nil, hf, fun x => List.prefix_refl _, fun _ => ⟨rfl, rfl⟩, by simp⟩
    cases n <;> simp [insertLoop, Utf8.Spec.encodeAll]
  | cons c cs ih =>
    intro n s f o hsc hr hn hf hs
    have hc := hsc c (by simp)
    have hi := reachable_inv' hr
    have hne : Utf8.Spec.encodeAll (c :: cs) ≠ [] := by
      rw [encodeAll_cons]; simp [Utf8.encode_ne_nil]
    have hpos := encode_length_pos c
    rw [encodeAll_cons, List.length_append] at hn
    cases n with
    | zero => omega
    | succ n =>
      obtain ⟨s1, h1, hk1, hl1, hr1, ho1, hv1, hvvc1⟩ := insert_round hr hf hs (Utf8.Spec.encode c)
      have hval : s1.validVertex (addLooseVertex s).1 = true := by
        have := loose_valid s
        simp only [State.validVertex, Bool.and_eq_true, decide_eq_true_eq] at this ⊢
        rw [hl1, hk1.text]; exact this
      have hv : (addLooseVertex s).1 = -((s.nLoose : Int) + 1) := rfl
      have hi1 := hk1.inv hi
      obtain ⟨s2, v, h2, hk2, hr2, hval2, ho2, he2, hn2⟩ := ih (n := n) (s := s1) (f := (addLooseVertex s).1)
        (o := some (addLooseVertex s).1) (fun x hx => hsc x (by simp [hx])) (hk1.reachable hr) (by omega) hval (Or.inl hv1)
      refine ⟨s2, v, ?_, hk1.trans hk2, ?_, hval2, ?_, by simp, ?_⟩
      · unfold insertLoop
        rw [if_neg hne, encodeAll_cons]
        simp only [next_cons hc, Utf8.append_eq_encode c (Utf8.scalar_lt hc), h1, h2]
        by_cases hcs : cs = []
        · simp [hcs, he2 hcs]
        · simp [hcs]
      · rw [encodeAll_cons]
        exact reads_append (hk2.readings hi1 _ _ _ hr1) hr2
      · intro x
        refine List.IsPrefix.trans ?_ (ho2 x)
        rw [ho1]; exact List.prefix_append _ _
      · intro _
        by_cases hcs : cs = []
        · obtain ⟨e1, e2⟩ := he2 hcs
          rw [e1, e2]
          refine ⟨by omega, hv1, ?_⟩
          intro key e hm
          rw [hvvc1, List.mem_append, List.mem_singleton] at hm
          rcases hm with hm | hm
          · exact (unused_new hi key e hm).1
          · obtain ⟨rfl, _⟩ := Prod.mk.inj hm
            simp only [State.validVertex, Bool.and_eq_true, decide_eq_true_eq] at hf
            simp only; omega
        · obtain ⟨e1, e2, e3⟩ := hn2 hcs
          exact ⟨by omega, e2, e3⟩

theorem outs_present {s : State} (hi : Inv s) {v : Vertex} {d : Edge} (h : d ∈ (outEdges s v symbolMask).1) :
    Present s d ∧ s.src d = v ∧ SubTags symbolTag (s.tags d) := by
  rw [outs_eq, List.mem_append] at h
  rcases h with h | h
  · obtain ⟨i, rfl, rfl, hb⟩ := mem_implicitOut.1 h
    exact ⟨present_impl.2 hb, rfl, fun _ h => h⟩
  · simp only [List.mem_map, List.mem_filter, decide_eq_true_eq] at h
    obtain ⟨k, ⟨hk, hs⟩, rfl⟩ := h
    obtain ⟨h1, h2⟩ := mem_matching.1 ((indexFor_sublist hi rfl).subset hk)
    refine ⟨present_expl.2 h1, hs, ?_⟩
    rw [matches_iff] at h2
    have h3 := h2.2
    intro i hb
    simp only [State.tags]
    rcases h3 with h3 | ⟨alt, ha, hsub⟩
    · simp [symbolMask, Mask.ofTags] at h3
    · simp [symbolMask, Mask.ofTags] at ha
      subst ha
      exact hsub i hb

theorem present_validTgt {s : State} (hi : Inv s) {d : Edge} (h : Present s d) : s.validVertex (s.tgt d) = true := by
  cases d with
  | impl i =>
    have := hi.implicitOk i (present_impl.1 h)
    simp only [State.validVertex, State.tgt, Bool.and_eq_true, decide_eq_true_eq]
    exact ⟨decide_eq_true (by omega), decide_eq_true (by exact_mod_cast this)⟩
  | expl k => exact (hi.entries k (present_expl.1 h)).tgt

/-- Joining the inserted path. -/
theorem insert_join {s : State} (hr : Lattice.Spec.Reachable s) {here v : Vertex} {d : Edge} {ds : List Edge} {it : Item}
    (hd : (outEdges s here symbolMask).1 = d :: ds) (hit : s.item d = .ok it) (hv : s.validVertex v = true) (hneg : v < 0)
    (hne : v ≠ s.tgt d) (ho : (outEdges s v symbolMask).1 = []) (hk : ∀ key e, (key, e) ∈ s.vvc → key.src ≠ v) :
    ∃ s', insertJoin s here (some v) = (.ok (), s') ∧ Keep s s' ∧ Reads s' v it.text (s.tgt d) := by
  have hi := reachable_inv' hr
  obtain ⟨hp, _, _⟩ := outs_present hi (by rw [hd]; simp : d ∈ (outEdges s here symbolMask).1)
  have hc := (reg_outEdges s here).calm
  generalize hq : (outEdges s here symbolMask).2 = s1 at hc
  have hpair : outEdges s here symbolMask = (d :: ds, s1) := Prod.ext hd hq
  have hi1 := hc.inv hi
  have hp1 := hc.present hi hp
  have ha : Alike s s1 := hq ▸ alike_outEdges s here symbolMask
  have ho1 : (outEdges s1 v symbolMask).1 = [] := by
    rw [← ho, outs_eq, outs_eq]
    have h1 : s1.indexFor symbolMask = s.indexFor symbolMask := by
      rw [← hq]; exact indexFor_masks rfl
    have h2 : s1.implicitOut v = s.implicitOut v := by unfold State.implicitOut; rw [hc.implicit]
    rw [h1, h2]
    simp only [ha.entry]
  have htgt := hc.tgt hi hp
  obtain ⟨s2, h2, hadd, _⟩ := add_new (s := s1) (a := { src := v, tgt := s1.tgt d, item := it, tags := symbolTag })
    (hc.reachable hr) (hc.keep.validVertex hi hv) (present_validTgt hi1 hp1) (by simp only; rw [htgt]; exact hne)
    (by simp only; omega) rfl rfl (by
      have : isLoose v = true := by unfold isLoose; simpa using hneg
      simp [implicitCondition, this]) (Or.inl ho1)
    (iso_none (fun e he => hk _ e (by rw [← ha.vvc]; exact he) rfl))
  refine ⟨s2, ?_, hc.keep.trans hadd.keep, ?_⟩
  · unfold insertJoin
    rw [hpair]
    simp only [hc.item hi hp, hit]
    rw [h2]
  · have := hadd.reads
    simp only [htgt] at this
    exact this


/-! ## Symbols of the text -/

/-- What is to be found at a character with its symbol edge. -/
theorem at_char {s : State} {i c : Nat} (hw : Utf8.Spec.WellFormed (s.text.take i)) (hc : Utf8.Spec.Scalar c)
    (hpre : Utf8.Spec.encode c <+: s.text.drop i) :
    i + (Utf8.Spec.encode c).length ≤ s.text.length ∧ s.symLen i = (Utf8.Spec.encode c).length ∧
    s.tgt (.impl i) = ((i + (Utf8.Spec.encode c).length : Nat) : Int) ∧
    s.item (.impl i) = .ok ⟨39 :: Utf8.Spec.encode c, Utf8.Spec.encode c, []⟩ ∧
    Utf8.Spec.WellFormed (s.text.take (i + (Utf8.Spec.encode c).length)) ∧
    s.priorVertex ((i + (Utf8.Spec.encode c).length : Nat) : Int) = .ok i := by
  obtain ⟨post, hpost⟩ := hpre
  have hpos := encode_length_pos c
  have hlen := congrArg List.length hpost
  simp only [List.length_append, List.length_drop] at hlen
  have hil : (s.text.take i).length = i := by rw [List.length_take]; omega
  have htext : s.text = s.text.take i ++ Utf8.Spec.encode c ++ post := by
    rw [List.append_assoc, hpost, List.take_append_drop]
  have hsym : s.symLen i = (Utf8.Spec.encode c).length := by
    have := symLen_encode hc htext; rwa [hil] at this
  have hw' : Utf8.Spec.WellFormed (s.text.take (i + (Utf8.Spec.encode c).length)) := by
    have : s.text.take (i + (Utf8.Spec.encode c).length) = s.text.take i ++ Utf8.Spec.encode c := by
      conv_lhs => rw [htext]
      rw [List.take_left' (by rw [List.length_append, hil])]
    rw [this]; exact Utf8.wf_append hw (Utf8.wf_encode hc)
  refine ⟨by omega, hsym, by simp only [State.tgt, hsym], ?_, hw', ?_⟩
  · simp only [State.item, ← hpost, next_cons hc, Utf8.append_eq_encode c (Utf8.scalar_lt hc), hsym, List.take_left']
  · have := prior_of_symLen (s := s) (i := i) hw (by rw [hsym]; exact hw') (by rw [hsym]; omega)
    rw [hsym] at this; exact this

theorem impl_outs {s : State} {i : Nat} (h : Present s (.impl i)) : ∃ ds, (outEdges s (i : Int) symbolMask).1 = .impl i :: ds := by
  rw [outs_eq]
  have : s.implicitOut (i : Int) = [.impl i] := by
    unfold State.implicitOut
    have h := present_impl.1 h
    have hi : ((i : Int)).toNat = i := by omega
    rw [if_pos ⟨by omega, by rw [hi]; exact h⟩, hi]
  rw [this]
  exact ⟨_, rfl⟩

theorem visible_char {s : State} (hi : Inv s) {i c : Nat} (hw : Utf8.Spec.WellFormed (s.text.take i)) (hc : Utf8.Spec.Scalar c)
    (hpre : Utf8.Spec.encode c <+: s.text.drop i) (hp : Present s (.impl i)) {f : Vertex} (hf : 0 ≤ f) :
    Visible s f ((i + (Utf8.Spec.encode c).length : Nat) : Int) := by
  right
  refine ⟨hf, ?_⟩
  obtain ⟨_, _, _, _, _, h6⟩ := at_char hw hc hpre
  rw [inEdges_fst hi]
  have h1 : symbolMask.any = false := rfl
  have h2 : canBeAppliedToImplicitSymbol symbolMask = true := by decide +kernel
  have h3 : s.implicitIn ((i + (Utf8.Spec.encode c).length : Nat) : Int) = .ok [.impl i] := by
    unfold State.implicitIn
    rw [if_neg (by omega), h6]
    simp [present_impl.1 hp]
  rw [h1, h2, h3]
  exact ⟨_, rfl, by intro e he; simp at he; subst he; simp [State.src]⟩

theorem symbols_le {s : State} {i j : Nat} {cs : List Nat} (h : SymbolsAt s i cs j) : i ≤ j ∧ j ≤ s.text.length ∧ (cs ≠ [] → i < j) := by
  induction h with
  | nil _ h => exact ⟨Nat.le_refl _, h, by simp⟩
  | @cons i c cs j hw hc hpre hp _ ih =>
    have := encode_length_pos c
    exact ⟨by omega, ih.2.1, fun _ => by omega⟩

theorem Keep.symbols {s s' : State} (hi : Inv s) (hk : Keep s s') {i j : Nat} {cs : List Nat} (h : SymbolsAt s i cs j) : SymbolsAt s' i cs j := by
  induction h with
  | nil h1 h2 => exact .nil (by rw [hk.text]; exact h1) (by rw [hk.text]; exact h2)
  | cons hw hc hpre hp _ ih =>
    exact .cons (by rw [hk.text]; exact hw) hc (by rw [hk.text]; exact hpre) (hk.present hi hp) ih

/-- The query leaves everything as it is. -/
theorem query_state {s : State} (v : Vertex) : Keep s (outEdges s v symbolMask).2 ∧ (outEdges s v symbolMask).2.vvc = s.vvc :=
  ⟨(reg_outEdges s v).calm.keep, (alike_outEdges s v symbolMask).vvc⟩

/-! ## Erasing -/

theorem erase_ok {s : State} (hr : Lattice.Spec.Reachable s) {f t j c : Nat} {cs : List Nat} (hcs : cs ≠ [])
    (h : SymbolsAt s f cs t) (hn : SymbolsAt s t [c] j) :
    ∃ s', correctionErase s f t = (.ok (), s') ∧ Keep s s' ∧ Reads s' f (Utf8.Spec.encode c) j := by
  have hi := reachable_inv' hr
  obtain ⟨hft, htl, hlt⟩ := symbols_le h
  have hlt := hlt hcs
  cases hn with
  | cons hw hc hpre hp hnil =>
    cases hnil with
    | nil hw' hl' =>
    obtain ⟨a1, a2, a3, a4, a5, a6⟩ := at_char hw hc hpre
    obtain ⟨ds, hd⟩ := impl_outs hp
    obtain ⟨hk1, hvvc⟩ := query_state (s := s) (t : Int)
    generalize hq : (outEdges s (t : Int) symbolMask).2 = s1 at hk1 hvvc
    have hpair : outEdges s (t : Int) symbolMask = (.impl t :: ds, s1) := Prod.ext hd hq
    have hi1 := hk1.inv hi
    have hpos := encode_length_pos c
    cases h with
    | nil => exact absurd rfl hcs
    | @cons _ c0 cs0 _ hw0 hc0 hpre0 hp0 hrest =>
    obtain ⟨b1, b2, b3, b4, b5, b6⟩ := at_char hw0 hc0 hpre0
    obtain ⟨hft0, _, _⟩ := symbols_le hrest
    have hvis : Visible s1 (f : Int) ((t + (Utf8.Spec.encode c).length : Nat) : Int) :=
      visible_char hi1 (by rw [hk1.text]; exact hw) hc (by rw [hk1.text]; exact hpre) (hk1.present hi hp) (by omega)
    have htgt : s1.tgt (.impl t) = ((t + (Utf8.Spec.encode c).length : Nat) : Int) := by
      rw [hk1.tgt hi hp]; exact a3
    have hl1 : s1.text.length = s.text.length := by rw [hk1.text]
    obtain ⟨k, s2, h2, hadd⟩ := add_text (s := s1)
      (a := { src := (f : Int), tgt := s1.tgt (.impl t), item := ⟨39 :: Utf8.Spec.encode c, Utf8.Spec.encode c, []⟩, tags := symbolTag })
      (hk1.reachable hr)
      (by simp only [State.validVertex, Bool.and_eq_true, decide_eq_true_eq]; omega)
      (present_validTgt hi1 (hk1.present hi hp))
      (by simp only [htgt]; omega) (by simp only [htgt]; omega) rfl rfl
      (by
        have hb := present_impl.1 (hk1.present hi hp0)
        simp [implicitCondition, hb])
      (by simp only [htgt]; exact hvis)
      (by
        intro i hm
        obtain ⟨c1, c2, _⟩ := hi1.vvcImpl _ _ hm
        simp only [Args.key, htgt] at c1 c2
        have hfi : i = f := by omega
        rw [hfi, hk1.symLen, b2] at c2
        omega)
    refine ⟨s2, ?_, hk1.trans hadd.keep, ?_⟩
    · unfold correctionErase
      rw [if_neg (by omega), if_pos (by simp only [State.validVertex, Bool.and_eq_true, decide_eq_true_eq]; omega), hpair]
      simp only
      rw [hk1.item hi hp, a4]
      simp only
      rw [h2]
    · have := hadd.reads
      simp only [htgt] at this
      exact this

/-! ## Replacing -/

/-- The keys of implicit edges have no text of their own. -/
def Textless (s : State) : Prop := ∀ key i, (key, Edge.impl i) ∈ s.vvc → key.item.text = []

/-- The characters before the range is used up. -/
theorem replace_loop (xs : List Nat) : ∀ {n : Nat} {s : State} {f t : Nat} {old : List Nat} {rest text : Str}, (∀ c ∈ xs, Utf8.Spec.Scalar c) →
    Lattice.Spec.Reachable s → Textless s → (Utf8.Spec.encodeAll xs ++ rest).length ≤ n → SymbolsAt s f old t → xs.length ≤ old.length →
    ∃ (n' m : Nat) (s' : State), replaceLoop n s f t (Utf8.Spec.encodeAll xs ++ rest) text = replaceLoop n' s' m t rest text ∧
      rest.length ≤ n' ∧ Keep s s' ∧ Textless s' ∧ Reads s' f (Utf8.Spec.encodeAll xs) m ∧ SymbolsAt s' m (old.drop xs.length) t := by
  induction xs with
  | nil =>
    intro n s f t old rest text _ hr hx hn hold _
    exact ⟨n, f, s, rfl, hn, .refl s, hx, .nil, hold⟩
  | cons x xs ih =>
    intro n s f t old rest text hsc hr hx hn hold hlen
    have hxc := hsc x (by simp)
    have hi := reachable_inv' hr
    have hposx := encode_length_pos x
    rw [encodeAll_cons, List.append_assoc, List.length_append] at hn
    obtain ⟨hft, htl, hlt⟩ := symbols_le hold
    cases hold with
    | nil => simp at hlen
    | @cons _ c cs _ hw hc hpre hp hrest =>
    have hlt := hlt (by simp)
    cases n with
    | zero => omega
    | succ n =>
      obtain ⟨b1, b2, b3, b4, b5, b6⟩ := at_char hw hc hpre
      obtain ⟨ds, hd⟩ := impl_outs hp
      obtain ⟨hk1, hvvc⟩ := query_state (s := s) (f : Int)
      generalize hq : (outEdges s (f : Int) symbolMask).2 = s1 at hk1 hvvc
      have hpair : outEdges s (f : Int) symbolMask = (.impl f :: ds, s1) := Prod.ext hd hq
      have hi1 := hk1.inv hi
      have hr1 := hk1.reachable hr
      have hp1 := hk1.present hi hp
      have hx1 : Textless s1 := by intro key i hm; rw [hvvc] at hm; exact hx key i hm
      have htgt : s1.tgt (.impl f) = ((f + (Utf8.Spec.encode c).length : Nat) : Int) := by
        rw [hk1.tgt hi hp]; exact b3
      have hl1 : s1.text.length = s.text.length := by rw [hk1.text]
      have hvf : s.validVertex (f : Int) = true := by
        simp only [State.validVertex, Bool.and_eq_true, decide_eq_true_eq]; omega
      have hne : Utf8.Spec.encodeAll (x :: xs) ++ rest ≠ [] := by
        rw [encodeAll_cons]; simp [Utf8.encode_ne_nil]
      -- the state after this character
      obtain ⟨s2, hstep, hk2, hx2, hread⟩ : ∃ s2, replaceLoop (n + 1) s f t (Utf8.Spec.encodeAll (x :: xs) ++ rest) text =
          replaceLoop n s2 ((f + (Utf8.Spec.encode c).length : Nat) : Int) t (Utf8.Spec.encodeAll xs ++ rest) text ∧ Keep s s2 ∧
          Textless s2 ∧ Reads s2 f (Utf8.Spec.encode x) ((f + (Utf8.Spec.encode c).length : Nat) : Int) := by
        rw [replaceLoop.eq_2]
        rw [if_neg hne, if_neg (by omega), encodeAll_cons, List.append_assoc, next_cons hxc]
        simp only
        rw [if_pos hvf, hpair]
        simp only
        rw [hk1.item hi hp, b4]
        simp only [Utf8.append_eq_encode x (Utf8.scalar_lt hxc)]
        by_cases hxc' : Utf8.Spec.encode x = Utf8.Spec.encode c
        · rw [if_neg (by simpa using hxc')]
          refine ⟨s1, by rw [htgt], hk1, hx1, ?_⟩
          have := reads_single hp1 (fun _ h => h) (hk1.item hi hp |>.trans b4)
          rw [htgt] at this
          rw [hxc']; exact this
        · rw [if_pos hxc']
          have hvis : Visible s1 (f : Int) ((f + (Utf8.Spec.encode c).length : Nat) : Int) :=
            visible_char hi1 (by rw [hk1.text]; exact hw) hc (by rw [hk1.text]; exact hpre) hp1 (by omega)
          have hpos := encode_length_pos c
          obtain ⟨k, s2, h2, hadd⟩ := add_text (s := s1)
            (a := { src := (f : Int), tgt := s1.tgt (.impl f), item := symbolItem (Utf8.Spec.encode x), tags := symbolTag })
            hr1 (hk1.validVertex hi hvf) (present_validTgt hi1 hp1)
            (by simp only [htgt]; omega) (by simp only [htgt]; omega) rfl rfl
            (by
              have hb := present_impl.1 hp1
              simp [implicitCondition, hb])
            (by simp only [htgt]; exact hvis)
            (by
              intro i hm
              have := hx1 _ _ hm
              simp only [Args.key, symbolItem] at this
              exact Utf8.encode_ne_nil x this)
          rw [h2]
          simp only
          refine ⟨s2, by rw [htgt], hk1.trans hadd.keep, fun key i hm => hx1 key i (hadd.impl key i hm), ?_⟩
          have := hadd.reads
          simp only [htgt, symbolItem] at this
          exact this
      obtain ⟨n', m, s3, h3, hn3, hk3, hx3, hr3, hs3⟩ := ih (n := n) (s := s2) (text := text) (rest := rest)
        (fun y hy => hsc y (by simp [hy])) (hk2.reachable hr) hx2 (by omega) (hk2.symbols hi hrest) (by simp at hlen; omega)
      refine ⟨n', m, s3, by rw [hstep, h3], hn3, hk2.trans hk3, hx3, ?_, ?_⟩
      · rw [encodeAll_cons]
        exact reads_append (hk3.readings (hk2.inv hi) _ _ _ hread) hr3
      · simpa using hs3

theorem newOutcome_impl {s : State} {b : Args} {r : Except Exn Edge × State} (h : NewOutcome s b r)
    {key : Key} {i : Nat} (hm : (key, Edge.impl i) ∈ r.2.vvc) :
    (key, Edge.impl i) ∈ s.vvc ∨ (key = b.key ∧ implicitCondition s b = true) := by
  cases h with
  | failed hmid _ _ => left; rw [← hmid.alike.vvc]; exact hm
  | @added s1 hmid =>
    rcases addNewRest_cases s1 b with ⟨hc, he⟩ | ⟨hc, he⟩
    · rw [he] at hm
      simp only [addImplicit, List.mem_append, List.mem_singleton, Prod.mk.injEq] at hm
      rcases hm with hm | hm
      · left; rw [← hmid.alike.vvc]; exact hm
      · refine Or.inr ⟨hm.1, ?_⟩
        rw [← hc]
        unfold implicitCondition
        rw [hmid.alike.symLen, hmid.implicit]
    · rw [he] at hm
      simp only [addExplicit, List.mem_append, List.mem_singleton, Prod.mk.injEq, reduceCtorEq,
        and_false, or_false] at hm
      left; rw [← hmid.alike.vvc]; exact hm

theorem textless_run {s : State} (h : Run Orderly initial s) : Textless s := by
  induction h with
  | refl => intro key i hm; simp [initial] at hm
  | @step s1 s2 c hr hp hs ih =>
    intro key i hm
    have hi1 := inv_micros inv_initial (run_micros inv_initial hr)
    cases step_kind hi1 hs with
    | other _ hv _ _ => rw [hv] at hm; exact ih key i hm
    | annotate a r ha he _ ho =>
      have hout := addEdge_outcome hi1 ho
      rw [he] at hout
      cases hout with
      | rejected hq _ => rw [hq.alike.vvc] at hm; exact ih key i hm
      | merged hq _ _ _ =>
        have : (key, Edge.impl i) ∈ s1.vvc := by rw [← hq.alike.vvc]; exact hm
        exact ih key i this
      | new hcan _ hn =>
        rcases newOutcome_impl hn hm with h | ⟨h1, h2⟩
        · exact ih key i h
        · have hsym := inherit_symbol hi1 (implicitCondition_tags h2)
          simp only [implicitCondition, Bool.and_eq_true, decide_eq_true_eq, Bool.not_eq_true', isLoose, decide_eq_false_iff_not] at h2
          obtain ⟨⟨⟨⟨g1, g2⟩, g3⟩, g4⟩, g5⟩ := h2
          have e1 : (inheritTags s1 a).src = a.src := rfl
          have e2 : (inheritTags s1 a).tgt = a.tgt := rfl
          rw [e1] at g1 g4 g5; rw [e2] at g4 g2
          have hval := hcan.tgt
          rw [e2] at hval
          simp only [State.validVertex, Bool.and_eq_true, decide_eq_true_eq] at hval
          have hpos := symLen_pos s1 a.src.toNat
          have := hp a ha hsym ⟨by omega, by omega, g4.symm⟩
          rcases this with this | this
          · rw [h1]; exact this
          · rw [present_impl, g5] at this; simp at this
      | @promoted s1' _ j _ hiso _ _ _ hmid hn =>
        rcases newOutcome_impl hn hm with h | ⟨h1, h2⟩
        · rw [hmid.alike.vvc] at h; exact ih key i h
        · have hk : key = (inheritTags s1 a).key := h1
          have := ih _ _ (inv_vvcEntry_mem.1 (isoplanar_mem hiso).1)
          rw [hk]; exact this

end Verif.Lattice
