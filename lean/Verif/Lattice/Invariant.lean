import Verif.Lattice.Lemmas

/-!
The invariant of a lattice, its growth, and calls as elementary changes.
-/
set_option linter.unusedVariables false
set_option linter.unusedSimpArgs false

namespace Verif.Lattice
open Verif Verif.Tags Verif.Tags.Spec Verif.Lattice.Spec

/-- The key of an edge of the graph. -/
def Entry.key (t : Entry) : Key := ⟨t.src, t.tgt, t.item⟩

/-- What holds of every edge of the graph. -/
structure EntryOk (s : State) (t : Entry) : Prop where
  src : s.validVertex t.src = true
  tgt : s.validVertex t.tgt = true
  loop : t.src ≠ t.tgt
  forward : ¬ (0 ≤ t.src ∧ 0 ≤ t.tgt ∧ t.src > t.tgt)
  okay : Okay s.mgr t.tags
  score : Largest t.score (t.parts.map (·.score))

/-- The invariant. -/
structure Inv (s : State) : Prop where
  implicitLen : s.implicit.length = s.text.length + 1
  hiddenLen : s.hidden.length = s.text.length + 1
  visibleLen : s.visible.length = s.text.length + 1
  mgr : Tags.Spec.Reachable s.mgr
  names : [[115, 121, 109, 98, 111, 108], discardedName, tokenName] <+: s.mgr.names
  entries : ∀ k, k < s.edges.length → EntryOk s (s.entry k)
  implicitOk : ∀ i, bitAt s.implicit i = true → i + s.symLen i ≤ s.text.length
  vvcExpl : ∀ key k, (key, Edge.expl k) ∈ s.vvc → k < s.edges.length ∧ key = (s.entry k).key
  vvcAll : ∀ k, k < s.edges.length → ((s.entry k).key, Edge.expl k) ∈ s.vvc
  vvcImpl : ∀ key i, (key, Edge.impl i) ∈ s.vvc →
    key.src = i ∧ key.tgt = (i + s.symLen i : Nat) ∧ i + s.symLen i ≤ s.text.length
  masks : ∀ mi ∈ s.masks, mi.mask.any = false ∧ mi.ins = mi.outs ∧
    mi.outs.Sublist (s.matching mi.mask)
  unique : ∀ j k, j < s.edges.length → k < s.edges.length → (s.entry j).key = (s.entry k).key →
    areInTheSamePlane s.mgr (s.entry j).tags (s.entry k).tags = true →
    j = k ∨ ∃ i, ((s.entry k).key, Edge.impl i) ∈ s.vvc

theorem symbolLength_pos (b : Byte) : 0 < Utf8.symbolLength b := by
  unfold Utf8.symbolLength; split <;> omega

theorem symLen_pos (s : State) (i : Nat) : 0 < s.symLen i := symbolLength_pos _

theorem Inv.mgrInv {s : State} (h : Inv s) : Tags.Inv s.mgr := reachable_inv h.mgr

theorem Inv.symbolOkay {s : State} (h : Inv s) : Okay s.mgr symbolTag := by
  apply okay_symbol
  obtain ⟨t, ht⟩ := h.names
  rw [← ht]; simp

theorem inv_initial : Inv initial := by
  refine ⟨rfl, rfl, rfl, ?_, List.prefix_refl _, ?_, ?_, ?_, ?_, ?_, ?_, ?_⟩
  · have h : createTagCollection Tags.initial [discardedName, tokenName] =
        some (initial.mgr, bit 1 ||| bit 2) := by rfl
    exact .create .refl h
  all_goals simp [initial, bitAt]
  intro i h
  rcases i with _ | i <;> simp at h

theorem inv_vvcEntry_mem {s : State} {key : Key} {e : Edge} :
    e ∈ s.vvcEntry key ↔ (key, e) ∈ s.vvc := by
  unfold State.vvcEntry
  simp only [List.mem_map, List.mem_filter, decide_eq_true_eq, Prod.exists]
  constructor
  · rintro ⟨a, b, ⟨h, rfl⟩, rfl⟩; exact h
  · intro h; exact ⟨key, e, ⟨h, rfl⟩, rfl⟩

theorem entry_append_lt {s : State} {l : List Entry} {k : Nat} (h : k < s.edges.length) :
    (s.edges ++ l).getD k default = s.entry k := by
  unfold State.entry
  simp only [List.getD_eq_getElem?_getD, List.getElem?_append_left h]

theorem entry_append_eq (s : State) (t : Entry) :
    (s.edges ++ [t]).getD s.edges.length default = t := by
  simp

/-! ### Growth -/

/-- What every change keeps. -/
structure Grow (s s' : State) : Prop where
  text : s.text <+: s'.text
  nLoose : s.nLoose ≤ s'.nLoose
  mgr : Later s.mgr s'.mgr
  len : s.edges.length ≤ s'.edges.length
  src : ∀ k, k < s.edges.length → (s'.entry k).src = (s.entry k).src
  tgt : ∀ k, k < s.edges.length → (s'.entry k).tgt = (s.entry k).tgt
  item : ∀ k, k < s.edges.length → (s'.entry k).item = (s.entry k).item
  tags : ∀ k, k < s.edges.length → SubTags (s.entry k).tags (s'.entry k).tags
  parts : ∀ k, k < s.edges.length → (s.entry k).parts <+: (s'.entry k).parts
  vvc : s.vvc <+: s'.vvc

theorem Grow.refl (s : State) : Grow s s :=
  ⟨List.prefix_refl _, Nat.le_refl _, .refl, Nat.le_refl _, fun _ _ => rfl, fun _ _ => rfl,
    fun _ _ => rfl, fun _ _ => subTags_refl _, fun _ _ => List.prefix_refl _, List.prefix_refl _⟩

theorem Grow.trans {a b c : State} (h : Grow a b) (h' : Grow b c) : Grow a c := by
  have hl := h.len
  refine ⟨h.text.trans h'.text, Nat.le_trans h.nLoose h'.nLoose, later_trans h.mgr h'.mgr,
    Nat.le_trans h.len h'.len, ?_, ?_, ?_, ?_, ?_, h.vvc.trans h'.vvc⟩
  · intro k hk; rw [h'.src k (by omega), h.src k hk]
  · intro k hk; rw [h'.tgt k (by omega), h.tgt k hk]
  · intro k hk; rw [h'.item k (by omega), h.item k hk]
  · intro k hk i hi; exact h'.tags k (by omega) i (h.tags k hk i hi)
  · intro k hk; exact (h.parts k hk).trans (h'.parts k (by omega))

/-- Changes that leave the edges alone. -/
theorem Grow.of_edges {s s' : State} (ht : s.text <+: s'.text) (hn : s.nLoose ≤ s'.nLoose)
    (hm : Later s.mgr s'.mgr) (he : s'.edges = s.edges) (hv : s.vvc <+: s'.vvc) : Grow s s' := by
  have : ∀ k, s'.entry k = s.entry k := by intro k; unfold State.entry; rw [he]
  refine ⟨ht, hn, hm, by rw [he], ?_, ?_, ?_, ?_, ?_, hv⟩
  all_goals intro k hk; rw [this]
  · exact subTags_refl _
  · exact List.prefix_refl _

/-- The entry that `mergeInto` leaves. -/
def merged (old : Entry) (a : Args) : Entry :=
  { old with
    tags := mergedTags old.tags a.tags
    score := if a.score > old.score then a.score else old.score
    parts := old.parts ++ [⟨mergedTags old.tags a.tags, a.seq, a.score, a.ruleId, a.treeChoice⟩] }

theorem mergeInto_eq (s : State) (k : Nat) (a : Args) :
    mergeInto s k a = { s with edges := s.edges.set k (merged (s.entry k) a) } := rfl

theorem entry_merge (s : State) (k : Nat) (a : Args) (j : Nat) :
    (mergeInto s k a).entry j =
      if j = k ∧ k < s.edges.length then merged (s.entry k) a else s.entry j := by
  rw [mergeInto_eq]
  unfold State.entry
  simp only [List.getD_eq_getElem?_getD, List.getElem?_set]
  by_cases h : k = j
  · subst h
    by_cases hk : k < s.edges.length
    · simp [hk]
    · simp [hk, List.getElem?_eq_none (Nat.le_of_not_lt hk)]
  · rw [if_neg h, if_neg (by omega)]

theorem merged_sub (old : Entry) (a : Args) : SubTags old.tags (merged old a).tags := by
  show SubTags old.tags (mergedTags _ _)
  rw [mergedTags_eq]; exact subTags_left _ _

theorem grow_micro {s s' : State} (h : Micro s s') : Grow s s' := by
  cases h with
  | append t =>
    exact .of_edges (List.prefix_append _ _) (Nat.le_refl _) .refl rfl (List.prefix_refl _)
  | loose =>
    exact .of_edges (List.prefix_refl _) (Nat.le_succ _) .refl rfl (List.prefix_refl _)
  | manager m hl => exact .of_edges (List.prefix_refl _) (Nat.le_refl _) hl rfl (List.prefix_refl _)
  | register mask hm =>
    exact .of_edges (by simp) (by simp) (by simpa using Later.refl) (by simp) (by simp)
  | visible i =>
    exact .of_edges (List.prefix_refl _) (Nat.le_refl _) .refl rfl (List.prefix_refl _)
  | bump u v =>
    exact .of_edges (List.prefix_refl _) (Nat.le_refl _) .refl rfl (List.prefix_refl _)
  | clear i =>
    exact .of_edges (List.prefix_refl _) (Nat.le_refl _) .refl rfl (List.prefix_refl _)
  | addImplicit a h1 h2 =>
    exact .of_edges (List.prefix_refl _) (Nat.le_refl _) .refl rfl (List.prefix_append _ _)
  | addExplicit a hc =>
    have he : ∀ k, k < s.edges.length → (addExplicit s a).2.entry k = s.entry k :=
      fun k hk => entry_append_lt hk
    refine ⟨List.prefix_refl _, Nat.le_refl _, .refl, by simp [addExplicit], ?_, ?_, ?_, ?_, ?_,
      List.prefix_append _ _⟩
    all_goals intro k hk; rw [he k hk]
    · exact subTags_refl _
    · exact List.prefix_refl _
  | merge k a h1 h2 =>
    have he := entry_merge s k a
    refine ⟨List.prefix_refl _, Nat.le_refl _, .refl, by simp [mergeInto], ?_, ?_, ?_, ?_, ?_,
      List.prefix_refl _⟩
    all_goals
      intro j hj; rw [he]; split
    · rename_i h; rw [h.1]; rfl
    · rfl
    · rename_i h; rw [h.1]; rfl
    · rfl
    · rename_i h; rw [h.1]; rfl
    · rfl
    · rename_i h; rw [h.1]; exact merged_sub _ _
    · exact subTags_refl _
    · rename_i h; rw [h.1]; exact List.prefix_append _ _
    · exact List.prefix_refl _

theorem grow_micros {s s' : State} (h : Micros s s') : Grow s s' := by
  induction h with
  | refl => exact .refl _
  | step _ h2 ih => exact ih.trans (grow_micro h2)

theorem Grow.symLen {s s' : State} (h : Grow s s') {i : Nat} (hi : i < s.text.length) :
    s'.symLen i = s.symLen i := by
  unfold State.symLen
  obtain ⟨t, ht⟩ := h.text
  rw [← ht]
  simp only [List.getD_eq_getElem?_getD, List.getElem?_append_left hi]

theorem Grow.textLen {s s' : State} (h : Grow s s') : s.text.length ≤ s'.text.length :=
  h.text.length_le

theorem Grow.validVertex {s s' : State} (h : Grow s s') {v : Vertex}
    (hv : s.validVertex v = true) : s'.validVertex v = true := by
  unfold State.validVertex at hv ⊢
  simp only [Bool.and_eq_true, decide_eq_true_eq] at hv ⊢
  have h1 := h.textLen
  have h2 := h.nLoose
  omega

/-! ### Preservation of the invariant -/

theorem length_resize (l : List Bool) (n : Nat) : (resize l n).length = n := by
  simp [resize]; omega

theorem bitAt_resize (l : List Bool) (n i : Nat) (h : bitAt (resize l n) i = true) :
    bitAt l i = true := by
  unfold bitAt resize at *
  simp only [List.getD_eq_getElem?_getD] at *
  rcases Nat.lt_or_ge i (l.take n).length with hi | hi
  · rw [List.getElem?_append_left hi, List.getElem?_take] at h
    split at h
    · exact h
    · simp at h
  · rw [List.getElem?_append_right hi, List.getElem?_replicate] at h
    split at h <;> simp at h

theorem bitAt_resize_eq {l : List Bool} {n i : Nat} (hn : l.length ≤ n) :
    bitAt (resize l n) i = bitAt l i := by
  rw [Bool.eq_iff_iff]
  refine ⟨bitAt_resize l n i, ?_⟩
  intro h
  unfold bitAt resize at *
  simp only [List.getD_eq_getElem?_getD] at *
  rcases Nat.lt_or_ge i l.length with hi | hi
  · rw [List.take_of_length_le hn, List.getElem?_append_left hi]; exact h
  · rw [List.getElem?_eq_none hi] at h; simp at h

theorem bitAt_lt {l : List Bool} {i : Nat} (h : bitAt l i = true) : i < l.length := by
  rcases Nat.lt_or_ge i l.length with hi | hi
  · exact hi
  · unfold bitAt at h; rw [List.getD_eq_getElem?_getD, List.getElem?_eq_none hi] at h; simp at h

theorem bitAt_set (l : List Bool) (i j : Nat) (b : Bool) :
    bitAt (l.set i b) j = if i = j ∧ j < l.length then b else bitAt l j := by
  unfold bitAt
  simp only [List.getD_eq_getElem?_getD, List.getElem?_set]
  by_cases h : i = j
  · subst h
    by_cases hk : i < l.length
    · simp [hk]
    · simp [hk, List.getElem?_eq_none (Nat.le_of_not_lt hk)]
  · rw [if_neg h, if_neg (by omega)]

/-- The entries of a state whose edges are the same. -/
theorem EntryOk.grow {s s' : State} {t : Entry} (h : EntryOk s t) (hm : Tags.Inv s.mgr)
    (hg : Grow s s') : EntryOk s' t :=
  ⟨hg.validVertex h.src, hg.validVertex h.tgt, h.loop, h.forward, h.okay.later hm hg.mgr, h.score⟩

theorem names_later {m m' : Manager} (h : Later m m') (hm : Tags.Inv m) : m.names <+: m'.names :=
  (later_spec h hm).2.1

/-- Changes that leave the edges, the implicit edges and the masks alone. -/
theorem Inv.of_edges {s s' : State} (h : Inv s) (hg : Grow s s') (he : s'.edges = s.edges)
    (hi : s'.implicit.length = s'.text.length + 1) (hh : s'.hidden.length = s'.text.length + 1)
    (hvl : s'.visible.length = s'.text.length + 1)
    (hib : ∀ i, bitAt s'.implicit i = true → i + s'.symLen i ≤ s'.text.length)
    (hv : ∀ p, p ∈ s'.vvc → p ∈ s.vvc ∨ ∃ a, s.validVertex a.tgt = true ∧
      implicitCondition s a = true ∧ p = (a.key, .impl a.src.toNat))
    (hmk : ∀ mi ∈ s'.masks, mi ∈ s.masks ∨
      (mi.mask.any = false ∧ mi.outs = s.matching mi.mask ∧ mi.ins = s.matching mi.mask)) : Inv s' := by
  have hen : ∀ k, s'.entry k = s.entry k := by intro k; unfold State.entry; rw [he]
  have hma : ∀ m, s'.matching m = s.matching m := by
    intro m; unfold State.matching; rw [he]; simp only [hen]
  refine ⟨hi, hh, hvl, later_trans h.mgr hg.mgr, h.names.trans (names_later hg.mgr h.mgrInv),
    ?_, hib, ?_, ?_, ?_, ?_, ?_⟩
  · intro k hk
    rw [he] at hk
    rw [hen]; exact (h.entries k hk).grow h.mgrInv hg
  · intro key k hk
    rw [he, hen]
    rcases hv _ hk with h1 | ⟨a, _, _, h1⟩
    · exact h.vvcExpl key k h1
    · simp at h1
  · intro k hk
    rw [he] at hk
    rw [hen]
    exact hg.vvc.subset (h.vvcAll k hk)
  · intro key i hk
    rcases hv _ hk with h1 | ⟨a, h2, h3, h1⟩
    · obtain ⟨c1, c2, c3⟩ := h.vvcImpl key i h1
      have := symLen_pos s i
      rw [hg.symLen (by omega)]
      exact ⟨c1, c2, Nat.le_trans c3 hg.textLen⟩
    · simp only [Prod.mk.injEq, Edge.impl.injEq] at h1
      obtain ⟨rfl, rfl⟩ := h1
      simp only [implicitCondition, isLoose, Bool.and_eq_true, Bool.not_eq_true', decide_eq_true_eq,
        decide_eq_false_iff_not] at h3
      simp only [State.validVertex, Bool.and_eq_true, decide_eq_true_eq] at h2
      have := symLen_pos s a.src.toNat
      have hle : a.src.toNat + s.symLen a.src.toNat ≤ s.text.length := by omega
      rw [hg.symLen (by omega)]
      refine ⟨?_, ?_, Nat.le_trans hle hg.textLen⟩
      · show a.src = _; omega
      · show a.tgt = _; omega
  · intro mi hmi
    rcases hmk mi hmi with h1 | ⟨h0, h1, h2⟩
    · rw [hma]; exact h.masks mi h1
    · rw [hma]; exact ⟨h0, by rw [h1, h2], by rw [h1]; exact List.Sublist.refl _⟩
  · intro j k hj hk hkey hpl
    rw [he] at hj hk
    rw [hen, hen] at hkey hpl
    have hpl' : areInTheSamePlane s.mgr (s.entry j).tags (s.entry k).tags = true := by
      rw [same_iff] at hpl ⊢
      rwa [plane_later (h.entries j hj).okay h.mgrInv hg.mgr,
        plane_later (h.entries k hk).okay h.mgrInv hg.mgr] at hpl
    rcases h.unique j k hj hk hkey hpl' with h1 | ⟨i, h1⟩
    · exact Or.inl h1
    · rw [hen]; exact Or.inr ⟨i, hg.vvc.subset h1⟩

theorem isMax_merge {x y : Score} {l : List Score} (h : Largest x l) :
    Largest (if y > x then y else x) (l ++ [y]) := by
  split
  · rename_i hlt
    refine ⟨by simp, ?_⟩
    intro b hb
    rcases List.mem_append.1 hb with hb | hb
    · exact le_trans (h.2 b hb) (le_of_lt hlt)
    · simp at hb; rw [hb]
  · rename_i hle
    refine ⟨List.mem_append_left _ h.1, ?_⟩
    intro b hb
    rcases List.mem_append.1 hb with hb | hb
    · exact h.2 b hb
    · simp at hb; rw [hb]; exact le_of_not_gt hle

theorem matching_append (s : State) (a : Args) (m : Mask) :
    (addExplicit s a).2.matching m =
      s.matching m ++ if «matches» a.tags m then [s.edges.length] else [] := by
  unfold State.matching
  have h1 : (addExplicit s a).2.edges.length = s.edges.length + 1 := by simp [addExplicit]
  rw [h1, List.range_succ, List.filter_append]
  congr 1
  · apply List.filter_congr
    intro k hk
    have hk' : k < s.edges.length := by simpa using hk
    have : (addExplicit s a).2.entry k = s.entry k := entry_append_lt hk'
    rw [this]
  · have : (addExplicit s a).2.entry s.edges.length = ⟨a.src, a.tgt, a.item, a.tags, a.score,
      [⟨a.tags, a.seq, a.score, a.ruleId, a.treeChoice⟩]⟩ := entry_append_eq s _
    simp only [List.filter_cons, this, List.filter_nil]

theorem length_hideRange (l : List Bool) (u v : Vertex) : (hideRange l u v).length = l.length := by
  simp [hideRange]

theorem filter_sublist_of_imp {l : List Nat} {p q : Nat → Bool} (h : ∀ a ∈ l, p a = true → q a = true) :
    (l.filter p).Sublist (l.filter q) := by
  induction l with
  | nil => simp
  | cons a l ih =>
    have ih := ih (fun b hb => h b (List.mem_cons_of_mem _ hb))
    simp only [List.filter_cons]
    by_cases hp : p a = true
    · rw [if_pos hp, if_pos (h a (by simp) hp)]; exact ih.cons₂ a
    · rw [if_neg hp]
      split
      · exact ih.cons a
      · exact ih

theorem inv_micro {s s' : State} (h : Inv s) (hm : Micro s s') : Inv s' := by
  have hg := grow_micro hm
  cases hm with
  | append t =>
    refine h.of_edges hg rfl (length_resize _ _) (length_resize _ _) (length_resize _ _) ?_
      (fun p hp => Or.inl hp) (fun m hm => Or.inl hm)
    intro i hi
    have h1 := h.implicitOk i (bitAt_resize _ _ _ hi)
    have := symLen_pos s i
    rw [hg.symLen (by omega)]
    exact Nat.le_trans h1 hg.textLen
  | loose =>
    exact h.of_edges hg rfl h.implicitLen h.hiddenLen h.visibleLen h.implicitOk
      (fun p hp => Or.inl hp) (fun m hm => Or.inl hm)
  | manager m hl =>
    exact h.of_edges hg rfl h.implicitLen h.hiddenLen h.visibleLen h.implicitOk
      (fun p hp => Or.inl hp) (fun m hm => Or.inl hm)
  | register mask hm =>
    refine h.of_edges hg (by simp) (by simpa using h.implicitLen) (by simpa using h.hiddenLen)
      (by simpa using h.visibleLen) ?_ (fun p hp => Or.inl (by simpa using hp)) ?_
    · intro i hi
      simp only [register_implicit] at hi
      rw [(alike_register s mask).symLen, register_text]
      exact h.implicitOk i hi
    · intro mi hmi
      unfold addTagMaskIndex at hmi
      split at hmi
      · exact Or.inl hmi
      · simp only [List.mem_append, List.mem_singleton] at hmi
        rcases hmi with h1 | rfl
        · exact Or.inl h1
        · exact Or.inr ⟨hm, rfl, rfl⟩
  | visible i =>
    exact h.of_edges hg rfl h.implicitLen h.hiddenLen (by simpa using h.visibleLen) h.implicitOk
      (fun p hp => Or.inl hp) (fun m hm => Or.inl hm)
  | bump u v =>
    exact h.of_edges hg rfl h.implicitLen h.hiddenLen h.visibleLen h.implicitOk
      (fun p hp => Or.inl hp) (fun m hm => Or.inl hm)
  | clear i =>
    refine h.of_edges hg rfl (by simpa using h.implicitLen) h.hiddenLen h.visibleLen ?_
      (fun p hp => Or.inl hp) (fun m hm => Or.inl hm)
    intro j hj
    simp only [bitAt_set] at hj
    split at hj
    · simp at hj
    · exact h.implicitOk j hj
  | addImplicit a h1 h2 =>
    refine h.of_edges hg rfl (by simpa [addImplicit] using h.implicitLen) h.hiddenLen h.visibleLen ?_
      ?_ (fun m hm => Or.inl hm)
    · intro j hj
      simp only [addImplicit, bitAt_set] at hj
      split at hj
      · rename_i hc
        simp only [implicitCondition, isLoose, Bool.and_eq_true, Bool.not_eq_true',
          decide_eq_true_eq, decide_eq_false_iff_not] at h2
        simp only [State.validVertex, Bool.and_eq_true, decide_eq_true_eq] at h1
        obtain ⟨rfl, _⟩ := hc
        show a.src.toNat + s.symLen a.src.toNat ≤ s.text.length
        omega
      · exact h.implicitOk j hj
    · intro p hp
      simp only [addImplicit, List.mem_append, List.mem_singleton] at hp
      rcases hp with hp | rfl
      · exact Or.inl hp
      · exact Or.inr ⟨a, h1, h2, rfl⟩
  | addExplicit a hc =>
    have hlt : ∀ k, k < s.edges.length → (addExplicit s a).2.entry k = s.entry k :=
      fun k hk => entry_append_lt hk
    have heq : (addExplicit s a).2.entry s.edges.length = ⟨a.src, a.tgt, a.item, a.tags, a.score,
      [⟨a.tags, a.seq, a.score, a.ruleId, a.treeChoice⟩]⟩ := entry_append_eq s _
    have hlen : (addExplicit s a).2.edges.length = s.edges.length + 1 := by simp [addExplicit]
    refine ⟨h.implicitLen, ?_, h.visibleLen, h.mgr, h.names, ?_, h.implicitOk, ?_, ?_, ?_, ?_, ?_⟩
    · show (if _ then _ else _ : List Bool).length = _
      split
      · exact h.hiddenLen
      · rw [length_hideRange]; exact h.hiddenLen
    · intro k hk
      rw [hlen] at hk
      rcases Nat.lt_or_ge k s.edges.length with hk' | hk'
      · rw [hlt k hk']; exact (h.entries k hk').grow h.mgrInv hg
      · obtain rfl : k = s.edges.length := by omega
        rw [heq]
        exact ⟨hc.src, hc.tgt, hc.loop, hc.forward, hc.okay, by simp [Largest]⟩
    · intro key k hk
      simp only [addExplicit, List.mem_append, List.mem_singleton, Prod.mk.injEq,
        Edge.expl.injEq] at hk
      rw [hlen]
      rcases hk with hk | ⟨rfl, rfl⟩
      · obtain ⟨c1, c2⟩ := h.vvcExpl key k hk
        rw [hlt k c1]; exact ⟨by omega, c2⟩
      · rw [heq]; exact ⟨by omega, rfl⟩
    · intro k hk
      rw [hlen] at hk
      rcases Nat.lt_or_ge k s.edges.length with hk' | hk'
      · rw [hlt k hk']; exact hg.vvc.subset (h.vvcAll k hk')
      · obtain rfl : k = s.edges.length := by omega
        rw [heq]; simp [addExplicit, Entry.key, Args.key]
    · intro key i hk
      simp only [addExplicit, List.mem_append, List.mem_singleton, Prod.mk.injEq,
        reduceCtorEq, and_false, or_false] at hk
      exact h.vvcImpl key i hk
    · intro mi hmi
      simp only [addExplicit, List.mem_map] at hmi
      obtain ⟨mj, hmj, rfl⟩ := hmi
      obtain ⟨c1, c2, c3⟩ := h.masks mj hmj
      split
      · rename_i hmm
        refine ⟨c1, by rw [c2], ?_⟩
        rw [matching_append]
        simp only [hmm, if_true]
        exact c3.append (List.Sublist.refl _)
      · refine ⟨c1, c2, ?_⟩
        rw [matching_append]
        exact c3.trans (List.sublist_append_left _ _)
    · intro j k hj hk hkey hpl
      rw [hlen] at hj hk
      have hpl : areInTheSamePlane s.mgr ((addExplicit s a).2.entry j).tags
        ((addExplicit s a).2.entry k).tags = true := hpl
      have key : ∀ j, j < s.edges.length → (s.entry j).key = a.key →
          areInTheSamePlane s.mgr (s.entry j).tags a.tags = true →
          ∃ i, (a.key, Edge.impl i) ∈ s.vvc := by
        intro j hj h1 h2
        rcases hc.fresh with hf | ⟨i, hi⟩
        · exfalso
          refine hf (.expl j) ?_ ?_
          · rw [inv_vvcEntry_mem, ← h1]; exact h.vvcAll j hj
          · rw [same_iff] at h2 ⊢; exact h2.symm
        · exact ⟨i, inv_vvcEntry_mem.1 hi⟩
      rcases Nat.lt_or_ge j s.edges.length with hj' | hj' <;>
        rcases Nat.lt_or_ge k s.edges.length with hk' | hk'
      · rw [hlt j hj', hlt k hk'] at hkey hpl
        rcases h.unique j k hj' hk' hkey hpl with h1 | ⟨i, h1⟩
        · exact Or.inl h1
        · rw [hlt k hk']; exact Or.inr ⟨i, hg.vvc.subset h1⟩
      · obtain rfl : k = s.edges.length := by omega
        rw [hlt j hj', heq] at hkey hpl
        obtain ⟨i, hi⟩ := key j hj' hkey hpl
        rw [heq]; exact Or.inr ⟨i, hg.vvc.subset hi⟩
      · obtain rfl : j = s.edges.length := by omega
        rw [hlt k hk', heq] at hkey hpl
        rw [hlt k hk']
        obtain ⟨i, hi⟩ := key k hk' hkey.symm (by rw [same_iff] at hpl ⊢; exact hpl.symm)
        rw [← hkey]; exact Or.inr ⟨i, hg.vvc.subset hi⟩
      · exact Or.inl (by omega)
  | merge k a h1 h2 =>
    obtain ⟨hmem, hpl⟩ := isoplanar_mem h1
    obtain ⟨hk, hkey⟩ := h.vvcExpl _ _ (inv_vvcEntry_mem.1 hmem)
    have he := entry_merge s k a
    have hlen : (mergeInto s k a).edges.length = s.edges.length := by simp [mergeInto]
    have hkeys : ∀ j, ((mergeInto s k a).entry j).key = (s.entry j).key := by
      intro j; rw [he]; split
      · rename_i h; rw [h.1]; rfl
      · rfl
    have hplane : ∀ j, onlyPlaneTags s.mgr ((mergeInto s k a).entry j).tags =
        onlyPlaneTags s.mgr (s.entry j).tags := by
      intro j; rw [he]; split
      · rename_i h; rw [h.1]
        show onlyPlaneTags s.mgr (mergedTags _ _) = _
        rw [mergedTags_eq]
        rw [same_iff] at hpl
        exact plane_union_same hpl.symm
      · rfl
    refine ⟨h.implicitLen, h.hiddenLen, h.visibleLen, h.mgr, h.names, ?_, h.implicitOk, ?_, ?_,
      h.vvcImpl, ?_, ?_⟩
    · intro j hj
      rw [hlen] at hj
      have ho := (h.entries j hj).grow h.mgrInv hg
      rw [he]; split
      · rename_i hjk
        rw [hjk.1] at ho
        refine ⟨ho.src, ho.tgt, ho.loop, ho.forward, ?_, ?_⟩
        · show Okay _ (mergedTags _ _)
          rw [mergedTags_eq]; exact ho.okay.union h2
        · show Largest _ (List.map _ (_ ++ [_]))
          rw [List.map_append]; exact isMax_merge ho.score
      · exact ho
    · intro key j hj
      rw [hlen, hkeys]; exact h.vvcExpl key j hj
    · intro j hj
      rw [hlen] at hj
      rw [hkeys]; exact h.vvcAll j hj
    · intro mi hmi
      obtain ⟨c1, c2, c3⟩ := h.masks mi hmi
      refine ⟨c1, c2, c3.trans ?_⟩
      unfold State.matching
      rw [hlen]
      apply filter_sublist_of_imp
      intro j hj hmj
      exact matches_mono (hg.tags j (by simpa using hj)) hmj
    · intro i j hi hj hk' hp
      rw [hlen] at hi hj
      rw [hkeys, hkeys] at hk'
      rw [same_iff] at hp
      have hp' : areInTheSamePlane s.mgr (s.entry i).tags (s.entry j).tags = true := by
        rw [same_iff, ← hplane i, ← hplane j]; exact hp
      rw [hkeys]
      exact h.unique i j hi hj hk' hp'

theorem inv_micros {s s' : State} (h : Inv s) (hm : Micros s s') : Inv s' := by
  induction hm with
  | refl => exact h
  | step _ h2 ih => exact inv_micro ih h2

/-! ### Calls -/

theorem Inv.tagsOkay {s : State} (h : Inv s) {e : Edge} (he : s.validEdge e = true) :
    Okay s.mgr (s.tags e) := by
  cases e with
  | impl i => exact h.symbolOkay
  | expl k => exact (h.entries k (by simpa [State.validEdge] using he)).okay

theorem gather_okay {s : State} (h : Inv s) {l : List Usage}
    (hv : ∀ u ∈ l, s.validEdge u.edge = true) (t : TagSet) (ht : Okay s.mgr t) :
    Okay s.mgr (l.foldl (fun t u => createUnion t (onlyPlaneTags s.mgr (s.tags u.edge))) t) := by
  induction l generalizing t with
  | nil => exact ht
  | cons u l ih =>
    simp only [List.foldl_cons]
    exact ih (fun u hu => hv u (List.mem_cons_of_mem _ hu)) _
      (ht.union (h.tagsOkay (hv u (by simp))).plane)

theorem validSequence_edges {s : State} {q : Sequence} (h : s.validSequence q = true) :
    ∀ u ∈ q.links, s.validEdge u.edge = true := by
  unfold State.validSequence at h
  simp only [Bool.and_eq_true, List.all_eq_true] at h
  intro u hu
  have := h.1 u hu
  unfold State.validEdge
  exact this

theorem inherit_okay {s : State} (h : Inv s) {a : Args} (ht : Okay s.mgr a.tags)
    (hq : s.validSequence a.seq = true) : Okay s.mgr (inheritTags s a).tags := by
  unfold inheritTags
  dsimp only
  split
  · exact ht.union (gather_okay h (validSequence_edges hq) 0 (okay_zero _))
  · exact ht

theorem mergeWith_micros {s : State} {a : Args} {e : Edge} (hi : Inv s)
    (hs : s.validVertex a.src = true) (ht : s.validVertex a.tgt = true) (hl : a.src ≠ a.tgt)
    (hf : ¬ (0 ≤ a.src ∧ 0 ≤ a.tgt ∧ a.src > a.tgt)) (ho : Okay s.mgr a.tags)
    (he : s.isoplanar a.key a.tags = some e) : Micros s (mergeWith s e a).2 := by
  unfold mergeWith
  have hq := quiet_sequenceContains s a.seq e
  split
  · rename_i x s1 h1; rw [h1] at hq; exact hq.micros
  · rename_i s1 h1; rw [h1] at hq; exact hq.micros
  · rename_i s1 h1; rw [h1] at hq
    have hq : Quiet s s1 := hq
    have hi1 := inv_micros hi hq.micros
    split
    · rename_i k
      exact hq.micros.step (.merge s1 k a (by rw [hq.alike.isoplanar]; exact he)
        (by rw [hq.alike.mgr]; exact ho))
    · rename_i i
      refine (hq.micros.step (.clear s1 a.src.toNat)).trans (addNew_micros ?_)
      have hal : Alike s { s1 with implicit := s1.implicit.set a.src.toNat false } :=
        hq.alike.trans ⟨rfl, rfl, rfl, rfl, rfl, rfl⟩
      apply hal.canAdd
      refine ⟨hs, ht, hl, hf, ?_, Or.inr ⟨i, ?_⟩⟩
      · show Okay s.mgr (mergedWithImplicit a.tags)
        rw [mergedWithImplicit_eq]; exact hi.symbolOkay.union ho
      · exact (isoplanar_mem he).1

theorem addEdgeCore_micros {s : State} {a : Args} (hi : Inv s)
    (hs : s.validVertex a.src = true) (ht : s.validVertex a.tgt = true) (ho : Okay s.mgr a.tags) :
    Micros s (addEdgeCore s a).2 := by
  unfold addEdgeCore
  split
  · exact .refl _
  · rename_i hl
    split
    · exact .refl _
    · rename_i hf
      split
      · rename_i hn
        exact addNew_micros ⟨hs, ht, hl, hf, ho, Or.inl (find?_none_all hn)⟩
      · rename_i e he
        exact mergeWith_micros hi hs ht hl hf ho he

theorem addEdge_micros {s : State} {a : Args} (hi : Inv s) (ho : Okay s.mgr a.tags) :
    Micros s (addEdge s a).2 := by
  unfold addEdge
  split
  · rename_i hv
    simp only [Bool.and_eq_true] at hv
    exact addEdgeCore_micros hi hv.1.1 hv.1.2 (inherit_okay hi ho hv.2)
  · exact .refl _

theorem addPartition_micros {s : State} (hi : Inv s) (e : Edge) {t : TagSet} (ho : Okay s.mgr t)
    (q : Sequence) (x : Score) (i j : Int) :
    Micros s (addPartitionToEdge s e t q x i j).2 := by
  unfold addPartitionToEdge
  split
  · rename_i hv
    split
    · exact .refl _
    · exact addEdge_micros hi (ho.union (hi.tagsOkay hv).plane)
  · exact .refl _

theorem Inv.discardedOkay {s : State} (h : Inv s) : Okay s.mgr discardedTag := by
  have hn : s.mgr.names[1]? = some discardedName := by
    obtain ⟨t, ht⟩ := h.names
    rw [← ht]; rfl
  have hb : ∀ j, discardedTag.getLsbD j = decide (1 = j) := getLsbD_bit (by omega)
  refine ⟨?_, ?_⟩
  · intro j hj
    rw [hb] at hj
    have : 1 = j := by simpa using hj
    subst this
    exact ⟨_, hn⟩
  · intro j n hj hn' hp
    rw [hb] at hj
    have : 1 = j := by simpa using hj
    subst this
    rw [hn] at hn'
    cases hn'
    simp [isPlaneName, discardedName] at hp

theorem step_micros {s s' : State} {c : Call} (hi : Inv s) (h : Step s c s') : Micros s s' := by
  cases h with
  | append => exact .single (.append _ _)
  | loose => exact .single (.loose _)
  | add hm h1 h2 =>
    have := addEdge_micros hi (okay_of_made hm)
    rw [h1] at this; exact this
  | @addPartition e t q x i j _ _ hm h1 h2 =>
    have := addPartition_micros hi e (okay_of_made hm) q x i j
    rw [h1] at this; exact this
  | @discard e _ _ h1 h2 =>
    have := addPartition_micros hi e hi.discardedOkay Sequence.empty lowestScore (-1) (-1)
    rw [show addPartitionToEdge _ e _ _ _ _ _ = _ from h1] at this
    exact this
  | out hv => exact micros_outEdges _ _ _
  | into hv => exact micros_inEdges _ _ _
  | manager hl => exact .single (.manager _ _ hl)

theorem run_micros {P : State → Call → Prop} {s s' : State} (hi : Inv s) (h : Run P s s') :
    Micros s s' := by
  induction h with
  | refl => exact .refl _
  | step _ _ h2 ih => exact ih.trans (step_micros (inv_micros hi ih) h2)

theorem run_steps {P : State → Call → Prop} {s s' : State} (h : Run P s s') : Steps s s' := by
  induction h with
  | refl => exact .refl
  | step _ _ h2 ih => exact .step ih trivial h2

theorem reachable_inv' {s : State} (h : Lattice.Spec.Reachable s) : Inv s :=
  inv_micros inv_initial (run_micros inv_initial h)

theorem steps_grow {P : State → Call → Prop} {s s' : State} (hi : Inv s) (h : Run P s s') :
    Grow s s' := grow_micros (run_micros hi h)

end Verif.Lattice
