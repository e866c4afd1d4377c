import Verif.Lattice.PropsEdges

/-!
Property theorems C09 (counting edges).
-/
set_option linter.unusedVariables false
set_option linter.unusedSimpArgs false

namespace Verif.Lattice
open Verif Verif.Tags Verif.Tags.Spec Verif.Lattice.Spec

/-- The number of implicit edges between two vertices (0 or 1). -/
def implBetween (s : State) (u v : Vertex) : Nat :=
  if 0 ≤ u ∧ bitAt s.implicit u.toNat = true ∧ u + s.symLen u.toNat = v then 1 else 0

/-- The number of edges of the graph between two vertices. -/
def explBetween (s : State) (u v : Vertex) : Nat :=
  (List.range s.edges.length).countP
    (fun k => decide ((s.entry k).src = u) && decide ((s.entry k).tgt = v))

theorem edgesBetween_eq (s : State) (u v : Vertex) :
    edgesBetween s u v = implBetween s u v + explBetween s u v := by
  unfold edgesBetween State.allOutEdges
  rw [List.filter_append, List.length_append]
  congr 1
  · unfold State.implicitOut implBetween
    by_cases h : 0 ≤ u ∧ bitAt s.implicit u.toNat = true
    · rw [if_pos h]
      have ht : s.tgt (.impl u.toNat) = u + s.symLen u.toNat := by
        simp only [State.tgt]; omega
      by_cases h2 : u + s.symLen u.toNat = v
      · simp [ht, h2, h.1, h.2]
      · simp [ht, h2]
    · rw [if_neg h, if_neg (by rintro ⟨a, b, _⟩; exact h ⟨a, b⟩)]
      rfl
  · unfold State.graphOut explBetween
    rw [List.countP_eq_length_filter, List.filter_map, List.length_map, List.filter_filter]
    congr 1
    apply List.filter_congr
    intro k _
    simp [State.tgt, Bool.and_comm]

theorem explBetween_congr {s s' : State} (hl : s'.edges.length = s.edges.length)
    (h : ∀ k, (s'.entry k).src = (s.entry k).src ∧ (s'.entry k).tgt = (s.entry k).tgt) (u v : Vertex) :
    explBetween s' u v = explBetween s u v := by
  unfold explBetween
  rw [hl]
  congr 1
  funext k
  rw [(h k).1, (h k).2]

theorem alike_expl {s s' : State} (h : Alike s s') (u v : Vertex) :
    explBetween s' u v = explBetween s u v :=
  explBetween_congr (by rw [h.edges]) (fun k => by rw [h.entry]; exact ⟨rfl, rfl⟩) u v

theorem mid_between {s s' : State} {ct} (h : Mid s s' s.implicit ct) (u v : Vertex) :
    edgesBetween s' u v = edgesBetween s u v := by
  rw [edgesBetween_eq, edgesBetween_eq, alike_expl h.alike]
  unfold implBetween
  rw [h.implicit, h.alike.symLen]

theorem addExplicit_between (s : State) (b : Args) (u v : Vertex) :
    edgesBetween (addExplicit s b).2 u v =
      edgesBetween s u v + (if u = b.src ∧ v = b.tgt then 1 else 0) := by
  rw [edgesBetween_eq, edgesBetween_eq]
  have h1 : implBetween (addExplicit s b).2 u v = implBetween s u v := rfl
  rw [h1, Nat.add_assoc]
  congr 1
  unfold explBetween
  have hl : (addExplicit s b).2.edges.length = s.edges.length + 1 := by simp [addExplicit]
  rw [hl, List.range_succ, List.countP_append]
  congr 1
  · apply List.countP_congr
    intro k hk
    have : (addExplicit s b).2.entry k = s.entry k := entry_append_lt (by simpa using hk)
    rw [this]
  · have : (addExplicit s b).2.entry s.edges.length = _ := entry_append_eq s _
    rw [List.countP_singleton, this]
    by_cases h : u = b.src ∧ v = b.tgt
    · simp [h.1, h.2]
    · rw [if_neg h, if_neg]
      simp only [Bool.and_eq_true, decide_eq_true_eq]
      rintro ⟨h1, h2⟩; exact h ⟨h1.symm, h2.symm⟩

theorem condition_facts {s : State} {b : Args} (h : implicitCondition s b = true) :
    0 ≤ b.src ∧ b.tags = symbolTag ∧ b.tgt = b.src + s.symLen b.src.toNat ∧
      bitAt s.implicit b.src.toNat = false := by
  simp only [implicitCondition, isLoose, Bool.and_eq_true, decide_eq_true_eq, Bool.not_eq_true',
    decide_eq_false_iff_not] at h
  exact ⟨by omega, h.1.1.2, h.1.2.symm, h.2⟩

theorem addImplicit_between {s : State} (hi : Inv s) {b : Args} (hc : implicitCondition s b = true)
    (ht : s.validVertex b.tgt = true) (u v : Vertex) :
    edgesBetween (addImplicit s b).2 u v =
      edgesBetween s u v + (if u = b.src ∧ v = b.tgt then 1 else 0) := by
  rw [edgesBetween_eq, edgesBetween_eq]
  obtain ⟨c1, c2, c3, c4⟩ := condition_facts hc
  have h1 : explBetween (addImplicit s b).2 u v = explBetween s u v := rfl
  rw [h1]
  suffices h : implBetween (addImplicit s b).2 u v =
      implBetween s u v + (if u = b.src ∧ v = b.tgt then 1 else 0) by omega
  have hp := symLen_pos s b.src.toNat
  simp only [State.validVertex, Bool.and_eq_true, decide_eq_true_eq] at ht
  have hlt : b.src.toNat < s.implicit.length := by rw [hi.implicitLen]; omega
  have hbit : bitAt (addImplicit s b).2.implicit u.toNat =
      if b.src.toNat = u.toNat ∧ u.toNat < s.implicit.length then true else bitAt s.implicit u.toNat :=
    bitAt_set _ _ _ _
  have hsl : (addImplicit s b).2.symLen u.toNat = s.symLen u.toNat := rfl
  unfold implBetween
  rw [hsl]
  by_cases hu : u = b.src
  · subst hu
    rw [if_pos ⟨rfl, hlt⟩] at hbit
    rw [hbit, c4]
    by_cases hv : v = b.tgt
    · simp [hv, c1, ← c3]
    · have : ¬ b.src + (s.symLen b.src.toNat : Int) = v := by rw [← c3]; exact fun h => hv h.symm
      simp [hv, this]
  · by_cases h0 : 0 ≤ u
    · rw [if_neg (by rintro ⟨h, _⟩; omega)] at hbit
      simp [hbit, hu]
    · simp [h0, hu]

/-- The new edge and the counter. -/
theorem newOutcome_between {s : State} (hi : Inv s) {b : Args} {r : Except Exn Edge × State}
    (h : NewOutcome s b r) (ht : s.validVertex b.tgt = true) :
    r.2.counter = bumped s.counter b.src b.tgt ∧
    ((∃ e, r.1 = .ok e ∧ ¬ Present s e ∧ ∀ u v, edgesBetween r.2 u v =
        edgesBetween s u v + (if u = b.src ∧ v = b.tgt then 1 else 0)) ∨
     ((∃ x, r.1 = .error x ∧ b.tags = symbolTag ∧ (x = .undefined ∨ x = .utf8 ∧ ¬ Boundary s b.tgt)) ∧
        ∀ u v, edgesBetween r.2 u v = edgesBetween s u v)) := by
  cases h with
  | @failed x s' hmid h1 h2 =>
    exact ⟨hmid.counter, Or.inr ⟨⟨x, rfl, h1, h2⟩, fun u v => mid_between hmid u v⟩⟩
  | @added s1 hmid =>
    have hi1 := inv_micros hi hmid.micros
    rcases addNewRest_cases s1 b with ⟨hc, he⟩ | ⟨hc, he⟩
    · rw [he]
      refine ⟨hmid.counter, Or.inl ⟨_, rfl, ?_, ?_⟩⟩
      · show ¬ Present s (.impl b.src.toNat)
        rw [present_impl, ← hmid.implicit]
        have := (condition_facts hc).2.2.2
        simp [this]
      · intro u v
        rw [addImplicit_between hi1 hc (by rw [hmid.alike.validVertex]; exact ht), mid_between hmid]
    · rw [he]
      refine ⟨hmid.counter, Or.inl ⟨_, rfl, ?_, ?_⟩⟩
      · show ¬ Present s (.expl s1.edges.length)
        rw [present_expl, hmid.alike.edges]; omega
      · intro u v
        rw [addExplicit_between, mid_between hmid]

/-- Clearing an implicit edge. -/
theorem clear_between {s s1 : State} {i : Nat} {ct}
    (hm : Mid s s1 (s.implicit.set i false) ct) (u v : Vertex) :
    edgesBetween s1 u v ≤ edgesBetween s u v ∧
    (¬ (u = i ∧ v = (i + s.symLen i : Nat)) → edgesBetween s1 u v = edgesBetween s u v) := by
  rw [edgesBetween_eq, edgesBetween_eq, alike_expl hm.alike]
  unfold implBetween
  rw [hm.implicit, hm.alike.symLen, bitAt_set]
  by_cases h : i = u.toNat ∧ u.toNat < s.implicit.length
  · rw [if_pos h, if_neg (by simp)]
    refine ⟨by omega, ?_⟩
    intro hn
    congr 1
    symm
    rw [if_neg]
    rintro ⟨h1, h2, h3⟩
    apply hn
    obtain ⟨rfl, _⟩ := h
    exact ⟨by omega, by omega⟩
  · rw [if_neg h]
    exact ⟨Nat.le_refl _, fun _ => rfl⟩

theorem mergeInto_between {s s1 : State} (hq : Quiet s s1) (k : Nat) (b : Args) (u v : Vertex) :
    edgesBetween (mergeInto s1 k b) u v = edgesBetween s u v := by
  rw [← mid_between hq.mid, edgesBetween_eq, edgesBetween_eq]
  have h1 : implBetween (mergeInto s1 k b) u v = implBetween s1 u v := rfl
  rw [h1]
  congr 1
  apply explBetween_congr
  · simp [mergeInto]
  · intro j
    rw [entry_merge]
    split
    · rename_i h; rw [h.1]; exact ⟨rfl, rfl⟩
    · exact ⟨rfl, rfl⟩

theorem other_between {s s' : State} {c : Call} (hi : Inv s) (hs : Step s c s')
    (he : s'.edges = s.edges) (hb : ∀ i, bitAt s'.implicit i = bitAt s.implicit i) (u v : Vertex) :
    edgesBetween s' u v = edgesBetween s u v := by
  have hg := grow_micros (step_micros hi hs)
  rw [edgesBetween_eq, edgesBetween_eq]
  congr 1
  · unfold implBetween
    rw [hb]
    by_cases h : 0 ≤ u ∧ bitAt s.implicit u.toNat = true
    · have h1 := hi.implicitOk _ h.2
      have h2 := symLen_pos s u.toNat
      rw [hg.symLen (by omega)]
    · rw [if_neg (by rintro ⟨a, b, _⟩; exact h ⟨a, b⟩), if_neg (by rintro ⟨a, b, _⟩; exact h ⟨a, b⟩)]
  · exact explBetween_congr (by rw [he])
      (fun k => by unfold State.entry; rw [he]; exact ⟨rfl, rfl⟩) u v

theorem bumped_le (ct : Vertex → Vertex → Nat) (x y u v : Vertex) :
    bumped ct x y u v = ct u v + (if u = x ∧ v = y then 1 else 0) := by
  unfold bumped; split <;> rfl

/-! ## C09 -/

/-- **C09** The count is never smaller than the number of edges. -/
theorem C09_at_least {s : State} (h : Lattice.Spec.Reachable s) (u v : Vertex) :
    edgesBetween s u v ≤ s.countEdges u v := by
  unfold Lattice.Spec.Reachable at h
  induction h with
  | refl =>
    have h1 : implBetween initial u v = 0 := by
      unfold implBetween
      rw [if_neg]
      rintro ⟨_, h, _⟩
      have hlt := bitAt_lt h
      have hl : initial.implicit.length = 1 := rfl
      have : u.toNat = 0 := by omega
      rw [this] at h
      exact absurd h (by decide)
    have h2 : explBetween initial u v = 0 := rfl
    rw [edgesBetween_eq, h1, h2]
    exact Nat.zero_le _
  | @step s1 s2 c hr hp hst ih =>
    have hi1 := inv_micros inv_initial (run_micros inv_initial hr)
    unfold State.countEdges at *
    cases step_kind hi1 hst with
    | other he _ hc hb => rw [other_between hi1 hst he hb, hc]; exact ih
    | annotate a r ha he _ ho =>
      have hout := addEdge_outcome hi1 ho
      rw [he] at hout
      generalize hpair : ((r, s2) : Except Exn Edge × State) = p at hout
      have hs2 : s2 = p.2 := by rw [← hpair]
      rw [hs2]
      cases hout with
      | rejected hq _ => rw [mid_between hq.mid, hq.counter]; exact ih
      | @merged s3 k hq _ _ _ =>
        rw [mergeInto_between hq]
        show _ ≤ s3.counter u v
        rw [hq.counter]; exact ih
      | new hc hn ho =>
        obtain ⟨h1, h2⟩ := newOutcome_between hi1 ho hc.tgt
        rw [h1, bumped_le]
        rcases h2 with ⟨e, _, _, h2⟩ | ⟨_, h2⟩ <;> rw [h2] <;> omega
      | @promoted s3 _ i hc hn e1 e2 e3 hmid ho =>
        have hi3 := inv_micros hi1 hmid.micros
        obtain ⟨h1, h2⟩ := newOutcome_between hi3 ho (by rw [hmid.alike.validVertex]; exact hc.tgt)
        rw [h1, bumped_le, hmid.counter]
        have := (clear_between hmid u v).1
        rcases h2 with ⟨e, _, _, h2⟩ | ⟨_, h2⟩ <;> rw [h2] <;> dsimp only <;> omega

example : Lattice.Spec.Reachable sample3 ∧ edgesBetween sample3 0 3 = 1 ∧
    sample3.countEdges 0 3 = 1 :=
  ⟨.step sample2_reachable trivial (.add (a := sampleArgs3) (r := (addEdge sample2 sampleArgs3).1)
    (made_discarded sample2_reachable) rfl (by decide +kernel)), by decide +kernel, by decide +kernel⟩

/-- **C09** Adding an ordinary annotation counts one more exactly when the returned edge is new.
Not covered: symbol edges that are stored implicitly or have been so (see `C09_symbol_edge_false`). -/
theorem C09_grows_iff_new_partial {s s' : State} (h : Lattice.Spec.Reachable s) {a : Args} {e : Edge}
    (hm : Made s.mgr a.tags) (ho : Ordinary s ⟨a.src, a.tgt, a.item⟩)
    (hr : addEdge s a = (.ok e, s')) :
    (¬ Present s e ∧ s'.countEdges a.src a.tgt = s.countEdges a.src a.tgt + 1 ∧
      edgesBetween s' a.src a.tgt = edgesBetween s a.src a.tgt + 1) ∨
    (Present s e ∧ s'.countEdges a.src a.tgt = s.countEdges a.src a.tgt ∧
      edgesBetween s' a.src a.tgt = edgesBetween s a.src a.tgt) := by
  have hi := reachable_inv' h
  have hpn := plain_of_ordinary h ho
  have hout := addEdge_outcome hi (okay_of_made hm)
  rw [hr] at hout
  generalize hpair : ((.ok e, s') : Except Exn Edge × State) = p at hout
  have hs2 : s' = p.2 := by rw [← hpair]
  have hr2 : Except.ok e = p.1 := by rw [← hpair]
  rw [hs2]
  unfold State.countEdges
  cases hout with
  | rejected hq _ => simp at hr2
  | @merged s1 k hq _ hk _ =>
    right
    simp only [Except.ok.injEq] at hr2
    subst hr2
    have : (mergeInto s1 k (inheritTags s a)).counter = _ := hq.counter
    rw [mergeInto_between hq, this]
    exact ⟨present_expl.2 hk, rfl, rfl⟩
  | new hc hn ho =>
    left
    obtain ⟨h1, h2⟩ := newOutcome_between hi ho hc.tgt
    rw [h1, bumped_le]
    have e1 : (inheritTags s a).src = a.src := rfl
    have e2 : (inheritTags s a).tgt = a.tgt := rfl
    rw [e1, e2] at h2 ⊢
    rcases h2 with ⟨e', h3, h4, h5⟩ | ⟨⟨x, h3, _⟩, _⟩
    · rw [h3] at hr2
      simp only [Except.ok.injEq] at hr2
      subst hr2
      rw [h5]
      simp [h4]
    · rw [h3] at hr2; simp at hr2
  | @promoted s3 _ i hc hn e1 e2 e3 hmid ho =>
    exfalso
    exact hpn i (inv_vvcEntry_mem.1 (isoplanar_mem hn).1)

example : Lattice.Spec.Reachable sample1 ∧ Made sample1.mgr sampleArgs2.tags ∧
    Ordinary sample1 ⟨sampleArgs2.src, sampleArgs2.tgt, sampleArgs2.item⟩ ∧
    (addEdge sample1 sampleArgs2).1 = .ok (.expl 0) := by
  refine ⟨sample1_reachable, made_token sample1_reachable, Or.inl ?_, by decide +kernel⟩
  rintro ⟨_, _, h⟩
  exact absurd h (by decide +kernel)

/-- Between `u` and `v` the annotation `sym` is the only one added with just the tag "symbol", it is
added only so, at a character boundary, and not while there is a symbol edge. -/
def SymbolOnce (u v : Vertex) (sym : Option Item) (s : State) (c : Call) : Prop :=
  ∀ a, Annotates s c a → a.src = u → a.tgt = v →
    (a.tags ≠ symbolTag ∧ some a.item ≠ sym) ∨
    (a.tags = symbolTag ∧ some a.item = sym ∧ Boundary s v ∧ ∀ e, Present s e → ¬ Explicit e → s.src e ≠ u)

theorem newOutcome_vvc' {s : State} (hi : Inv s) {b : Args} {r : Except Exn Edge × State}
    (h : NewOutcome s b r) (ht : s.validVertex b.tgt = true)
    {key : Key} {i : Nat} (hm : (key, Edge.impl i) ∈ r.2.vvc) :
    ((key, Edge.impl i) ∈ s.vvc ∨ (key = b.key ∧ b.tags = symbolTag ∧ bitAt r.2.implicit i = true)) ∧
    (bitAt s.implicit i = true → bitAt r.2.implicit i = true) := by
  cases h with
  | failed hmid _ _ =>
    refine ⟨Or.inl ?_, ?_⟩
    · rw [← hmid.alike.vvc]; exact hm
    · show _ → bitAt (State.implicit _) i = true
      rw [hmid.implicit]; exact id
  | @added s1 hmid =>
    have hi1 := inv_micros hi hmid.micros
    rcases addNewRest_cases s1 b with ⟨hc, he⟩ | ⟨hc, he⟩
    · rw [he] at hm ⊢
      have hbit : ∀ j, bitAt (addImplicit s1 b).2.implicit j =
          if b.src.toNat = j ∧ j < s1.implicit.length then true else bitAt s1.implicit j :=
        fun j => bitAt_set _ _ _ _
      constructor
      · simp only [addImplicit, List.mem_append, List.mem_singleton, Prod.mk.injEq,
          Edge.impl.injEq] at hm
        rcases hm with hm | hm
        · left; rw [← hmid.alike.vvc]; exact hm
        · obtain ⟨c1, c2, c3, c4⟩ := condition_facts hc
          refine Or.inr ⟨hm.1, c2, ?_⟩
          rw [hbit, if_pos]
          refine ⟨hm.2.symm, ?_⟩
          have hp := symLen_pos s1 b.src.toNat
          simp only [State.validVertex, Bool.and_eq_true, decide_eq_true_eq] at ht
          have := hmid.alike.text
          rw [hi1.implicitLen, this, hm.2]; omega
      · intro hb
        rw [hbit]
        split
        · rfl
        · rw [hmid.implicit]; exact hb
    · rw [he] at hm ⊢
      simp only [addExplicit, List.mem_append, List.mem_singleton, Prod.mk.injEq, reduceCtorEq,
        and_false, or_false] at hm
      refine ⟨Or.inl ?_, ?_⟩
      · rw [← hmid.alike.vvc]; exact hm
      · show _ → bitAt s1.implicit i = true
        rw [hmid.implicit]; exact id

/-- **C09** The count is the number of edges, if the symbol edge between the vertices is only added
once.  Not covered: histories that annotate a symbol edge further or add it again (see
`C09_symbol_edge_false`), or in which the UTF-8 library throws. -/
theorem C09_exact_partial {s : State} {u v : Vertex} {sym : Option Item}
    (h : Run (SymbolOnce u v sym) initial s) : s.countEdges u v = edgesBetween s u v := by
  suffices hJ : s.counter u v = edgesBetween s u v ∧ ∀ (key : Key) (i : Nat),
      (key, Edge.impl i) ∈ s.vvc → key.src = u → key.tgt = v →
      some key.item = sym ∧ bitAt s.implicit i = true from hJ.1
  induction h with
  | refl =>
    refine ⟨?_, by simp [initial]⟩
    have := C09_at_least (s := initial) .refl u v
    have h0 : initial.countEdges u v = 0 := rfl
    have h1 : initial.counter u v = 0 := rfl
    omega
  | @step s1 s2 c hr hp hst ih =>
    have hi1 := inv_micros inv_initial (run_micros inv_initial hr)
    cases step_kind hi1 hst with
    | other he hv hc hb =>
      rw [other_between hi1 hst he hb, hc, hv]
      refine ⟨ih.1, ?_⟩
      intro key i h1 h2 h3
      rw [hb]; exact ih.2 key i h1 h2 h3
    | annotate a r ha he hru ho =>
      have hout := addEdge_outcome hi1 ho
      rw [he] at hout
      have hcall := hp a ha
      have e1 : (inheritTags s1 a).src = a.src := rfl
      have e2 : (inheritTags s1 a).tgt = a.tgt := rfl
      have e3 : (inheritTags s1 a).item = a.item := rfl
      have hsym := fun h => inherit_symbol hi1 (a := a) h
      generalize inheritTags s1 a = b at hout e1 e2 e3 hsym
      generalize hpair : ((r, s2) : Except Exn Edge × State) = p at hout
      have hs2 : s2 = p.2 := by rw [← hpair]
      have hr2 : r = p.1 := by rw [← hpair]
      rw [hs2]
      cases hout with
      | @rejected x s' hq _ =>
        rw [mid_between hq.mid, hq.counter, hq.alike.vvc, hq.implicit]; exact ih
      | @merged s3 k hq _ _ _ =>
        rw [mergeInto_between hq]
        show s3.counter u v = _ ∧ ∀ key i, (key, Edge.impl i) ∈ s3.vvc → _ → _ →
          _ ∧ bitAt s3.implicit i = true
        rw [hq.counter, hq.alike.vvc, hq.implicit]; exact ih
      | new hc hn ho =>
        obtain ⟨h1, h2⟩ := newOutcome_between hi1 ho hc.tgt
        constructor
        · rw [h1, bumped_le, ih.1]
          rcases h2 with ⟨e, _, _, h2⟩ | ⟨⟨x, h2, h3, h4⟩, h5⟩
          · rw [h2]
          · rw [h5]
            rw [if_neg]; · rfl
            rintro ⟨rfl, rfl⟩
            rcases hcall e1.symm e2.symm with ⟨c1, _⟩ | ⟨_, _, c3, _⟩
            · exact c1 (hsym h3)
            · rcases h4 with h4 | h4
              · apply hru; rw [hr2, h2, h4]
              · exact h4.2 c3
        · intro key i hm hk1 hk2
          obtain ⟨h3, h4⟩ := newOutcome_vvc' hi1 ho hc.tgt hm
          rcases h3 with h3 | ⟨h3, h5, h6⟩
          · obtain ⟨c1, c2⟩ := ih.2 key i h3 hk1 hk2
            exact ⟨c1, h4 c2⟩
          · refine ⟨?_, h6⟩
            subst h3
            have k1 : b.src = u := hk1
            have k2 : b.tgt = v := hk2
            rcases hcall (by rw [← e1]; exact k1) (by rw [← e2]; exact k2) with ⟨c1, _⟩ | ⟨_, c2, _⟩
            · exact absurd (hsym h5) c1
            · show some b.item = sym
              rw [e3]; exact c2
      | @promoted s3 _ i hc hn k1 k2 k3 hmid ho =>
        have hi3 := inv_micros hi1 hmid.micros
        have hmem := inv_vvcEntry_mem.1 (isoplanar_mem hn).1
        have hnot : ¬ (u = b.src ∧ v = b.tgt) := by
          rintro ⟨rfl, rfl⟩
          obtain ⟨c1, c2⟩ := ih.2 _ i hmem rfl rfl
          have c1 : some b.item = sym := c1
          rw [e3] at c1
          rcases hcall e1.symm e2.symm with ⟨_, c3⟩ | ⟨_, _, _, c4⟩
          · exact c3 c1
          · exact c4 (.impl i) (present_impl.2 c2) (by simp [Explicit]) k1.symm
        obtain ⟨h1, h2⟩ := newOutcome_between hi3 ho (by rw [hmid.alike.validVertex]; exact hc.tgt)
        have hcl := (clear_between hmid u v).2 (by rintro ⟨a1, a2⟩; exact hnot ⟨by omega, by omega⟩)
        constructor
        · rw [h1, bumped_le, hmid.counter, ih.1]
          rcases h2 with ⟨e, _, _, h2⟩ | ⟨_, h2⟩ <;> rw [h2, hcl]
          rw [if_neg]
          · rfl
          · exact hnot
        · intro key j hm hk1 hk2
          obtain ⟨h3, h4⟩ := newOutcome_vvc' hi3 ho (by rw [hmid.alike.validVertex]; exact hc.tgt) hm
          rcases h3 with h3 | ⟨h3, _, _⟩
          · rw [hmid.alike.vvc] at h3
            obtain ⟨c1, c2⟩ := ih.2 key j h3 hk1 hk2
            refine ⟨c1, h4 ?_⟩
            rw [hmid.implicit, bitAt_set, if_neg]
            · exact c2
            · rintro ⟨rfl, _⟩
              obtain ⟨d1, d2, _⟩ := hi1.vvcImpl _ _ h3
              apply hnot
              omega
          · exfalso
            apply hnot
            rw [h3] at hk1 hk2
            exact ⟨hk1.symm, hk2.symm⟩

/-- The symbol edge of "a" is added once; the token of `sample2` is added besides. -/
example : ∃ s, Run (SymbolOnce 0 1 (some ⟨[39, 97], [], []⟩)) initial s ∧
    Present s (.impl 0) ∧ s.countEdges 0 1 = 1 := by
  refine ⟨sample2, ?_, present_impl.2 (by decide +kernel), by decide +kernel⟩
  have h0 : Run (SymbolOnce 0 1 (some ⟨[39, 97], [], []⟩)) initial sample0 := by
    refine .step .refl ?_ .append
    intro a ha; cases ha
  have h1 : Run (SymbolOnce 0 1 (some ⟨[39, 97], [], []⟩)) initial sample1 := by
    refine .step h0 ?_ (.add (a := sampleArgs1) (r := (addEdge sample0 sampleArgs1).1)
      (made_symbol sample0_reachable) rfl (by decide +kernel))
    intro a ha; cases ha
    intro _ _
    refine Or.inr ⟨rfl, rfl, Or.inr ⟨[97], by simp [Utf8.Spec.Scalar], by decide +kernel⟩, ?_⟩
    intro e he hx
    cases e with
    | expl k => exact absurd trivial hx
    | impl i =>
      exfalso
      rw [present_impl] at he
      have hlt := bitAt_lt he
      have hl : sample0.implicit.length = 4 := by decide +kernel
      rw [hl] at hlt
      revert he
      have : ∀ i, i < 4 → ¬ bitAt sample0.implicit i = true := by decide +kernel
      exact this i hlt
  refine .step h1 ?_ (.add (a := sampleArgs2) (r := (addEdge sample1 sampleArgs2).1)
    (made_token sample1_reachable) rfl (by decide +kernel))
  intro a ha; cases ha
  intro _ h; exact absurd h (by decide +kernel)

/-- The symbol edge of "a" is added twice. -/
def countedTwice : State := (addEdge sample1 sampleArgs1).2

/-- **C09** fails of the code for symbol edges: adding the symbol edge again is counted although
there is still only one edge. -/
theorem C09_symbol_edge_false : ∃ s, Lattice.Spec.Reachable s ∧
    s.countEdges 0 1 = 2 ∧ edgesBetween s 0 1 = 1 :=
  ⟨countedTwice, reachable_add sample1_reachable (made_symbol sample1_reachable) (by decide +kernel),
    by decide +kernel, by decide +kernel⟩

end Verif.Lattice
