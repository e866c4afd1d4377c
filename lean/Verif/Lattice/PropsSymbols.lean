import Verif.Lattice.PropsPaths

/-!
Property theorem C07 (symbol edges).
-/
set_option linter.unusedVariables false
set_option linter.unusedSimpArgs false

namespace Verif.Lattice
open Verif Verif.Tags Verif.Tags.Spec Verif.Lattice.Spec

/-- The characters `cs` at the beginning of the text have symbol edges, and there is nothing else. -/
structure Tiled (s : State) (cs : List Nat) (es : List Edge) : Prop where
  reach : Lattice.Spec.Reachable s
  scalar : ∀ c ∈ cs, Utf8.Spec.Scalar c
  text : Utf8.Spec.encodeAll cs <+: s.text
  edges : s.edges = []
  bits : ∀ i, bitAt s.implicit i = true → i < (Utf8.Spec.encodeAll cs).length
  vvc : ∀ p ∈ s.vvc, p.1.src < (Utf8.Spec.encodeAll cs).length
  chain : Chain s 0 es (Utf8.Spec.encodeAll cs).length
  present : ∀ e ∈ es, ∃ i, e = .impl i ∧ bitAt s.implicit i = true
  texts : es.map s.edgeText = cs.map Utf8.Spec.encode

theorem matching_nil {s : State} (h : s.edges = []) (m : Mask) : s.matching m = [] := by
  unfold State.matching; rw [h]; rfl

theorem indexFor_nil {s : State} (hi : Inv s) (h : s.edges = []) {m : Mask} (hm : m.any = false) :
    s.indexFor m = [] := by
  have := indexFor_sublist hi hm
  rw [matching_nil h] at this
  exact List.sublist_nil.1 this

/-- The query for the symbol edge in a lattice without other edges. -/
theorem symbol_query {s : State} (hi : Inv s) (h : s.edges = []) (i : Nat) :
    (outEdges s i symbolMask).1 = if bitAt s.implicit i then [.impl i] else [] := by
  rw [outEdges_fst]
  have h1 : symbolMask.any = false := rfl
  have h2 : canBeAppliedToImplicitSymbol symbolMask = true := by decide
  rw [h1, h2, indexFor_nil hi h h1]
  unfold State.implicitOut
  by_cases hb : bitAt s.implicit i = true
  · rw [hb]; simp [hb]
  · simp [hb]

theorem chain_mono {s s' : State} (hi : Inv s) (hg : Grow s s') {es : List Edge}
    (hp : ∀ e ∈ es, Present s e) {u v : Vertex} (h : Chain s u es v) : Chain s' u es v := by
  induction es generalizing u with
  | nil => exact h
  | cons e es ih =>
    obtain ⟨h1, h2⟩ := present_keeps hi hg (hp e (by simp))
    exact ⟨by rw [h1]; exact h.1, by
      rw [h2]; exact ih (fun e he => hp e (List.mem_cons_of_mem _ he)) h.2⟩

theorem text_mono {s s' : State} (hi : Inv s) (hg : Grow s s') {i : Nat} (hb : bitAt s.implicit i = true) :
    s'.edgeText (.impl i) = s.edgeText (.impl i) := by
  have hp := present_impl.2 hb
  obtain ⟨h1, h2⟩ := present_keeps hi hg hp
  obtain ⟨h3, h4⟩ := present_span hi hp (by simp [State.src]) (by simp [State.tgt]; omega)
  have hl : (isLoose (s.src (.impl i)) || isLoose (s.tgt (.impl i))) = false := by
    have a1 : ¬ s.src (.impl i) < 0 := by simp [State.src]
    have a2 : ¬ s.tgt (.impl i) < 0 := by omega
    simp only [isLoose, Bool.or_eq_false_iff, decide_eq_false_iff_not]
    exact ⟨a1, a2⟩
  unfold State.edgeText
  rw [h1, h2, hl]
  simp only [Bool.false_eq_true, if_false]
  exact take_drop_prefix hg.text (by simp only [State.src, State.tgt] at *; omega)

theorem tiled_initial : Tiled initial [] [] :=
  ⟨.refl, by simp, by simp [Utf8.Spec.encodeAll], rfl, by
    intro i h; simp [initial, bitAt] at h
    cases i <;> simp at h, by simp [initial], rfl, by simp, rfl⟩

theorem tiled_append {s : State} {cs : List Nat} {es : List Edge} (h : Tiled s cs es) (t : Str) :
    Tiled (appendString s t) cs es := by
  have hi := reachable_inv' h.reach
  have hstep : Step s (.append t) (appendString s t) := .append
  have hg : Grow s (appendString s t) := grow_micros (step_micros hi hstep)
  have hb : ∀ i, bitAt (appendString s t).implicit i = bitAt s.implicit i := by
    intro i
    exact bitAt_resize_eq (by rw [hi.implicitLen]; simp)
  refine ⟨.step h.reach trivial hstep, h.scalar, h.text.trans hg.text, h.edges, ?_, h.vvc, ?_, ?_, ?_⟩
  · intro i hi'; rw [hb] at hi'; exact h.bits i hi'
  · exact chain_mono hi hg (by
      intro e he; obtain ⟨i, rfl, hi⟩ := h.present e he; exact present_impl.2 hi) h.chain
  · intro e he; obtain ⟨i, rfl, hi⟩ := h.present e he; exact ⟨i, rfl, by rw [hb]; exact hi⟩
  · rw [← h.texts]
    apply List.map_congr_left
    intro e he
    obtain ⟨i, rfl, hb⟩ := h.present e he
    exact text_mono hi hg hb

/-- The arguments for the symbol edge of a character. -/
def symbolArgs (p : Nat) (c : Nat) : Args :=
  { src := p, tgt := (p + (Utf8.append c).length : Nat), item := ⟨39 :: Utf8.append c, [], []⟩,
    tags := symbolTag }

theorem tiled_add {s : State} {cs : List Nat} {es : List Edge} (h : Tiled s cs es) {c : Nat}
    {post : Str} (hc : Utf8.Spec.Scalar c)
    (ht : s.text = Utf8.Spec.encodeAll cs ++ Utf8.Spec.encode c ++ post) :
    ∃ e s', addEdge s (symbolArgs (Utf8.Spec.encodeAll cs).length c) = (.ok e, s') ∧
      s'.text = s.text ∧ Tiled s' (cs ++ [c]) (es ++ [.impl (Utf8.Spec.encodeAll cs).length]) := by
  have hi := reachable_inv' h.reach
  have happ := Utf8.append_eq_encode c (Utf8.scalar_lt hc)
  have hpos := encode_length_pos c
  have hlen : (Utf8.Spec.encodeAll cs).length + (Utf8.Spec.encode c).length ≤ s.text.length := by
    rw [ht]; simp
  have hsym := symLen_encode hc ht
  generalize hp : (Utf8.Spec.encodeAll cs).length = p at *
  -- the call
  have hargs : inheritTags s (symbolArgs p c) = symbolArgs p c := by
    unfold inheritTags symbolArgs gatherPlaneTags
    simp [Sequence.empty, createUnion]
  have hnb : bitAt s.implicit p = false := by
    cases hb : bitAt s.implicit p with
    | false => rfl
    | true => have := h.bits p hb; omega
  have hiso : s.isoplanar (symbolArgs p c).key (symbolArgs p c).tags = none := by
    unfold State.isoplanar State.vvcEntry
    have : s.vvc.filter (fun q => decide (q.1 = (symbolArgs p c).key)) = [] := by
      rw [List.filter_eq_nil_iff]
      intro q hq hk
      have h1 := h.vvc q hq
      simp only [decide_eq_true_eq] at hk
      rw [hk] at h1
      simp [symbolArgs, Args.key, hp] at h1
    rw [this]; rfl
  let s1 := bumpCounter s (symbolArgs p c).src (symbolArgs p c).tgt
  let s2 := addTagMaskIndex s1 symbolMask
  have hq : outEdges s1 p symbolMask = ([], s2) := by
    apply Prod.ext
    · have hi1 : Inv s1 := inv_micro hi (.bump s _ _)
      rw [symbol_query hi1 h.edges]
      have : bitAt s1.implicit p = false := hnb
      simp [this]
    · rfl
  have hcond : implicitCondition s2 (symbolArgs p c) = true := by
    unfold implicitCondition
    have e1 : s2.implicit = s.implicit := by show (addTagMaskIndex s1 symbolMask).implicit = _; simp; rfl
    have e2 : s2.symLen p = s.symLen p := by
      show (addTagMaskIndex s1 symbolMask).symLen p = _
      rw [(alike_register s1 symbolMask).symLen]; rfl
    have e3 : (symbolArgs p c).src.toNat = p := by simp [symbolArgs]
    rw [e3, e1, e2, hsym, hnb]
    simp [symbolArgs, isLoose, happ]
    omega
  have hcall : addEdge s (symbolArgs p c) = (.ok (.impl p), (addImplicit s2 (symbolArgs p c)).2) := by
    unfold addEdge
    have v1 : s.validVertex (symbolArgs p c).src = true := by
      simp [State.validVertex, symbolArgs]; omega
    have v2 : s.validVertex (symbolArgs p c).tgt = true := by
      simp [State.validVertex, symbolArgs, happ]; omega
    have v3 : s.validSequence (symbolArgs p c).seq = true := by
      simp [State.validSequence, symbolArgs, Sequence.empty]
    rw [v1, v2, v3, hargs]
    simp only [Bool.and_self, if_true]
    unfold addEdgeCore
    have n1 : ¬ (symbolArgs p c).src = (symbolArgs p c).tgt := by
      show ¬ ((p : Int) = ((p + (Utf8.append c).length : Nat) : Int))
      rw [happ]; omega
    have n2 : ¬ (0 ≤ (symbolArgs p c).src ∧ 0 ≤ (symbolArgs p c).tgt ∧
        (symbolArgs p c).src > (symbolArgs p c).tgt) := by
      show ¬ (_ ∧ _ ∧ (p : Int) > ((p + (Utf8.append c).length : Nat) : Int))
      omega
    rw [if_neg n1, if_neg n2, hiso]
    dsimp only
    unfold addNew
    dsimp only
    rw [if_pos (show (symbolArgs p c).tags = symbolTag from rfl)]
    have hu : updateVisible s1 (symbolArgs p c).src (symbolArgs p c).tgt = (.ok (), s2) := by
      unfold updateVisible
      rw [show outEdges s1 (symbolArgs p c).src symbolMask = ([], s2) from hq]
    rw [show updateVisible (bumpCounter s (symbolArgs p c).src (symbolArgs p c).tgt)
      (symbolArgs p c).src (symbolArgs p c).tgt = (.ok (), s2) from hu]
    dsimp only
    unfold addNewRest
    rw [if_pos hcond]
    rfl
  refine ⟨.impl p, _, hcall, by simp [addImplicit, s2, s1, bumpCounter], ?_⟩
  have hstep : Step s (.add (symbolArgs p c)) (addImplicit s2 (symbolArgs p c)).2 :=
    .add (made_symbol h.reach) hcall (by simp)
  have hg : Grow s (addImplicit s2 (symbolArgs p c)).2 := grow_micros (step_micros hi hstep)
  have hcs : (Utf8.Spec.encodeAll (cs ++ [c])).length = p + (Utf8.Spec.encode c).length := by
    rw [encodeAll_append, List.length_append, hp]; simp [Utf8.Spec.encodeAll]
  have hit : (addImplicit s2 (symbolArgs p c)).2.implicit = s.implicit.set p true := by
    simp [addImplicit, s2, s1, bumpCounter, symbolArgs]
  have hbit : ∀ i, bitAt (addImplicit s2 (symbolArgs p c)).2.implicit i = true →
      i = p ∨ bitAt s.implicit i = true := by
    intro i h
    rw [hit, bitAt_set] at h
    split at h
    · rename_i h'; exact Or.inl (by omega)
    · exact Or.inr h
  have hkeep : ∀ i, bitAt s.implicit i = true →
      bitAt (addImplicit s2 (symbolArgs p c)).2.implicit i = true := by
    intro i h
    rw [hit, bitAt_set]; split
    · rfl
    · exact h
  have hset : bitAt (addImplicit s2 (symbolArgs p c)).2.implicit p = true := by
    rw [hit, bitAt_set, if_pos ⟨rfl, by rw [hi.implicitLen]; omega⟩]
  have htext : (addImplicit s2 (symbolArgs p c)).2.text = s.text := by
    simp [addImplicit, s2, s1, bumpCounter]
  have hsym' : (addImplicit s2 (symbolArgs p c)).2.symLen p = (Utf8.Spec.encode c).length := by
    unfold State.symLen; rw [htext]; exact hsym
  refine ⟨.step h.reach trivial hstep, ?_, ?_, by simp [addImplicit, s2, s1, bumpCounter, h.edges], ?_,
    ?_, ?_, ?_, ?_⟩
  · intro x hx
    simp only [List.mem_append, List.mem_singleton] at hx
    rcases hx with hx | rfl
    · exact h.scalar x hx
    · exact hc
  · rw [htext, ht, encodeAll_append]
    refine ⟨post, ?_⟩
    simp [Utf8.Spec.encodeAll]
  · intro i hb
    rw [hcs]
    rcases hbit i hb with rfl | hb
    · omega
    · have := h.bits i hb; omega
  · intro q hq
    have hv : (addImplicit s2 (symbolArgs p c)).2.vvc = s.vvc ++ [((symbolArgs p c).key, .impl p)] := by
      simp [addImplicit, s2, s1, bumpCounter, symbolArgs]
    rw [hv] at hq
    rw [hcs]
    simp only [List.mem_append, List.mem_singleton] at hq
    rcases hq with hq | rfl
    · have := h.vvc q hq; omega
    · simp [symbolArgs, Args.key]; omega
  · rw [hcs]
    have h1 : Chain (addImplicit s2 (symbolArgs p c)).2 0 es p := chain_mono hi hg (by
      intro e he; obtain ⟨i, rfl, hi⟩ := h.present e he; exact present_impl.2 hi) (hp ▸ h.chain)
    have h2 := chain_snoc (e := .impl p) h1 rfl
    have h3 : (addImplicit s2 (symbolArgs p c)).2.tgt (.impl p) =
        ((p + (Utf8.Spec.encode c).length : Nat) : Int) := by
      simp only [State.tgt, hsym']
    rw [h3] at h2
    exact h2
  · intro e he
    simp only [List.mem_append, List.mem_singleton] at he
    rcases he with he | rfl
    · obtain ⟨i, rfl, hb⟩ := h.present e he
      exact ⟨i, rfl, hkeep i hb⟩
    · exact ⟨p, rfl, hset⟩
  · rw [List.map_append, List.map_append]
    congr 1
    · rw [← h.texts]
      apply List.map_congr_left
      intro e he
      obtain ⟨i, rfl, hb⟩ := h.present e he
      exact text_mono hi hg hb
    · simp only [List.map_cons, List.map_nil, List.cons.injEq, and_true]
      unfold State.edgeText
      simp only [State.src, State.tgt, hsym', htext]
      rw [if_neg (by simp [isLoose]; omega)]
      have e1 : ((p : Int)).toNat = p := by omega
      have e2 : (((p + (Utf8.Spec.encode c).length : Nat) : Int) - (p : Int)).toNat =
        (Utf8.Spec.encode c).length := by omega
      rw [e1, e2, ht, List.append_assoc, ← hp, List.drop_left, List.take_left']
      rfl

theorem tiled_loop {s : State} {cs : List Nat} {es : List Edge} (h : Tiled s cs es) {ds : List Nat}
    (hd : ∀ c ∈ ds, Utf8.Spec.Scalar c)
    (ht : s.text = Utf8.Spec.encodeAll cs ++ Utf8.Spec.encodeAll ds) :
    ∃ s' es', addSymbolsLoop s (Utf8.Spec.encodeAll cs).length (Utf8.Spec.encodeAll ds) = (.ok (), s') ∧
      s'.text = s.text ∧ Tiled s' (cs ++ ds) es' := by
  induction ds generalizing s cs es with
  | nil =>
    unfold addSymbolsLoop
    rw [if_pos (show Utf8.Spec.encodeAll [] = [] from rfl)]
    exact ⟨s, es, rfl, rfl, by simpa using h⟩
  | cons d ds ih =>
    have hds : Utf8.Spec.encodeAll (d :: ds) = Utf8.Spec.encode d ++ Utf8.Spec.encodeAll ds := by
      simp [Utf8.Spec.encodeAll]
    have hsc := hd d (by simp)
    have hne : Utf8.Spec.encodeAll (d :: ds) ≠ [] := by
      rw [hds]; intro h; exact Utf8.encode_ne_nil d (List.append_eq_nil_iff.1 h).1
    have hv := (Utf8.validateNext_iff (Utf8.Spec.encodeAll (d :: ds)) d (Utf8.Spec.encodeAll ds)).2
      ⟨hsc, hds⟩
    obtain ⟨e, s1, h1, h2, h3⟩ := tiled_add h (post := Utf8.Spec.encodeAll ds) hsc (by
      rw [ht, hds, List.append_assoc])
    have happ := Utf8.append_eq_encode d (Utf8.scalar_lt hsc)
    have hp : (Utf8.Spec.encodeAll (cs ++ [d])).length =
        (Utf8.Spec.encodeAll cs).length + (Utf8.append d).length := by
      rw [encodeAll_append, List.length_append, happ]; simp [Utf8.Spec.encodeAll]
    obtain ⟨s', es', h4, h5, h6⟩ := ih h3 (fun c hc => hd c (List.mem_cons_of_mem _ hc)) (by
      rw [h2, ht, hds, encodeAll_append]; simp [Utf8.Spec.encodeAll])
    refine ⟨s', es', ?_, by rw [h5, h2], by simpa using h6⟩
    unfold addSymbolsLoop
    rw [if_neg hne]
    split
    · rename_i x hx; rw [hv] at hx; simp at hx
    · rename_i cp rest hx
      rw [hv] at hx
      simp only [Except.ok.injEq, Prod.mk.injEq] at hx
      obtain ⟨rfl, rfl⟩ := hx
      unfold symbolArgs at h1
      rw [h1]
      dsimp only
      rw [← hp]
      exact h4

theorem tiled_last {s : State} {cs : List Nat} {es : List Edge} (h : Tiled s cs es) :
    s.getLastVertex = some (s.text.length : Int) := by
  unfold State.getLastVertex
  have hi := reachable_inv' h.reach
  rw [if_pos]
  unfold State.allOutEdges State.graphOut State.implicitOut
  rw [h.edges]
  have : bitAt s.implicit s.text.length = false := by
    cases hb : bitAt s.implicit s.text.length with
    | false => rfl
    | true =>
      have := hi.implicitOk _ hb
      have := symLen_pos s s.text.length
      omega
  simp [this]

theorem tiled_all {s : State} {cs : List Nat} {es : List Edge} (h : Tiled s cs es)
    (ht : s.text = Utf8.Spec.encodeAll cs) (ts : List Str) (hw : ∀ t ∈ ts, Utf8.Spec.WellFormed t) :
    ∃ s' cs' es', appendAll s ts = (.ok (), s') ∧ Tiled s' cs' es' ∧
      s'.text = s.text ++ ts.flatten ∧ s'.text = Utf8.Spec.encodeAll cs' := by
  induction ts generalizing s cs es with
  | nil => exact ⟨s, cs, es, rfl, h, by simp, ht⟩
  | cons t ts ih =>
    obtain ⟨ds, hd, rfl⟩ := hw t (by simp)
    have h1 := tiled_append h (Utf8.Spec.encodeAll ds)
    have htext : (appendString s (Utf8.Spec.encodeAll ds)).text =
        Utf8.Spec.encodeAll cs ++ Utf8.Spec.encodeAll ds := by
      show s.text ++ _ = _; rw [ht]
    obtain ⟨s1, es1, h2, h3, h4⟩ := tiled_loop h1 hd htext
    have hcall : appendStringWithSymbols s (Utf8.Spec.encodeAll ds) = (.ok (), s1) := by
      unfold appendStringWithSymbols
      rw [tiled_last h]
      dsimp only
      rw [tiled_last h1]
      dsimp only
      unfold addSymbols
      have hl : s.text.length ≤ (appendString s (Utf8.Spec.encodeAll ds)).text.length := by
        rw [htext, ht]; simp
      rw [if_neg (by simp [isLoose]), if_pos ⟨by omega, by omega⟩]
      have e1 : ((s.text.length : Int)).toNat = (Utf8.Spec.encodeAll cs).length := by rw [ht]; omega
      have e2 : (((appendString s (Utf8.Spec.encodeAll ds)).text.length : Int)).toNat =
          (Utf8.Spec.encodeAll cs).length + (Utf8.Spec.encodeAll ds).length := by
        rw [htext, List.length_append]; omega
      rw [e1, e2, htext, List.drop_left, Nat.add_sub_cancel_left, List.take_of_length_le (Nat.le_refl _)]
      exact h2
    obtain ⟨s', cs', es', h5, h6, h7, h8⟩ := ih h4 (by rw [h3, htext, encodeAll_append])
      (fun t ht => hw t (List.mem_cons_of_mem _ ht))
    refine ⟨s', cs', es', ?_, h6, ?_, h8⟩
    · unfold appendAll
      rw [hcall]
      exact h5
    · rw [h7, h3, htext, ← ht]; simp

/-! ## C07 -/

/-- **C07** Appending well-formed texts with symbols succeeds.  Following the only symbol edge from
position 0 on visits the characters of the text in order and ends at the last vertex; the texts of
the edges are the characters. -/
theorem C07_symbols_tile (ts : List Str) (hw : ∀ t ∈ ts, Utf8.Spec.WellFormed t) :
    ∃ s, appendAll initial ts = (.ok (), s) ∧ Lattice.Spec.Reachable s ∧ s.text = ts.flatten ∧
      s.getLastVertex = some (s.text.length : Int) ∧
      ∃ (cs : List Nat) (es : List Edge), (∀ c ∈ cs, Utf8.Spec.Scalar c) ∧
        ts.flatten = Utf8.Spec.encodeAll cs ∧
        Chain s 0 es s.text.length ∧ es.map s.edgeText = cs.map Utf8.Spec.encode ∧
        (es.map s.edgeText).flatten = ts.flatten ∧
        ∀ e ∈ es, (outEdges s (s.src e) symbolMask).1 = [e] := by
  obtain ⟨s, cs, es, h1, h2, h3, h4⟩ := tiled_all tiled_initial rfl ts hw
  have ht : s.text = ts.flatten := h3
  refine ⟨s, h1, h2.reach, ht, tiled_last h2, cs, es, h2.scalar, ht ▸ h4, ?_, h2.texts, ?_, ?_⟩
  · rw [h4]; exact h2.chain
  · rw [h2.texts, ← ht, h4, Utf8.Spec.encodeAll, List.flatMap_def]
  · intro e he
    obtain ⟨i, rfl, hb⟩ := h2.present e he
    have := symbol_query (reachable_inv' h2.reach) h2.edges i
    rw [if_pos hb] at this
    exact this

/-- "aé" and "€". -/
example : ∀ t ∈ [[97, 195, 169], [226, 130, 172]], Utf8.Spec.WellFormed t := by
  intro t ht
  simp only [List.mem_cons, List.not_mem_nil, or_false] at ht
  rcases ht with rfl | rfl
  · exact ⟨[97, 233], by simp [Utf8.Spec.Scalar], by decide +kernel⟩
  · exact ⟨[8364], by simp [Utf8.Spec.Scalar], by decide +kernel⟩

end Verif.Lattice
