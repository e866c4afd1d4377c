import Verif.Lattice.PropsMasks

/-!
Property theorems C10 (paths) and C11 (edge sequences).
-/
set_option linter.unusedVariables false
set_option linter.unusedSimpArgs false

namespace Verif.Lattice
open Verif Verif.Tags Verif.Tags.Spec Verif.Lattice.Spec

/-! ### Chains -/

theorem chain_append {s : State} {a b : List Edge} {u v w : Vertex} (h1 : Chain s u a v)
    (h2 : Chain s v b w) : Chain s u (a ++ b) w := by
  induction a generalizing u with
  | nil => cases h1; exact h2
  | cons e es ih => exact ⟨h1.1, ih h1.2⟩

theorem chain_snoc {s : State} {a : List Edge} {e : Edge} {u v : Vertex} (h1 : Chain s u a v)
    (h2 : s.src e = v) : Chain s u (a ++ [e]) (s.tgt e) := chain_append h1 ⟨h2, rfl⟩

/-- A symbol edge that only counts as hidden if nothing else has been built on it. -/
theorem hidden_impl {s : State} {e : Edge} (h : s.isHidden e = true) : ∃ i, e = .impl i := by
  cases e with
  | impl i => exact ⟨i, rfl⟩
  | expl k => simp [State.isHidden] at h

/-- What a builder to which the edges `l` have been added can look like. -/
inductive BuilderOk (s : State) (l : List Edge) (b : Builder) : Prop
  | new : l = [] → b.begin_ = 0 → b.end_ = 0 → BuilderOk s l b
  | range : l ≠ [] → b.begin_ < b.end_ → (∀ e ∈ l, s.isHidden e = true) →
      Chain s b.begin_ l b.end_ → BuilderOk s l b
  | broken : l ≠ [] → b.begin_ = 0 → b.end_ = 0 → BuilderOk s l b
  | links : l ≠ [] → b.end_ < b.begin_ → BuilderOk s l b

theorem builder_step {s : State} {l : List Edge} {b : Builder} {u : Usage}
    (hb : b.links.map (·.edge) = l) (h : BuilderOk s l b)
    (hu : l ≠ [] → s.isHidden u.edge = true → s.src u.edge ≠ 0) :
    (b.addEdge s u).links.map (·.edge) = l ++ [u.edge] ∧
      BuilderOk s (l ++ [u.edge]) (b.addEdge s u) := by
  refine ⟨by simp [Builder.addEdge, hb], ?_⟩
  have hne : l ++ [u.edge] ≠ [] := by simp
  have hnil : b.links = [] ↔ l = [] := by rw [← hb]; simp
  unfold Builder.addEdge
  by_cases hc : b.begin_ ≤ b.end_ ∧ s.isHidden u.edge = true
  · simp only [hc, and_self, if_true]
    obtain ⟨i, hi⟩ := hidden_impl hc.2
    have hp := symLen_pos s i
    have h1 : s.src u.edge = i := by rw [hi]; rfl
    have h2 : s.tgt u.edge = (i + s.symLen i : Nat) := by rw [hi]; rfl
    by_cases hl : l = []
    · rw [if_pos (hnil.2 hl)]
      refine .range hne ?_ ?_ ?_
      · show (s.src u.edge).toNat < (s.tgt u.edge).toNat
        rw [h1, h2]; omega
      · simp [hl, hc.2]
      · show Chain s ((s.src u.edge).toNat : Nat) (l ++ [u.edge]) ((s.tgt u.edge).toNat : Nat)
        subst hl
        refine ⟨?_, ?_⟩
        · rw [h1]; omega
        · show s.tgt u.edge = _
          rw [h2]; omega
    · rw [if_neg (fun h => hl (hnil.1 h))]
      have h0 := hu hl hc.2
      by_cases hs : s.src u.edge = b.end_
      · rw [if_pos hs]
        cases h with
        | new h _ _ => exact absurd h hl
        | broken _ _ he => rw [he] at hs; exact absurd hs h0
        | links _ h => omega
        | range _ hlt hh hch =>
          refine .range hne ?_ ?_ ?_
          · show b.begin_ < (s.tgt u.edge).toNat
            rw [h2]; omega
          · intro e he
            simp only [List.mem_append, List.mem_singleton] at he
            rcases he with he | rfl
            · exact hh e he
            · exact hc.2
          · show Chain s (b.begin_ : Nat) (l ++ [u.edge]) ((s.tgt u.edge).toNat : Nat)
            have := chain_snoc hch hs
            rw [show (((s.tgt u.edge).toNat : Nat) : Int) = s.tgt u.edge by rw [h2]; omega]
            exact this
      · rw [if_neg hs]
        by_cases hb0 : b.begin_ = 0
        · exact .broken hne hb0 rfl
        · exact .links hne (by show 0 < b.begin_; omega)
  · rw [if_neg hc]
    exact .links hne (by show 0 < 1; omega)

theorem builder_fold {s : State} (us : List Usage) {b : Builder} {l : List Edge}
    (hb : b.links.map (·.edge) = l) (h : BuilderOk s l b)
    (hu : ∀ e ∈ (l ++ us.map (·.edge)).tail, s.isHidden e = true → s.src e ≠ 0) :
    (us.foldl (Builder.addEdge s) b).links.map (·.edge) = l ++ us.map (·.edge) ∧
      BuilderOk s (l ++ us.map (·.edge)) (us.foldl (Builder.addEdge s) b) := by
  induction us generalizing b l with
  | nil => simpa using ⟨hb, h⟩
  | cons u us ih =>
    obtain ⟨h1, h2⟩ := builder_step (u := u) hb h (by
      intro hl
      apply hu
      cases l with
      | nil => exact absurd rfl hl
      | cons a l => simp)
    have := ih h1 h2 (by simpa using hu)
    simpa using this

/-! ### Iterating over symbol edges -/

theorem first_symbol {s : State} {i : Nat} (h : bitAt s.implicit i = true) :
    ∃ l, (outEdges s i symbolMask).1 = .impl i :: l := by
  rw [outEdges_fst]
  have h1 : symbolMask.any = false := rfl
  have h2 : canBeAppliedToImplicitSymbol symbolMask = true := by decide
  have h3 : s.implicitOut i = [.impl i] := by
    unfold State.implicitOut
    rw [if_pos ⟨by omega, by simpa using h⟩]
    simp
  rw [h1, h2, h3]
  exact ⟨_, rfl⟩

theorem range_edges {s : State} (es : List Edge) {n i j : Nat}
    (he : ∀ e ∈ es, ∃ k, e = .impl k ∧ bitAt s.implicit k = true) (hc : Chain s i es j)
    (hn : j ≤ i + n) : rangeEdges s j n i = .ok es := by
  induction n generalizing i es with
  | zero =>
    unfold rangeEdges
    cases es with
    | nil => rfl
    | cons e es =>
      exfalso
      have hlt : ∀ (es : List Edge) (i : Vertex), (∀ e ∈ es, ∃ k, e = .impl k ∧ bitAt s.implicit k = true) →
          Chain s i es j → i ≤ j := by
        intro es
        induction es with
        | nil => intro i _ h; exact le_of_eq h
        | cons e es ih =>
          intro i he h
          have := ih _ (fun e h => he e (List.mem_cons_of_mem _ h)) h.2
          obtain ⟨k, rfl, _⟩ := he e (by simp)
          have h1 := h.1
          simp only [State.src, State.tgt] at *
          omega
      have := hlt es _ (fun e h => he e (List.mem_cons_of_mem _ h)) hc.2
      obtain ⟨k, rfl, _⟩ := he e (by simp)
      have h1 := hc.1
      have := symLen_pos s k
      simp only [State.src, State.tgt] at *
      omega
  | succ n ih =>
    unfold rangeEdges
    cases es with
    | nil =>
      have : (i : Int) = j := hc
      rw [if_neg (by omega)]
    | cons e es =>
      obtain ⟨k, rfl, hk⟩ := he e (by simp)
      obtain ⟨h1, h2⟩ := hc
      have hki : k = i := by simpa [State.src] using h1
      subst hki
      have hp := symLen_pos s k
      have hle : ∀ (es : List Edge) (i : Vertex), (∀ e ∈ es, ∃ k, e = .impl k ∧ bitAt s.implicit k = true) →
          Chain s i es j → i ≤ j := by
        intro es
        induction es with
        | nil => intro i _ h; exact le_of_eq h
        | cons e es ih =>
          intro i he h
          have := ih _ (fun e h => he e (List.mem_cons_of_mem _ h)) h.2
          obtain ⟨k, rfl, _⟩ := he e (by simp)
          have h1 := h.1
          simp only [State.src, State.tgt] at *
          omega
      have hj := hle es _ (fun e h => he e (List.mem_cons_of_mem _ h)) h2
      simp only [State.tgt] at hj h2
      rw [if_pos (by omega)]
      obtain ⟨l, hl⟩ := first_symbol hk
      rw [hl]
      dsimp only
      rw [ih es (fun e h => he e (List.mem_cons_of_mem _ h)) h2 (by omega)]

/-- A builder in one of the good states builds a sequence that lists the edges. -/
theorem build_lists {s : State} {l : List Edge} {b : Builder} (hb : b.links.map (·.edge) = l)
    (h : BuilderOk s l b) (hp : ∀ e ∈ l, Present s e) : (sequenceEdges s b.build).1 = .ok l := by
  have hlinks : ¬ b.begin_ < b.end_ → (sequenceEdges s b.build).1 = .ok l := by
    intro hlt
    unfold Builder.build
    rw [if_neg hlt]
    unfold sequenceEdges
    dsimp only
    by_cases hl : b.links = []
    · rw [if_pos hl, if_neg (by omega)]
      rw [hl] at hb
      rw [← hb]; rfl
    · rw [if_neg hl, hb]
  cases h with
  | new _ h1 h2 => exact hlinks (by omega)
  | broken _ h1 h2 => exact hlinks (by omega)
  | links _ h => exact hlinks (by omega)
  | range hne hlt hh hc =>
    unfold Builder.build
    rw [if_pos hlt]
    unfold sequenceEdges
    dsimp only
    rw [if_pos rfl, if_pos hlt]
    dsimp only
    refine range_edges l ?_ ?_ (by omega)
    · intro e he
      obtain ⟨k, rfl⟩ := hidden_impl (hh e he)
      refine ⟨k, rfl, ?_⟩
      rw [register_implicit]
      exact present_impl.1 (hp _ he)
    · have htr : ∀ (l : List Edge) (u v : Vertex), Chain s u l v →
          Chain (addTagMaskIndex s symbolMask) u l v := by
        intro l
        induction l with
        | nil => intro u v h; exact h
        | cons e l ih =>
          intro u v h
          have hs : (addTagMaskIndex s symbolMask).src e = s.src e := by
            cases e <;> simp [State.src, register_entry]
          have ht : (addTagMaskIndex s symbolMask).tgt e = s.tgt e := by
            cases e <;> simp [State.tgt, register_entry, (alike_register s symbolMask).symLen]
          refine ⟨by rw [hs]; exact h.1, ?_⟩
          rw [ht]; exact ih _ _ h.2
      exact htr l _ _ hc

/-! ## C11 -/

/-- **C11** Iterating over the sequence built from a list of edges yields the edges in order, unless
a hidden symbol edge at the beginning of the text is added after another edge.  Not covered: see
`C11_return_to_zero_false`. -/
theorem C11_lists_edges_partial {s : State} (us : List Usage)
    (hp : ∀ u ∈ us, Present s u.edge)
    (h0 : ∀ u ∈ us.tail, s.isHidden u.edge = true → s.src u.edge ≠ 0) :
    (sequenceEdges s (buildSequence s us)).1 = .ok (us.map (·.edge)) := by
  obtain ⟨h1, h2⟩ := builder_fold (s := s) us (b := Builder.new) (l := []) rfl (.new rfl rfl rfl) (by
    intro e he
    simp only [List.nil_append, ← List.map_tail, List.mem_map] at he
    obtain ⟨u, hu, rfl⟩ := he
    exact h0 u hu)
  simp only [List.nil_append] at h1 h2
  unfold buildSequence
  exact build_lists h1 h2 (by
    intro e he
    obtain ⟨u, hu, rfl⟩ := List.mem_map.1 he
    exact hp u hu)

/-- The second character of `sample1`, and a lattice with the symbol edges of "aé" under a token. -/
def symbolArgs2 : Args := { src := 1, tgt := 3, item := ⟨[39, 195, 169], [], []⟩, tags := symbolTag }
def hidden1 : State := (addEdge sample1 symbolArgs2).2
def hidden2 : State := (addEdge hidden1 sampleArgs2).2

theorem hidden1_reachable : Lattice.Spec.Reachable hidden1 :=
  reachable_add sample1_reachable (made_symbol sample1_reachable) (by decide +kernel)
theorem hidden2_reachable : Lattice.Spec.Reachable hidden2 :=
  reachable_add hidden1_reachable (made_token hidden1_reachable) (by decide +kernel)

/-- A sequence stored as a range of symbols, and one stored as a list. -/
example : (∀ u ∈ [Usage.mk (.impl 0) none, ⟨.impl 1, none⟩], Present hidden2 u.edge) ∧
    (∀ u ∈ [Usage.mk (.impl 1) none], hidden2.src u.edge ≠ 0) ∧
    (buildSequence hidden2 [⟨.impl 0, none⟩, ⟨.impl 1, none⟩]).links = [] ∧
    (buildSequence hidden2 [⟨.impl 0, none⟩, ⟨.expl 0, none⟩]).links ≠ [] := by
  refine ⟨?_, by decide +kernel, by decide +kernel, by decide +kernel⟩
  intro u hu
  simp only [List.mem_cons, List.not_mem_nil, or_false] at hu
  rcases hu with rfl | rfl <;> exact present_impl.2 (by decide +kernel)

/-- **C11** fails of the code: adding the first symbol edge three times gives a sequence with this
edge once. -/
theorem C11_return_to_zero_false : ∃ (s : State) (us : List Usage), Lattice.Spec.Reachable s ∧
    (∀ u ∈ us, Present s u.edge) ∧
    (sequenceEdges s (buildSequence s us)).1 ≠ .ok (us.map (·.edge)) := by
  refine ⟨sample2, [⟨.impl 0, none⟩, ⟨.impl 0, none⟩, ⟨.impl 0, none⟩], sample2_reachable, ?_, ?_⟩
  · intro u hu
    simp only [List.mem_cons, List.not_mem_nil, or_false, or_self] at hu
    subst hu
    exact present_impl.2 (by decide +kernel)
  · intro h
    have : ((sequenceEdges sample2 (buildSequence sample2
      [⟨.impl 0, none⟩, ⟨.impl 0, none⟩, ⟨.impl 0, none⟩])).1.toOption.map List.length) = some 1 := by
      decide +kernel
    rw [h] at this
    simp [Except.toOption] at this

/-! ## C10 -/

theorem builder_register {s : State} (m : Mask) (b : Builder) (u : Usage) :
    b.addEdge (addTagMaskIndex s m) u = b.addEdge s u := by
  have hs : (addTagMaskIndex s m).src u.edge = s.src u.edge := by
    cases u.edge <;> simp [State.src, register_entry]
  have ht : (addTagMaskIndex s m).tgt u.edge = s.tgt u.edge := by
    cases u.edge <;> simp [State.tgt, register_entry, (alike_register s m).symLen]
  have hh : (addTagMaskIndex s m).isHidden u.edge = s.isHidden u.edge := by
    cases u.edge <;> simp [State.isHidden]
  unfold Builder.addEdge
  rw [hs, ht, hh]

theorem register_twice (s : State) {m : Mask} : addTagMaskIndex (addTagMaskIndex s m) m =
    addTagMaskIndex s m := by
  cases hf : s.findMask m with
  | some mi =>
    have : addTagMaskIndex s m = s := by unfold addTagMaskIndex; rw [hf]
    rw [this, this]
  | none =>
    have h1 : addTagMaskIndex s m =
        { s with masks := s.masks ++ [⟨m, s.matching m, s.matching m⟩] } := by
      unfold addTagMaskIndex; rw [hf]
    rw [h1]
    generalize hs : ({ s with masks := s.masks ++ [⟨m, s.matching m, s.matching m⟩] } : State) = s1
    unfold addTagMaskIndex
    split
    · rfl
    · rename_i hn
      exfalso
      unfold State.findMask at hn
      rw [List.find?_eq_none] at hn
      exact hn ⟨m, s.matching m, s.matching m⟩ (by rw [← hs]; simp) (Mask.eq_refl m)

/-- The lattice after a query. -/
def queried (s : State) (mask : Mask) : State := if mask.any then s else addTagMaskIndex s mask

theorem outEdges_snd (s : State) (v : Vertex) (mask : Mask) : (outEdges s v mask).2 = queried s mask := by
  unfold outEdges queried; split <;> rfl

theorem queried_view {s : State} (hi : Inv s) (mask : Mask) : SameView s (queried s mask) := by
  unfold queried
  split
  · exact SameView.refl s
  · rename_i h; exact view_register hi (by simpa using h)

theorem queried_twice (s : State) (mask : Mask) : queried (queried s mask) mask = queried s mask := by
  unfold queried
  split
  · rfl
  · exact register_twice s

theorem queried_builder (s : State) (mask : Mask) (b : Builder) (u : Usage) :
    b.addEdge (queried s mask) u = b.addEdge s u := by
  unfold queried; split
  · rfl
  · exact builder_register mask b u

/-- Without loose vertices every edge leads forward in the text. -/
theorem noLoose_span {s : State} (hi : Inv s) (hl : s.nLoose = 0) {e : Edge} (he : Present s e) :
    0 ≤ s.src e ∧ s.src e < s.tgt e ∧ s.tgt e ≤ s.text.length := by
  have h0 : 0 ≤ s.src e ∧ 0 ≤ s.tgt e := by
    cases e with
    | impl i => simp only [State.src, State.tgt]; omega
    | expl k =>
      have hk := hi.entries k (present_expl.1 he)
      have c1 := hk.tgt
      have c2 := hk.src
      simp only [State.validVertex, Bool.and_eq_true, decide_eq_true_eq] at c1 c2
      simp only [State.src, State.tgt]
      omega
  have := present_span hi he h0.1 h0.2
  omega

/-- `es` is the path that always takes the last edge of the query. -/
def Greedy (s : State) (mask : Mask) (es : List Edge) : Prop :=
  ∀ e ∈ es, ((outEdges s (s.src e) mask).1).getLast? = some e

theorem getPath_loop {s0 : State} (hi : Inv s0) (hl : s0.nLoose = 0) (mask : Mask) (n : Nat) {s : State}
    (hs : queried s mask = queried s0 mask) (hv0 : SameView s0 s)
    (hbu : ∀ b u, Builder.addEdge s b u = Builder.addEdge s0 b u)
    {v u : Vertex} (hv : 0 ≤ v)
    (hn : s0.text.length + 1 ≤ v + n) (hle : v ≤ s0.text.length) {l : List Edge} {b : Builder}
    (hb : b.links.map (·.edge) = l)
    (hok : BuilderOk s0 l b) (hc : Chain s0 u l v) (hpos : l ≠ [] → 0 < v) (hg : Greedy s0 mask l) :
    ∃ b' v' es, getPathLoop mask n s b v = some (b', v', queried s0 mask) ∧
      b'.links.map (·.edge) = es ∧ BuilderOk s0 es b' ∧ Chain s0 u es v' ∧ Greedy s0 mask es ∧
      (outEdges s0 v' mask).1 = [] := by
  induction n generalizing s v l b with
  | zero => omega
  | succ n ih =>
    unfold getPathLoop
    have h1 : (outEdges s v mask).1 = (outEdges s0 v mask).1 := hv0.maskOuts v mask
    have h2 : (outEdges s v mask).2 = queried s0 mask := by rw [outEdges_snd, hs]
    cases hq : (outEdges s v mask).1 with
    | nil =>
      rw [show outEdges s v mask = ([], queried s0 mask) from Prod.ext hq h2]
      exact ⟨b, v, l, rfl, hb, hok, hc, hg, h1 ▸ hq⟩
    | cons e es =>
      rw [show outEdges s v mask = (e :: es, queried s0 mask) from Prod.ext hq h2]
      dsimp only
      generalize hbest : (e :: es).getLast (by simp) = best
      have hmem : best ∈ e :: es := by rw [← hbest]; exact List.getLast_mem _
      have hlast : ((outEdges s0 v mask).1).getLast? = some best := by
        rw [← h1, hq, ← hbest]; exact List.getLast?_eq_some_getLast (by simp)
      -- the edge leaves `v`
      have hall : best ∈ s0.allOutEdges v := by
        rw [← hq, h1, outEdges_fst] at hmem
        split at hmem
        · exact hmem
        · rename_i ha
          rw [List.mem_append] at hmem
          rcases hmem with h | h
          · split at h
            · exact List.mem_append_left _ h
            · simp at h
          · simp only [List.mem_map, List.mem_filter, decide_eq_true_eq] at h
            obtain ⟨k, ⟨hk, hs'⟩, rfl⟩ := h
            exact expl_mem_allOut.2
              ⟨(mem_matching.1 ((indexFor_sublist hi (by simpa using ha)).subset hk)).1, hs'⟩
      have hsrc := mem_allOut_src hall
      have hpres : Present s0 best := ⟨v, hall⟩
      have hspan := noLoose_span hi hl hpres
      have hstep := builder_step (s := s0) (u := ⟨best, none⟩) hb hok (by
        intro hne _; have := hpos hne
        show s0.src best ≠ 0
        omega)
      have hqv := queried_view hi mask
      rw [hqv.tgt, queried_builder]
      have hbq : ∀ b u, Builder.addEdge (queried s0 mask) b u = Builder.addEdge s0 b u :=
        fun b u => queried_builder s0 mask b u
      exact ih (queried_twice s0 mask) hqv hbq (by omega) (by omega) (by omega) hstep.1 hstep.2
        (chain_snoc hc hsrc) (fun _ => by omega) (by
          intro e' he'
          simp only [List.mem_append, List.mem_singleton] at he'
          rcases he' with he' | rfl
          · exact hg e' he'
          · rw [hsrc]; exact hlast)

/-- **C10** In a lattice without loose vertices `getPath` terminates, whatever else has been done to
the lattice: it yields a chain of edges that match the mask from the given vertex to the vertex it
reports, where no further edge matches, and leaves all that can be observed unchanged. -/
theorem C10_path {s : State} (h : Lattice.Spec.Reachable s) (hl : s.nLoose = 0) {mask : Mask}
    (hm : ProperMask mask) {v : Vertex} (hv : s.validVertex v = true) {fuel : Nat}
    (hf : s.text.length < fuel) :
    ∃ seq v' s', getPath fuel s v mask = some (seq, v', s') ∧ SameView s s' ∧
      ∃ es, (sequenceEdges s' seq).1 = .ok es ∧ Chain s v es v' ∧
        (∀ e ∈ es, Present s e ∧ «matches» (s.tags e) mask = true) ∧
        (outEdges s v' mask).1 = [] := by
  have hi := reachable_inv' h
  simp only [State.validVertex, Bool.and_eq_true, decide_eq_true_eq] at hv
  obtain ⟨b, v', es, h1, h2, h3, h4, h5, h6⟩ := getPath_loop (s := s) hi hl mask fuel rfl
    (SameView.refl s) (fun _ _ => rfl) (u := v) (v := v) (l := []) (b := Builder.new) (by omega)
    (by omega) (by omega) rfl (.new rfl rfl rfl) rfl (by simp) (by intro e he; simp at he)
  have hmem : ∀ e ∈ es, e ∈ s.allOutEdges (s.src e) ∧ «matches» (s.tags e) mask = true := by
    intro e he
    exact (C05_sound h hm (s.src e)).1 e (List.mem_of_getLast? (h5 e he))
  refine ⟨b.build, v', queried s mask, by unfold getPath; rw [h1]; rfl, queried_view hi mask, es, ?_,
    h4, fun e he => ⟨⟨_, (hmem e he).1⟩, (hmem e he).2⟩, h6⟩
  have hq := queried_view hi mask
  have htr : ∀ (l : List Edge) (u v : Vertex), Chain s u l v → Chain (queried s mask) u l v := by
    intro l
    induction l with
    | nil => intro u v h; exact h
    | cons e l ih => intro u v h; exact ⟨by rw [hq.src]; exact h.1, by rw [hq.tgt]; exact ih _ _ h.2⟩
  refine build_lists h2 ?_ ?_
  · cases h3 with
    | new a b c => exact .new a b c
    | broken a b c => exact .broken a b c
    | links a b => exact .links a b
    | range a b c d => exact .range a b (fun e he => by rw [hq.hidden]; exact c e he) (htr _ _ _ d)
  · intro e he
    exact ⟨s.src e, by rw [hq.outs]; exact (hmem e he).1⟩

/-- **C10** The path takes, at each vertex, the last edge that the query lists there. -/
theorem C10_path_last {s : State} (h : Lattice.Spec.Reachable s) (hl : s.nLoose = 0) {mask : Mask}
    (hm : ProperMask mask) {v : Vertex} (hv : s.validVertex v = true) {fuel : Nat}
    {seq : Sequence} {v' : Vertex} {s' : State} (hp : getPath fuel s v mask = some (seq, v', s'))
    (hf : s.text.length < fuel) {es : List Edge} (he : (sequenceEdges s' seq).1 = .ok es) :
    ∀ e ∈ es, ((outEdges s (s.src e) mask).1).getLast? = some e := by
  have hi := reachable_inv' h
  simp only [State.validVertex, Bool.and_eq_true, decide_eq_true_eq] at hv
  obtain ⟨b, w, es', h1, h2, h3, h4, h5, h6⟩ := getPath_loop (s := s) hi hl mask fuel rfl
    (SameView.refl s) (fun _ _ => rfl) (u := v) (v := v) (l := []) (b := Builder.new) (by omega)
    (by omega) (by omega) rfl (.new rfl rfl rfl) rfl (by simp) (by intro e he; simp at he)
  unfold getPath at hp
  rw [h1] at hp
  simp only [Option.map_some, Option.some.injEq, Prod.mk.injEq] at hp
  obtain ⟨rfl, rfl, rfl⟩ := hp
  have hq := queried_view hi mask
  have hmem : ∀ e ∈ es', e ∈ s.allOutEdges (s.src e) := by
    intro e he
    exact ((C05_sound h hm (s.src e)).1 e (List.mem_of_getLast? (h5 e he))).1
  have htr : ∀ (l : List Edge) (u v : Vertex), Chain s u l v → Chain (queried s mask) u l v := by
    intro l
    induction l with
    | nil => intro u v h; exact h
    | cons e l ih => intro u v h; exact ⟨by rw [hq.src]; exact h.1, by rw [hq.tgt]; exact ih _ _ h.2⟩
  have := build_lists (s := queried s mask) h2 (by
    cases h3 with
    | new a b c => exact .new a b c
    | broken a b c => exact .broken a b c
    | links a b => exact .links a b
    | range a b c d => exact .range a b (fun e he => by rw [hq.hidden]; exact c e he) (htr _ _ _ d))
    (by intro e he; exact ⟨s.src e, by rw [hq.outs]; exact hmem e he⟩)
  rw [this] at he
  simp only [Except.ok.injEq] at he
  rw [← he]
  exact h5

example : Lattice.Spec.Reachable hidden2 ∧ hidden2.nLoose = 0 ∧ ProperMask symbolMask ∧
    hidden2.validVertex 0 = true ∧
    (getPath 5 hidden2 0 symbolMask).map (fun r => r.2.1) = some 3 :=
  ⟨hidden2_reachable, by decide +kernel, .alts [symbolTag], by decide +kernel, by decide +kernel⟩

end Verif.Lattice
