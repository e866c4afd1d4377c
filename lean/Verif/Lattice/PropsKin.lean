import Verif.Lattice.KinLemmas
import Verif.Lattice.WalkLemmas
import Verif.Lattice.PropsCut

/-!
Property theorems C100 (parents and children), C101 (the origin of an edge) and C102 (paths that skip).
-/
set_option linter.unusedVariables false
set_option linter.unusedSimpArgs false

namespace Verif.Lattice
open Verif Verif.Tags Verif.Tags.Spec Verif.Lattice.Spec

/-! ## C100 -/

/-- **C100** The parent is the first matching edge of those that the edge is made of, in the order of the
partitions. -/
theorem C100_parent {s : State} (h : Lattice.Spec.Reachable s) {e : Edge} {gs : List (List Edge)} (hg : MadeOf s e gs)
    (mask : Mask) : ∃ s', getParent s e mask = (.ok (gs.flatten.find? (fun d => «matches» (s.tags d) mask)), s') ∧
      SameView s s' := by
  obtain ⟨s', h1, h2⟩ := getParent_ok (Like.refl s) mask hg
  exact ⟨s', h1, h2.view (reachable_inv' h)⟩

/-- **C100** The children are the edges that match and have the same ends, each as often as it has been made of the
parent. -/
theorem C100_children {s : State} (h : Lattice.Spec.Reachable s) {parent : Edge} {mask : Mask}
    {made : Edge → List (List Edge)}
    (hg : ∀ c ∈ (outEdges s (s.src parent) mask).1, s.tgt c = s.tgt parent → MadeOf s c (made c)) :
    ∃ l s', getChildren s parent mask = (.ok l, s') ∧ SameView s s' ∧
      ∀ c, l.count c = if c ∈ (outEdges s (s.src parent) mask).1 ∧ s.tgt c = s.tgt parent then
        (made c).flatten.count parent else 0 := by
  have hi := reachable_inv' h
  have hqv := queried_view hi mask
  have hqi : Inv (queried s mask) := (calm_queried s mask).inv hi
  have hnd := outEdges_nodup hi (s.src parent) mask
  have hq2 := outEdges_snd s (s.src parent) mask
  unfold getChildren
  cases hq : outEdges s (s.src parent) mask with
  | mk cs s1 =>
    rw [hq] at hg hnd hq2
    simp only at hg hnd hq2
    subst hq2
    obtain ⟨s', h1, h2⟩ := childLoop_ok (s := queried s mask) parent ((queried s mask).tgt parent) (cs := cs) (made := made)
      (fun c hc ht => (madeOf_view hi hqi hqv).2 (hg c hc (by rw [← hqv.tgt, ← hqv.tgt parent]; exact ht))) _ _ (Like.refl _)
    refine ⟨_, s', h1, SameView.trans' hqv (h2.view hqi), ?_⟩
    intro c
    simp only [hqv.tgt]
    clear h1 hg hq
    induction cs with
    | nil => simp
    | cons d cs ih =>
      have hnd' := List.nodup_cons.1 hnd
      simp only [List.flatMap_cons, List.count_append, ih hnd'.2]
      by_cases hcd : c = d
      · subst hcd
        by_cases ht : s.tgt c = s.tgt parent
        · simp [ht, hnd'.1]
        · simp [ht]
      · by_cases ht : s.tgt d = s.tgt parent
        · simp [ht, hcd, List.count_replicate, Ne.symm hcd]
        · simp [ht, hcd]

/-! The text "ab" with its symbols, a token over the "b", an item made of the "a" and the token, and three items over
the same text, made one of another; the second of them twice. -/
def kin0 : State := appendString initial [97, 98]
def kin1 : State := (addEdge kin0 (symArgs 0 97)).2
def kin2 : State := (addEdge kin1 (symArgs 1 98)).2
def kin3 : State := (addEdge kin2 { src := 1, tgt := 2, item := ⟨[84], [98], []⟩, tags := bit 2, seq := ⟨[⟨.impl 1, none⟩], 0, 0⟩ }).2
def kin4 : State := (addEdge kin3 { src := 0, tgt := 2, item := ⟨[88], [], []⟩, tags := discardedTag, seq := ⟨[⟨.impl 0, none⟩, ⟨.expl 0, none⟩], 0, 0⟩ }).2
def kinArgs : Args := { src := 0, tgt := 2, item := ⟨[89], [], []⟩, tags := discardedTag, seq := ⟨[⟨.expl 1, none⟩], 0, 0⟩ }
def kin5 : State := (addEdge kin4 kinArgs).2
def kin6 : State := (addEdge kin5 kinArgs).2
def kin7 : State := (addEdge kin6 { src := 0, tgt := 2, item := ⟨[90], [], []⟩, tags := discardedTag, seq := ⟨[⟨.expl 2, none⟩], 0, 0⟩ }).2

theorem kin2_reachable : Lattice.Spec.Reachable kin2 := by
  have h0 : Lattice.Spec.Reachable kin0 := reachable_append .refl _
  have h1 : Lattice.Spec.Reachable kin1 := reachable_add h0 (made_symbol h0) (by decide +kernel)
  exact reachable_add h1 (made_symbol h1) (by decide +kernel)

theorem kin7_reachable : Lattice.Spec.Reachable kin7 := by
  have h2 := kin2_reachable
  have h3 : Lattice.Spec.Reachable kin3 := reachable_add h2 (made_token h2) (by decide +kernel)
  have h4 : Lattice.Spec.Reachable kin4 := reachable_add h3 (made_discarded h3) (by decide +kernel)
  have h5 : Lattice.Spec.Reachable kin5 := reachable_add h4 (made_discarded h4) (by decide +kernel)
  have h6 : Lattice.Spec.Reachable kin6 := reachable_add h5 (made_discarded h5) (by decide +kernel)
  exact reachable_add h6 (made_discarded h6) (by decide +kernel)

/-- What the edges of `kin7` are made of. -/
def kinMade : Edge → List (List Edge)
  | .impl _ => []
  | .expl 0 => [[.impl 1]]
  | .expl 1 => [[.impl 0, .expl 0]]
  | .expl 2 => [[.expl 1], [.expl 1]]
  | .expl 3 => [[.expl 2]]
  | .expl _ => []

theorem kin_made (e : Edge) : MadeOf kin7 e (kinMade e) := by
  unfold MadeOf
  rcases e with i | k
  · exact .nil
  · match k with
    | 0 => exact .cons rfl .nil
    | 1 => exact .cons rfl .nil
    | 2 => exact .cons rfl (.cons rfl .nil)
    | 3 => exact .cons rfl .nil
    | k + 4 => exact .nil

example : Lattice.Spec.Reachable kin7 ∧ (∀ e, MadeOf kin7 e (kinMade e)) ∧
    (getParent kin7 (.expl 1) (Mask.ofTags (bit 2))).1.toOption = some (some (.expl 0)) :=
  ⟨kin7_reachable, kin_made, by decide +kernel⟩

/-- **C100** is not quite what is documented: a child is listed once for each way in which it has been made of the
parent. -/
theorem C100_twice_false : ∃ (s : State) (parent c : Edge) (l : List Edge), Lattice.Spec.Reachable s ∧
    (getChildren s parent (Mask.ofBool true)).1 = .ok l ∧ l = [c, c] :=
  ⟨kin7, .expl 1, .expl 2, _, kin7_reachable, rfl, by decide +kernel⟩

/-- **C100** "All the descendents" are the children only: an edge made of a child is not listed. -/
theorem C100_descendants_false : ∃ (s : State) (parent child grandchild : Edge) (l : List Edge), Lattice.Spec.Reachable s ∧
    (∃ gs, MadeOf s child gs ∧ parent ∈ gs.flatten) ∧ (∃ gs, MadeOf s grandchild gs ∧ child ∈ gs.flatten) ∧
    s.src grandchild = s.src parent ∧ s.tgt grandchild = s.tgt parent ∧
    (getChildren s parent (Mask.ofBool true)).1 = .ok l ∧ grandchild ∉ l := by
  refine ⟨kin7, .expl 1, .expl 2, .expl 3, _, kin7_reachable, ⟨_, kin_made _, by decide +kernel⟩,
    ⟨_, kin_made _, by decide +kernel⟩, by decide +kernel, by decide +kernel, rfl, by decide +kernel⟩

/-! ## C101 -/

/-- **C101** `getEdgeOrigin` goes up by first parents to the first edge with the tag. -/
theorem C101_origin {s : State} (h : Lattice.Spec.Reachable s) {name : Str} (hroom : Room s name) {n : Nat} {e : Edge}
    {r : Option Edge} (ho : Origin s name n e r) {fuel : Nat} (hf : n < fuel) :
    ∃ s', getEdgeOrigin fuel s name e = some (.ok r, s') ∧ SameView s s' := by
  have hi := reachable_inv' h
  obtain ⟨p, hp⟩ := origin_parent ho
  obtain ⟨s1, h1, h2⟩ := getParent_first (Like.refl s) hp
  obtain ⟨m, s2, h3, h4, _⟩ := origin_ok hi hroom ho fuel _ s1 p hf h2 (.inl rfl) hp
  exact ⟨s2, by simp only [getEdgeOrigin, h1, h3], h4.view hi⟩

/-- **C101** If every edge has been made of older edges, `getEdgeOrigin` ends. -/
theorem C101_ends_partial {s : State} (h : Lattice.Spec.Reachable s) {name : Str} (hroom : Room s name) (hf : Founded s)
    {e : Edge} (he : Present s e) {fuel : Nat} (hfuel : s.edges.length + 1 < fuel) :
    ∃ n r s', Origin s name n e r ∧ getEdgeOrigin fuel s name e = some (.ok r, s') ∧ SameView s s' := by
  cases e with
  | impl i =>
    have ho : Origin s name 0 (.impl i) none := .none ⟨[], .nil, rfl⟩
    obtain ⟨s', h1, h2⟩ := C101_origin h hroom ho (fuel := fuel) (by omega)
    exact ⟨0, none, s', ho, h1, h2⟩
  | expl k =>
    have hk := present_expl.1 he
    obtain ⟨n, r, ho, hn⟩ := founded_origin hf name k hk
    obtain ⟨s', h1, h2⟩ := C101_origin h hroom ho (fuel := fuel) (by omega)
    exact ⟨n, r, s', ho, h1, h2⟩

/-- The token is not found from the last item although it is an ancestor: the first parent of the first item is the
symbol "a". -/
example : Room kin7 tokenName ∧ Founded kin7 ∧ Present kin7 (.expl 3) ∧ Origin kin7 discardedName 0 (.expl 3) (some (.expl 2)) := by
  refine ⟨.inr (by decide +kernel), ?_, present_expl.2 (by decide +kernel), .here ⟨_, kin_made _, rfl⟩ ⟨1, by decide +kernel, by decide +kernel⟩⟩
  intro k hk
  refine ⟨_, kin_made _, ?_⟩
  have : k < 4 := hk
  match k with
  | 0 => intro j hj; simp [kinMade] at hj
  | 1 => intro j hj; simp [kinMade] at hj; omega
  | 2 => intro j hj; simp [kinMade] at hj; omega
  | 3 => intro j hj; simp [kinMade] at hj; omega
  | k + 4 => omega

/-- **C101** fails of the code: an ancestor with the tag is not found if it is not the first of the edges that an edge
has been made of. -/
theorem C101_nearest_false : ∃ (s : State) (e a : Edge) (gs : List (List Edge)), Lattice.Spec.Reachable s ∧ Founded s ∧
    MadeOf s e gs ∧ a ∈ gs.flatten ∧ Has s.mgr (s.tags a) tokenName ∧ Origin s tokenName 1 e none := by
  refine ⟨kin7, .expl 1, .expl 0, _, kin7_reachable, ?_, kin_made _, by decide +kernel,
    ⟨2, by decide +kernel, by decide +kernel⟩, .up (p := .impl 0) ⟨_, kin_made _, rfl⟩ ?_ (.none ⟨_, kin_made _, rfl⟩)⟩
  · intro k hk
    refine ⟨_, kin_made _, ?_⟩
    have : k < 4 := hk
    match k with
    | 0 => intro j hj; simp [kinMade] at hj
    | 1 => intro j hj; simp [kinMade] at hj; omega
    | 2 => intro j hj; simp [kinMade] at hj; omega
    | 3 => intro j hj; simp [kinMade] at hj; omega
    | k + 4 => omega
  · rintro ⟨i, h1, h2⟩
    have h3 : kin7.tags (.impl 0) = bit 0 := rfl
    have hi := reachable_inv' kin7_reachable
    have := nodup_get hi.mgrInv.1 h1 (show kin7.mgr.names[2]? = some tokenName by decide +kernel)
    subst this
    rw [h3] at h2
    exact absurd h2 (by decide)

/-! Two items, made one of the other: the first was at first made of nothing. -/
def ring1 : State := (addEdge kin0 { src := 0, tgt := 2, item := ⟨[88], [], []⟩, tags := discardedTag }).2
def ring2 : State := (addEdge ring1 { src := 0, tgt := 2, item := ⟨[89], [], []⟩, tags := discardedTag, seq := ⟨[⟨.expl 0, none⟩], 0, 0⟩ }).2
def ring3 : State := (addEdge ring2 { src := 0, tgt := 2, item := ⟨[88], [], []⟩, tags := discardedTag, seq := ⟨[⟨.expl 1, none⟩], 0, 0⟩ }).2

theorem ring3_reachable : Lattice.Spec.Reachable ring3 := by
  have h0 : Lattice.Spec.Reachable kin0 := reachable_append .refl _
  have h1 : Lattice.Spec.Reachable ring1 := reachable_add h0 (made_discarded h0) (by decide +kernel)
  have h2 : Lattice.Spec.Reachable ring2 := reachable_add h1 (made_discarded h1) (by decide +kernel)
  exact reachable_add h2 (made_discarded h2) (by decide +kernel)

theorem ring_loops (n : Nat) : originLoop tokenName n ring3 (some (.expl 0)) = none ∧
    originLoop tokenName n ring3 (some (.expl 1)) = none := by
  induction n with
  | zero => exact ⟨rfl, rfl⟩
  | succ n ih =>
    have h0 : isThere ring3.mgr tokenName (ring3.tags (.expl 0)) = some (ring3.mgr, false) := rfl
    have h1 : isThere ring3.mgr tokenName (ring3.tags (.expl 1)) = some (ring3.mgr, false) := rfl
    have h2 : getParent ring3 (.expl 0) (Mask.ofBool true) = (.ok (some (.expl 1)), ring3) := rfl
    have h3 : getParent ring3 (.expl 1) (Mask.ofBool true) = (.ok (some (.expl 0)), ring3) := rfl
    constructor
    · simp only [originLoop, h0]
      rw [show ({ ring3 with mgr := ring3.mgr } : State) = ring3 from rfl, h2]
      exact ih.2
    · simp only [originLoop, h1]
      rw [show ({ ring3 with mgr := ring3.mgr } : State) = ring3 from rfl, h3]
      exact ih.1

/-- **C101** fails of the code: the lattice accepts an edge made of edges that are themselves made of it, and then
`getEdgeOrigin` never ends. -/
theorem C101_ends_false : ∃ (s : State) (e : Edge) (name : Str), Lattice.Spec.Reachable s ∧ Present s e ∧
    ∀ fuel, getEdgeOrigin fuel s name e = none := by
  refine ⟨ring3, .expl 0, tokenName, ring3_reachable, present_expl.2 (by decide +kernel), ?_⟩
  intro fuel
  have h2 : getParent ring3 (.expl 0) (Mask.ofBool true) = (.ok (some (.expl 1)), ring3) := rfl
  simp only [getEdgeOrigin, h2]
  exact (ring_loops fuel).2

/-! ## C102 -/

theorem takes_chain {s : State} (hi : Inv s) {p : Edge → Bool} {mask : Mask} {u v : Vertex} {l : List Edge}
    (h : TakesAll s p mask u l v) : Chain s u l v ∧ ∀ e ∈ l, Present s e := by
  induction h with
  | nil => exact ⟨rfl, by simp⟩
  | cons ht _ ih =>
    have hm := ht.mem hi
    refine ⟨⟨mem_allOut_src hm, ih.1⟩, ?_⟩
    intro e he
    rcases List.mem_cons.1 he with rfl | he
    · exact ⟨_, hm⟩
    · exact ih.2 e he

theorem lists_queried {s : State} (hi : Inv s) (mask : Mask) {b : Builder} {es : List Edge} (h2 : b.links.map (·.edge) = es)
    (h3 : BuilderOk s es b) (hp : ∀ e ∈ es, Present s e) : (sequenceEdges (queried s mask) b.build).1 = .ok es := by
  have hq := queried_view hi mask
  have htr : ∀ (l : List Edge) (u v : Vertex), Chain s u l v → Chain (queried s mask) u l v := by
    intro l
    induction l with
    | nil => intro u v h; exact h
    | cons e l ih => intro u v h; exact ⟨by rw [hq.src]; exact h.1, by rw [hq.tgt]; exact ih _ _ h.2⟩
  refine build_lists h2 ?_ ?_
  · cases h3 with
    | new a b c => exact .new a b c
    | range a b c d => exact .range a b (fun e he => by rw [hq.hidden]; exact c e he) (htr _ _ _ d)
    | broken a b c => exact .broken a b c
    | links a b => exact .links a b
  · intro e he
    obtain ⟨v, hv⟩ := hp e he
    exact ⟨v, by rw [hq.outs]; exact hv⟩

/-- **C102** In a lattice without loose vertices `getPathWithSkipping` ends, by yielding a chain of edges or by an
exception. -/
theorem C102_ends {s : State} (h : Lattice.Spec.Reachable s) (hl : s.nLoose = 0) {p : State → Edge → Bool}
    (hp : ∀ s', SameView s s' → p s' = p s) (mask : Mask) {v : Vertex} (hv : s.validVertex v = true) {fuel : Nat}
    (hf : s.text.length < fuel) :
    (∃ s', getPathWithSkipping p fuel s v mask = some (.error .noEdge, s') ∧ SameView s s') ∨
    ∃ q v' s' es, getPathWithSkipping p fuel s v mask = some (.ok (q, v'), s') ∧ SameView s s' ∧
      (sequenceEdges s' q).1 = .ok es ∧ Chain s v es v' ∧ (∀ e ∈ es, Present s e) ∧ s.allOutEdges v' = [] := by
  have hi := reachable_inv' h
  have hqv := queried_view hi mask
  simp only [State.validVertex, Bool.and_eq_true, decide_eq_true_eq] at hv
  obtain ⟨es, v', x, h1, h2, h3⟩ := skip_loop (s := s) hi hl p mask (hp _ hqv) fuel rfl
    (SameView.refl s) (u := v) (v := v) (l := []) (b := Builder.new) (by omega)
    (by omega) (by omega) rfl (.new rfl rfl rfl) .nil (by simp)
  obtain ⟨hc, hpr⟩ := takes_chain hi h1
  cases h2 with
  | throw _ _ _ =>
    left
    exact ⟨_, by unfold getPathWithSkipping; rw [h3]; rfl, hqv⟩
  | stop h4 h5 =>
    right
    obtain ⟨b, h6, h7, h8⟩ := h3
    refine ⟨b.build, v', _, es, by unfold getPathWithSkipping; rw [h6]; rfl, hqv, lists_queried hi mask h7 h8 hpr, hc, hpr, h5⟩

theorem takes_skipPath {s : State} (hi : Inv s) {p : Edge → Bool} {mask : Mask}
    (hone : ∀ v, (outEdges s v mask).1 = [] → s.allOutEdges v = [] ∨
      ∃ e l, s.allOutEdges v = e :: l ∧ p e = true ∧ ∀ d ∈ l, p d = false)
    {u v : Vertex} {l : List Edge} (h : TakesAll s p mask u l v) {x : Option Exn} (he : Ends s p mask v x) :
    x = none ∧ SkipPath s (fun e => p e = true) mask u l v := by
  induction h with
  | nil =>
    cases he with
    | throw h1 h2 h3 =>
      rcases hone _ h1 with h4 | ⟨e, l, h4, h5, h6⟩
      · rw [h2] at h4; cases h4
      · rw [h2] at h4
        cases h4
        rw [skipScan_none _ _ h6] at h3
        cases h3
    | stop h1 h2 =>
      refine ⟨rfl, .stop ?_⟩
      rintro e (h | ⟨_, h, _⟩)
      · rw [h1] at h; cases h
      · rw [h2] at h; cases h
  | cons ht _ ih =>
    obtain ⟨h1, h2⟩ := ih he
    refine ⟨h1, .go ?_ h2⟩
    rcases ht with h | ⟨h3, a, l, h4, h5⟩
    · exact .inl h
    · rcases hone _ h3 with h6 | ⟨e, l', h6, h7, h8⟩
      · rw [h4] at h6; cases h6
      · rw [h4] at h6
        cases h6
        rw [skipScan_none _ _ h8] at h5
        cases h5
        exact .inr ⟨h3, by rw [h4]; simp, h7⟩

/-- **C102** If, wherever no edge matches, the first edge, but no other one, is to be skipped, the path is the one that is
documented. -/
theorem C102_path_partial {s : State} (h : Lattice.Spec.Reachable s) (hl : s.nLoose = 0) {p : State → Edge → Bool}
    (hp : ∀ s', SameView s s' → p s' = p s) {mask : Mask}
    (hone : ∀ v, (outEdges s v mask).1 = [] → s.allOutEdges v = [] ∨
      ∃ e l, s.allOutEdges v = e :: l ∧ p s e = true ∧ ∀ d ∈ l, p s d = false)
    {v : Vertex} (hv : s.validVertex v = true) {fuel : Nat} (hf : s.text.length < fuel) :
    ∃ q v' s' es, getPathWithSkipping p fuel s v mask = some (.ok (q, v'), s') ∧ SameView s s' ∧
      (sequenceEdges s' q).1 = .ok es ∧ SkipPath s (fun e => p s e = true) mask v es v' := by
  have hi := reachable_inv' h
  have hqv := queried_view hi mask
  simp only [State.validVertex, Bool.and_eq_true, decide_eq_true_eq] at hv
  obtain ⟨es, v', x, h1, h2, h3⟩ := skip_loop (s := s) hi hl p mask (hp _ hqv) fuel rfl
    (SameView.refl s) (u := v) (v := v) (l := []) (b := Builder.new) (by omega)
    (by omega) (by omega) rfl (.new rfl rfl rfl) .nil (by simp)
  obtain ⟨rfl, hsp⟩ := takes_skipPath hi hone h1 h2
  obtain ⟨b, h6, h7, h8⟩ := h3
  exact ⟨b.build, v', _, es, by unfold getPathWithSkipping; rw [h6]; rfl, hqv,
    lists_queried hi mask h7 h8 (takes_chain hi h1).2, hsp⟩

theorem isBlank_view {s s' : State} (h : SameView s s') : isBlank s' = isBlank s := by
  funext e
  unfold isBlank
  rw [h.tags, h.item]

theorem isBlank_iff {s : State} (hi : Inv s) (e : Edge) : isBlank s e = true ↔ Blank s e := by
  have hn : s.mgr.names[2]? = some tokenName := by
    obtain ⟨t, ht⟩ := hi.names
    rw [← ht]; rfl
  have hm : «matches» (s.tags e) tokenMask = true ↔ Has s.mgr (s.tags e) tokenName := by
    rw [matches_iff]
    have hb : ∀ j, (bit 2).getLsbD j = decide (2 = j) := fun j => getLsbD_bit (by omega) j
    simp only [tokenMask, Mask.ofTags, true_and, Bool.false_eq_true, false_or, List.mem_singleton, exists_eq_left, hb, decide_eq_true_eq]
    constructor
    · intro h; exact ⟨2, hn, h 2 rfl⟩
    · rintro ⟨i, h1, h2⟩ j rfl
      rw [nodup_get hi.mgrInv.1 hn h1]; exact h2
  unfold isBlank Blank
  rw [Bool.and_eq_true, hm]
  constructor
  · rintro ⟨h1, h2⟩
    refine ⟨h1, ?_⟩
    split at h2
    · cases h2
    · rename_i i hi'
      exact ⟨i, hi', by simpa using h2⟩
  · rintro ⟨h1, i, h2, h3⟩
    refine ⟨h1, ?_⟩
    rw [h2]
    simpa using h3

/-- **C102** For blanks. -/
theorem C102_blanks_partial {s : State} (h : Lattice.Spec.Reachable s) (hl : s.nLoose = 0) {mask : Mask}
    (hone : ∀ v, (outEdges s v mask).1 = [] → s.allOutEdges v = [] ∨
      ∃ e l, s.allOutEdges v = e :: l ∧ Blank s e ∧ ∀ d ∈ l, ¬ Blank s d)
    {v : Vertex} (hv : s.validVertex v = true) {fuel : Nat} (hf : s.text.length < fuel) :
    ∃ q v' s' es, getPathSkippingBlanks fuel s v mask = some (.ok (q, v'), s') ∧ SameView s s' ∧
      (sequenceEdges s' q).1 = .ok es ∧ SkipPath s (Blank s) mask v es v' := by
  have hi := reachable_inv' h
  have hb : (fun e => isBlank s e = true) = Blank s := by
    funext e; exact propext (isBlank_iff hi e)
  rw [← hb] at hone ⊢
  exact C102_path_partial h hl (fun s' => isBlank_view) (by simpa using hone) hv hf

/-! The symbol "a", a blank token without symbols and the symbol "b", as in the tests of the code. -/
def gap0 : State := appendString initial [97, 32, 98]
def gap1 : State := (addEdge gap0 (symArgs 0 97)).2
def gapArgs : Args := { src := 1, tgt := 2, item := ⟨[66], [], []⟩, tags := bit 2 }
def gap2 : State := (addEdge gap1 gapArgs).2
def gap3 : State := (addEdge gap2 (symArgs 2 98)).2

theorem gap1_reachable : Lattice.Spec.Reachable gap1 := by
  have h0 : Lattice.Spec.Reachable gap0 := reachable_append .refl _
  exact reachable_add h0 (made_symbol h0) (by decide +kernel)

theorem gap3_reachable : Lattice.Spec.Reachable gap3 := by
  have h1 := gap1_reachable
  have h2 : Lattice.Spec.Reachable gap2 := reachable_add h1 (made_token h1) (by decide +kernel)
  exact reachable_add h2 (made_symbol h2) (by decide +kernel)

example : Lattice.Spec.Reachable gap3 ∧ gap3.nLoose = 0 ∧ gap3.validVertex 0 = true ∧
    (∀ v, (outEdges gap3 v symbolMask).1 = [] → gap3.allOutEdges v = [] ∨
      ∃ e l, gap3.allOutEdges v = e :: l ∧ Blank gap3 e ∧ ∀ d ∈ l, ¬ Blank gap3 d) ∧
    (gap3.allOutEdges 1 = [.expl 0] ∧ isBlank gap3 (.expl 0) = true) ∧
    ((getPathSkippingBlanks 4 gap3 0 symbolMask).map (fun r => r.1.toOption.map (·.2))) = some (some 3) := by
  refine ⟨gap3_reachable, rfl, by decide +kernel, ?_, ⟨by decide +kernel, by decide +kernel⟩, by decide +kernel⟩
  intro v hv
  by_cases h1 : v = 1
  · subst h1
    exact .inr ⟨.expl 0, [], by decide +kernel,
      (isBlank_iff (reachable_inv' gap3_reachable) _).1 (by decide +kernel), by simp⟩
  · left
    have h2 : canBeAppliedToImplicitSymbol symbolMask = true := by decide
    have h3 : gap3.implicitOut v = [] := by
      have hv' := hv
      rw [outEdges_fst, if_neg (by decide), if_pos h2] at hv'
      exact (List.append_eq_nil_iff.1 hv').1
    have h4 : gap3.graphOut v = [] := by
      unfold State.graphOut
      rw [show gap3.edges.length = 1 from by decide +kernel, show List.range 1 = [0] from rfl]
      have h5 : (gap3.entry 0).src = 1 := by decide +kernel
      simp [h5, Ne.symm h1]
    rw [State.allOutEdges, h3, h4]
    rfl

/-! A space with its symbol edge and a blank token. -/
def blank0 : State := appendString initial [32]
def blank1 : State := (addEdge blank0 (symArgs 0 32)).2
def blank2 : State := (addEdge blank1 { src := 0, tgt := 1, item := ⟨[66], [], []⟩, tags := bit 2 }).2

theorem blank1_reachable : Lattice.Spec.Reachable blank1 := by
  have h0 : Lattice.Spec.Reachable blank0 := reachable_append .refl _
  exact reachable_add h0 (made_symbol h0) (by decide +kernel)

theorem blank2_reachable : Lattice.Spec.Reachable blank2 :=
  reachable_add blank1_reachable (made_token blank1_reachable) (by decide +kernel)

/-- **C102** fails of the code: after a blank the loop moves its iterator once more, so that a blank that comes last makes
it throw. -/
theorem C102_throws_false : ∃ (s : State) (mask : Mask) (es : List Edge) (v' : Vertex), Lattice.Spec.Reachable s ∧
    s.nLoose = 0 ∧ SkipPath s (Blank s) mask 0 es v' ∧
    ∀ fuel, 0 < fuel → (getPathSkippingBlanks fuel s 0 mask).map (·.1) = some (.error .noEdge) := by
  refine ⟨blank2, Mask.ofTags discardedTag, [.expl 0], 1, blank2_reachable, by decide +kernel,
    .go (.inr ⟨by decide +kernel, by decide +kernel, (isBlank_iff (reachable_inv' blank2_reachable) _).1 (by decide +kernel)⟩)
      (.stop ?_), ?_⟩
  · have h1 : blank2.tgt (.expl 0) = 1 := by decide +kernel
    have h2 : blank2.allOutEdges 1 = [] := by decide +kernel
    have h3 : (outEdges blank2 1 (Mask.ofTags discardedTag)).1 = [] := by decide +kernel
    rw [h1]
    rintro e (h | ⟨_, h, _⟩)
    · rw [h3] at h; cases h
    · rw [h2] at h; cases h
  · intro fuel hf
    obtain ⟨n, rfl⟩ : ∃ n, fuel = n + 1 := ⟨fuel - 1, by omega⟩
    rfl

/-- **C102** fails of the code: where nothing matches the first edge is followed, although it is neither of the kind that
is looked for nor to be skipped. -/
theorem C102_other_false : ∃ (s : State) (mask : Mask) (q : Sequence) (v' : Vertex) (s' : State) (e : Edge), Lattice.Spec.Reachable s ∧
    s.nLoose = 0 ∧ (∀ n, getPathSkippingBlanks (n + 2) s 0 mask = some (.ok (q, v'), s')) ∧
    (sequenceEdges s' q).1 = .ok [e] ∧ «matches» (s.tags e) mask = false ∧ ¬ Blank s e := by
  refine ⟨blank1, Mask.ofTags discardedTag, _, _, _, .impl 0, blank1_reachable, by decide +kernel, fun n => rfl, rfl,
    by decide +kernel, ?_⟩
  rw [← isBlank_iff (reachable_inv' blank1_reachable)]
  decide +kernel

end Verif.Lattice
