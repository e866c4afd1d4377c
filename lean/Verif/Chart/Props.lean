import Verif.Chart.Lemmas
import Verif.Chart.Spec

/-!
C44: the chart parser.
-/
set_option linter.unusedVariables false
set_option linter.unusedSimpArgs false

namespace Verif.Chart

variable {C I : Type} [DecidableEq I]

/-- The edges the parser puts together. -/
def Touch (p : Params C I) (v w : Nat) : Prop := v = p.before w ∨ p.after v = w

omit [DecidableEq I] in
theorem before_le (p : Params C I) (v : Nat) : p.before v ≤ v := by
  induction v using Nat.strongRecOn with
  | _ v ih =>
    rw [Params.before]
    split
    · exact Nat.le_refl _
    · split
      · rename_i h; exact Nat.le_trans (ih _ h) (Nat.le_of_lt h)
      · exact Nat.le_refl _

omit [DecidableEq I] in
theorem before_blanks (p : Params C I) (v : Nat) : OnlyBlanks p (p.before v) v := by
  induction v using Nat.strongRecOn with
  | _ v ih =>
    rw [Params.before]
    split
    · exact .refl
    · rename_i u h
      split
      · rename_i hl; exact (ih u hl).tail (.inl h)
      · exact .refl

omit [DecidableEq I] in
theorem touch_blanks {p : Params C I} {v w : Nat} (h : Touch p v w) : OnlyBlanks p v w := by
  rcases h with rfl | rfl
  · exact before_blanks p w
  · unfold Params.after
    cases h : p.blankFrom v with
    | none => exact .refl
    | some x => exact .single (.inr h)

omit [DecidableEq I] in
theorem oneBlank_both {p : Params C I} (hi : ∀ v w, p.blankInto w = some v → v < w) {v w : Nat} (h : OneBlank p v w) :
    v = p.before w ∧ p.after v = w := by
  rcases h with ⟨rfl, h1, h2⟩ | ⟨h1, h2, h3⟩
  · exact ⟨by rw [Params.before, h1], by rw [Params.after, h2]; rfl⟩
  · refine ⟨?_, by rw [Params.after, h1]; rfl⟩
    rw [Params.before, h2]
    simp only [hi v w h2, if_true]
    rw [Params.before, h3]

/-- All that the parser could derive. -/
abbrev Reach (p : Params C I) (edges : List (Edge C I)) : Nat → Nat → C → Prop :=
  Derives p.grammar.Un p.grammar.Bin (Touch p) (Start p edges)

omit [DecidableEq I] in
theorem reach_closed (p : Params C I) (edges : List (Edge C I)) : Closed p (Reach p edges) :=
  ⟨fun u v a r h hr => .unary h ⟨r.2, hr⟩, fun u v w x a b r h1 h2 ha hr => .binary h1 h2 ha ⟨r.2, hr⟩⟩

omit [DecidableEq I] in
theorem derives_mono {un : C → C → Prop} {bin : C → C → C → Prop} {adj adj' : Nat → Nat → Prop} {init : Nat → Nat → C → Prop}
    (h : ∀ v w, adj v w → adj' v w) {u v : Nat} {c : C} (d : Derives un bin adj init u v c) : Derives un bin adj' init u v c := by
  induction d with
  | init h => exact .init h
  | unary _ hr ih => exact .unary ih hr
  | binary _ _ ha hr ih1 ih2 => exact .binary ih1 ih2 (h _ _ ha) hr

omit [DecidableEq I] in
theorem mem_fill {p : Params C I} {min : Option Int} {edges : List (Edge C I)} {scores : List Int} {i : Nat} :
    i ∈ (fill p min ⟨edges, scores, [], []⟩).agenda →
    ∃ e, edges[i]? = some e ∧ Usable p e := by
  intro h
  simp only [fill, List.mem_filter] at h
  cases he : edges[i]? with
  | none => simp [he] at h
  | some e =>
    simp only [he, Bool.and_eq_true] at h
    exact ⟨e, rfl, h.2.1.1, h.2.2⟩

omit [DecidableEq I] in
theorem fill_good (p : Params C I) (min : Option Int) (edges : List (Edge C I)) (scores : List Int) :
    Good p (Reach p edges) edges.length (fill p min ⟨edges, scores, [], []⟩) := by
  refine ⟨?_, by simp [fill], ?_⟩
  · intro i hi
    obtain ⟨e, he, hu⟩ := mem_fill hi
    exact ⟨e, he, .init ⟨e, List.mem_of_getElem? he, hu, rfl, rfl, rfl⟩⟩
  · intro i e hi he
    have : edges[i]? = some e := he
    rw [List.getElem?_eq_none hi] at this
    cases this

theorem drop_good {p : Params C I} {D : Nat → Nat → C → Prop} {n : Nat} {st : State C I} (h : Good p D n st) {e : Edge C I}
    (he : e ∈ st.edges.drop n) : D e.src e.tgt e.cat ∧ e.item = p.toItem e.cat := by
  obtain ⟨m, hm⟩ := List.mem_iff_getElem?.1 he
  rw [List.getElem?_drop] at hm
  exact h.added _ e (by omega) hm

/-- **C44** (soundness).  Whatever the limits and the order of the agenda, no edge gets lost, and the edges added are
derivable, with their category's annotation item. -/
theorem C44_sound (p : Params C I) (pick : Nat → Nat) (level : Level) (levels : List Level) (fuel : Nat)
    (edges : List (Edge C I)) (scores : List Int) (st : State C I) (h : run p pick level levels fuel edges scores = some st) :
    edges <+: st.edges ∧ ∀ e ∈ st.edges.drop edges.length,
      Derives p.grammar.Un p.grammar.Bin (OnlyBlanks p) (Start p edges) e.src e.tgt e.cat ∧ e.item = p.toItem e.cat := by
  obtain ⟨hg, new, hnew⟩ := go_good (reach_closed p edges) _ _ _ _ _ _ (fill_good p level.min edges scores) h
  refine ⟨⟨new, hnew.symm⟩, ?_⟩
  intro e he
  obtain ⟨h1, h2⟩ := drop_good hg he
  exact ⟨derives_mono (fun _ _ => touch_blanks) h1, h2⟩

omit [DecidableEq I] in
theorem reach_lt {p : Params C I} {edges : List (Edge C I)} (hf : Forward p edges) {u v : Nat} {c : C} (h : Reach p edges u v c) :
    u < v := by
  induction h with
  | init h => obtain ⟨e, he, _, rfl, rfl, rfl⟩ := h; exact hf.edges e he
  | unary _ _ ih => exact ih
  | @binary u v w x a b c h1 h2 ha hr ih1 ih2 =>
    rcases ha with rfl | rfl
    · have := before_le p w; omega
    · have : v ≤ p.after v := by
        unfold Params.after
        cases h : p.blankFrom v with
        | none => simp
        | some y => have := hf.from v y h; simp; omega
      omega

/-- **C44** (completeness).  Without limits, whatever the order of the agenda, every constituent derivable with at most one
blank between two parts is found, if none can be taken for another. -/
theorem C44_complete (p : Params C I) (pick : Nat → Nat) (levels : List Level) (fuel : Nat)
    (edges : List (Edge C I)) (scores : List Int) (st : State C I) (h : run p pick {} levels fuel edges scores = some st)
    (allowed : ∀ a b, p.allowed a b = true) (forward : Forward p edges)
    (clean : Clean p (Derives p.grammar.Un p.grammar.Bin (OneBlank p) (Start p edges)) edges) (u v : Nat) (c : C)
    (d : Derives p.grammar.Un p.grammar.Bin (OneBlank p) (Start p edges) u v c) : Found p edges st u v c := by
  obtain ⟨hg, new, hnew⟩ := go_good (reach_closed p edges) _ _ _ _ _ _ (fill_good p none edges scores) h
  have hnew : st.edges = edges ++ new := hnew
  have hl : Live edges.length (fun i => ∃ e, edges[i]? = some e ∧ Usable p e) (fill p none ⟨edges, scores, [], []⟩) := by
    intro i hi hok
    have hi : i < edges.length := hi
    left
    rcases hok with ⟨e, he, hu⟩ | hn
    · simp only [fill, List.mem_filter, List.mem_range]
      refine ⟨hi, ?_⟩
      simp [he, below, hu.1, hu.2]
    · omega
  obtain ⟨hd, hlive, hempty⟩ := go_done (n := edges.length) allowed (reach_closed p edges) (fun u v c => reach_lt forward) (before_le p) levels
    fuel 0 _ st (Nat.le_refl _) (fill_good p none edges scores) ⟨by simp [fill], by simp [fill]⟩ hl h
  -- what is in the chart for a derivable constituent is marked
  have marked : ∀ u v c, Found p edges st u v c → ∃ i ∈ st.marked, ∃ e, st.edges[i]? = some e ∧ e.src = u ∧ e.tgt = v ∧ e.cat = c := by
    rintro u v c ⟨e, he, hor, rfl, rfl, rfl⟩
    rcases hor with ⟨h1, h2⟩ | h1
    · obtain ⟨i, hi⟩ := List.mem_iff_getElem?.1 h1
      have hlt := (List.getElem?_eq_some_iff.1 hi).1
      have hi' : st.edges[i]? = some e := by rw [hnew, List.getElem?_append_left hlt, hi]
      rcases hlive i (by rw [hnew, List.length_append]; omega) (.inl ⟨e, hi, h2⟩) with h | h
      · rw [hempty] at h; cases h
      · exact ⟨i, h, e, hi', rfl, rfl, rfl⟩
    · obtain ⟨m, hm⟩ := List.mem_iff_getElem?.1 h1
      rw [List.getElem?_drop] at hm
      rcases hlive _ (List.getElem?_eq_some_iff.1 hm).1 (.inr (by omega)) with h | h
      · rw [hempty] at h; cases h
      · exact ⟨_, h, e, hm, rfl, rfl, rfl⟩
  have found : ∀ u v c, Derives p.grammar.Un p.grammar.Bin (OneBlank p) (Start p edges) u v c → Has p st u v c →
      Found p edges st u v c := by
    rintro u v c d ⟨e, he, rfl, rfl, hk⟩
    have hmem := he
    rw [hnew, List.mem_append] at he
    rcases he with he | he
    · obtain ⟨h1, h2⟩ := clean.edges e he c d hk
      exact ⟨e, hmem, .inl ⟨he, h1⟩, rfl, rfl, h2⟩
    · have hdrop : e ∈ st.edges.drop edges.length := by rw [hnew, List.drop_left]; exact he
      have := (drop_good hg hdrop).2
      exact ⟨e, hmem, .inr hdrop, rfl, rfl, clean.inj _ _ (by rw [← this, hk])⟩
  induction d with
  | init hi =>
    obtain ⟨e, he, hu, rfl, rfl, rfl⟩ := hi
    exact ⟨e, by rw [hnew]; simp [he], .inl ⟨he, hu⟩, rfl, rfl, rfl⟩
  | @unary u v a b d hr ih =>
    refine found _ _ _ (.unary d hr) ?_
    obtain ⟨i, hi, e, he, rfl, rfl, rfl⟩ := marked _ _ _ ih
    obtain ⟨s, hs⟩ := hr
    exact hd.unary i hi e he _ hs
  | @binary u v w x a b c d1 d2 ha hr ih1 ih2 =>
    refine found _ _ _ (.binary d1 d2 ha hr) ?_
    obtain ⟨i, hi, e, he, rfl, rfl, rfl⟩ := marked _ _ _ ih1
    obtain ⟨j, hj, f, hf, rfl, rfl, rfl⟩ := marked _ _ _ ih2
    obtain ⟨s, hs⟩ := hr
    obtain ⟨h1, h2⟩ := oneBlank_both forward.into ha
    exact hd.binary i hi j hj e f he hf h1 h2 _ hs

/-- Two parts with nothing or one blank between them. -/
def Next (p : Params C I) (v w : Nat) : Prop := v = w ∨ p.blankFrom v = some w

omit [DecidableEq I] in
theorem touch_next {p : Params C I} {edges : List (Edge C I)} (ht : Tokenised p edges) {v w : Nat} (h : Touch p v w) :
    Next p v w := by
  rcases h with rfl | rfl
  · cases h : p.blankInto w with
    | none => left; rw [Params.before, h]
    | some u =>
      rw [Params.before, h]
      simp only
      split
      · right
        have h1 := (ht.same u w).2 h
        have h2 : p.blankInto u = none := by
          cases h3 : p.blankInto u with
          | none => rfl
          | some x =>
            have := ht.single x u ((ht.same x u).2 h3)
            rw [h1] at this; cases this
        rw [Params.before, h2]
        exact h1
      · left; rfl
  · unfold Params.after
    cases h : p.blankFrom v with
    | none => left; rfl
    | some x => right; exact h

omit [DecidableEq I] in
/-- In a tokenised text no constituent starts or ends with a blank. -/
theorem next_ends {p : Params C I} {edges : List (Edge C I)} (ht : Tokenised p edges) {adj : Nat → Nat → Prop} {u v : Nat} {c : C}
    (h : Derives p.grammar.Un p.grammar.Bin adj (Start p edges) u v c) : p.blankFrom u = none ∧ p.blankInto v = none := by
  induction h with
  | init h => obtain ⟨e, he, hu, rfl, rfl, rfl⟩ := h; exact ⟨ht.source e he hu, ht.target e he hu⟩
  | unary _ _ ih => exact ih
  | binary _ _ _ _ ih1 ih2 => exact ⟨ih1.1, ih2.2⟩

omit [DecidableEq I] in
theorem next_one {p : Params C I} {edges : List (Edge C I)} (ht : Tokenised p edges) {u v : Nat} {c : C}
    (h : Derives p.grammar.Un p.grammar.Bin (Next p) (Start p edges) u v c) :
    Derives p.grammar.Un p.grammar.Bin (OneBlank p) (Start p edges) u v c := by
  induction h with
  | init h => exact .init h
  | unary _ hr ih => exact .unary ih hr
  | @binary u v w x a b c d1 d2 ha hr ih1 ih2 =>
    refine .binary ih1 ih2 ?_ hr
    have e1 := (next_ends ht d1).2
    have e2 := (next_ends ht d2).1
    rcases ha with rfl | h
    · exact .inl ⟨rfl, e1, e2⟩
    · exact .inr ⟨h, (ht.same _ _).1 h, e1⟩

omit [DecidableEq I] in
theorem one_next {p : Params C I} {u v : Nat} {c : C} {init : Nat → Nat → C → Prop}
    (h : Derives p.grammar.Un p.grammar.Bin (OneBlank p) init u v c) :
    Derives p.grammar.Un p.grammar.Bin (Next p) init u v c := by
  refine derives_mono ?_ h
  rintro v w (⟨rfl, _⟩ | ⟨h, _⟩)
  · exact .inl rfl
  · exact .inr h

/-- **C44** (in part).  In a tokenised text, without limits and if no constituent can be taken for another, the chart holds
an edge of a category from `u` to `v` exactly when that category is derivable there, neighbouring parts having nothing or one
blank token between them, whatever the order of the agenda.  What is missing: several blanks side by side, constituents that
start or end with a blank and hidden edges with the item of a constituent; there the claim is wrong, see
`C44_blanks_false` and `C44_hidden_false`. -/
theorem C44_exact_partial (p : Params C I) (pick : Nat → Nat) (levels : List Level) (fuel : Nat)
    (edges : List (Edge C I)) (scores : List Int) (st : State C I) (h : run p pick {} levels fuel edges scores = some st)
    (allowed : ∀ a b, p.allowed a b = true) (forward : Forward p edges) (tokenised : Tokenised p edges)
    (clean : Clean p (Derives p.grammar.Un p.grammar.Bin (Next p) (Start p edges)) edges) (u v : Nat) (c : C) :
    Found p edges st u v c ↔ Derives p.grammar.Un p.grammar.Bin (Next p) (Start p edges) u v c := by
  constructor
  · rintro ⟨e, he, hor, rfl, rfl, rfl⟩
    rcases hor with ⟨h1, h2⟩ | h1
    · exact .init ⟨e, h1, h2, rfl, rfl, rfl⟩
    · obtain ⟨hg, new, hnew⟩ := go_good (reach_closed p edges) _ _ _ _ _ _ (fill_good p none edges scores) h
      exact derives_mono (fun _ _ => touch_next tokenised) (drop_good hg h1).1
  · intro d
    refine C44_complete p pick levels fuel edges scores st h allowed forward ?_ u v c (next_one tokenised d)
    exact ⟨clean.inj, fun e he c d hc => clean.edges e he c (one_next d) hc⟩

/-- The unary rules of `simple_cfg_combinator` are those on its list. -/
theorem cfg_un [DecidableEq C] (g : Cfg C) : g.grammar.Un = fun a b => ∃ s, (a, (b, s)) ∈ g.unary := by
  funext a b
  simp [Grammar.Un, Cfg.grammar]

/-- The binary rules of `simple_cfg_combinator` are those on its list. -/
theorem cfg_bin [DecidableEq C] (g : Cfg C) : g.grammar.Bin = fun a b c => ∃ s, ((a, b), (c, s)) ∈ g.binary := by
  funext a b c
  simp [Grammar.Bin, Cfg.grammar]

/-- **C44** (in part) for the combinator with lists of rules: what is found is what can be derived with the rules on the
lists. -/
theorem C44_cfg_partial [DecidableEq C] (g : Cfg C) (p : Params C I) (hp : p.grammar = g.grammar) (pick : Nat → Nat)
    (levels : List Level) (fuel : Nat)
    (edges : List (Edge C I)) (scores : List Int) (st : State C I) (h : run p pick {} levels fuel edges scores = some st)
    (allowed : ∀ a b, p.allowed a b = true) (forward : Forward p edges) (tokenised : Tokenised p edges)
    (clean : Clean p (Derives (fun a b => ∃ s, (a, (b, s)) ∈ g.unary) (fun a b c => ∃ s, ((a, b), (c, s)) ∈ g.binary)
      (Next p) (Start p edges)) edges) (u v : Nat) (c : C) :
    Found p edges st u v c ↔ Derives (fun a b => ∃ s, (a, (b, s)) ∈ g.unary) (fun a b c => ∃ s, ((a, b), (c, s)) ∈ g.binary)
      (Next p) (Start p edges) u v c := by
  rw [← cfg_un, ← cfg_bin, ← hp] at clean ⊢
  exact C44_exact_partial p pick levels fuel edges scores st h allowed forward tokenised clean u v c

/-- **C44** (in part).  Under the same conditions the result does not depend on the order of the agenda. -/
theorem C44_order_partial (p : Params C I) (pick pick' : Nat → Nat) (levels : List Level) (fuel fuel' : Nat)
    (edges : List (Edge C I)) (scores : List Int) (st st' : State C I) (h : run p pick {} levels fuel edges scores = some st)
    (h' : run p pick' {} levels fuel' edges scores = some st')
    (allowed : ∀ a b, p.allowed a b = true) (forward : Forward p edges) (tokenised : Tokenised p edges)
    (clean : Clean p (Derives p.grammar.Un p.grammar.Bin (Next p) (Start p edges)) edges) (u v : Nat) (c : C) :
    Found p edges st u v c ↔ Found p edges st' u v c := by
  rw [C44_exact_partial p pick levels fuel edges scores st h allowed forward tokenised clean,
    C44_exact_partial p pick' levels fuel' edges scores st' h' allowed forward tokenised clean]

/-- **C44** (the parser ends).  If finitely many categories are closed under the rules, the parser ends, whatever the limits
and the order of the agenda; in each round it deals with one edge, so there are at most as many as there can be edges. -/
theorem C44_ends (p : Params C I) (pick : Nat → Nat) (level : Level) (levels : List Level) (edges : List (Edge C I))
    (scores : List Int) (cats : List C) (init : ∀ e ∈ edges, e.cat ∈ cats)
    (unary : ∀ a ∈ cats, ∀ r ∈ p.grammar.unary a, r.1 ∈ cats)
    (binary : ∀ a ∈ cats, ∀ b ∈ cats, ∀ r ∈ p.grammar.binary a b, r.1 ∈ cats) :
    ∃ st, run p pick level levels (edges.length + edges.length * (edges.length * cats.length) + 1) edges scores = some st := by
  let D : Nat → Nat → C → Prop := fun u v c => u ∈ edges.map Edge.src ∧ v ∈ edges.map Edge.tgt ∧ c ∈ cats
  have hc : Closed p D :=
    ⟨fun u v a r h hr => ⟨h.1, h.2.1, unary a h.2.2 r hr⟩,
      fun u v w x a b r h1 h2 _ hr => ⟨h1.1, h2.2.1, binary a h1.2.2 b h2.2.2 r hr⟩⟩
  let keys : List (Nat × Nat × I) := (edges.map Edge.src).flatMap (fun u => (edges.map Edge.tgt).flatMap (fun v =>
    cats.map (fun c => (u, v, p.toItem c))))
  have hk : ∀ u v c, D u v c → (u, v, p.toItem c) ∈ keys := by
    rintro u v c ⟨h1, h2, h3⟩
    simp only [keys, List.mem_flatMap]
    exact ⟨u, h1, v, h2, List.mem_map_of_mem h3⟩
  have hlen : keys.length = edges.length * (edges.length * cats.length) := by
    simp only [keys, List.length_flatMap, List.length_map, List.map_const', List.sum_replicate_nat]
  have hg : Good p D edges.length (fill p level.min ⟨edges, scores, [], []⟩) := by
    refine ⟨?_, by simp [fill], ?_⟩
    · intro i hi
      obtain ⟨e, he, _⟩ := mem_fill hi
      have hm := List.mem_of_getElem? he
      exact ⟨e, he, List.mem_map_of_mem hm, List.mem_map_of_mem hm, init e hm⟩
    · intro i e hi he
      have : edges[i]? = some e := he
      rw [List.getElem?_eq_none hi] at this
      cases this
  have hag : (fill p level.min ⟨edges, scores, [], []⟩).agenda.length ≤ edges.length := by
    simp only [fill]
    exact Nat.le_trans (List.length_filter_le _ _) (by simp)
  have := go_ends hc (pick := pick) hk (edges.length + edges.length * (edges.length * cats.length) + 1) 0 level levels
    (fill p level.min ⟨edges, scores, [], []⟩) hg (Nat.le_refl _) (by simp [fill]) (by
      have h0 : (fill p level.min ⟨edges, scores, [], []⟩).edges.length = edges.length := rfl
      omega)
  obtain ⟨st, hst⟩ := Option.isSome_iff_exists.1 this
  exact ⟨st, hst⟩

/-! ### Examples -/

/-- A sample: categories are numbers, 0 1 2 for noun, verb and sentence, 3 for a noun phrase; blanks where `blanks` says. -/
def sample (blanks : List (Nat × Nat)) : Params Nat Nat where
  grammar := Cfg.grammar ⟨[(0, 3, 1)], [((3, 1), 2, 5)]⟩
  toItem := fun c => c + 10
  blankInto := fun v => (blanks.find? (fun b => b.2 == v)).map Prod.fst
  blankFrom := fun v => (blanks.find? (fun b => b.1 == v)).map Prod.snd

/-- Noun, blank, verb. -/
def sampleEdges : List (Edge Nat Nat) := [⟨0, 3, 20, 0, true⟩, ⟨4, 6, 21, 1, true⟩]

/-- The hypotheses of `C44_complete` and `C44_exact_partial` for a sample, and what is found. -/
example : (∃ st, run (sample [(3, 4)]) (fun _ => 0) {} [] 10 sampleEdges [0, 0] = some st ∧
      st.edges = sampleEdges ++ [⟨0, 3, 13, 3, true⟩, ⟨0, 6, 12, 2, true⟩]) ∧ Forward (sample [(3, 4)]) sampleEdges ∧
    Tokenised (sample [(3, 4)]) sampleEdges ∧
    Clean (sample [(3, 4)]) (Derives (sample [(3, 4)]).grammar.Un (sample [(3, 4)]).grammar.Bin (Next (sample [(3, 4)]))
      (Start (sample [(3, 4)]) sampleEdges)) sampleEdges := by
  have hfrom : ∀ v w, (sample [(3, 4)]).blankFrom v = some w ↔ v = 3 ∧ w = 4 := by
    intro v w
    by_cases h : 3 = v
    · subst h; simp [sample]; exact eq_comm
    · have h' : ¬ v = 3 := fun x => h x.symm
      simp [sample, h, h']
  have hinto : ∀ v w, (sample [(3, 4)]).blankInto w = some v ↔ v = 3 ∧ w = 4 := by
    intro v w
    by_cases h : 4 = w
    · subst h; simp [sample]; exact eq_comm
    · have h' : ¬ w = 4 := fun x => h x.symm
      simp [sample, h, h']
  have hcats : ∀ u v c, Derives (sample [(3, 4)]).grammar.Un (sample [(3, 4)]).grammar.Bin (Next (sample [(3, 4)]))
      (Start (sample [(3, 4)]) sampleEdges) u v c → c < 4 := by
    intro u v c h
    induction h with
    | init h =>
      obtain ⟨e, he, _, _, _, rfl⟩ := h
      simp only [sampleEdges, List.mem_cons, List.not_mem_nil, or_false] at he
      rcases he with rfl | rfl <;> decide
    | unary _ h _ =>
      obtain ⟨s, hs⟩ := h
      simp [sample, Cfg.grammar, List.filter_cons] at hs
      omega
    | binary _ _ _ h _ _ =>
      obtain ⟨s, hs⟩ := h
      simp [sample, Cfg.grammar, List.filter_cons] at hs
      omega
  refine ⟨(Option.map_eq_some_iff (f := State.edges)).1 (by decide +kernel), ⟨by decide, ?_, ?_⟩,
    ⟨?_, ?_, fun e he hu => ?_, fun e he hu => ?_⟩, ⟨?_, ?_⟩⟩
  · intro v w h; obtain ⟨rfl, rfl⟩ := (hinto v w).1 h; decide
  · intro v w h; obtain ⟨rfl, rfl⟩ := (hfrom v w).1 h; decide
  · intro v w; rw [hinto, hfrom]
  · intro v w h; obtain ⟨rfl, rfl⟩ := (hfrom v w).1 h; decide
  · clear hu; revert e; decide
  · clear hu; revert e; decide
  · intro a b h; simp only [sample] at h; omega
  · intro e he c d h
    have := hcats _ _ _ d
    simp only [sampleEdges, List.mem_cons, List.not_mem_nil, or_false] at he
    rcases he with rfl | rfl <;> simp [sample] at h <;> omega

/-- The hypotheses of `C44_ends` for the sample; a limit on the score is in force. -/
example : (∀ e ∈ sampleEdges, e.cat ∈ [0, 1, 2, 3]) ∧
    (∀ a ∈ [0, 1, 2, 3], ∀ r ∈ (sample []).grammar.unary a, r.1 ∈ [0, 1, 2, 3]) ∧
    (∀ a ∈ [0, 1, 2, 3], ∀ b ∈ [0, 1, 2, 3], ∀ r ∈ (sample []).grammar.binary a b, r.1 ∈ [0, 1, 2, 3]) ∧
    (run (sample [(3, 4)]) (fun _ => 1) ⟨none, some 1⟩ [] 20 sampleEdges [1, 0]).map (fun st => st.edges.length) = some 3 := by
  decide +kernel

/-- `C44_sound` for the sample, served in the other order. -/
example : (run (sample [(3, 4)]) (fun n => n + 1) {} [] 20 sampleEdges [0, 0]).map (fun st => st.edges.drop 2) =
    some [⟨0, 3, 13, 3, true⟩, ⟨0, 6, 12, 2, true⟩] := by decide +kernel

/-- **C44** is wrong with two blanks side by side: `edge_target` skips one of them, `edge_source` both.  So a noun phrase
and a verb make a sentence if the noun phrase comes first from the agenda, and nothing if the verb does. -/
theorem C44_blanks_false : ∃ st st',
    run (sample [(3, 4), (4, 5)]) (fun _ => 0) {} [] 10 [⟨0, 3, 13, 3, true⟩, ⟨5, 6, 21, 1, true⟩] [0, 0] = some st ∧
    run (sample [(3, 4), (4, 5)]) (fun _ => 1) {} [] 10 [⟨0, 3, 13, 3, true⟩, ⟨5, 6, 21, 1, true⟩] [0, 0] = some st' ∧
    (∃ e ∈ st.edges, e.src = 0 ∧ e.tgt = 6 ∧ e.cat = 2) ∧ ¬ (∃ e ∈ st'.edges, e.src = 0 ∧ e.tgt = 6) ∧
    Derives (sample [(3, 4), (4, 5)]).grammar.Un (sample [(3, 4), (4, 5)]).grammar.Bin (OnlyBlanks (sample [(3, 4), (4, 5)]))
      (Start (sample [(3, 4), (4, 5)]) [⟨0, 3, 13, 3, true⟩, ⟨5, 6, 21, 1, true⟩]) 0 6 2 := by
  obtain ⟨st, h1, h2⟩ : ∃ st, run (sample [(3, 4), (4, 5)]) (fun _ => 0) {} [] 10 [⟨0, 3, 13, 3, true⟩, ⟨5, 6, 21, 1, true⟩]
      [0, 0] = some st ∧ st.edges = [⟨0, 3, 13, 3, true⟩, ⟨5, 6, 21, 1, true⟩, ⟨0, 6, 12, 2, true⟩] :=
    (Option.map_eq_some_iff (f := State.edges)).1 (by decide +kernel)
  obtain ⟨st', h3, h4⟩ : ∃ st, run (sample [(3, 4), (4, 5)]) (fun _ => 1) {} [] 10 [⟨0, 3, 13, 3, true⟩, ⟨5, 6, 21, 1, true⟩]
      [0, 0] = some st ∧ st.edges = [⟨0, 3, 13, 3, true⟩, ⟨5, 6, 21, 1, true⟩] :=
    (Option.map_eq_some_iff (f := State.edges)).1 (by decide +kernel)
  refine ⟨st, st', h1, h3, by rw [h2]; decide, by rw [h4]; decide, ?_⟩
  refine .binary (v := 3) (w := 5) (a := 3) (b := 1) (.init ⟨⟨0, 3, 13, 3, true⟩, by decide, ⟨rfl, rfl⟩, rfl, rfl, rfl⟩)
    (.init ⟨⟨5, 6, 21, 1, true⟩, by decide, ⟨rfl, rfl⟩, rfl, rfl, rfl⟩) ?_ ⟨5, by decide⟩
  exact (Relation.ReflTransGen.single (b := 4) (.inr (by decide))).tail (.inr (by decide))

/-- **C44** is wrong where an edge the parser does not look at (here: of another layer) has the span and the item of a
constituent: adding the constituent does not make the number of edges grow, so it does not come to the agenda, and what
could be made of it is not found. -/
theorem C44_hidden_false : ∃ st,
    run (sample []) (fun _ => 0) {} [] 10 [⟨0, 3, 20, 0, true⟩, ⟨3, 6, 21, 1, true⟩, ⟨0, 3, 13, 3, false⟩] [0, 0, 0] = some st ∧
    ¬ (∃ e ∈ st.edges, e.cat = 2) ∧
    Derives (sample []).grammar.Un (sample []).grammar.Bin Eq
      (Start (sample []) [⟨0, 3, 20, 0, true⟩, ⟨3, 6, 21, 1, true⟩, ⟨0, 3, 13, 3, false⟩]) 0 6 2 := by
  obtain ⟨st, h1, h2⟩ : ∃ st, run (sample []) (fun _ => 0) {} [] 10 [⟨0, 3, 20, 0, true⟩, ⟨3, 6, 21, 1, true⟩, ⟨0, 3, 13, 3, false⟩]
      [0, 0, 0] = some st ∧ st.edges = [⟨0, 3, 20, 0, true⟩, ⟨3, 6, 21, 1, true⟩, ⟨0, 3, 13, 3, false⟩] :=
    (Option.map_eq_some_iff (f := State.edges)).1 (by decide +kernel)
  refine ⟨st, h1, by rw [h2]; decide, ?_⟩
  refine .binary (v := 3) (w := 3) (a := 3) (b := 1) (.unary (a := 0) (.init ⟨⟨0, 3, 20, 0, true⟩, by decide, ⟨rfl, rfl⟩, rfl, rfl, rfl⟩)
    ⟨1, by decide⟩) (.init ⟨⟨3, 6, 21, 1, true⟩, by decide, ⟨rfl, rfl⟩, rfl, rfl, rfl⟩) rfl ⟨5, by decide⟩

end Verif.Chart
