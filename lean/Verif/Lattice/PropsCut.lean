import Verif.Lattice.CutRun

/-!
Property theorems C81 (what a cutter cuts off becomes edges) and C82 (a cutter is run once on each
super edge).
-/
set_option linter.unusedVariables false
set_option linter.unusedSimpArgs false

namespace Verif.Lattice
open Verif Verif.Tags Verif.Tags.Spec Verif.Lattice.Spec

/-! ## C81 -/

theorem fits_in {s : State} (hr : Lattice.Spec.Reachable s) {p : Item × Nat} {g : List Edge} (h : Fits s p g) : FitsIn s p g :=
  ⟨h.some_, h.length, fun k hk => h.new _ hk, fun u v hc => plain_of_ordinary hr (h.ordinary u v hc)⟩

theorem forall_fits {s : State} (hr : Lattice.Spec.Reachable s) {ps : List (Item × Nat)} {gs : List (List Edge)}
    (h : List.Forall₂ (Fits s) ps gs) : List.Forall₂ (FitsIn s) ps gs := h.imp (fun _ _ x => fits_in hr x)

theorem tok_token {s s' : State} (hi : Inv s) (h : Calm s s') (hl : s.nLoose = 0) {tags : TagSet} {p : Item × Nat} {g : List Edge}
    {e : Edge} (ht : Tok s' tags p.1 g e) (hp : ∀ d ∈ g, Present s d) (hlen : (textOf s g).length = p.2) : Token s' tags p g e := by
  have hi' := h.inv hi
  have hl' : s'.nLoose = 0 := by rw [h.nLoose]; exact hl
  have hsp := noLoose_span hi' hl' ht.present
  refine ⟨ht.present, ht.item, ?_, ht.tags, ht.chain, ?_⟩
  · obtain ⟨_, _, h3⟩ := chain_forward hi' hl' ht.inside hsp.1 ht.chain
    rw [← hlen, ← h.textOf hi hp, h3]
    unfold State.edgeText
    have : (isLoose (s'.src e) || isLoose (s'.tgt e)) = false := by simp [isLoose]; omega
    rw [this]
    rfl
  · obtain ⟨q, hq, hs⟩ := ht.part
    exact ⟨q, hq, hs.edges⟩

theorem toks_tokens {s s' : State} (hi : Inv s) (h : Calm s s') (hl : s.nLoose = 0) {tags : TagSet} {ps : List (Item × Nat)}
    {gs : List (List Edge)} (hf : List.Forall₂ (FitsIn s) ps gs) (hp : ∀ g ∈ gs, ∀ d ∈ g, Present s d) {es : List Edge}
    (ht : List.Forall₂ (fun (pg : (Item × Nat) × List Edge) e => Tok s' tags pg.1.1 pg.2 e) (ps.zip gs) es) :
    List.Forall₂ (fun (pg : (Item × Nat) × List Edge) e => Token s' tags pg.1 pg.2 e) (ps.zip gs) es := by
  induction hf generalizing es with
  | nil => cases ht; exact .nil
  | @cons p g ps gs a b ih =>
    rw [List.zip_cons_cons] at ht ⊢
    obtain ⟨e, es', h1, h2, rfl⟩ := List.forall₂_cons_left_iff.1 ht
    exact .cons (tok_token hi h hl h1 (hp g (by simp)) a.length) (ih (fun g' hg' => hp g' (by simp [hg'])) h2)

theorem toks_present {s : State} {tags : TagSet} {l : List ((Item × Nat) × List Edge)} {es : List Edge}
    (ht : List.Forall₂ (fun (pg : (Item × Nat) × List Edge) e => Tok s tags pg.1.1 pg.2 e) l es) : ∀ e ∈ es, Present s e := by
  induction ht with
  | nil => simp
  | cons a b ih =>
    intro e he
    rcases List.mem_cons.1 he with rfl | he
    · exact a.present
    · exact ih e he

/-- **C81** If the cutter cuts the text of the path at ends of its edges, the run adds an edge for each
item, over the edges that make up its text and with the tags of the cutter.  These edges follow one
another from the beginning of the path to its end, and no other edges are added. -/
theorem C81_items {σ : Type} {c : CutFn σ} {s : State} (hr : Lattice.Spec.Reachable s) (hl : s.nLoose = 0) {mask : Mask}
    (hm : ProperMask mask) {v w : Vertex} (hv : s.validVertex v = true) {fuel : Nat} (hf : s.text.length < fuel)
    {m : Manager} {tags : TagSet} (htags : createTagCollection s.mgr c.layerTags = some (m, tags)) (ht : tags ≠ symbolTag)
    {pieces : List (Item × Nat)} {groups : List (List Edge)} (hp : Path s mask v groups.flatten w)
    (hcuts : Cuts c (textOf s groups.flatten) c.start 0 pieces) (hfit : List.Forall₂ (Fits s) pieces groups)
    (hb : ∀ e ∈ groups.flatten, Boundary s (s.src e) ∧ Boundary s (s.tgt e)) :
    ∃ s' toks, runCutterAt c fuel s v mask = some (.ok (), s') ∧ Steps s s' ∧ Chain s' v toks w ∧
      List.Forall₂ (fun (pg : (Item × Nat) × List Edge) e => Token s' tags pg.1 pg.2 e) (pieces.zip groups) toks ∧
      textOf s' toks = textOf s groups.flatten ∧
      (∀ d, Present s' d → Present s d ∨ d ∈ toks) := by
  have hi := reachable_inv' hr
  have hfit' := forall_fits hr hfit
  have hv0 : 0 ≤ v := by
    simp only [State.validVertex, Bool.and_eq_true, decide_eq_true_eq] at hv; omega
  have hne : groups.flatten ≠ [] := by
    have h1 := pieces_length hfit'
    have h2 : 0 < pieces.length := by cases hcuts <;> simp
    intro h
    rw [h] at h1; simp at h1
    rw [h1] at h2; simp at h2
  obtain ⟨_, _, _, _, _, hc, hpres, _⟩ := path_seq hr hl hm hv hf hp hne
  obtain ⟨s', toks, h1, h2, h3, h4, h5, h6, h7⟩ := run_ok hr hl hm hv hf htags ht hp hcuts hfit' hb
  have hi' := h2.inv hi
  refine ⟨s', toks, h1, h2.steps, h3, toks_tokens hi h2 hl hfit' (fun g hg d hd => hpres d (List.mem_flatten.2 ⟨g, hg, hd⟩)) h4, ?_, h5⟩
  have e1 := (chain_forward hi hl hpres hv0 hc).2.2
  have e2 := (chain_forward hi' (by rw [h2.nLoose]; exact hl) (toks_present h4) hv0 h3).2.2
  rw [e1, e2, h2.text]

/-- The text "abcd" with its symbols. -/
def abcd0 : State := appendString initial [97, 98, 99, 100]
def symArgs (i : Nat) (b : Byte) : Args := { src := i, tgt := (i + 1 : Nat), item := ⟨[39, b], [], []⟩, tags := symbolTag }
def abcd1 : State := (addEdge abcd0 (symArgs 0 97)).2
def abcd2 : State := (addEdge abcd1 (symArgs 1 98)).2
def abcd3 : State := (addEdge abcd2 (symArgs 2 99)).2
def abcd : State := (addEdge abcd3 (symArgs 3 100)).2

theorem abcd_reachable : Lattice.Spec.Reachable abcd := by
  have h0 : Lattice.Spec.Reachable abcd0 := reachable_append .refl _
  have h1 : Lattice.Spec.Reachable abcd1 := reachable_add h0 (made_symbol h0) (by decide +kernel)
  have h2 : Lattice.Spec.Reachable abcd2 := reachable_add h1 (made_symbol h1) (by decide +kernel)
  have h3 : Lattice.Spec.Reachable abcd3 := reachable_add h2 (made_symbol h2) (by decide +kernel)
  exact reachable_add h3 (made_symbol h3) (by decide +kernel)

/-- A cutter that cuts off the given lengths one after another and then the rest; the category of an
item is "P" and its number. -/
def lengths : CutFn (List Nat) where
  start := []
  cut := fun l text pos => match l with
    | [] => (⟨[80], text.drop pos, []⟩, none, [])
    | n :: l => (⟨[80], (text.drop pos).take n, []⟩, some (pos + n), l)
  layerTags := [tokenName]

def pairs : CutFn (List Nat) := { lengths with start := [2] }

/-- Two tokens "ab" and "cd" made of two symbols each. -/
example : Lattice.Spec.Reachable abcd ∧ abcd.nLoose = 0 ∧ ProperMask symbolMask ∧ abcd.validVertex 0 = true ∧
    createTagCollection abcd.mgr pairs.layerTags = some (abcd.mgr, bit 2) ∧ bit 2 ≠ symbolTag ∧
    Path abcd symbolMask 0 [[Edge.impl 0, .impl 1], [.impl 2, .impl 3]].flatten 4 ∧
    Cuts pairs (textOf abcd [[Edge.impl 0, .impl 1], [.impl 2, .impl 3]].flatten) pairs.start 0
      [(⟨[80], [97, 98], []⟩, 2), (⟨[80], [99, 100], []⟩, 2)] ∧
    List.Forall₂ (Fits abcd) [(⟨[80], [97, 98], []⟩, 2), (⟨[80], [99, 100], []⟩, 2)] [[.impl 0, .impl 1], [.impl 2, .impl 3]] ∧
    (∀ e ∈ [[Edge.impl 0, .impl 1], [.impl 2, .impl 3]].flatten, Boundary abcd (abcd.src e) ∧ Boundary abcd (abcd.tgt e)) := by
  have ht : textOf abcd [[Edge.impl 0, .impl 1], [.impl 2, .impl 3]].flatten = [97, 98, 99, 100] := by decide +kernel
  have hw : ∀ n, n ≤ 4 → Boundary abcd (n : Nat) := by
    intro n hn
    refine Or.inr ⟨[97, 98, 99, 100].take n, ?_, ?_⟩
    · intro c hc
      have := List.mem_of_mem_take hc
      simp only [List.mem_cons, List.not_mem_nil, or_false] at this
      rcases this with rfl | rfl | rfl | rfl <;> simp [Utf8.Spec.Scalar]
    · have : n = 0 ∨ n = 1 ∨ n = 2 ∨ n = 3 ∨ n = 4 := by omega
      rcases this with rfl | rfl | rfl | rfl | rfl <;> decide +kernel
  refine ⟨abcd_reachable, by decide +kernel, .alts [symbolTag], by decide +kernel, by rfl, by decide, ?_, ?_, ?_, ?_⟩
  · exact .go (by decide +kernel) (.go (by decide +kernel) (.go (by decide +kernel) (.go (by decide +kernel) (.stop (by decide +kernel)))))
  · rw [ht]
    exact .more (p := 2) rfl (by decide) (by decide) (.last (Or.inl rfl))
  · refine .cons ⟨by simp, by decide +kernel, by simp, ?_⟩ (.cons ⟨by simp, by decide +kernel, by simp, ?_⟩ .nil)
    · rintro u v ⟨h1, h2, h3⟩
      refine Or.inl ?_
      rintro ⟨c1, c2, c3⟩
      simp only [State.src] at h1
      have h1 : u = 0 := h1.symm
      have h3 : v = 2 := h3.symm.trans (by decide +kernel)
      subst h1; subst h3
      exact absurd c3 (by decide +kernel)
    · rintro u v ⟨h1, h2, h3⟩
      refine Or.inl ?_
      rintro ⟨c1, c2, c3⟩
      simp only [State.src] at h1
      have h1 : u = 2 := h1.symm
      have h3 : v = 4 := h3.symm.trans (by decide +kernel)
      subst h1; subst h3
      exact absurd c3 (by decide +kernel)
  · intro e he
    simp only [List.flatten_cons, List.flatten_nil, List.append_nil, List.cons_append, List.nil_append, List.mem_cons, List.not_mem_nil, or_false] at he
    rcases he with rfl | rfl | rfl | rfl
    · exact ⟨hw 0 (by omega), hw 1 (by omega)⟩
    · exact ⟨hw 1 (by omega), hw 2 (by omega)⟩
    · exact ⟨hw 2 (by omega), hw 3 (by omega)⟩
    · exact ⟨hw 3 (by omega), hw 4 (by omega)⟩

/-- Tokens "ab", "c" and "d". -/
def tokArgs (i j : Nat) : Args := { src := i, tgt := j, item := ⟨[84], [], []⟩, tags := bit 2 }
def toks1 : State := (addEdge abcd (tokArgs 0 2)).2
def toks2 : State := (addEdge toks1 (tokArgs 2 3)).2
def toks3 : State := (addEdge toks2 (tokArgs 3 4)).2

theorem toks3_reachable : Lattice.Spec.Reachable toks3 := by
  have h1 : Lattice.Spec.Reachable toks1 := reachable_add abcd_reachable (made_token abcd_reachable) (by decide +kernel)
  have h2 : Lattice.Spec.Reachable toks2 := reachable_add h1 (made_token h1) (by decide +kernel)
  exact reachable_add h2 (made_token h2) (by decide +kernel)

/-- A cutter whose items tell where they were cut off. -/
def cutter112 : CutFn (List Nat) where
  start := [1, 1]
  cut := fun l text pos => match l with
    | [] => (⟨[80, pos.toUInt8], text.drop pos, []⟩, none, [])
    | n :: l => (⟨[80, pos.toUInt8], (text.drop pos).take n, []⟩, some (pos + n), l)
  layerTags := [discardedName]

/-- The edges of a lattice with the items and texts. -/
def cutShown (r : Option (Except Exn Unit × State)) : Option (List (Str × Str)) :=
  r.map (fun x => (List.range x.2.edges.length).map (fun k => ((x.2.entry k).item.text, x.2.edgeText (.expl k))))

/-- **C81** fails of the code if an item ends within an edge: the edge is taken as a whole, and nothing
is carried over, so that the next items are put on wrong places of the text.  The tokens "ab", "c", "d"
are cut into "a", "b" and "cd"; the item "b" is put on "c". -/
theorem C81_within_edge_false : ∃ (σ : Type) (c : CutFn σ) (s s' : State) (mask : Mask) (pieces : List (Item × Nat)) (es : List Edge) (e : Edge)
    (it : Item),
    Lattice.Spec.Reachable s ∧ Path s mask 0 es s.text.length ∧ Cuts c (textOf s es) c.start 0 pieces ∧
    runCutterAt c 5 s 0 mask = some (.ok (), s') ∧ Present s' e ∧ s'.item e = .ok it ∧ (it, 1) ∈ pieces ∧
    it.text = [98] ∧ s'.edgeText e = [99] := by
  have hrun : ∃ s', runCutterAt cutter112 5 toks3 0 (Mask.ofTags (bit 2)) = some (.ok (), s') ∧
      (s'.edges.length = 6 ∧ s'.item (.expl 4) = .ok ⟨[80, 1], [98], []⟩ ∧ s'.edgeText (.expl 4) = [99]) := by
    cases h : runCutterAt cutter112 5 toks3 0 (Mask.ofTags (bit 2)) with
    | none =>
      exfalso
      have : (runCutterAt cutter112 5 toks3 0 (Mask.ofTags (bit 2))).isSome = true := by decide +kernel
      rw [h] at this; simp at this
    | some r =>
      obtain ⟨r, s'⟩ := r
      have h1 : (runCutterAt cutter112 5 toks3 0 (Mask.ofTags (bit 2))).map (fun x => x.1) = some (.ok ()) := by decide +kernel
      have h2 : (runCutterAt cutter112 5 toks3 0 (Mask.ofTags (bit 2))).map (fun x => x.2.edges.length) = some 6 := by decide +kernel
      have h3 : (runCutterAt cutter112 5 toks3 0 (Mask.ofTags (bit 2))).map (fun x => x.2.item (.expl 4)) = some (.ok ⟨[80, 1], [98], []⟩) := by
        decide +kernel
      have h4 : (runCutterAt cutter112 5 toks3 0 (Mask.ofTags (bit 2))).map (fun x => x.2.edgeText (.expl 4)) = some [99] := by decide +kernel
      rw [h] at h1 h2 h3 h4
      simp only [Option.map_some, Option.some.injEq] at h1 h2 h3 h4
      subst h1
      exact ⟨s', rfl, h2, h3, h4⟩
  obtain ⟨s', h1, h2, h3, h4⟩ := hrun
  have ht : textOf toks3 [Edge.expl 0, .expl 1, .expl 2] = [97, 98, 99, 100] := by decide +kernel
  refine ⟨List Nat, cutter112, toks3, s', Mask.ofTags (bit 2), [(⟨[80, 0], [97], []⟩, 1), (⟨[80, 1], [98], []⟩, 1), (⟨[80, 2], [99, 100], []⟩, 2)],
    [.expl 0, .expl 1, .expl 2], .expl 4, _, toks3_reachable, ?_, ?_, h1, present_expl.2 (by omega), h3, by simp, rfl, h4⟩
  · exact .go (by decide +kernel) (.go (by decide +kernel) (.go (by decide +kernel) (.stop (by decide +kernel))))
  · rw [ht]
    exact .more (p := 1) rfl (by decide) (by decide) (.more (p := 2) rfl (by decide) (by decide) (.last (Or.inl rfl)))

/-- A cutter that cuts off single bytes. -/
def bytes : CutFn Unit where
  start := ()
  cut := fun _ text pos => (⟨[80], (text.drop pos).take 1, []⟩, some (pos + 1), ())
  layerTags := [tokenName]

/-- **C81** fails of the code if items end within edges: the edges are used up before the text is, and
the run ends with an exception.  The text is "aé". -/
theorem C81_used_up_false : ∃ (σ : Type) (c : CutFn σ) (s s' : State) (pieces : List (Item × Nat)) (es : List Edge),
    Lattice.Spec.Reachable s ∧ Path s symbolMask 0 es s.text.length ∧ Cuts c (textOf s es) c.start 0 pieces ∧
    runCutterAt c 5 s 0 symbolMask = some (.error .noEdge, s') := by
  have hrun : ∃ s', runCutterAt bytes 5 hidden1 0 symbolMask = some (.error .noEdge, s') := by
    have h1 : (runCutterAt bytes 5 hidden1 0 symbolMask).map (fun x => x.1) = some (.error .noEdge) := by decide +kernel
    cases h : runCutterAt bytes 5 hidden1 0 symbolMask with
    | none => rw [h] at h1; simp at h1
    | some r =>
      rw [h] at h1
      simp only [Option.map_some, Option.some.injEq] at h1
      exact ⟨r.2, by rw [← h1]⟩
  obtain ⟨s', h1⟩ := hrun
  have ht : textOf hidden1 [Edge.impl 0, .impl 1] = [97, 195, 169] := by decide +kernel
  refine ⟨Unit, bytes, hidden1, s', [(⟨[80], [97], []⟩, 1), (⟨[80], [195], []⟩, 1), (⟨[80], [169], []⟩, 1)], [.impl 0, .impl 1], hidden1_reachable, ?_, ?_, h1⟩
  · exact .go (by decide +kernel) (.go (by decide +kernel) (.stop (by decide +kernel)))
  · rw [ht]
    exact .more (p := 1) rfl (by decide) (by decide) (.more (p := 2) rfl (by decide) (by decide) (.last (Or.inr rfl)))

/-! ## C82 -/

/-- No edge of the super mask is found at the vertices from `vd` on. -/
theorem runFrom_none {σ : Type} {c : CutFn σ} {fuel : Nat} {mask super : Mask} (n : Nat) : ∀ {vd : Nat} {s : State}, Lattice.Spec.Reachable s →
    (∀ v : Nat, vd ≤ v → (outEdges s v super).1 = []) →
    ∃ s', runFrom c fuel mask super n vd s = some (.ok (), s') ∧ (s' = s ∨ s' = queried s super) := by
  induction n with
  | zero => intro vd s hr h; exact ⟨s, rfl, Or.inl rfl⟩
  | succ n ih =>
    intro vd s hr h
    unfold runFrom
    split
    · have h1 := h vd (Nat.le_refl _)
      have h2 := outEdges_snd s vd super
      cases ho : outEdges s vd super with
      | mk es s1 =>
        rw [ho] at h1 h2
        dsimp only at h1 h2
        subst h1; subst h2
        simp only [runOnEdges]
        have hcalm := calm_queried s super
        have hpos : ∀ i, 0 < (queried s super).symLen i := fun i => symLen_pos _ i
        have hv := queried_view (reachable_inv' hr) super
        obtain ⟨s', g1, g2⟩ := ih (vd := if vd < (queried s super).text.length then vd + (queried s super).symLen vd else vd + 1)
          (s := queried s super) (hcalm.reachable hr) (by
            intro v hle
            rw [hv.maskOuts]
            refine h v ?_
            split at hle
            · have := hpos vd; omega
            · omega)
        refine ⟨s', g1, ?_⟩
        rcases g2 with rfl | rfl
        · exact Or.inr rfl
        · right; rw [queried_twice]
    · exact ⟨s, rfl, Or.inl rfl⟩

/-- **C82** If only one edge matches the super mask, and it starts at the beginning of the text, the
cutter is run exactly once, on the path from there.  Not covered: several such edges (see
`C82_beyond_false`), and lattices with loose vertices. -/
theorem C82_once_partial {σ : Type} {c : CutFn σ} {s : State} (hr : Lattice.Spec.Reachable s) (hl : s.nLoose = 0) {mask super : Mask}
    (hm : ProperMask mask) (hsm : ProperMask super) {w : Vertex} {fuel : Nat} (hf : s.text.length < fuel)
    {m : Manager} {tags : TagSet} (htags : createTagCollection s.mgr c.layerTags = some (m, tags)) (ht : tags ≠ symbolTag)
    {e : Edge} (he : s.src e = 0) (hout : (outEdges s 0 super).1 = [e]) {name : Str} (hname : ¬ PlaneName name)
    (hneed : ∀ t, «matches» t super = true → Has m t name) (honly : ∀ d, Present s d → Has m (s.tags d) name → d = e)
    (hlack : ¬ Has m tags name)
    {pieces : List (Item × Nat)} {groups : List (List Edge)} (hp : Path s mask 0 groups.flatten w)
    (hcuts : Cuts c (textOf s groups.flatten) c.start 0 pieces) (hfit : List.Forall₂ (Fits s) pieces groups)
    (hb : ∀ e ∈ groups.flatten, Boundary s (s.src e) ∧ Boundary s (s.tgt e)) :
    ∃ s' toks, runCutter c fuel s mask super = some (.ok (), s') ∧ Steps s s' ∧ Chain s' 0 toks w ∧
      List.Forall₂ (fun (pg : (Item × Nat) × List Edge) e => Token s' tags pg.1 pg.2 e) (pieces.zip groups) toks ∧
      (∀ d, Present s' d → Present s d ∨ d ∈ toks) := by
  have hi := reachable_inv' hr
  have hv : s.validVertex 0 = true := by simp [State.validVertex]
  have hq := calm_queried s super
  have hview := queried_view hi super
  have hq1 : (queried s super).mgr = s.mgr := by unfold queried; split <;> simp
  have hq2 : ∀ d, Present (queried s super) d ↔ Present s d := by
    intro d; unfold queried; split
    · exact Iff.rfl
    · cases d <;> simp [present_impl, present_expl]
  have hq3 : (queried s super).vvc = s.vvc := by unfold queried; split <;> simp
  have hne : groups.flatten ≠ [] := by
    have h1 := pieces_length (forall_fits hr hfit)
    have h2 : 0 < pieces.length := by cases hcuts <;> simp
    intro h
    rw [h] at h1; simp at h1
    rw [h1] at h2; simp at h2
  have hpres := (path_seq hr hl hm hv hf hp hne).choose_spec.choose_spec.2.2.2.2.1
  have hfit' : List.Forall₂ (FitsIn (queried s super)) pieces groups := by
    have hall : ∀ g ∈ groups, ∀ e ∈ g, Present s e := fun g hg e he => hpres e (List.mem_flatten.2 ⟨g, hg, he⟩)
    have hf0 := forall_fits hr hfit
    clear hcuts hp hb hpres hne hfit
    induction hf0 with
    | nil => exact .nil
    | cons a b ih =>
      refine .cons (a.mono hi hq ?_ (hall _ (by simp))) (ih (fun g hg => hall g (by simp [hg])))
      intro key hk i hmem
      rw [hq3] at hmem
      exact hk i hmem
  have hpq := path_view hview hp
  have htext : textOf (queried s super) groups.flatten = textOf s groups.flatten := hq.textOf hi hpres
  have hrun := run_ok (c := c) (hq.reachable hr) (by rw [hq.nLoose]; exact hl) hm
    (v := 0) (w := w) (by simp [State.validVertex]) (fuel := fuel) (by rw [hq.text]; exact hf) (by rw [hq1]; exact htags) ht hpq
    (by rw [htext]; exact hcuts) hfit' (by
      intro d hd
      rw [hq.src hi (hpres d hd), hq.tgt hi (hpres d hd)]
      exact ⟨hq.boundary (hb d hd).1, hq.boundary (hb d hd).2⟩)
  obtain ⟨s1, toks, h1, h2, h3, h4, h5, h6, h7⟩ := hrun
  have hr1 := h2.reachable (hq.reachable hr)
  have hi1 := reachable_inv' hr1
  have hpe : Present s e := by
    have : e ∈ (outEdges s 0 super).1 := by rw [hout]; simp
    exact ⟨0, ((C05_sound hr hsm 0).1 e this).1⟩
  have hlater : ∀ v : Nat, 1 ≤ v → (outEdges s1 v super).1 = [] := by
    intro v hv1
    rw [List.eq_nil_iff_forall_not_mem]
    intro d hd
    obtain ⟨c1, c2⟩ := (C05_sound hr1 hsm v).1 d hd
    have hp1 : Present s1 d := ⟨_, c1⟩
    obtain ⟨c3, c4⟩ := h7 name hname hlack d hp1 (hneed _ c2)
    rw [hview.tags] at c4
    have c3 := (hq2 d).1 c3
    have := honly d c3 c4
    subst this
    have e1 := mem_allOut_src c1
    rw [(hq.trans h2).src hi c3, he] at e1
    omega
  obtain ⟨s2, g1, g2⟩ := runFrom_none (c := c) (fuel := fuel) (mask := mask) (super := super) s.text.length
    (vd := if 0 < s1.text.length then 0 + s1.symLen 0 else 0 + 1) hr1 (by
      intro v hv
      refine hlater v ?_
      split at hv
      · have := symLen_pos s1 0; omega
      · omega)
  have hcalm2 : Calm s1 s2 := by
    rcases g2 with rfl | rfl
    · exact .refl _
    · exact calm_queried _ _
  have hpres2 : ∀ d, Present s2 d → Present s1 d := by
    intro d hd
    rcases g2 with rfl | rfl
    · exact hd
    · unfold queried at hd
      split at hd
      · exact hd
      · cases d <;> simpa [present_impl, present_expl] using hd
  have hcalm := (hq.trans h2).trans hcalm2
  refine ⟨s2, toks, ?_, hcalm.steps, (hcalm2.chain hi1 (toks_present h4)).2 h3,
    toks_tokens hi hcalm hl (forall_fits hr hfit) (fun g hg d hd => hpres d (List.mem_flatten.2 ⟨g, hg, hd⟩))
      (h4.imp (fun _ _ x => x.calm hr1 hcalm2)), ?_⟩
  · unfold runCutter runFrom
    rw [if_pos (Nat.zero_le _)]
    have ho : outEdges s ((0 : Nat) : Int) super = ([e], queried s super) := Prod.ext hout (outEdges_snd s _ super)
    rw [ho]
    dsimp only [runOnEdges]
    have hsrc : (queried s super).src e = 0 := by rw [hview.src]; exact he
    rw [hsrc, h1]
    exact g1
  · intro d hd
    rcases h5 d (hpres2 d hd) with h | h
    · exact Or.inl ((hq2 d).1 h)
    · exact Or.inr h

/-- A text edge over the whole text "abcd". -/
def textEdge : State := (addEdge abcd { src := 0, tgt := 4, item := ⟨[70], [], []⟩, tags := bit 1 }).2

/-- The hypotheses of `C82_once_partial`: the tag "discarded" serves as the super tag. -/
example : Lattice.Spec.Reachable textEdge ∧ textEdge.nLoose = 0 ∧ ProperMask (Mask.ofTags (bit 1)) ∧
    createTagCollection textEdge.mgr pairs.layerTags = some (textEdge.mgr, bit 2) ∧
    textEdge.src (.expl 0) = 0 ∧ (outEdges textEdge 0 (Mask.ofTags (bit 1))).1 = [.expl 0] ∧ ¬ PlaneName discardedName ∧
    (∀ t, «matches» t (Mask.ofTags (bit 1)) = true → Has textEdge.mgr t discardedName) ∧
    (∀ d, Present textEdge d → Has textEdge.mgr (textEdge.tags d) discardedName → d = .expl 0) ∧
    ¬ Has textEdge.mgr (bit 2) discardedName ∧
    (runCutter pairs 5 textEdge symbolMask (Mask.ofTags (bit 1))).map (fun x => (List.range x.2.edges.length).map (fun k => x.2.edgeText (.expl k))) =
      some [[97, 98, 99, 100], [97, 98], [99, 100]] := by
  have hmgr : textEdge.mgr = initial.mgr := by rfl
  have hhas : ∀ t, Has initial.mgr t discardedName ↔ t.getLsbD 1 = true := by
    intro t
    constructor
    · rintro ⟨i, h1, h2⟩
      match i with
      | 0 => simp [initial, discardedName] at h1
      | 1 => exact h2
      | 2 => simp [initial, discardedName, tokenName] at h1
      | i + 3 => simp [initial] at h1
    · intro h; exact ⟨1, rfl, h⟩
  refine ⟨reachable_add abcd_reachable (made_discarded abcd_reachable) (by decide +kernel), by decide +kernel, .alts [bit 1], by rfl, by decide +kernel,
    by decide +kernel, ?_, ?_, ?_, ?_, by decide +kernel⟩
  · rintro ⟨r, h⟩; simp [discardedName] at h
  · intro t h
    rw [hmgr, hhas]
    obtain ⟨_, h | ⟨alt, h1, h2⟩⟩ := (matches_iff _ _).1 h
    · exact absurd h (by decide)
    · have : alt = bit 1 := by simpa [Mask.ofTags] using h1
      subst this
      exact h2 1 (by decide)
  · intro d hd h
    rw [hmgr, hhas] at h
    cases d with
    | impl i =>
      have : textEdge.tags (Edge.impl i) = symbolTag := rfl
      rw [this] at h
      exact absurd h (by decide)
    | expl k =>
      have : k < 1 := present_expl.1 hd
      have : k = 0 := by omega
      rw [this]
  · rw [hmgr, hhas]; decide

/-- Two text edges, over "ab" and over "cd". -/
def halves1 : State := (addEdge abcd { src := 0, tgt := 2, item := ⟨[70], [], []⟩, tags := bit 1 }).2
def halves : State := (addEdge halves1 { src := 2, tgt := 4, item := ⟨[70], [], []⟩, tags := bit 1 }).2

theorem halves_reachable : Lattice.Spec.Reachable halves := by
  have h1 : Lattice.Spec.Reachable halves1 := reachable_add abcd_reachable (made_discarded abcd_reachable) (by decide +kernel)
  exact reachable_add h1 (made_discarded h1) (by decide +kernel)

/-- A cutter that takes the whole text as one item. -/
def whole : CutFn Unit where
  start := ()
  cut := fun _ text pos => (⟨[80], text.drop pos, []⟩, none, ())
  layerTags := [tokenName]

/-- **C82** fails of the code: the path on which the cutter is run does not end where the super edge
ends.  With text edges over "ab" and "cd" the cutter gets "abcd" for the first one and "cd" for the
second; the second half of the text is cut twice, and one of the items reaches beyond its text edge. -/
theorem C82_beyond_false : ∃ (σ : Type) (c : CutFn σ) (s s' : State) (super : Mask) (e1 e2 d1 d2 : Edge), Lattice.Spec.Reachable s ∧ s.nLoose = 0 ∧
    (outEdges s 0 super).1 = [e1] ∧ (outEdges s 2 super).1 = [e2] ∧ s.tgt e1 = 2 ∧ s.tgt e2 = 4 ∧
    runCutter c 5 s symbolMask super = some (.ok (), s') ∧
    Present s' d1 ∧ Present s' d2 ∧ ¬ Present s d1 ∧ ¬ Present s d2 ∧
    s'.edgeText d1 = [97, 98, 99, 100] ∧ s'.edgeText d2 = [99, 100] := by
  have h1 : (runCutter whole 5 halves symbolMask (Mask.ofTags (bit 1))).map (fun x => x.1) = some (.ok ()) := by decide +kernel
  have h2 : (runCutter whole 5 halves symbolMask (Mask.ofTags (bit 1))).map (fun x => x.2.edges.length) = some 4 := by decide +kernel
  have h3 : (runCutter whole 5 halves symbolMask (Mask.ofTags (bit 1))).map (fun x => x.2.edgeText (.expl 2)) = some [97, 98, 99, 100] := by
    decide +kernel
  have h4 : (runCutter whole 5 halves symbolMask (Mask.ofTags (bit 1))).map (fun x => x.2.edgeText (.expl 3)) = some [99, 100] := by decide +kernel
  cases h : runCutter whole 5 halves symbolMask (Mask.ofTags (bit 1)) with
  | none => rw [h] at h1; simp at h1
  | some r =>
    obtain ⟨r, s'⟩ := r
    rw [h] at h1 h2 h3 h4
    simp only [Option.map_some, Option.some.injEq] at h1 h2 h3 h4
    subst h1
    have hlen : halves.edges.length = 2 := by decide +kernel
    refine ⟨Unit, whole, halves, s', Mask.ofTags (bit 1), .expl 0, .expl 1, .expl 2, .expl 3, halves_reachable, by decide +kernel, by decide +kernel,
      by decide +kernel, by decide +kernel, by decide +kernel, h, present_expl.2 (by omega), present_expl.2 (by omega), ?_, ?_, h3, h4⟩
    · rw [present_expl]; omega
    · rw [present_expl]; omega

end Verif.Lattice
