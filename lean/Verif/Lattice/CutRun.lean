import Verif.Lattice.CutPieces

/-!
The whole run of a cutter on a path.
-/
set_option linter.unusedVariables false
set_option linter.unusedSimpArgs false

namespace Verif.Lattice
open Verif Verif.Tags Verif.Tags.Spec Verif.Lattice.Spec

/-- The item can be put on the edges. -/
structure FitsIn (s : State) (p : Item × Nat) (g : List Edge) : Prop where
  some_ : g ≠ []
  length : (textOf s g).length = p.2
  new : ∀ k, g = [.expl k] → s.item (.expl k) ≠ .ok p.1
  plain : ∀ u v, Chain s u g v → Plain s ⟨u, v, p.1⟩

theorem FitsIn.mono {s s' : State} (hi : Inv s) (h : Calm s s') (hpl : ∀ key, Plain s key → Plain s' key) {p : Item × Nat} {g : List Edge}
    (hp : ∀ e ∈ g, Present s e) (hf : FitsIn s p g) : FitsIn s' p g := by
  refine ⟨hf.some_, by rw [h.textOf hi hp]; exact hf.length, ?_, ?_⟩
  · intro k hk
    rw [h.item hi (hp _ (by rw [hk]; simp))]
    exact hf.new k hk
  · intro u v hc
    exact hpl _ (hf.plain u v ((h.chain hi hp).1 hc))

/-- The edge has become the item. -/
structure Tok (s : State) (tags : TagSet) (item : Item) (g : List Edge) (e : Edge) : Prop where
  present : Present s e
  explicit : Explicit e
  item : s.item e = .ok item
  tags : SubTags tags (s.tags e)
  chain : Chain s (s.src e) g (s.tgt e)
  inside : ∀ d ∈ g, Present s d
  part : ∃ q ∈ s.parts e, SeqLists s q.seq g

theorem Tok.calm {s s' : State} (hr : Lattice.Spec.Reachable s) (h : Calm s s') {tags : TagSet} {item : Item} {g : List Edge} {e : Edge}
    (ht : Tok s tags item g e) : Tok s' tags item g e := by
  have hi := reachable_inv' hr
  obtain ⟨c1, c2, c3, c4, c5, c6, c7⟩ := C03_edges_accumulate hr h.steps ht.present ht.explicit
  refine ⟨c1, ht.explicit, by rw [c4]; exact ht.item, fun i x => c5 i (ht.tags i x), ?_, fun d hd => h.present hi (ht.inside d hd), ?_⟩
  · rw [c2, c3]; exact (h.chain hi ht.inside).2 ht.chain
  · obtain ⟨q, hq, hs⟩ := ht.part
    exact ⟨q, c6.subset hq, hs.calm h⟩

theorem Reg.tags {s s' : State} (h : Reg s s') (d : Edge) : s'.tags d = s.tags d := by
  rcases h with rfl | rfl
  · rfl
  · exact (alike_register _ _).tags d

theorem piece_ok {s : State} (hr : Lattice.Spec.Reachable s) (hl : s.nLoose = 0) {tags : TagSet} (hm : Made s.mgr tags)
    (ht : tags ≠ symbolTag) {p : Item × Nat} {g rest : List Edge} {it : Iter} (hf : FitsIn s p g) (hp : ∀ e ∈ g, Present s e)
    (hb : ∀ e ∈ g, Boundary s (s.src e) ∧ Boundary s (s.tgt e)) (hit : IterAt s it (g ++ rest)) {u v : Vertex} (hu : 0 ≤ u)
    (hc : Chain s u g v) :
    ∃ q it' s1 k s2, cutSequence s it (p.2 : Int) = (.ok q, it', s1) ∧ addPiece s1 q p.1 tags = (.ok (.expl k), s2) ∧ Calm s s2 ∧
      IterAt s2 it' rest ∧ Tok s2 tags p.1 g (.expl k) ∧ s2.src (.expl k) = u ∧ s2.tgt (.expl k) = v ∧
      (∀ d, Present s2 d → Present s d ∨ d = .expl k) ∧ (∀ key, Plain s key → Plain s2 key) ∧ s2.mgr = s.mgr ∧
      (∀ n, ¬ PlaneName n → ¬ Has s.mgr tags n → ∀ d, Present s2 d → Has s.mgr (s2.tags d) n → Present s d ∧ Has s.mgr (s.tags d) n) := by
  have hi := reachable_inv' hr
  obtain ⟨it', s1, h1, r1, i1⟩ := cutLoop_ok hi hl hp hit (n := it.left)
    (by have := iter_left hit; simp at this; omega) Builder.new 0
  rw [Nat.zero_add, hf.length] at h1
  have hcut : cutSequence s it (p.2 : Int) = (.ok (buildUp s Builder.new g).build, it', s1) := by
    unfold cutSequence; rw [h1]
  have hseq := buildUp_seq hi hl hf.some_ hp hu hc
  generalize (buildUp s Builder.new g).build = q at hcut hseq
  have hpr : ∀ {s' : State}, Reg s s' → ∀ e ∈ g, Present s' e := fun h e he => h.present.2 (hp e he)
  -- the first edge
  have hc1 := (r1.calm.chain hi hp).2 hc
  obtain ⟨a, s2, h2, ha, hag, r2⟩ := first_ok (hseq.calm r1.calm) hc1 hf.some_
  have r12 := r1.trans r2
  have hi2 := r12.calm.inv hi
  -- the last edge
  have hc2 := (r12.calm.chain hi hp).2 hc
  have hb2 : ∀ e ∈ g, Boundary s2 (s2.src e) ∧ Boundary s2 (s2.tgt e) := by
    intro e he
    rw [r12.calm.src hi (hp e he), r12.calm.tgt hi (hp e he)]
    exact ⟨r12.calm.boundary (hb e he).1, r12.calm.boundary (hb e he).2⟩
  obtain ⟨b, s3, h3, hb3, hbg, r3⟩ := last_ok hi2 (hseq.calm r12.calm) hc2 hf.some_ hb2
  have r13 := r12.trans r3
  have hc3 := (r13.calm.chain hi hp).2 hc
  have hsrc : s3.src a = u := by
    rw [(r2.trans r3).calm.src (r1.calm.inv hi) (hpr r1 a hag)]; exact ha
  have htgt : s3.tgt b = v := by
    rw [r3.calm.tgt hi2 (hpr r12 b hbg)]; exact hb3
  have hpl3 : Plain s3 ⟨u, v, p.1⟩ := r13.plain.2 (hf.plain u v hc)
  have hnew3 : ∀ k, g = [.expl k] → s3.item (.expl k) ≠ .ok p.1 := by
    intro k hk
    rw [r13.calm.item hi (hp _ (by rw [hk]; simp))]
    exact hf.new k hk
  have hr3 := r13.calm.reachable hr
  have hm3 : Made s3.mgr tags := by rw [r13.mgr]; exact hm
  obtain ⟨k, s4, h4, hadd⟩ := add_ok hr3 (by rw [r13.calm.nLoose]; exact hl) (hseq.calm r13.calm) hf.some_ (hpr r13) hu hc3 hm3 ht hpl3 hnew3
  have hsays := C52_added_partial hr3 (a := { src := u, tgt := v, item := p.1, tags := tags, seq := q }) hm3 h4 trivial
  have hcalm := r13.calm.trans hadd.calm
  refine ⟨q, it', s1, k, s4, hcut, ?_, hcalm, i1.calm ((r2.trans r3).calm.trans hadd.calm), ?_, hsays.src, hsays.tgt, ?_, ?_, by rw [hadd.mgr, r13.mgr], ?_⟩
  · unfold addPiece
    rw [h2]
    dsimp only
    rw [h3]
    dsimp only
    rw [hsrc, htgt]
    exact h4
  · refine ⟨hsays.present, trivial, hsays.item, hsays.tags, ?_, fun d hd => hcalm.present hi (hp d hd), ?_⟩
    · rw [hsays.src, hsays.tgt]
      exact (hcalm.chain hi hp).2 hc
    · obtain ⟨ps, pt, hps, hsq, _⟩ := hsays.part
      refine ⟨pt, by rw [hps]; simp, ?_⟩
      rw [hsq]
      exact hseq.calm hcalm
  · intro d hd
    rcases hadd.only d hd with h | h
    · exact Or.inl (r13.present.1 h)
    · exact Or.inr h
  · intro key hk
    exact hadd.plain key (r13.plain.2 hk)
  · intro n hn hh d hd hhas
    obtain ⟨c1, c2⟩ := hadd.has n hn (by rw [r13.mgr]; exact hh) d hd (by rw [r13.mgr]; exact hhas)
    refine ⟨r13.present.1 c1, ?_⟩
    rw [r13.mgr, r13.tags] at c2
    exact c2

theorem made_calm {s s' : State} (hi : Inv s) (h : Calm s s') {tags : TagSet} (hm : Made s.mgr tags) : Made s'.mgr tags :=
  .later hm (steps_grow hi h.steps).mgr

/-- The result of running the loop over the pieces. -/
theorem pieces_ok {σ : Type} {c : CutFn σ} {text : Str} {tags : TagSet} (ht : tags ≠ symbolTag) {x : σ} {pos : Nat}
    {pieces : List (Item × Nat)} (hcuts : Cuts c text x pos pieces) : ∀ {n : Nat} {s : State} {it : Iter} {groups : List (List Edge)}
    {u w : Vertex}, pieces.length ≤ n → Lattice.Spec.Reachable s → s.nLoose = 0 → Made s.mgr tags →
    List.Forall₂ (FitsIn s) pieces groups → (∀ e ∈ groups.flatten, Present s e) →
    (∀ e ∈ groups.flatten, Boundary s (s.src e) ∧ Boundary s (s.tgt e)) → IterAt s it groups.flatten → 0 ≤ u →
    Chain s u groups.flatten w →
    ∃ s' toks, pieceLoop c text tags n s it x pos = some (.ok (), s') ∧ Calm s s' ∧ Chain s' u toks w ∧
      List.Forall₂ (fun (pg : (Item × Nat) × List Edge) e => Tok s' tags pg.1.1 pg.2 e) (pieces.zip groups) toks ∧
      (∀ d, Present s' d → Present s d ∨ d ∈ toks) ∧ s'.mgr = s.mgr ∧
      (∀ n, ¬ PlaneName n → ¬ Has s.mgr tags n → ∀ d, Present s' d → Has s.mgr (s'.tags d) n → Present s d ∧ Has s.mgr (s.tags d) n) := by
  induction hcuts with
  | @last x pos hend =>
    intro n s it groups u w hn hr hl hm hfit hp hb hit hu hc
    obtain ⟨g, gs, hg, hgs, rfl⟩ := List.forall₂_cons_left_iff.1 hfit
    cases hgs
    simp only [List.flatten_cons, List.flatten_nil, List.append_nil] at hp hb hit hc
    cases n with
    | zero => simp at hn
    | succ n =>
      obtain ⟨q, it', s1, k, s2, h1, h2, h3, h4, h5, h6, h7, h8, h9, h10, h11⟩ := piece_ok hr hl hm ht (rest := []) hg hp hb (by simpa using hit) hu hc
      refine ⟨s2, [.expl k], ?_, h3, ⟨h6, h7⟩, .cons h5 .nil, by simpa using h8, h10, h11⟩
      have hpos : 0 < (textOf s g).length := by
        have hi := reachable_inv' hr
        cases hgg : g with
        | nil => exact absurd hgg hg.some_
        | cons e g' =>
          have := edge_text_pos hi hl (hp e (by rw [hgg]; simp))
          simp [textOf]; omega
      rw [hg.length] at hpos
      unfold pieceLoop
      generalize hcut : c.cut x text pos = r at *
      obtain ⟨item, pos', x'⟩ := r
      dsimp only at hend h1 h2 hpos ⊢
      have hlen : ((pos'.getD text.length : Nat) : Int) - (pos : Int) = ((text.length - pos : Nat) : Int) := by
        rcases hend with rfl | rfl <;> simp <;> omega
      rw [hlen, h1]
      dsimp only
      rw [h2]
      dsimp only
      rcases hend with rfl | rfl
      · rfl
      · simp
  | @more x pos p l hcutp hlt hlt' hrest ih =>
    intro n s it groups u w hn hr hl hm hfit hp hb hit hu hc
    obtain ⟨g, gs, hg, hgs, rfl⟩ := List.forall₂_cons_left_iff.1 hfit
    rw [List.flatten_cons] at hp hb hit hc
    obtain ⟨v, hc1, hc2⟩ := chain_split hc
    have hpg : ∀ e ∈ g, Present s e := fun e he => hp e (by simp [he])
    have hpgs : ∀ e ∈ gs.flatten, Present s e := fun e he => hp e (by rw [List.mem_append]; exact Or.inr he)
    cases n with
    | zero => simp at hn
    | succ n =>
      have hi := reachable_inv' hr
      obtain ⟨q, it', s1, k, s2, h1, h2, h3, h4, h5, h6, h7, h8, h9, h10, h11⟩ := piece_ok hr hl hm ht hg hpg
        (fun e he => hb e (by simp [he])) hit hu hc1
      have hr2 := h3.reachable hr
      have hfit2 : List.Forall₂ (FitsIn s2) l gs := by
        clear h1 h2 ih hrest hn hcutp hit h4 hc hc2 hb hfit
        induction hgs with
        | nil => exact .nil
        | cons a b ih =>
          refine .cons (a.mono hi h3 h9 (fun e he => hpgs e (by simp [he]))) (ih ?_ ?_)
          · intro e he
            rw [List.mem_append] at he
            rcases he with he | he
            · exact hpg e he
            · exact hpgs e (by rw [List.flatten_cons, List.mem_append]; exact Or.inr he)
          · exact fun e he => hpgs e (by rw [List.flatten_cons, List.mem_append]; exact Or.inr he)
      obtain ⟨f1, f2, f3⟩ := chain_forward hi hl hpg hu hc1
      obtain ⟨s', toks, g1, g2, g3, g4, g5, g6, g7⟩ := ih (n := n) (s := s2) (it := it') (groups := gs) (u := v) (w := w) (by simp at hn; omega) hr2
        (by rw [h3.nLoose]; exact hl) (made_calm hi h3 hm) hfit2 (fun e he => h3.present hi (hpgs e he)) (by
          intro e he
          rw [h3.src hi (hpgs e he), h3.tgt hi (hpgs e he)]
          have := hb e (by rw [List.mem_append]; exact Or.inr he)
          exact ⟨h3.boundary this.1, h3.boundary this.2⟩) h4 (by omega) ((h3.chain hi hpgs).2 hc2)
      have hi2 := reachable_inv' hr2
      refine ⟨s', .expl k :: toks, ?_, h3.trans g2, ⟨?_, ?_⟩, .cons (h5.calm hr2 g2) g4, ?_, g6.trans h10, ?_⟩
      · unfold pieceLoop
        generalize hcut : c.cut x text pos = r at *
        obtain ⟨item, pos', x'⟩ := r
        dsimp only at hcutp h1 h2 g1 ⊢
        subst hcutp
        have hlen : (((some p).getD text.length : Nat) : Int) - (pos : Int) = ((p - pos : Nat) : Int) := by
          simp; omega
        rw [hlen, h1]
        dsimp only
        rw [h2]
        dsimp only
        rw [if_pos hlt']
        exact g1
      · rw [g2.src hi2 h5.present]; exact h6
      · rw [g2.tgt hi2 h5.present, h7]; exact g3
      · intro d hd
        rcases g5 d hd with h | h
        · rcases h8 d h with h | h
          · exact Or.inl h
          · exact Or.inr (by simp [h])
        · exact Or.inr (by simp [h])
      · intro n hn hh d hd hhas
        obtain ⟨c1, c2⟩ := g7 n hn (by rw [h10]; exact hh) d hd (by rw [h10]; exact hhas)
        exact h11 n hn hh d c1 (by rw [h10] at c2; exact c2)

theorem path_unique {s : State} {mask : Mask} {v : Vertex} {es es' : List Edge} {w w' : Vertex} (h : Path s mask v es w)
    (h' : Path s mask v es' w') : es = es' ∧ w = w' := by
  induction h generalizing es' w' with
  | stop h =>
    cases h' with
    | stop _ => exact ⟨rfl, rfl⟩
    | go h1 _ => rw [h] at h1; simp at h1
  | go h1 _ ih =>
    cases h' with
    | stop h => rw [h] at h1; simp at h1
    | go h2 h3 =>
      rw [h1] at h2
      cases h2
      obtain ⟨c1, c2⟩ := ih h3
      exact ⟨by rw [c1], c2⟩

theorem path_of_greedy {s : State} {mask : Mask} {es : List Edge} {v w : Vertex} (hg : Greedy s mask es) (hc : Chain s v es w)
    (he : (outEdges s w mask).1 = []) : Path s mask v es w := by
  induction es generalizing v with
  | nil =>
    have : v = w := hc
    subst this
    exact .stop he
  | cons e es ih =>
    have h1 := hg e (by simp)
    have h2 : s.src e = v := hc.1
    rw [h2] at h1
    exact .go h1 (ih (fun x hx => hg x (by simp [hx])) hc.2)

theorem path_view {s s' : State} (h : SameView s s') {mask : Mask} {v w : Vertex} {es : List Edge} (hp : Path s mask v es w) :
    Path s' mask v es w := by
  induction hp with
  | stop h1 => exact .stop (by rw [h.maskOuts]; exact h1)
  | go h1 _ ih => exact .go (by rw [h.maskOuts]; exact h1) (by rw [h.tgt]; exact ih)

/-- A path as it is handed to the cutter. -/
theorem path_seq {s : State} (h : Lattice.Spec.Reachable s) (hl : s.nLoose = 0) {mask : Mask}
    (hm : ProperMask mask) {v : Vertex} (hv : s.validVertex v = true) {fuel : Nat} (hf : s.text.length < fuel)
    {es : List Edge} {w : Vertex} (hp : Path s mask v es w) (hne : es ≠ []) :
    ∃ seq s', getPath fuel s v mask = some (seq, w, s') ∧ Calm s s' ∧ SeqLists s' seq es ∧ Chain s v es w ∧
      (∀ e ∈ es, Present s e) ∧ s' = queried s mask := by
  have hi := reachable_inv' h
  simp only [State.validVertex, Bool.and_eq_true, decide_eq_true_eq] at hv
  obtain ⟨b, w', es', h1, h2, h3, h4, h5, h6⟩ := getPath_loop (s := s) hi hl mask fuel rfl
    (SameView.refl s) (fun _ _ => rfl) (u := v) (v := v) (l := []) (b := Builder.new) (by omega)
    (by omega) (by omega) rfl (.new rfl rfl rfl) rfl (by simp) (by intro e he; simp at he)
  obtain ⟨rfl, rfl⟩ := path_unique hp (path_of_greedy h5 h4 h6)
  have hpres : ∀ e ∈ es, Present s e := by
    intro e he
    exact ⟨_, ((C05_sound h hm (s.src e)).1 e (List.mem_of_getLast? (h5 e he))).1⟩
  have hcalm := calm_queried s mask
  refine ⟨b.build, queried s mask, ?_, hcalm, (build_seq h2 h3 hne hpres).calm hcalm, h4, hpres, rfl⟩
  unfold getPath
  rw [h1]; rfl

theorem chain_length {s : State} (hi : Inv s) (hl : s.nLoose = 0) {es : List Edge} (hp : ∀ e ∈ es, Present s e) {u v : Vertex}
    (hu : 0 ≤ u) (h : Chain s u es v) : u + es.length ≤ v := by
  induction es generalizing u with
  | nil => have : u = v := h; simp; omega
  | cons e es ih =>
    obtain ⟨c1, c2, c3⟩ := noLoose_span hi hl (hp e (by simp))
    have h1 : s.src e = u := h.1
    have := ih (fun x hx => hp x (by simp [hx])) (by omega) h.2
    simp only [List.length_cons]; omega

theorem pieces_length {s : State} {pieces : List (Item × Nat)} {groups : List (List Edge)} (h : List.Forall₂ (FitsIn s) pieces groups) :
    pieces.length ≤ groups.flatten.length := by
  induction h with
  | nil => simp
  | cons a b ih =>
    have := List.length_pos_iff.2 a.some_
    simp only [List.length_cons, List.flatten_cons, List.length_append]; omega

theorem calm_manager {s : State} {m : Manager} (h : Later s.mgr m) : Calm s { s with mgr := m } :=
  ⟨.step .refl trivial (.manager h), rfl, rfl, rfl⟩

/-- The run on one path. -/
theorem run_ok {σ : Type} {c : CutFn σ} {s : State} (hr : Lattice.Spec.Reachable s) (hl : s.nLoose = 0) {mask : Mask}
    (hm : ProperMask mask) {v w : Vertex} (hv : s.validVertex v = true) {fuel : Nat} (hf : s.text.length < fuel)
    {m : Manager} {tags : TagSet} (htags : createTagCollection s.mgr c.layerTags = some (m, tags)) (ht : tags ≠ symbolTag)
    {pieces : List (Item × Nat)} {groups : List (List Edge)} (hp : Path s mask v groups.flatten w)
    (hcuts : Cuts c (textOf s groups.flatten) c.start 0 pieces) (hfit : List.Forall₂ (FitsIn s) pieces groups)
    (hb : ∀ e ∈ groups.flatten, Boundary s (s.src e) ∧ Boundary s (s.tgt e)) :
    ∃ s' toks, runCutterAt c fuel s v mask = some (.ok (), s') ∧ Calm s s' ∧ Chain s' v toks w ∧
      List.Forall₂ (fun (pg : (Item × Nat) × List Edge) e => Tok s' tags pg.1.1 pg.2 e) (pieces.zip groups) toks ∧
      (∀ d, Present s' d → Present s d ∨ d ∈ toks) ∧ s'.mgr = m ∧
      (∀ n, ¬ PlaneName n → ¬ Has m tags n → ∀ d, Present s' d → Has m (s'.tags d) n → Present s d ∧ Has m (s.tags d) n) := by
  have hi := reachable_inv' hr
  have hne : groups.flatten ≠ [] := by
    have h1 := pieces_length hfit
    have h2 : 0 < pieces.length := by cases hcuts <;> simp
    intro h
    rw [h] at h1; simp at h1
    rw [h1] at h2; simp at h2
  obtain ⟨q, s1, h1, h2, h3, h4, h5, h5'⟩ := path_seq hr hl hm hv hf hp hne
  have hv0 : 0 ≤ v := by
    simp only [State.validVertex, Bool.and_eq_true, decide_eq_true_eq] at hv; omega
  -- the text
  have hse := h3.edges
  obtain ⟨s2, hs2, hreg⟩ : ∃ s2, sequenceEdges s1 q = (.ok groups.flatten, s2) ∧ Reg s1 s2 := by
    refine ⟨(sequenceEdges s1 q).2, Prod.ext hse rfl, ?_⟩
    unfold sequenceEdges
    repeat' split
    · exact Or.inr rfl
    · exact .refl _
    · exact .refl _
  have hcalm2 := h2.trans hreg.calm
  have hmgr2 : s2.mgr = s.mgr := by
    rw [hreg.mgr, h5']
    unfold queried; split
    · rfl
    · simp
  have htags2 : ∀ d, s2.tags d = s.tags d := by
    intro d
    rw [hreg.tags, h5']
    unfold queried; split
    · rfl
    · exact (alike_register _ _).tags d
  have hpres2 : ∀ d, Present s2 d ↔ Present s d := by
    intro d
    rw [hreg.present, h5']
    unfold queried; split
    · exact Iff.rfl
    · cases d <;> simp [present_impl, present_expl]
  have hvvc2 : s2.vvc = s.vvc := by
    have e1 : s2.vvc = s1.vvc := by rcases hreg with rfl | rfl <;> simp
    rw [e1, h5']
    unfold queried; split
    · rfl
    · simp
  -- the tags
  have hlater : Later s2.mgr m := by rw [hmgr2]; exact .create .refl htags
  have hmade : Made m tags := .create (by exact hi.mgr) htags
  have hcalm3 := hcalm2.trans (calm_manager hlater)
  generalize hs3 : ({ s2 with mgr := m } : State) = s3 at hcalm3
  have hm3 : s3.mgr = m := by rw [← hs3]
  have htags3 : ∀ d, s3.tags d = s.tags d := by
    intro d
    rw [← htags2, ← hs3]
    cases d <;> rfl
  have hpres3 : ∀ d, Present s3 d ↔ Present s d := by
    intro d
    rw [← hpres2, ← hs3]
    cases d
    · rw [present_impl, present_impl]
    · rw [present_expl, present_expl]
  have hvvc3 : s3.vvc = s.vvc := by rw [← hs3]; exact hvvc2
  have hplain : ∀ key, Plain s key → Plain s3 key := by
    intro key hk i hmem
    rw [hvvc3] at hmem
    exact hk i hmem
  have hfit3 : List.Forall₂ (FitsIn s3) pieces groups := by
    have hall : ∀ g ∈ groups, ∀ e ∈ g, Present s e := fun g hg e he => h5 e (List.mem_flatten.2 ⟨g, hg, he⟩)
    clear hcuts hp hb h3 h4 h5 hse hne hs2
    induction hfit with
    | nil => exact .nil
    | cons a b ih =>
      exact .cons (a.mono hi hcalm3 hplain (hall _ (by simp))) (ih (fun g hg => hall g (by simp [hg])))
  have hlen : pieces.length ≤ fuel := by
    have e1 := pieces_length hfit
    have e2 := chain_length hi hl h5 hv0 h4
    have e3 := (chain_forward hi hl h5 hv0 h4).2.1 hne
    omega
  have hcalm13 : Calm s1 s3 := by
    rw [← hs3]
    exact hreg.calm.trans (calm_manager hlater)
  obtain ⟨s', toks, g1, g2, g3, g4, g5, g6, g7⟩ := pieces_ok ht hcuts (n := fuel) (s := s3) (it := Iter.start q) (u := v) (w := w) hlen
    (hcalm3.reachable hr) (by rw [hcalm3.nLoose]; exact hl) (by rw [hm3]; exact hmade) hfit3 (fun e he => (hpres3 e).2 (h5 e he))
    (by
      intro e he
      rw [hcalm3.src hi (h5 e he), hcalm3.tgt hi (h5 e he)]
      exact ⟨hcalm3.boundary (hb e he).1, hcalm3.boundary (hb e he).2⟩)
    (h3.iter.calm hcalm13) hv0 ((hcalm3.chain hi h5).2 h4)
  refine ⟨s', toks, ?_, hcalm3.trans g2, g3, g4, ?_, by rw [g6, hm3], ?_⟩
  · unfold runCutterAt
    rw [h1]
    dsimp only
    rw [h3.nonempty]
    simp only [Bool.false_eq_true, if_false]
    unfold runOnSequence sequenceText
    rw [hs2]
    dsimp only
    rw [hmgr2, htags]
    dsimp only
    rw [hs3]
    have : List.flatMap s2.edgeText groups.flatten = textOf s groups.flatten := hcalm2.textOf hi h5
    rw [this]
    exact g1
  · intro d hd
    rcases g5 d hd with h | h
    · exact Or.inl ((hpres3 d).1 h)
    · exact Or.inr h
  · intro n hn hh d hd hhas
    obtain ⟨c1, c2⟩ := g7 n hn (by rw [hm3]; exact hh) d hd (by rw [hm3]; exact hhas)
    refine ⟨(hpres3 d).1 c1, ?_⟩
    rw [hm3, htags3] at c2
    exact c2

end Verif.Lattice
