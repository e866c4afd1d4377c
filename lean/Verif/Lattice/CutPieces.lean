import Verif.Lattice.CutLemmas

/-!
Adding one item over a list of edges.
-/
set_option linter.unusedVariables false
set_option linter.unusedSimpArgs false

namespace Verif.Lattice
open Verif Verif.Tags Verif.Tags.Spec Verif.Lattice.Spec

/-- The sequence stands for the edges `g`. -/
inductive SeqLists (s : State) (q : Sequence) (g : List Edge) : Prop
  | links : q.links.map (·.edge) = g → g ≠ [] → q.end_ = 0 → SeqLists s q g
  | range : q.links = [] → q.begin_ < q.end_ → Chain s q.begin_ g q.end_ →
      (∀ e ∈ g, ∃ k, e = .impl k ∧ bitAt s.implicit k = true) → SeqLists s q g

theorem SeqLists.calm {s s' : State} (h : Calm s s') {q : Sequence} {g : List Edge} (hq : SeqLists s q g) : SeqLists s' q g := by
  cases hq with
  | links a b c => exact .links a b c
  | range a b c d =>
    refine .range a b (chain_impl h d c) ?_
    intro e he
    obtain ⟨k, h1, h2⟩ := d e he
    exact ⟨k, h1, by rw [h.implicit]; exact h2⟩

theorem SeqLists.edges {s : State} {q : Sequence} {g : List Edge} (hq : SeqLists s q g) : (sequenceEdges s q).1 = .ok g := by
  unfold sequenceEdges
  cases hq with
  | links a b c =>
    rw [if_neg (by intro h; rw [h] at a; exact b (by simpa using a.symm)), a]
  | range a b c d =>
    rw [if_pos a, if_pos b]
    have hc := calm_register s symbolMask rfl
    exact range_edges g (by simpa using d) (chain_impl hc d c) (by omega)

theorem SeqLists.nonempty {s : State} {q : Sequence} {g : List Edge} (hq : SeqLists s q g) : q.isEmpty = false := by
  unfold Sequence.isEmpty
  cases hq with
  | links a b c =>
    cases h : q.links with
    | nil => rw [h] at a; exact absurd (by simpa using a.symm) b
    | cons x y => simp
  | range a b c d => simp; intro _; omega

theorem SeqLists.iter {s : State} {q : Sequence} {g : List Edge} (hq : SeqLists s q g) : IterAt s (Iter.start q) g := by
  cases hq with
  | links a b c =>
    refine .links ?_ (by simpa [Iter.start] using a)
    intro h
    simp only [Iter.start] at h
    rw [h] at a
    exact b (by simpa using a.symm)
  | range a b c d => exact .range a c d

/-- What a builder makes of a chain of edges. -/
theorem build_seq {s : State} {g : List Edge} {b : Builder} (hb : b.links.map (·.edge) = g) (h : BuilderOk s g b)
    (hg : g ≠ []) (hp : ∀ e ∈ g, Present s e) : SeqLists s b.build g := by
  have hlinks : ¬ b.begin_ < b.end_ → SeqLists s b.build g := by
    intro hlt
    unfold Builder.build
    rw [if_neg hlt]
    exact .links hb hg rfl
  cases h with
  | new h1 _ _ => exact absurd h1 hg
  | broken _ h1 h2 => exact hlinks (by omega)
  | links _ h => exact hlinks (by omega)
  | range hne hlt hh hc =>
    unfold Builder.build
    rw [if_pos hlt]
    refine .range rfl hlt hc ?_
    intro e he
    obtain ⟨k, rfl⟩ := hidden_impl (hh e he)
    exact ⟨k, rfl, present_impl.1 (hp _ he)⟩

theorem chain_src_pos {s : State} (hi : Inv s) (hl : s.nLoose = 0) {l : List Edge} (hp : ∀ e ∈ l, Present s e)
    {u v : Vertex} (hu : 0 < u) (h : Chain s u l v) : ∀ e ∈ l, s.src e ≠ 0 := by
  induction l generalizing u with
  | nil => simp
  | cons e l ih =>
    intro x hx
    have hs := noLoose_span hi hl (hp e (by simp))
    have h1 : s.src e = u := h.1
    rcases List.mem_cons.1 hx with rfl | hx
    · omega
    · exact ih (fun y hy => hp y (by simp [hy])) (by omega) h.2 x hx

theorem buildUp_usages (s : State) (b : Builder) (g : List Edge) :
    buildUp s b g = (g.map (fun e => Usage.mk e none)).foldl (Builder.addEdge s) b := by
  unfold buildUp; rw [List.foldl_map]

theorem buildUp_seq {s : State} (hi : Inv s) (hl : s.nLoose = 0) {g : List Edge} (hg : g ≠ []) (hp : ∀ e ∈ g, Present s e)
    {u v : Vertex} (hu : 0 ≤ u) (hc : Chain s u g v) : SeqLists s (buildUp s Builder.new g).build g := by
  have hm : (g.map (fun e => Usage.mk e none)).map (·.edge) = g := by
    rw [List.map_map]; exact List.map_id g
  obtain ⟨h1, h2⟩ := builder_fold (s := s) (g.map (fun e => Usage.mk e none)) (b := Builder.new) (l := []) rfl (.new rfl rfl rfl) (by
    rw [hm, List.nil_append]
    cases g with
    | nil => exact absurd rfl hg
    | cons e g =>
      intro x hx _
      have hs := noLoose_span hi hl (hp e (by simp))
      have h1 : s.src e = u := hc.1
      exact chain_src_pos hi hl (fun y hy => hp y (by simp [hy])) (by omega) hc.2 x hx)
  rw [hm, List.nil_append] at h1 h2
  rw [buildUp_usages]
  exact build_seq h1 h2 hg hp

/-! ## The ends of a sequence -/

theorem first_ok {s : State} {q : Sequence} {g : List Edge} (hq : SeqLists s q g) {u v : Vertex} (hc : Chain s u g v)
    (hg : g ≠ []) : ∃ e s', q.firstEdge s = (.ok e, s') ∧ s.src e = u ∧ e ∈ g ∧ Reg s s' := by
  cases g with
  | nil => exact absurd rfl hg
  | cons e g =>
    unfold Sequence.firstEdge
    cases hq with
    | links a b c =>
      cases hl : q.links with
      | nil => rw [hl] at a; simp at a
      | cons x y =>
        rw [hl] at a
        simp only [List.map_cons, List.cons.injEq] at a
        exact ⟨x.edge, s, rfl, by rw [a.1]; exact hc.1, by simp [a.1], .refl s⟩
    | range a b c d =>
      rw [a]
      obtain ⟨k, rfl, hb⟩ := d e (by simp)
      have hk : ((k : Nat) : Int) = q.begin_ := c.1
      have hk : k = q.begin_ := by omega
      subst hk
      obtain ⟨l, hl⟩ := first_symbol hb
      refine ⟨.impl q.begin_, (firstOut s q.begin_ symbolMask).2, ?_, hc.1, by simp, reg_firstOut _ _⟩
      have : (firstOut s q.begin_ symbolMask).1 = .ok (.impl q.begin_) := by
        unfold firstOut
        split
        · rename_i h; rw [h] at hl; simp at hl
        · rename_i h; rw [h] at hl; simp at hl; simp [hl.1]
      simp only [List.head?_nil]
      exact Prod.ext this rfl

theorem firstIn_impl {s : State} (hi : Inv s) {i : Nat} (hb : bitAt s.implicit i = true) (h1 : Boundary s i)
    (h2 : Boundary s ((i + s.symLen i : Nat) : Int)) :
    (firstIn s ((i + s.symLen i : Nat) : Int) symbolMask).1 = .ok (.impl i) := by
  have hle := hi.implicitOk i hb
  have hpos := symLen_pos s i
  have hw1 : Utf8.Spec.WellFormed (s.text.take i) := by
    rcases h1 with h | h
    · omega
    · simpa using h
  have hw2 : Utf8.Spec.WellFormed (s.text.take (i + s.symLen i)) := by
    rcases h2 with h | h
    · omega
    · have : ((i + s.symLen i : Nat) : Int).toNat = i + s.symLen i := by omega
      rwa [this] at h
  have hpr := prior_of_symLen hw1 hw2 hle
  have hin : s.implicitIn ((i + s.symLen i : Nat) : Int) = .ok [.impl i] := by
    unfold State.implicitIn
    rw [if_neg (by omega), hpr]
    simp [hb]
  have hfst := inEdges_fst hi ((i + s.symLen i : Nat) : Int) symbolMask
  rw [hin] at hfst
  have h2 : canBeAppliedToImplicitSymbol symbolMask = true := by decide
  rw [h2, show symbolMask.any = false from rfl] at hfst
  simp only [Bool.false_eq_true, if_false, if_true, List.cons_append, List.nil_append] at hfst
  unfold firstIn
  split
  · rename_i h; rw [h] at hfst; simp at hfst
  · rename_i h; rw [h] at hfst; simp at hfst
  · rename_i h; rw [h] at hfst; simp at hfst; simp [hfst.1]

theorem last_ok {s : State} (hi : Inv s) {q : Sequence} {g : List Edge} (hq : SeqLists s q g) {u v : Vertex} (hc : Chain s u g v)
    (hg : g ≠ []) (hb : ∀ e ∈ g, Boundary s (s.src e) ∧ Boundary s (s.tgt e)) :
    ∃ e s', q.lastEdge s = (.ok e, s') ∧ s.tgt e = v ∧ e ∈ g ∧ Reg s s' := by
  obtain ⟨g0, e, rfl⟩ : ∃ g0 e, g = g0 ++ [e] := by
    rcases List.eq_nil_or_concat g with h | ⟨a, b, h⟩
    · exact absurd h hg
    · exact ⟨a, b, by simpa using h⟩
  have hlast := chain_last hc
  unfold Sequence.lastEdge
  cases hq with
  | links a b c =>
    have h1 : (q.links.map (·.edge)).getLast? = some e := by rw [a]; simp
    rw [List.getLast?_map] at h1
    cases hl : q.links.getLast? with
    | none => rw [hl] at h1; simp at h1
    | some x =>
      rw [hl] at h1
      simp at h1
      exact ⟨x.edge, s, rfl, by rw [h1]; exact hlast, by simp [h1], .refl s⟩
  | range a b c d =>
    rw [a]
    obtain ⟨k, rfl, hbit⟩ := d e (by simp)
    have hend := chain_last c
    have h2 : ((k + s.symLen k : Nat) : Int) = q.end_ := hend
    have hf := firstIn_impl hi hbit (hb (.impl k) (by simp)).1 (hb (.impl k) (by simp)).2
    rw [h2] at hf
    refine ⟨.impl k, (firstIn s q.end_ symbolMask).2, ?_, hlast, by simp, reg_firstIn _ _⟩
    simp only [List.getLast?_nil]
    exact Prod.ext hf rfl

/-! ## Adding the edge -/

theorem chain_single {s : State} (hi : Inv s) (hl : s.nLoose = 0) {g : List Edge} (hp : ∀ e ∈ g, Present s e)
    {u v : Vertex} (hu : 0 ≤ u) (hc : Chain s u g v) {e : Edge} (he : e ∈ g) (h1 : s.src e = u) (h2 : s.tgt e = v) : g = [e] := by
  cases g with
  | nil => simp at he
  | cons d g =>
    have hsd : s.src d = u := hc.1
    have hd := noLoose_span hi hl (hp d (by simp))
    have hf := chain_forward hi hl (fun x hx => hp x (by simp [hx])) (by omega) hc.2
    have key : ∀ (g : List Edge) (u v : Vertex), (∀ e ∈ g, Present s e) → 0 ≤ u → Chain s u g v → ∀ x ∈ g, u ≤ s.src x := by
      intro g
      induction g with
      | nil => simp
      | cons y g ih =>
        intro u v hp hu hc x hx
        have hy := noLoose_span hi hl (hp y (by simp))
        have h1 : s.src y = u := hc.1
        rcases List.mem_cons.1 hx with rfl | hx
        · omega
        · have := ih _ _ (fun z hz => hp z (by simp [hz])) (by omega) hc.2 x hx
          omega
    rcases List.mem_cons.1 he with rfl | he
    · cases g with
      | nil => rfl
      | cons x g =>
        have := hf.2.1 (by simp)
        omega
    · have := key g _ _ (fun x hx => hp x (by simp [hx])) (by omega) hc.2 e he
      omega

theorem find_range {s : State} {k : Nat} {g : List Edge} (hb : ∀ e ∈ g, ∃ i, e = .impl i ∧ bitAt s.implicit i = true)
    {end_ : Nat} (n : Nat) {si : Nat} (hc : Chain s si g end_) : findInRange s (.expl k) end_ n si = .ok false := by
  induction n generalizing si g with
  | zero => rfl
  | succ n ih =>
    unfold findInRange
    split
    · rename_i hlt
      cases g with
      | nil =>
        have : (si : Int) = end_ := hc
        omega
      | cons e g =>
        obtain ⟨i, rfl, hbit⟩ := hb e (by simp)
        have hk : ((i : Nat) : Int) = si := hc.1
        have hk : i = si := by omega
        subst hk
        obtain ⟨l, hl⟩ := first_symbol hbit
        rw [hl]
        simp only [reduceCtorEq, if_false]
        exact ih (fun x hx => hb x (by simp [hx])) hc.2
    · rfl

theorem contains_no {s : State} {q : Sequence} {g : List Edge} (hq : SeqLists s q g) {k : Nat} (hk : .expl k ∉ g) :
    ∃ s', sequenceContains s q (.expl k) = (.ok false, s') ∧ Reg s s' := by
  unfold sequenceContains
  cases hq with
  | links a b c =>
    rw [if_neg (by intro h; rw [h] at a; exact b (by simpa using a.symm))]
    refine ⟨s, ?_, .refl s⟩
    have : (q.links.any fun u => decide (u.edge = .expl k)) = false := by
      rw [List.any_eq_false]
      intro u hu h
      exact hk (by rw [← a, List.mem_map]; exact ⟨u, hu, by simpa using h⟩)
    rw [this]
  | range a b c d =>
    rw [if_pos a, if_pos b]
    have hcalm := calm_register s symbolMask rfl
    refine ⟨_, ?_, Or.inr rfl⟩
    dsimp only
    rw [find_range (by simpa using d) _ (chain_impl hcalm d c)]

/-- What adding one item over a chain of edges does. -/
structure AddedPiece (s s' : State) (tags : TagSet) (k : Nat) : Prop where
  calm : Calm s s'
  only : ∀ d, Present s' d → Present s d ∨ d = .expl k
  plain : ∀ key, Plain s key → Plain s' key
  mgr : s'.mgr = s.mgr
  has : ∀ n, ¬ PlaneName n → ¬ Has s.mgr tags n → ∀ d, Present s' d → Has s.mgr (s'.tags d) n →
    Present s d ∧ Has s.mgr (s.tags d) n

/-- Inherited tags are plane tags. -/
theorem plane_only {s : State} (hi : Inv s) {t : TagSet} {n : Str} (h : Has s.mgr (onlyPlaneTags s.mgr t) n) : PlaneName n := by
  obtain ⟨j, hj, hb⟩ := h
  simp only [onlyPlaneTags, createIntersection, BitVec.getLsbD_and, Bool.and_eq_true] at hb
  obtain ⟨m, hm, hp⟩ := hi.mgrInv.2 j hb.1
  rw [hj] at hm
  cases hm
  exact (isPlaneName_iff _).1 hp

theorem gather_only {s : State} (hi : Inv s) {q : Sequence} {n : Str} (h : Has s.mgr (gatherPlaneTags s q) n) : PlaneName n := by
  unfold gatherPlaneTags at h
  suffices hs : ∀ (l : List Usage) (t : TagSet), Has s.mgr (l.foldl (fun t u => createUnion t (onlyPlaneTags s.mgr (s.tags u.edge))) t) n →
      Has s.mgr t n ∨ PlaneName n from (hs _ 0 h).resolve_left has_zero
  intro l
  induction l with
  | nil => intro t h; exact Or.inl h
  | cons u l ih =>
    intro t h
    rw [List.foldl_cons] at h
    rcases ih _ h with h | h
    · rcases has_union.1 h with h | h
      · exact Or.inl h
      · exact Or.inr (plane_only hi h)
    · exact Or.inr h

theorem inherit_only {s : State} (hi : Inv s) {a : Args} {n : Str} (hn : ¬ PlaneName n) (h : Has s.mgr (inheritTags s a).tags n) :
    Has s.mgr a.tags n := by
  unfold inheritTags at h
  dsimp only at h
  split at h
  · rcases has_union.1 h with h | h
    · exact h
    · exact absurd (gather_only hi h) hn
  · exact h

theorem validSeq {s : State} (hi : Inv s) {q : Sequence} {g : List Edge} (hq : SeqLists s q g) (hp : ∀ e ∈ g, Present s e)
    {v : Vertex} (hv : v ≤ s.text.length) (hend : q.links = [] → (q.end_ : Int) = v) : s.validSequence q = true := by
  unfold State.validSequence
  simp only [Bool.and_eq_true, List.all_eq_true, decide_eq_true_eq]
  constructor
  · intro u hu
    cases hq with
    | links a b c =>
      have hpr : Present s u.edge := hp _ (by rw [← a]; exact List.mem_map_of_mem hu)
      cases hue : u.edge with
      | expl k => rw [hue] at hpr; simpa using present_expl.1 hpr
      | impl i =>
        rw [hue] at hpr
        have := hi.implicitOk i (present_impl.1 hpr)
        have := symLen_pos s i
        simp; omega
    | range a b c d => rw [a] at hu; simp at hu
  · cases hq with
    | links a b c => omega
    | range a b c d => have := hend a; omega

theorem Reg.mgr' {s s' : State} (h : Reg s s') : s'.mgr = s.mgr := by
  rcases h with rfl | rfl
  · rfl
  · simp

theorem add_ok {s : State} (hr : Lattice.Spec.Reachable s) (hl : s.nLoose = 0) {q : Sequence} {g : List Edge} (hq : SeqLists s q g)
    (hg : g ≠ []) (hp : ∀ e ∈ g, Present s e) {u v : Vertex} (hu : 0 ≤ u) (hc : Chain s u g v) {item : Item} {tags : TagSet}
    (hm : Made s.mgr tags) (ht : tags ≠ symbolTag) (hpl : Plain s ⟨u, v, item⟩) (hnew : ∀ k, g = [.expl k] → s.item (.expl k) ≠ .ok item) :
    ∃ k s', addEdge s { src := u, tgt := v, item := item, tags := tags, seq := q } = (.ok (.expl k), s') ∧ AddedPiece s s' tags k := by
  have hi := reachable_inv' hr
  obtain ⟨f1, f2, f3⟩ := chain_forward hi hl hp hu hc
  have f4 := f2 hg
  generalize ha : ({ src := u, tgt := v, item := item, tags := tags, seq := q } : Args) = a
  have a1 : a.src = u := by rw [← ha]
  have a2 : a.tgt = v := by rw [← ha]
  have a3 : a.item = item := by rw [← ha]
  have a4 : a.tags = tags := by rw [← ha]
  have a5 : a.seq = q := by rw [← ha]
  have hvs : s.validSequence q = true := by
    refine validSeq hi hq hp (v := v) f4.2 ?_
    intro hlk
    cases hq with
    | links x y z => rw [hlk] at x; exact absurd (by simpa using x.symm) hg
    | range x y z w =>
      have hz : ∃ e0 g0, g = e0 :: g0 := by
        cases g with
        | nil => exact absurd rfl hg
        | cons e0 g0 => exact ⟨e0, g0, rfl⟩
      obtain ⟨e0, g0, rfl⟩ := hz
      have hb : (q.begin_ : Int) = u := z.1.symm.trans hc.1
      rw [hb] at z
      exact chain_unique z hc
  have hvalid : (s.validVertex a.src && s.validVertex a.tgt && s.validSequence a.seq) = true := by
    rw [a1, a2, a5, hvs]
    simp [State.validVertex]; omega
  have hne : (inheritTags s a).tags ≠ symbolTag := by
    intro h
    have := inherit_symbol hi h
    rw [a4] at this
    exact ht this
  have hstep : ∀ r s', addEdge s a = (r, s') → r ≠ .error .undefined → Steps s s' := fun r s' h1 h2 =>
    .step .refl trivial (.add (by rw [a4]; exact hm) h1 h2)
  have hkey : (inheritTags s a).key = ⟨u, v, item⟩ := by
    show Key.mk a.src a.tgt a.item = _
    rw [a1, a2, a3]
  suffices h : ∃ k s', addEdge s a = (.ok (.expl k), s') ∧ s'.text = s.text ∧ s'.implicit = s.implicit ∧ s'.nLoose = s.nLoose ∧
      (∀ d, Present s' d → Present s d ∨ d = .expl k) ∧ (∀ key, Plain s key → Plain s' key) ∧ s'.mgr = s.mgr ∧
      (∀ n, ¬ PlaneName n → ¬ Has s.mgr tags n → ∀ d, Present s' d → Has s.mgr (s'.tags d) n → Present s d ∧ Has s.mgr (s.tags d) n) by
    obtain ⟨k, s', h1, h2, h3, h4, h5, h6, h7, h8⟩ := h
    exact ⟨k, s', h1, ⟨hstep _ _ h1 (by simp), h2, h3, h4⟩, h5, h6, h7, h8⟩
  have hinh : ∀ n, ¬ PlaneName n → ¬ Has s.mgr tags n → ¬ Has s.mgr (inheritTags s a).tags n := by
    intro n hn hh h
    exact hh (by rw [← a4]; exact inherit_only hi hn h)
  unfold addEdge
  rw [if_pos hvalid]
  have b1 : (inheritTags s a).src = u := a1
  have b2 : (inheritTags s a).tgt = v := a2
  have b5 : (inheritTags s a).seq = q := a5
  generalize inheritTags s a = b at hne hkey b1 b2 b5 hinh
  unfold addEdgeCore
  rw [if_neg (by rw [b1, b2]; omega), if_neg (by rw [b1, b2]; omega)]
  have hpresent : ∀ (s' : State) (k : Nat), s'.implicit = s.implicit → (∀ j, j < s'.edges.length → j < s.edges.length ∨ j = k) →
      ∀ d, Present s' d → Present s d ∨ d = .expl k := by
    intro s' k h1 h2 d hd
    cases d with
    | impl i => rw [present_impl] at hd ⊢; rw [h1] at hd; exact Or.inl hd
    | expl j =>
      rw [present_expl] at hd ⊢
      rcases h2 j hd with h | h
      · exact Or.inl h
      · right; rw [h]
  split
  · rename_i hiso
    unfold addNew
    dsimp only
    rw [if_neg hne]
    have hcond : implicitCondition (bumpCounter s b.src b.tgt) b = false := by
      cases h : implicitCondition (bumpCounter s b.src b.tgt) b with
      | false => rfl
      | true => exact absurd (implicitCondition_tags h) hne
    have hrest : addNewRest (bumpCounter s b.src b.tgt) b = addExplicit (bumpCounter s b.src b.tgt) b := by
      unfold addNewRest; rw [hcond]; rfl
    rw [hrest]
    refine ⟨s.edges.length, _, rfl, rfl, rfl, rfl, ?_, ?_, rfl, ?_⟩
    · refine hpresent _ _ rfl ?_
      intro j hj
      simp only [addExplicit, bumpCounter, List.length_append, List.length_cons, List.length_nil] at hj
      omega
    · intro key hk i hmem
      simp only [addExplicit, bumpCounter, List.mem_append, List.mem_singleton, Prod.mk.injEq, reduceCtorEq, and_false, or_false] at hmem
      exact hk i hmem
    · intro n hn hh d hd hhas
      cases d with
      | impl i =>
        have hd' := present_impl.1 hd
        exact ⟨present_impl.2 hd', hhas⟩
      | expl j =>
        rw [present_expl] at hd
        simp only [addExplicit, bumpCounter, List.length_append, List.length_cons, List.length_nil] at hd
        rcases Nat.lt_or_ge j s.edges.length with hj | hj
        · refine ⟨present_expl.2 hj, ?_⟩
          have : ((addExplicit (bumpCounter s b.src b.tgt) b).2.entry j) = s.entry j := entry_append_lt hj
          simp only [State.tags] at hhas ⊢
          rw [this] at hhas
          exact hhas
        · have hj : j = s.edges.length := by omega
          subst hj
          exfalso
          have : ((addExplicit (bumpCounter s b.src b.tgt) b).2.entry s.edges.length).tags = b.tags := by
            simp [addExplicit, bumpCounter, State.entry]
          simp only [State.tags] at hhas
          rw [this] at hhas
          exact hinh n hn hh hhas
  · rename_i e hiso
    have hmem := inv_vvcEntry_mem.1 (isoplanar_mem hiso).1
    rw [hkey] at hmem
    cases e with
    | impl i => exact absurd hmem (hpl i)
    | expl k =>
      obtain ⟨c1, c2⟩ := hi.vvcExpl _ _ hmem
      have hck : Key.mk u v item = (s.entry k).key := c2
      simp only [Entry.key, Key.mk.injEq] at hck
      have hnot : Edge.expl k ∉ g := by
        intro hin
        have := chain_single hi hl hp hu hc hin hck.1.symm hck.2.1.symm
        exact hnew k this (by simp [State.item, hck.2.2])
      unfold mergeWith
      rw [b5]
      obtain ⟨s1, hs1, hreg⟩ := contains_no hq hnot
      rw [hs1]
      dsimp only
      have hcalm := hreg.calm
      have hedges : s1.edges = s.edges := by rcases hreg with rfl | rfl <;> simp
      have hvvc : s1.vvc = s.vvc := by rcases hreg with rfl | rfl <;> simp
      refine ⟨k, _, rfl, hcalm.text, hcalm.implicit, hcalm.nLoose, ?_, ?_, hreg.mgr', ?_⟩
      · refine hpresent _ _ hcalm.implicit ?_
        intro j hj
        simp only [mergeInto, List.length_set, hedges] at hj
        exact Or.inl hj
      · intro key hk i hmem
        simp only [mergeInto, hvvc] at hmem
        exact hk i hmem
      · intro n hn hh d hd hhas
        cases d with
        | impl i =>
          refine ⟨?_, hhas⟩
          rw [present_impl] at hd ⊢
          simp only [mergeInto, hcalm.implicit] at hd
          exact hd
        | expl j =>
          have hj : j < s.edges.length := by
            rw [present_expl] at hd
            simp only [mergeInto, List.length_set, hedges] at hd
            exact hd
          refine ⟨present_expl.2 hj, ?_⟩
          have hent : s1.entry k = s.entry k := by unfold State.entry; rw [hedges]
          have hent' : s1.entry j = s.entry j := by unfold State.entry; rw [hedges]
          simp only [State.tags] at hhas ⊢
          rw [entry_merge] at hhas
          split at hhas
          · rename_i hjk
            obtain ⟨rfl, _⟩ := hjk
            have : (merged (s1.entry j) b).tags = createUnion (s1.entry j).tags b.tags := mergedTags_eq _ _
            rw [this, hent] at hhas
            rcases has_union.1 hhas with h | h
            · exact h
            · exact absurd h (hinh n hn hh)
          · rw [hent'] at hhas; exact hhas

theorem Reg.plain {s s' : State} (h : Reg s s') {key : Key} : Plain s' key ↔ Plain s key := by
  rcases h with rfl | rfl
  · exact Iff.rfl
  · unfold Plain; simp

theorem Reg.present {s s' : State} (h : Reg s s') {d : Edge} : Present s' d ↔ Present s d := by
  rcases h with rfl | rfl
  · exact Iff.rfl
  · cases d <;> simp [present_impl, present_expl]

theorem Reg.mgr {s s' : State} (h : Reg s s') : s'.mgr = s.mgr := by
  rcases h with rfl | rfl
  · rfl
  · simp

end Verif.Lattice
