import Verif.Lattice.PropsEdges

/-!
Property theorems C52 (an added edge is the annotation that was asked for).
-/
set_option linter.unusedVariables false
set_option linter.unusedSimpArgs false

namespace Verif.Lattice
open Verif Verif.Tags Verif.Tags.Spec Verif.Lattice.Spec

/-- What `addEdge` was asked for is to be found at the edge. -/
structure Says (s s' : State) (a : Args) (e : Edge) : Prop where
  present : Present s' e
  src : s'.src e = a.src
  tgt : s'.tgt e = a.tgt
  item : s'.item e = .ok a.item
  tags : SubTags a.tags (s'.tags e)
  plane : ∀ n, PlaneName n → (Has s'.mgr (s'.tags e) n ↔ NewPlane s a n)
  score : a.score ≤ s'.score e
  part : ∃ ps p, s'.parts e = ps ++ [p] ∧ p.seq = a.seq ∧ p.score = a.score ∧ p.ruleId = a.ruleId ∧
    p.treeChoice = a.treeChoice

theorem symbol_no_plane {s : State} (hi : Inv s) {n : Str} (hp : PlaneName n) : ¬ Has s.mgr symbolTag n := by
  rintro ⟨j, hj, hb⟩
  rw [symbolTag_bits] at hb
  simp only [decide_eq_true_eq] at hb
  subst hb
  obtain ⟨t, ht⟩ := hi.names
  rw [← ht] at hj
  simp at hj
  subst hj
  have := (isPlaneName_iff _).2 hp
  simp [isPlaneName] at this

theorem inherit_sub {s : State} (a : Args) : SubTags a.tags (inheritTags s a).tags := by
  intro i h
  unfold inheritTags
  dsimp only
  split
  · simp [createUnion, h]
  · exact h

theorem subTags_union_right {a b : TagSet} : SubTags b (createUnion a b) := by
  intro i h; simp [createUnion, h]

theorem subTags_trans' {a b c : TagSet} (h : SubTags a b) (h' : SubTags b c) : SubTags a c := fun i x => h' i (h i x)

/-- A new edge of the graph. -/
theorem says_new {s s1 : State} (hi : Inv s) {a b : Args} (hq : s.validSequence a.seq = true) (ha : Okay s.mgr a.tags)
    (hb1 : b.src = a.src) (hb2 : b.tgt = a.tgt) (hb3 : b.item = a.item) (hb4 : b.seq = a.seq) (hb5 : b.score = a.score)
    (hb6 : b.ruleId = a.ruleId) (hb7 : b.treeChoice = a.treeChoice)
    (ht : b.tags = (inheritTags s a).tags ∨ b.tags = createUnion symbolTag (inheritTags s a).tags)
    (hm : s1.mgr = s.mgr) {e : Edge} {s' : State} (hx : Explicit e) (h : (addNewRest s1 b) = (e, s')) : Says s s' a e := by
  unfold addNewRest at h
  split at h
  · simp only [addImplicit, Prod.mk.injEq] at h
    rw [← h.1] at hx
    exact absurd hx (by simp [Explicit])
  · simp only [addExplicit, Prod.mk.injEq] at h
    obtain ⟨rfl, hs'⟩ := h
    have hmgr : s'.mgr = s.mgr := by rw [← hs']; exact hm
    have hedges : s'.edges = s1.edges ++ [⟨b.src, b.tgt, b.item, b.tags, b.score,
        [⟨b.tags, b.seq, b.score, b.ruleId, b.treeChoice⟩]⟩] := by rw [← hs']
    clear hs'
    have he : s'.entry s1.edges.length = ⟨b.src, b.tgt, b.item, b.tags, b.score,
        [⟨b.tags, b.seq, b.score, b.ruleId, b.treeChoice⟩]⟩ := by
      unfold State.entry; rw [hedges]; simp
    refine ⟨present_expl.2 (by rw [hedges]; simp), ?_, ?_, ?_, ?_, ?_, ?_, ?_⟩
    · simp only [State.src, he]; exact hb1
    · simp only [State.tgt, he]; exact hb2
    · simp only [State.item, he]; rw [hb3]
    · simp only [State.tags, he]
      rcases ht with ht | ht <;> rw [ht]
      · exact inherit_sub a
      · exact subTags_trans' (inherit_sub a) subTags_union_right
    · intro n hp
      simp only [State.tags, he, hmgr]
      rw [← has_inherit hi ha hq hp]
      rcases ht with ht | ht <;> rw [ht]
      rw [has_union]
      constructor
      · rintro (h | h)
        · exact absurd h (symbol_no_plane hi hp)
        · exact h
      · exact Or.inr
    · simp only [State.score, he]; rw [hb5]
    · refine ⟨[], ⟨b.tags, b.seq, b.score, b.ruleId, b.treeChoice⟩, ?_, hb4, hb5, hb6, hb7⟩
      simp only [State.parts, he]; rfl

/-- **C52** An annotation that was added, in whatever state of the lattice, is there: the edge has the ends, the item, at least
the tags and the score asked for, exactly the plane tags that were asked for (or, if there were none, those of the parts),
and as its last partition the sequence asked for.  Not covered: implicit symbol edges, see `C52_implicit` and
`C52_implicit_false`. -/
theorem C52_added_partial {s s' : State} (h : Lattice.Spec.Reachable s) {a : Args} {e : Edge} (hm : Made s.mgr a.tags)
    (hr : addEdge s a = (.ok e, s')) (hx : Explicit e) : Says s s' a e := by
  have hi := reachable_inv' h
  have ho := okay_of_made hm
  have hq : s.validSequence a.seq = true := by
    unfold addEdge at hr
    split at hr
    · rename_i hv; simp only [Bool.and_eq_true] at hv; exact hv.2
    · simp at hr
  have hout := addEdge_outcome hi ho
  rw [hr] at hout
  generalize hpair : ((Except.ok e : Except Exn Edge), s') = r at hout
  cases hout with
  | rejected _ _ => simp at hpair
  | @merged s1 k hq1 he1 hk hkey =>
    simp only [Prod.mk.injEq, Except.ok.injEq] at hpair
    obtain ⟨rfl, rfl⟩ := hpair
    obtain ⟨c1, c2, c3, c4⟩ := merge_effect hq1 hk (inheritTags s a)
    have hmgr : (mergeInto s1 k (inheritTags s a)).mgr = s.mgr := hq1.alike.mgr
    have hl : s1.edges.length = s.edges.length := by rw [hq1.alike.edges]
    have hsame := (isoplanar_mem he1).2
    have hpl := (samePlane_iff hi.mgrInv (inherit_okay hi ho hq) (hi.entries k hk).okay).1 hsame
    simp only [Entry.key, Args.key, Key.mk.injEq] at hkey
    have hent : (mergeInto s1 k (inheritTags s a)).entry k = merged (s.entry k) (inheritTags s a) := by
      rw [entry_merge, hl, hq1.alike.entry]; simp [hk]
    refine ⟨(c1 _).2 (present_expl.2 hk), ?_, ?_, ?_, ?_, ?_, ?_, ?_⟩
    · simp only [State.src, hent]; exact hkey.1
    · simp only [State.tgt, hent]; exact hkey.2.1
    · simp only [State.item, hent]; exact congrArg Except.ok hkey.2.2
    · rw [c3]; exact subTags_trans' (inherit_sub a) subTags_union_right
    · intro n hp
      rw [c3, hmgr, has_union, ← has_inherit hi ho hq hp]
      have := hpl n hp
      constructor
      · rintro (x | x)
        · exact this.2 x
        · exact x
      · exact Or.inr
    · simp only [State.score, hent]
      show a.score ≤ (merged (s.entry k) (inheritTags s a)).score
      simp only [merged]
      show a.score ≤ if a.score > (s.entry k).score then a.score else (s.entry k).score
      split
      · exact le_rfl
      · rename_i hgt; exact not_lt.1 hgt
    · exact ⟨_, _, c2, rfl, rfl, rfl, rfl⟩
  | new hc _ hn =>
    generalize hr2 : r = r2 at hn
    cases hn with
    | failed _ _ _ => rw [← hpair] at hr2; simp at hr2
    | @added s1 hmid =>
      rw [← hpair] at hr2
      simp only [Prod.mk.injEq, Except.ok.injEq] at hr2
      exact says_new (b := inheritTags s a) hi hq ho rfl rfl rfl rfl rfl rfl rfl (.inl rfl) hmid.alike.mgr hx (Prod.ext hr2.1.symm hr2.2.symm)
  | @promoted s1 _ i hc _ _ _ _ hmid1 hn =>
    generalize hr2 : r = r2 at hn
    cases hn with
    | failed _ _ _ => rw [← hpair] at hr2; simp at hr2
    | @added s2 hmid =>
      rw [← hpair] at hr2
      simp only [Prod.mk.injEq, Except.ok.injEq] at hr2
      exact says_new (b := { inheritTags s a with tags := createUnion symbolTag (inheritTags s a).tags }) hi hq ho rfl rfl rfl rfl rfl
        rfl rfl (.inr rfl) (hmid.alike.mgr.trans hmid1.alike.mgr) hx
        (Prod.ext hr2.1.symm hr2.2.symm)

/-- A new implicit edge. -/
theorem implicit_new {s s1 s' : State} (hi : Inv s1) {b : Args} {e : Edge} (ha : Alike s s1) (ht : s.validVertex b.tgt = true)
    (hl : b.src ≠ b.tgt) (hf : ¬ (0 ≤ b.src ∧ 0 ≤ b.tgt ∧ b.src > b.tgt)) (hx : ¬ Explicit e) (h : addNewRest s1 b = (e, s')) :
    Present s' e ∧ SymbolSpan s b.src b.tgt ∧ s'.src e = b.src ∧ s'.tgt e = b.tgt ∧ b.tags = symbolTag ∧ s'.tags e = symbolTag := by
  unfold addNewRest at h
  split at h
  · rename_i hc
    simp only [addImplicit, Prod.mk.injEq] at h
    obtain ⟨rfl, rfl⟩ := h
    simp only [implicitCondition, isLoose, Bool.and_eq_true, Bool.not_eq_true', decide_eq_true_eq, decide_eq_false_iff_not] at hc
    obtain ⟨⟨⟨⟨h1, h2⟩, h3⟩, h4⟩, h5⟩ := hc
    have hs : ((b.src.toNat : Nat) : Int) = b.src := by omega
    simp only [State.validVertex, Bool.and_eq_true, decide_eq_true_eq] at ht
    have hlt : b.src < s.text.length := by omega
    have hlen := hi.implicitLen
    rw [ha.text] at hlen
    refine ⟨present_impl.2 ?_, ⟨by omega, hlt, ?_⟩, hs, ?_, h3, rfl⟩
    · rw [bitAt_set, if_pos ⟨rfl, by omega⟩]
    · rw [← ha.symLen]; omega
    · show ((b.src.toNat + State.symLen _ b.src.toNat : Nat) : Int) = b.tgt
      rw [← h4]
      push_cast
      rw [hs]
      rfl
  · simp only [addExplicit, Prod.mk.injEq] at h
    rw [← h.1] at hx
    exact absurd trivial hx

/-- **C52** An edge is stored implicitly only if a symbol of the text was annotated with no other tag than "symbol"; then the
edge has the ends and the tags asked for. -/
theorem C52_implicit {s s' : State} (h : Lattice.Spec.Reachable s) {a : Args} {e : Edge} (hm : Made s.mgr a.tags)
    (hr : addEdge s a = (.ok e, s')) (hx : ¬ Explicit e) :
    Present s' e ∧ SymbolSpan s a.src a.tgt ∧ s'.src e = a.src ∧ s'.tgt e = a.tgt ∧ SubTags a.tags symbolTag ∧
      s'.tags e = symbolTag := by
  have hi := reachable_inv' h
  have ho := okay_of_made hm
  have hout := addEdge_outcome hi ho
  rw [hr] at hout
  generalize hpair : ((Except.ok e : Except Exn Edge), s') = r at hout
  cases hout with
  | rejected _ _ => simp at hpair
  | @merged s1 k hq1 he1 hk hkey =>
    simp only [Prod.mk.injEq, Except.ok.injEq] at hpair
    rw [hpair.1] at hx
    exact absurd trivial hx
  | new hc _ hn =>
    generalize hr2 : r = r2 at hn
    cases hn with
    | failed _ _ _ => rw [← hpair] at hr2; simp at hr2
    | @added s1 hmid =>
      rw [← hpair] at hr2
      simp only [Prod.mk.injEq, Except.ok.injEq] at hr2
      obtain ⟨h1, h2, h3, h4, h5, h6⟩ := implicit_new (inv_micros hi hmid.micros) hmid.alike hc.tgt hc.loop hc.forward hx
        (Prod.ext hr2.1.symm hr2.2.symm)
      refine ⟨h1, h2, h3, h4, ?_, h6⟩
      rw [← h5]
      exact inherit_sub a
  | @promoted s1 _ i hc _ _ _ _ hmid1 hn =>
    generalize hr2 : r = r2 at hn
    cases hn with
    | failed _ _ _ => rw [← hpair] at hr2; simp at hr2
    | @added s2 hmid =>
      rw [← hpair] at hr2
      simp only [Prod.mk.injEq, Except.ok.injEq] at hr2
      have hal := hmid1.alike.trans hmid.alike
      obtain ⟨h1, h2, h3, h4, h5, h6⟩ := implicit_new (b := { inheritTags s a with tags := createUnion symbolTag (inheritTags s a).tags })
        (inv_micros hi (hmid1.micros.trans hmid.micros)) hal hc.tgt hc.loop hc.forward hx (Prod.ext hr2.1.symm hr2.2.symm)
      refine ⟨h1, h2, h3, h4, ?_, h6⟩
      have h5 : createUnion symbolTag (inheritTags s a).tags = symbolTag := h5
      rw [← h5]
      exact subTags_trans' (inherit_sub a) subTags_union_right

/-- The hypotheses of `C52_added_partial`: a new edge, an edge merged with an old one, and an implicit edge made explicit. -/
example : Lattice.Spec.Reachable planes1 ∧ (addEdge planes1 { sampleArgs2 with tags := bit 2 ||| bit 3 }).1 = .ok (.expl 1) ∧
    (addEdge sample2 sampleArgs3).1 = .ok (.expl 0) ∧ (addEdge sample1 twiceArgs).1 = .ok (.expl 0) ∧
    sample1.tags (.impl 0) = symbolTag ∧ bitAt sample1.implicit 0 = true ∧ Made sample1.mgr twiceArgs.tags :=
  ⟨planes1_reachable, by decide +kernel, by decide +kernel, by decide +kernel, by decide +kernel, by decide +kernel,
    made_token sample1_reachable⟩

/-- An edge made of the edge of `planes2` in plane "!p"; it inherits the plane tag. -/
def inheritArgs : Args := { src := 0, tgt := 3, item := ⟨[80], [], []⟩, tags := bit 2, seq := ⟨[⟨.expl 1, none⟩], 0, 0⟩ }

example : (addEdge planes2 inheritArgs).1 = .ok (.expl 2) ∧ (addEdge planes2 inheritArgs).2.tags (.expl 2) = (bit 2 ||| bit 3) ∧
    Made planes2.mgr inheritArgs.tags :=
  ⟨by decide +kernel, by decide +kernel, made_token planes2_reachable⟩

/-- A symbol edge with its own item and score. -/
def odd0 : State := appendString initial [97]
def oddArgs : Args := { src := 0, tgt := 1, item := ⟨[84], [], []⟩, tags := symbolTag, score := 5 }

/-- The hypotheses of `C52_implicit`. -/
example : Lattice.Spec.Reachable odd0 ∧ Made odd0.mgr oddArgs.tags ∧ (addEdge odd0 oddArgs).1 = .ok (.impl 0) :=
  ⟨reachable_append .refl _, made_symbol (reachable_append .refl _), by decide +kernel⟩

/-- **C52** is wrong for implicit edges: an edge over one symbol with the tag "symbol" does not keep the item and the score
it was added with. -/
theorem C52_implicit_false : ∃ (s s' : State) (a : Args) (e : Edge), Lattice.Spec.Reachable s ∧ Made s.mgr a.tags ∧
    addEdge s a = (.ok e, s') ∧ s'.item e ≠ .ok a.item ∧ s'.score e < a.score := by
  refine ⟨odd0, (addEdge odd0 oddArgs).2, oddArgs, .impl 0, reachable_append .refl _, made_symbol (reachable_append .refl _),
    Prod.ext (by decide +kernel) rfl, by decide +kernel, by decide +kernel⟩

end Verif.Lattice
