import Verif.Puddle.TagsetLemmas

/-!
# Properties of the tagsets of the puddle parser

C179 the proper morphology labels of a tagset; C180 the attributes that are read from a label.
-/

namespace Verif.Puddle

open Verif.Numconv Spec

/-- A tagset whose parts of speech are declared as told. -/
def Declared (t : Tagset) (P : List (Str × List (Str × Bool))) : Prop :=
  t.parts = P.map (fun p => (p.1, p.2.map written)) ∧ ∀ p ∈ P, Sound p.1 p.2

/-- The proper labels are just those of the choices of values, with the values in the order of the
names of their attributes. -/
theorem C179_labels {t : Tagset} {P : List (Str × List (Str × Bool))} (h : Declared t P) (s : Str) :
    t.checkMorphology s = true ↔
      ∃ p ∈ P, ∃ c, Choice t.values p.2 c ∧ ∃ c', c'.Perm c ∧ Ordered c' ∧ s = label p.1 c' := by
  unfold Tagset.checkMorphology Tagset.labels
  rw [h.1]
  simp only [List.contains_iff_mem, List.mem_flatMap, List.mem_map]
  have key : ∀ p ∈ P, ∀ c, Choice t.values p.2 c → ∃ c' : List (Str × Str), c'.Perm c ∧ Ordered c' ∧
      morphString (insertAll c [(b!"pos", p.1)]) = label p.1 c' := by
    intro p hp c hc
    have hs := h.2 p hp
    have hsub := choice_names hc
    exact morphString_choice hs.1 (hsub.nodup hs.2.1) fun hx => hs.2.2.1 (hsub.subset hx)
  constructor
  · rintro ⟨_, ⟨p, hp, rfl⟩, m, hm, rfl⟩
    obtain ⟨m0, hm0, c, hc, rfl⟩ := (fold_labels t _ _ _ (h.2 p hp).2.2.2).1 hm
    rw [List.mem_singleton] at hm0
    subst hm0
    obtain ⟨c', h1, h2, h3⟩ := key p hp c hc
    exact ⟨p, hp, c, hc, c', h1, h2, h3⟩
  · rintro ⟨p, hp, c, hc, c', h1, h2, rfl⟩
    obtain ⟨d, g1, g2, g3⟩ := key p hp c hc
    refine ⟨_, ⟨p, hp, rfl⟩, _, (fold_labels t _ _ _ (h.2 p hp).2.2.2).2
      ⟨_, List.mem_singleton.2 rfl, c, hc, rfl⟩, ?_⟩
    rw [g3, ordered_unique (h1.trans g1.symm) h2 g2]

/-- If the attributes of the parts of speech are declared in the order of their names, the labels with
the values in the order of the declaration are the proper ones. -/
theorem C179_order_partial {t : Tagset} {P : List (Str × List (Str × Bool))} (h : Declared t P)
    (ho : ∀ p ∈ P, (p.2.map Prod.fst).Pairwise (· < ·)) (s : Str) :
    t.checkMorphology s = true ↔ ∃ p ∈ P, ∃ c, Choice t.values p.2 c ∧ s = label p.1 c := by
  have hc : ∀ p ∈ P, ∀ c, Choice t.values p.2 c → Ordered c := by
    intro p hp c hc
    have := (ho p hp).sublist (choice_names hc)
    rwa [List.pairwise_map] at this
  rw [C179_labels h]
  constructor
  · rintro ⟨p, hp, c, h1, c', h2, h3, rfl⟩
    refine ⟨p, hp, c, h1, ?_⟩
    rw [ordered_unique h2 h3 (hc p hp c h1)]
  · rintro ⟨p, hp, c, h1, rfl⟩
    exact ⟨p, hp, c, h1, c, List.Perm.refl _, hc p hp c h1, rfl⟩

/-- The tagset of the examples. -/
def sample : Tagset where
  attrs := [(b!"number", [b!"sg", b!"pl"]), (b!"case", [b!"nom", b!"gen"])]
  parts := [(b!"subst", [b!"number", b!"case"]), (b!"adv", [b!"[number]"]), (b!"qub", [])]

/-- How the parts of speech of the sample are declared. -/
def sampleParts : List (Str × List (Str × Bool)) :=
  [(b!"subst", [(b!"number", false), (b!"case", false)]), (b!"adv", [(b!"number", true)]), (b!"qub", [])]

instance (n : Str) : Decidable (Plain n) := inferInstanceAs (Decidable (_ ∧ _))
instance (p : Str) (as : List (Str × Bool)) : Decidable (Sound p as) :=
  inferInstanceAs (Decidable (_ ∧ _ ∧ _ ∧ _))

theorem sample_declared : Declared sample sampleParts := by
  refine ⟨by decide +kernel, ?_⟩
  decide +kernel

/-- A label in the order in which its part of speech is declared is not a proper one. -/
theorem C179_order_false : ∃ (t : Tagset) (P : List (Str × List (Str × Bool))), Declared t P ∧
    ∃ p ∈ P, ∃ c, Choice t.values p.2 c ∧ t.checkMorphology (label p.1 c) = false := by
  refine ⟨sample, sampleParts, sample_declared, _, List.mem_cons_self,
    [(b!"number", b!"sg"), (b!"case", b!"nom")], ?_, by decide +kernel⟩
  exact .take (by decide +kernel) (.take (by decide +kernel) .nil)

/-- C179: the labels of the sample, with the case before the number. -/
example : sample.checkMorphology b!"subst:nom:sg" = true ∧ sample.checkMorphology b!"subst:sg:nom" = false ∧
    sample.checkMorphology b!"subst:nom" = false ∧ sample.checkMorphology b!"adv" = true ∧
    sample.checkMorphology b!"adv:pl" = true ∧ sample.checkMorphology b!"qub" = true := by decide +kernel

/-- C179: a declaration in the order of the names. -/
example : ∃ (t : Tagset) (P : List (Str × List (Str × Bool))), Declared t P ∧
    (∀ p ∈ P, (p.2.map Prod.fst).Pairwise (· < ·)) ∧ ∃ s, t.checkMorphology s = true := by
  refine ⟨{ sample with parts := [(b!"subst", [b!"case", b!"number"])] },
    [(b!"subst", [(b!"case", false), (b!"number", false)])], ⟨by decide +kernel, by decide +kernel⟩,
    by decide +kernel, b!"subst:nom:sg", by decide +kernel⟩

/-- From the label of a choice that leaves nothing open, in the order of the declaration, just the
choice and the part of speech are read. -/
theorem C180_read {t : Tagset} {p : Str} {as : List (Str × Bool)} {c : List (Str × Str)}
    (hl : t.parts.lookup p = some (as.map written)) (hs : Sound p as) (hp : Word p)
    (hw : ∀ q ∈ c, Word q.2) (h : Clear t.values as c) :
    ∃ m, t.getAttributes (label p c) = some m ∧ Ordered m ∧ m.Perm (c ++ [(b!"pos", p)]) := by
  refine ⟨insertAll c [(b!"pos", p)], ?_, insertAll_ordered (by simp [Ordered]), insertAll_perm ?_⟩
  · have hne : t.parts ≠ [] := by
      intro e; rw [e] at hl; simp [List.lookup] at hl
    unfold Tagset.getAttributes
    rw [if_neg hne, split_label hp.1 fun q hq => (hw q hq).1, List.map_cons, trim_word hp]
    have e : (c.map Prod.snd).map Unumsunt.trim = c.map Prod.snd := by
      rw [List.map_map]
      apply List.map_congr_left
      intro q hq
      exact trim_word (hw q hq)
    rw [e, posLoop, if_neg hs.1, hl]
    simp only [Option.isSome_some, if_true, minsert]
    split
    · rename_i he
      rw [List.map_eq_nil_iff] at he
      rw [he]; rfl
    · rw [attrLoop_clear h hs.2.2.2]
  · have hsub := choice_names (clear_choice h)
    rw [List.map_append, List.nodup_append]
    refine ⟨hsub.nodup hs.2.1, by simp, ?_⟩
    intro x hx y hy
    simp only [List.map_cons, List.map_nil, List.mem_singleton] at hy
    subst hy
    rintro rfl
    exact hs.2.2.1 (hsub.subset hx)

/-- What is read from a label whose part of speech is known is the part of speech and values in the
label, each for an attribute of the part of speech that can have it. -/
theorem C180_sound {t : Tagset} {p : Str} {as : List (Str × Bool)} {vs : List Str} {m : Morph}
    (hl : t.parts.lookup p = some (as.map written)) (hs : Sound p as) (hp : Word p)
    (hw : ∀ v ∈ vs, Word v)
    (h : t.getAttributes (label p (vs.map fun v => ([], v))) = some m) :
    ∀ q ∈ m, q = (b!"pos", p) ∨ (q.1 ∈ as.map Prod.fst ∧ q.2 ∈ t.values q.1 ∧ q.2 ∈ vs) := by
  have hne : t.parts ≠ [] := by
    intro e; rw [e] at hl; simp [List.lookup] at hl
  have hw' : ∀ q ∈ vs.map (fun v => (([] : Str), v)), Word q.2 := by
    intro q hq
    obtain ⟨v, hv, rfl⟩ := List.mem_map.1 hq
    exact hw v hv
  unfold Tagset.getAttributes at h
  rw [if_neg hne, split_label hp.1 fun q hq => (hw' q hq).1, List.map_cons, trim_word hp] at h
  have e : ((vs.map (fun v => (([] : Str), v))).map Prod.snd).map Unumsunt.trim = vs := by
    rw [List.map_map, List.map_map]
    conv_rhs => rw [← List.map_id vs]
    apply List.map_congr_left
    intro v hv
    exact trim_word (hw v hv)
  rw [e, posLoop, if_neg hs.1, hl] at h
  simp only [Option.isSome_some, if_true, minsert] at h
  intro q hq
  split at h
  · cases h
    left; simpa using hq
  · cases h
    rcases attrLoop_sound hs.2.2.2 hq with hq | hq
    · left; simpa using hq
    · exact Or.inr hq

/-- What reading each of several values would mean: every value of an attribute of the part of
speech is read. -/
def AllRead (t : Tagset) : Prop := ∀ (p : Str) (as : List (Str × Bool)) (vs : List Str) (m : Morph),
  t.parts.lookup p = some (as.map written) →
  Sound p as → (∀ v ∈ vs, Word v) →
  t.getAttributes (label p (vs.map fun v => ([], v))) = some m →
  ∀ v ∈ vs, (∃ n ∈ as.map Prod.fst, v ∈ t.values n) → v ∈ m.map Prod.snd

/-- It is false that all values that are known are read: after one that is not known the others
are lost, and so are those that are not in the order of the declaration, as in proper labels. -/
theorem C180_all_false : ¬ AllRead sample ∧
    sample.getAttributes b!"subst:xx:sg:nom" = some [(b!"pos", b!"subst")] ∧
    sample.getAttributes b!"subst:nom:sg" = some [(b!"case", b!"nom"), (b!"pos", b!"subst")] ∧
    sample.checkMorphology b!"subst:nom:sg" = true := by
  refine ⟨?_, by decide +kernel, by decide +kernel, by decide +kernel⟩
  intro h
  have := h b!"subst" [(b!"number", false), (b!"case", false)] [b!"nom", b!"sg"]
    [(b!"case", b!"nom"), (b!"pos", b!"subst")] (by decide +kernel) (by decide +kernel)
    (by
      intro v hv
      simp only [List.mem_cons, List.not_mem_nil, or_false] at hv
      rcases hv with rfl | rfl <;> refine ⟨by decide +kernel, by decide +kernel⟩) (by decide +kernel)
    b!"sg" (by simp) ⟨b!"number", by simp, by decide +kernel⟩
  revert this
  decide +kernel

/-- A label of an unknown part of speech with attributes leads outside of the map. -/
theorem C180_unknown_false : ∃ t : Tagset, ∃ s, t.getAttributes s = none :=
  ⟨sample, b!"xyz:sg", by decide +kernel⟩

/-- With known parts of speech this does not happen. -/
theorem C180_unknown_partial {t : Tagset} {p : Str} {vs : List Str} (hp : Word p) (hne : p ≠ [])
    (hw : ∀ v ∈ vs, Word v) (hl : vs = [] ∨ (t.parts.lookup p).isSome) :
    (t.getAttributes (label p (vs.map fun v => ([], v)))).isSome := by
  have hw' : ∀ q ∈ vs.map (fun v => (([] : Str), v)), Word q.2 := by
    intro q hq
    obtain ⟨v, hv, rfl⟩ := List.mem_map.1 hq
    exact hw v hv
  unfold Tagset.getAttributes
  split
  · rfl
  rw [split_label hp.1 fun q hq => (hw' q hq).1, List.map_cons, trim_word hp]
  have e : ((vs.map (fun v => (([] : Str), v))).map Prod.snd).map Unumsunt.trim = vs := by
    rw [List.map_map, List.map_map]
    conv_rhs => rw [← List.map_id vs]
    apply List.map_congr_left
    intro v hv
    exact trim_word (hw v hv)
  rw [e, posLoop, if_neg hne]

  split
  · rfl
  · rename_i h0
    rcases hl with hl | hl
    · exact absurd hl h0
    · obtain ⟨as, ha⟩ := Option.isSome_iff_exists.1 hl
      rw [ha]; rfl

/-- C180: a label of the sample is read. -/
example : sample.getAttributes b!"subst:sg:nom" =
    some [(b!"case", b!"nom"), (b!"number", b!"sg"), (b!"pos", b!"subst")] := by decide +kernel

/-- C180: the hypotheses hold of the sample. -/
example : sample.parts.lookup b!"subst" = some ([(b!"number", false), (b!"case", false)].map written) ∧
    Sound b!"subst" [(b!"number", false), (b!"case", false)] ∧ Word b!"subst" ∧ Word b!"sg" ∧
    Clear sample.values [(b!"number", false), (b!"case", false)]
      [(b!"number", b!"sg"), (b!"case", b!"nom")] := by
  refine ⟨by decide +kernel, by decide +kernel, ⟨by decide +kernel, by decide +kernel⟩,
    ⟨by decide +kernel, by decide +kernel⟩, ?_⟩
  exact .take (by decide +kernel) (.take (by decide +kernel) .nil)

end Verif.Puddle
