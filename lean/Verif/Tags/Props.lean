import Verif.Tags.Lemmas2

/-!
Property theorems C12 (masks), C13 (tag names), C14 (planes).
-/
set_option linter.unusedVariables false
set_option linter.unusedSimpArgs false

namespace Verif.Tags
open Verif Spec

/-- **C12** A mask made of alternatives of conjunctions of names matches a collection exactly when
all names of some alternative are in it — whatever was registered before, in between or later. -/
theorem C12_matches {m m1 m2 : Manager} {cs : List (List Str)} {mask : Mask} {t : TagSet}
    (hm : Reachable m) (h : getAlternativeMaskFromTagNames m cs = some (m1, mask))
    (hl : Later m1 m2) : «matches» t mask = true ↔ ∃ c ∈ cs, ∀ n ∈ c, Has m2 t n := by
  simp only [getAlternativeMaskFromTagNames, Option.map_eq_some_iff, Prod.exists,
    Prod.mk.injEq] at h
  obtain ⟨m1', ts, h1, rfl, rfl⟩ := h
  obtain ⟨i1, g1, b1, b2, b3⟩ := createAll_spec (reachable_inv hm) h1
  obtain ⟨i2, g2⟩ := later_spec hl i1
  rw [matches_iff]
  simp only [Mask.ofAlts, Bool.false_eq_true, false_or, true_and]
  constructor
  · rintro ⟨alt, ha, hs⟩
    obtain ⟨c, hc, hb⟩ := b1 alt ha
    refine ⟨c, hc, ?_⟩
    intro n hn
    obtain ⟨i, hi⟩ := b3 c hc n hn
    exact ⟨i, g2.get hi, hs i ((hb i).2 ⟨n, hn, hi⟩)⟩
  · rintro ⟨c, hc, hh⟩
    obtain ⟨alt, ha, hb⟩ := b2 c hc
    refine ⟨alt, ha, ?_⟩
    intro j hj
    obtain ⟨n, hn, hj2⟩ := (hb j).1 hj
    obtain ⟨i, hi, hi2⟩ := hh n hn
    have := nodup_get i2.1 hi (g2.get hj2)
    subst this; exact hi2

/-- **C12** The same for a mask written with `;` and `,`. -/
theorem C12_specification {m m1 m2 : Manager} {cs : List (List Str)} {mask : Mask} {t : TagSet}
    (hm : Reachable m) (hcs : cs ≠ []) (hplain : ∀ c ∈ cs, c ≠ [] ∧ ∀ n ∈ c, PlainName n)
    (h : getMask m (join 59 (cs.map (join 44))) = some (m1, mask)) (hl : Later m1 m2) :
    «matches» t mask = true ↔ ∃ c ∈ cs, ∀ n ∈ c, Has m2 t n := by
  simp only [getMask, splitMask_plain hcs hplain, if_neg hcs] at h
  exact C12_matches hm h hl

/-- **C12** The any-mask matches everything, the none-mask nothing. -/
theorem C12_any_none (t : TagSet) :
    «matches» t (Mask.ofBool true) = true ∧ «matches» t (Mask.ofBool false) = false := by
  simp [«matches», Mask.ofBool]

/-- **C12** Enlarging a collection never makes a mask stop matching. -/
theorem C12_monotone (a b : TagSet) (mask : Mask) (h : «matches» a mask = true) :
    «matches» (createUnion a b) mask = true := by
  rw [matches_iff] at h ⊢
  refine ⟨h.1, ?_⟩
  rcases h.2 with h | ⟨alt, ha, hs⟩
  · exact Or.inl h
  · refine Or.inr ⟨alt, ha, ?_⟩
    intro j hj
    simp [createUnion, hs j hj]

/-- **C12** Adding a language code to every alternative additionally requires the plane tag of the
language. -/
theorem C12_language {m m1 m2 : Manager} {cs : List (List Str)} {mask : Mask} {t : TagSet}
    {lang : Str} (hm : Reachable m)
    (h : getAlternativeMaskFromTagNames m (multiplyMaskListByLangCode cs lang) = some (m1, mask))
    (hl : Later m1 m2) :
    «matches» t mask = true ↔ Has m2 t (33 :: lang) ∧ ∃ c ∈ cs, ∀ n ∈ c, Has m2 t n := by
  rw [C12_matches hm h hl]
  simp only [multiplyMaskListByLangCode, List.mem_map]
  constructor
  · rintro ⟨_, ⟨c, hc, rfl⟩, hh⟩
    exact ⟨hh _ (by simp), c, hc, fun n hn => hh n (by simp [hn])⟩
  · rintro ⟨h1, c, hc, hh⟩
    refine ⟨_, ⟨c, hc, rfl⟩, ?_⟩
    intro n hn
    simp at hn
    rcases hn with hn | rfl
    · exact hh n hn
    · exact h1

/-- **C12** Masks that compare equal match the same collections (masks as the constructors make
them: not `any` and `none` at once). -/
theorem C12_equal_masks (a b : Mask) (ha : ¬ (a.any = true ∧ a.none_ = true))
    (hb : ¬ (b.any = true ∧ b.none_ = true)) (h : a.eq b = true) (t : TagSet) :
    «matches» t a = «matches» t b := by
  unfold Mask.eq at h
  unfold «matches»
  cases h1 : a.any <;> cases h2 : b.any <;> cases h3 : a.none_ <;> cases h4 : b.none_ <;> simp_all

/-- **C12** The "query" `isNone` changes what a mask of empty collections matches: before it matches
everything, afterwards nothing; for all other masks it changes nothing. -/
theorem C12_isNone_effect (mask : Mask) (t : TagSet) :
    («matches» t mask.isNone.2 = «matches» t mask) ∨
      (mask.isNone.1 = true ∧ «matches» t mask.isNone.2 = false ∧
        mask.none_ = false ∧ mask.any = false ∧ ∀ alt ∈ mask.alts, alt = 0) := by
  unfold Mask.isNone
  split
  · exact Or.inl rfl
  · split
    · exact Or.inl rfl
    · split
      · exact Or.inl rfl
      · rename_i h1 h2 h3
        right
        refine ⟨rfl, by simp [«matches»], by simpa using h1, by simpa using h2, ?_⟩
        intro alt ha
        simp at h3
        simpa using h3 alt ha

/-- The effect above is real: a mask of the empty collection. -/
theorem C12_isNone_witness : ∃ mask t, «matches» t mask = true ∧ «matches» t mask.isNone.2 = false :=
  ⟨Mask.ofTags 0, 0, by decide, by decide⟩

/-- **C13** The names of a collection created from a list of names are exactly the names given,
sorted and without repetition — also when asked for at any later time. -/
theorem C13_names {m m1 m2 : Manager} {names : List Str} {t : TagSet} (hm : Reachable m)
    (h : createTagCollection m names = some (m1, t)) (hl : Later m1 m2) :
    ∃ l, getTagNames m2 t = some l ∧ l.Pairwise (· < ·) ∧ ∀ n, n ∈ l ↔ n ∈ names := by
  obtain ⟨i1, g1, b1, _, b3⟩ := create_spec (reachable_inv hm) h
  obtain ⟨i2, g2⟩ := later_spec hl i1
  obtain ⟨l, h1, h2, h3⟩ := namesFrom_spec m2 t i2.1 0 (by
    intro j _ hj
    obtain ⟨n, _, hn⟩ := (b1 j).1 hj
    exact ⟨n, g2.get hn⟩)
  refine ⟨l.mergeSort (fun a b => decide (a ≤ b)), by simp [getTagNames, h1], ?_, ?_⟩
  · have hs : (l.mergeSort (fun a b => decide (a ≤ b))).Pairwise (fun a b => decide (a ≤ b) = true) := by
      apply List.pairwise_mergeSort
      · intro a b c hab hbc
        simp only [decide_eq_true_eq] at *
        exact List.le_trans hab hbc
      · intro a b
        simp only [Bool.or_eq_true, decide_eq_true_eq]
        exact List.le_total a b
    have hn : (l.mergeSort (fun a b => decide (a ≤ b))).Pairwise (· ≠ ·) :=
      ((List.mergeSort_perm l _).nodup_iff).2 h2
    refine (hs.and hn).imp ?_
    rintro a b ⟨hab, hne⟩
    simp only [decide_eq_true_eq] at hab
    exact Decidable.byContradiction fun hlt => hne (List.le_antisymm hab (List.not_lt.1 hlt))
  · intro n
    rw [(List.mergeSort_perm l _).mem_iff, h3]
    constructor
    · rintro ⟨j, _, hj, hb⟩
      obtain ⟨n', hn', hj'⟩ := (b1 j).1 hb
      have := g2.get hj'
      rw [hj] at this; simp at this; subst this; exact hn'
    · intro hn
      obtain ⟨i, _, hi⟩ := b3 n hn
      exact ⟨i, by omega, g2.get hi, (b1 i).2 ⟨n, hn, hi⟩⟩

/-- **C13** Creating a collection succeeds as long as at most 64 names are in use. -/
theorem C13_capacity {m : Manager} (hm : Reachable m) (names inUse : List Str)
    (h1 : ∀ n ∈ m.names, n ∈ inUse) (h2 : ∀ n ∈ names, n ∈ inUse) (h3 : inUse.length ≤ 64) :
    ∃ m' t, createTagCollection m names = some (m', t) := by
  have := createLoop_isSome m 0 names inUse (reachable_inv hm) h1 h2 h3
  obtain ⟨⟨m', t⟩, h⟩ := Option.isSome_iff_exists.1 this
  exact ⟨m', t, h⟩

/-- **C13** A comma-separated specification means the list of its names. -/
theorem C13_specification (names : List Str) (hne : names ≠ []) (h : ∀ n ∈ names, ∀ b ∈ n, b ≠ 44) :
    splitCollectionSpecification (join 44 names) = names :=
  splitCollection_plain names hne h

/-- **C13** `isThere` answers whether the collection contains the name. -/
theorem C13_isThere {m m' : Manager} {t : TagSet} {name : Str} {b : Bool} (hm : Made m t)
    (h : isThere m name t = some (m', b)) : b = true ↔ Has m t name := by
  obtain ⟨hi, h1, _⟩ := made_spec hm
  simp only [isThere] at h
  split at h
  · simp at h
  · simp only [Option.some.injEq, Prod.mk.injEq] at h
    obtain ⟨rfl, rfl⟩ := h
    have hget := getElem?_idxOf (insert_names m name)
    have hinv := insert_inv hi name
    constructor
    · intro hb
      obtain ⟨n, hn⟩ := h1 _ hb
      have := (insert_grows m name).get hn
      rw [hget] at this; simp at this; subst this
      exact ⟨_, hn, hb⟩
    · rintro ⟨i, hi, hb⟩
      have := nodup_get hinv.1 ((insert_grows m name).get hi) hget
      rw [← this]; exact hb

/-- **C14** `areInTheSamePlane` is an equivalence relation. -/
theorem C14_equivalence (m : Manager) : Equivalence (fun a b => areInTheSamePlane m a b = true) := by
  refine ⟨?_, ?_, ?_⟩ <;> simp only [areInTheSamePlane, beq_iff_eq]
  · intro a; trivial
  · intro a b h; exact h.symm
  · intro a b c h h'; exact h.trans h'

/-- **C14** Two collections are in the same plane exactly when they contain the same `!`-tags. -/
theorem C14_same_plane {m : Manager} {a b : TagSet} (ha : Made m a) (hb : Made m b) :
    areInTheSamePlane m a b = true ↔ ∀ n, PlaneName n → (Has m a n ↔ Has m b n) := by
  obtain ⟨hi, ha1, ha2⟩ := made_spec ha
  obtain ⟨_, hb1, hb2⟩ := made_spec hb
  have key : ∀ t, (∀ j n, t.getLsbD j = true → m.names[j]? = some n → isPlaneName n = true →
      m.planeTags.getLsbD j = true) → ∀ j n, m.names[j]? = some n → PlaneName n →
      ((onlyPlaneTags m t).getLsbD j = true ↔ Has m t n) := by
    intro t ht j n hj hp
    simp only [onlyPlaneTags, createIntersection, BitVec.getLsbD_and, Bool.and_eq_true]
    constructor
    · rintro ⟨_, h⟩; exact ⟨j, hj, h⟩
    · rintro ⟨i, hi2, h⟩
      have := nodup_get hi.1 hi2 hj
      subst this
      exact ⟨ht i n h hj ((isPlaneName_iff n).2 hp), h⟩
  simp only [areInTheSamePlane, beq_iff_eq]
  constructor
  · intro h n hp
    constructor
    · rintro ⟨i, hi2, hbit⟩
      have h1 := (key a ha2 i n hi2 hp).2 ⟨i, hi2, hbit⟩
      rw [h] at h1
      exact (key b hb2 i n hi2 hp).1 h1
    · rintro ⟨i, hi2, hbit⟩
      have h1 := (key b hb2 i n hi2 hp).2 ⟨i, hi2, hbit⟩
      rw [← h] at h1
      exact (key a ha2 i n hi2 hp).1 h1
  · intro h
    apply BitVec.eq_of_getLsbD_eq
    intro j hj
    rw [Bool.eq_iff_iff]
    by_cases hp : m.planeTags.getLsbD j = true
    · obtain ⟨n, hn, hpn⟩ := hi.2 j hp
      rw [isPlaneName_iff] at hpn
      rw [key a ha2 j n hn hpn, key b hb2 j n hn hpn, h n hpn]
    · simp [onlyPlaneTags, createIntersection, hp]

/-- **C14** Adding ordinary tags never moves a collection to another plane. -/
theorem C14_ordinary_tags {m m1 m2 : Manager} {a b : TagSet} {names : List Str} (ha : Made m a)
    (hm : Reachable m) (hn : ∀ n ∈ names, ¬ PlaneName n)
    (h : createTagCollection m names = some (m1, b)) :
    areInTheSamePlane m1 a (createUnion a b) = true := by
  have hb : Made m1 b := .create hm h
  have ha' : Made m1 a := .later ha (.create .refl h)
  rw [C14_same_plane ha' (.union ha' hb)]
  obtain ⟨i1, g1, b1, _, b3⟩ := create_spec (reachable_inv hm) h
  intro n hp
  constructor
  · rintro ⟨i, hi, hbit⟩
    exact ⟨i, hi, by simp [createUnion, hbit]⟩
  · rintro ⟨i, hi, hbit⟩
    simp [createUnion] at hbit
    rcases hbit with hbit | hbit
    · exact ⟨i, hi, hbit⟩
    · obtain ⟨n', hn', hi'⟩ := (b1 i).1 hbit
      rw [hi] at hi'; simp at hi'; subst hi'
      exact absurd hp (hn n hn')

/-- The hypotheses are met: on a new manager "token" and "!pl" can be registered, and then a mask
"token;!pl" made. -/
example : ∃ m t, createTagCollection initial [[116, 111, 107, 101, 110], [33, 112, 108]] = some (m, t) ∧
    Made m t ∧ ∃ m' mask, getMask m (join 59 [join 44 [[116, 111, 107, 101, 110]], join 44 [[33, 112, 108]]])
      = some (m', mask) := by
  obtain ⟨m, t, h⟩ := C13_capacity (m := initial) .refl [[116, 111, 107, 101, 110], [33, 112, 108]]
    [[115, 121, 109, 98, 111, 108], [116, 111, 107, 101, 110], [33, 112, 108]]
    (by simp [initial]) (by simp) (by simp)
  refine ⟨m, t, h, .create .refl h, ?_⟩
  have hs := splitMask_plain (cs := [[[116, 111, 107, 101, 110]], [[33, 112, 108]]]) (by simp)
    (by simp [PlainName])
  simp only [List.map_cons, List.map_nil] at hs
  have hn : m.names = [[115, 121, 109, 98, 111, 108], [116, 111, 107, 101, 110], [33, 112, 108]] := by
    simp [createTagCollection, createLoop, createOne, Manager.insert, initial, List.idxOf,
      List.findIdx, List.findIdx.go] at h
    rw [← h.1]
  simp only [getMask, hs]
  simp [getAlternativeMaskFromTagNames, createAll, createTagCollection, createLoop, createOne,
    Manager.insert, hn, List.idxOf, List.findIdx, List.findIdx.go]

end Verif.Tags
