import Verif.Tags.Spec

/-! Helper lemmas for `Props.lean`. -/
set_option linter.unusedVariables false
set_option linter.unusedSimpArgs false

namespace Verif.Tags
open Verif Spec

theorem getLsbD_bit {i : Nat} (h : i < 64) (j : Nat) : (bit i).getLsbD j = decide (i = j) := by
  simp only [bit, BitVec.getLsbD_ofNat, Nat.testBit_two_pow]
  by_cases e : i = j
  · subst e; simp [h]
  · simp [e]

/-- Invariant of the manager. -/
def Inv (m : Manager) : Prop :=
  m.names.Nodup ∧
  ∀ i, m.planeTags.getLsbD i = true → ∃ n, m.names[i]? = some n ∧ isPlaneName n = true

/-- Growth of the manager. -/
def Grows (m m' : Manager) : Prop :=
  m.names <+: m'.names ∧ ∀ i, m.planeTags.getLsbD i = true → m'.planeTags.getLsbD i = true

theorem grows_refl (m : Manager) : Grows m m := ⟨List.prefix_refl _, fun _ h => h⟩

theorem Grows.trans {a b c : Manager} (h : Grows a b) (h' : Grows b c) : Grows a c :=
  ⟨h.1.trans h'.1, fun i hi => h'.2 i (h.2 i hi)⟩

theorem Grows.get {a b : Manager} (h : Grows a b) {i : Nat} {n : Str} (hi : a.names[i]? = some n) :
    b.names[i]? = some n := by
  obtain ⟨t, ht⟩ := h.1
  rw [← ht]
  have : i < a.names.length := by
    rcases Nat.lt_or_ge i a.names.length with h | h
    · exact h
    · rw [List.getElem?_eq_none h] at hi; simp at hi
  rw [List.getElem?_append_left this]; exact hi

theorem insert_names (m : Manager) (name : Str) : name ∈ (m.insert name).names := by
  unfold Manager.insert; split <;> simp_all

theorem insert_plane (m : Manager) (name : Str) : (m.insert name).planeTags = m.planeTags := by
  unfold Manager.insert; split <;> rfl

theorem insert_prefix (m : Manager) (name : Str) : m.names <+: (m.insert name).names := by
  unfold Manager.insert; split
  · exact List.prefix_refl _
  · exact List.prefix_append _ _

theorem insert_grows (m : Manager) (name : Str) : Grows m (m.insert name) :=
  ⟨insert_prefix m name, by rw [insert_plane]; exact fun _ h => h⟩

theorem insert_inv {m : Manager} (h : Inv m) (name : Str) : Inv (m.insert name) := by
  refine ⟨?_, ?_⟩
  · unfold Manager.insert; split
    · exact h.1
    · rename_i hn
      rw [List.nodup_append]
      refine ⟨h.1, by simp, ?_⟩
      intro a ha b hb; simp at hb; subst hb; rintro rfl; exact hn ha
  · intro i hi
    rw [insert_plane] at hi
    obtain ⟨n, h1, h2⟩ := h.2 i hi
    exact ⟨n, (insert_grows m name).get h1, h2⟩

theorem getElem?_idxOf {l : List Str} {n : Str} (h : n ∈ l) : l[l.idxOf n]? = some n := by
  have := List.idxOf_lt_length_of_mem h
  rw [List.getElem?_eq_getElem this, List.getElem_idxOf]

theorem nodup_get {l : List Str} (h : l.Nodup) {i j : Nat} {n : Str} (hi : l[i]? = some n)
    (hj : l[j]? = some n) : i = j := by
  have hil : i < l.length := by
    rcases Nat.lt_or_ge i l.length with h | h
    · exact h
    · rw [List.getElem?_eq_none h] at hi; simp at hi
  have hjl : j < l.length := by
    rcases Nat.lt_or_ge j l.length with h | h
    · exact h
    · rw [List.getElem?_eq_none h] at hj; simp at hj
  rw [List.getElem?_eq_getElem hil] at hi
  rw [List.getElem?_eq_getElem hjl] at hj
  simp at hi hj
  exact (List.getElem_inj h).1 (hi.trans hj.symm)

theorem createOne_spec {m m' : Manager} {r r' : TagSet} {name : Str} (hm : Inv m)
    (h : createOne m r name = some (m', r')) :
    Inv m' ∧ Grows m m' ∧ ∃ i, i < 64 ∧ m'.names[i]? = some name ∧
      (∀ j, r'.getLsbD j = (r.getLsbD j || decide (i = j))) ∧
      (isPlaneName name = true → m'.planeTags.getLsbD i = true) := by
  simp only [createOne] at h
  split at h
  · simp at h
  · rename_i hlt
    simp only [Option.some.injEq, Prod.mk.injEq] at h
    obtain ⟨rfl, rfl⟩ := h
    have hin := insert_names m name
    have hget := getElem?_idxOf hin
    generalize hi : (m.insert name).names.idxOf name = i at *
    have hi64 : i < 64 := by omega
    have hinv := insert_inv hm name
    have hgr := insert_grows m name
    refine ⟨⟨hinv.1, ?_⟩, ⟨hgr.1, ?_⟩, i, hi64, hget, ?_, ?_⟩
    · intro j hj
      dsimp only at hj ⊢
      split at hj
      · rename_i hp
        rw [BitVec.getLsbD_or, getLsbD_bit hi64] at hj
        simp at hj
        rcases hj with hj | rfl
        · exact hinv.2 j hj
        · exact ⟨name, hget, hp⟩
      · exact hinv.2 j hj
    · intro j hj
      have := hgr.2 j hj
      dsimp only
      split
      · rw [BitVec.getLsbD_or, this]; rfl
      · exact this
    · intro j; rw [BitVec.getLsbD_or, getLsbD_bit hi64]
    · intro hp
      dsimp only
      rw [if_pos hp, BitVec.getLsbD_or, getLsbD_bit hi64]; simp

theorem createLoop_spec {m m' : Manager} {r r' : TagSet} {names : List Str} (hm : Inv m)
    (h : createLoop m r names = some (m', r')) :
    Inv m' ∧ Grows m m' ∧
      (∀ j, r'.getLsbD j = true ↔ r.getLsbD j = true ∨ ∃ n ∈ names, m'.names[j]? = some n) ∧
      (∀ j n, m'.names[j]? = some n → n ∈ names → isPlaneName n = true →
        m'.planeTags.getLsbD j = true) ∧
      (∀ n ∈ names, ∃ i, i < 64 ∧ m'.names[i]? = some n) := by
  induction names generalizing m r with
  | nil => simp [createLoop] at h; obtain ⟨rfl, rfl⟩ := h; exact ⟨hm, grows_refl _, by simp, by simp, by simp⟩
  | cons name names ih =>
    simp only [createLoop] at h
    split at h
    · simp at h
    · rename_i m1 r1 h1
      obtain ⟨i1, g1, i, hi64, hget, hr1, hp1⟩ := createOne_spec hm h1
      obtain ⟨i2, g2, hr2, hp2, hb2⟩ := ih i1 h
      have hget' := g2.get hget
      refine ⟨i2, g1.trans g2, ?_, ?_, ?_⟩
      · intro j
        rw [hr2 j, hr1 j]
        simp only [Bool.or_eq_true, decide_eq_true_eq, List.mem_cons, exists_eq_or_imp]
        constructor
        · rintro ((h | rfl) | h)
          · exact Or.inl h
          · exact Or.inr (Or.inl hget')
          · exact Or.inr (Or.inr h)
        · rintro (h | h | h)
          · exact Or.inl (Or.inl h)
          · exact Or.inl (Or.inr (nodup_get i2.1 hget' h))
          · exact Or.inr h
      · intro j n hj hn hp
        simp only [List.mem_cons] at hn
        rcases hn with rfl | hn
        · have := nodup_get i2.1 hget' hj
          subst this
          exact g2.2 _ (hp1 hp)
        · exact hp2 j n hj hn hp
      · intro n hn
        simp only [List.mem_cons] at hn
        rcases hn with rfl | hn
        · exact ⟨i, hi64, hget'⟩
        · exact hb2 n hn

theorem create_spec {m m' : Manager} {t : TagSet} {names : List Str} (hm : Inv m)
    (h : createTagCollection m names = some (m', t)) :
    Inv m' ∧ Grows m m' ∧
      (∀ j, t.getLsbD j = true ↔ ∃ n ∈ names, m'.names[j]? = some n) ∧
      (∀ j n, m'.names[j]? = some n → n ∈ names → isPlaneName n = true →
        m'.planeTags.getLsbD j = true) ∧
      (∀ n ∈ names, ∃ i, i < 64 ∧ m'.names[i]? = some n) := by
  have := createLoop_spec hm h
  simpa using this

theorem later_spec {m m' : Manager} (h : Later m m') (hm : Inv m) : Inv m' ∧ Grows m m' := by
  induction h with
  | refl => exact ⟨hm, grows_refl _⟩
  | create _ h2 ih =>
    obtain ⟨i1, g1⟩ := ih
    obtain ⟨i2, g2, _⟩ := create_spec i1 h2
    exact ⟨i2, g1.trans g2⟩
  | @isThere m1 m2 name t b _ h2 ih =>
    obtain ⟨i1, g1⟩ := ih
    simp only [Tags.isThere] at h2
    split at h2
    · simp at h2
    · simp at h2
      rw [← h2.1]
      exact ⟨insert_inv i1 _, g1.trans (insert_grows _ _)⟩

theorem inv_initial : Inv initial := by
  refine ⟨by simp [initial], ?_⟩
  intro i hi
  simp [initial] at hi

theorem reachable_inv {m : Manager} (h : Reachable m) : Inv m := (later_spec h inv_initial).1

theorem later_trans {a b c : Manager} (h : Later a b) (h' : Later b c) : Later a c := by
  induction h' with
  | refl => exact h
  | create _ h2 ih => exact .create ih h2
  | isThere _ h2 ih => exact .isThere ih h2

/-- What is known of a collection made with the manager. -/
theorem made_spec {m : Manager} {t : TagSet} (h : Made m t) :
    Inv m ∧ (∀ j, t.getLsbD j = true → ∃ n, m.names[j]? = some n) ∧
      (∀ j n, t.getLsbD j = true → m.names[j]? = some n → isPlaneName n = true →
        m.planeTags.getLsbD j = true) := by
  induction h with
  | empty hr => exact ⟨reachable_inv hr, by simp, by simp⟩
  | create hr hc =>
    obtain ⟨h1, h2, h3, h4, h5⟩ := create_spec (reachable_inv hr) hc
    refine ⟨h1, ?_, ?_⟩
    · intro j hj
      obtain ⟨n, _, hn⟩ := (h3 j).1 hj
      exact ⟨n, hn⟩
    · intro j n hj hn hp
      obtain ⟨n', hn1, hn2⟩ := (h3 j).1 hj
      rw [hn] at hn2; simp at hn2; subst hn2
      exact h4 j n hn hn1 hp
  | later _ hl ih =>
    obtain ⟨h1, h2, h3⟩ := ih
    obtain ⟨i1, g1⟩ := later_spec hl h1
    refine ⟨i1, ?_, ?_⟩
    · intro j hj
      obtain ⟨n, hn⟩ := h2 j hj
      exact ⟨n, g1.get hn⟩
    · intro j n hj hn hp
      obtain ⟨n', hn'⟩ := h2 j hj
      have := g1.get hn'
      rw [hn] at this; simp at this; subst this
      exact g1.2 j (h3 j n hj hn' hp)
  | union _ _ iha ihb =>
    refine ⟨iha.1, ?_, ?_⟩
    · intro j hj
      simp [createUnion] at hj
      exact hj.elim (iha.2.1 j) (ihb.2.1 j)
    · intro j n hj hn hp
      simp [createUnion] at hj
      exact hj.elim (fun h => iha.2.2 j n h hn hp) (fun h => ihb.2.2 j n h hn hp)
  | inter _ _ iha ihb =>
    refine ⟨iha.1, ?_, ?_⟩
    · intro j hj
      simp [createIntersection] at hj
      exact iha.2.1 j hj.1
    · intro j n hj hn hp
      simp [createIntersection] at hj
      exact iha.2.2 j n hj.1 hn hp

theorem isSubset_iff (a b : TagSet) :
    isSubset a b = true ↔ ∀ j, a.getLsbD j = true → b.getLsbD j = true := by
  simp only [isSubset, beq_iff_eq]
  constructor
  · intro h j hj
    rw [← h] at hj; simp at hj; exact hj.2
  · intro h
    apply BitVec.eq_of_getLsbD_eq
    intro j hj
    simp only [BitVec.getLsbD_and]
    cases ha : a.getLsbD j with
    | false => simp
    | true => simp [h j ha]

theorem matches_iff (t : TagSet) (mask : Mask) :
    «matches» t mask = true ↔ mask.none_ = false ∧
      (mask.any = true ∨ ∃ alt ∈ mask.alts, ∀ j, alt.getLsbD j = true → t.getLsbD j = true) := by
  unfold «matches»
  split
  · simp_all
  · split
    · simp_all
    · simp_all [isSubset_iff]

theorem isPlaneName_iff (n : Str) : isPlaneName n = true ↔ PlaneName n := by
  unfold isPlaneName PlaneName
  cases n with
  | nil => simp
  | cons b s => simp

/-- The names of the bits from `i` on. -/
theorem namesFrom_spec (m : Manager) (t : TagSet) (hn : m.names.Nodup) (i : Nat)
    (ht : ∀ j, i ≤ j → t.getLsbD j = true → ∃ n, m.names[j]? = some n) :
    ∃ l, namesFrom m t i = some l ∧ l.Nodup ∧
      ∀ n, n ∈ l ↔ ∃ j, i ≤ j ∧ m.names[j]? = some n ∧ t.getLsbD j = true := by
  fun_induction namesFrom m t i with
  | case1 i h hb name rest hrest hr ih =>
    obtain ⟨l, h1, h2, h3⟩ := ih (fun j hj => ht j (by omega))
    rw [hrest] at h1; simp at h1; subst h1
    refine ⟨name :: rest, rfl, ?_, ?_⟩
    · rw [List.nodup_cons]
      refine ⟨?_, h2⟩
      intro hm
      obtain ⟨j, hj, hj2, _⟩ := (h3 name).1 hm
      have := nodup_get hn hr hj2
      omega
    · intro n
      rw [List.mem_cons, h3]
      constructor
      · rintro (rfl | ⟨j, hj, hj2⟩)
        · exact ⟨i, by omega, hr, hb⟩
        · exact ⟨j, by omega, hj2⟩
      · rintro ⟨j, hj, hj2, hj3⟩
        by_cases e : j = i
        · subst e; rw [hr] at hj2; simp at hj2; exact Or.inl hj2.symm
        · exact Or.inr ⟨j, by omega, hj2, hj3⟩
  | case2 i h hb x ih =>
    exfalso
    obtain ⟨n, hn'⟩ := ht i (by omega) hb
    obtain ⟨l, h1, _⟩ := ih (fun j hj => ht j (by omega))
    exact x n l hn' h1
  | case3 i h hb ih =>
    obtain ⟨l, h1, h2, h3⟩ := ih (fun j hj => ht j (by omega))
    refine ⟨l, h1, h2, ?_⟩
    intro n; rw [h3]
    constructor
    · rintro ⟨j, hj, hj2⟩; exact ⟨j, by omega, hj2⟩
    · rintro ⟨j, hj, hj2, hj3⟩
      by_cases e : j = i
      · subst e; exact absurd hj3 hb
      · exact ⟨j, by omega, hj2, hj3⟩
  | case4 i h =>
    refine ⟨[], rfl, by simp, ?_⟩
    intro n
    simp only [List.not_mem_nil, false_iff, not_exists]
    rintro j ⟨h1, h2, h3⟩
    have : t.getLsbD j = false := BitVec.getLsbD_of_ge t j (by omega)
    simp [this] at h3

end Verif.Tags
