import Verif.Puddle.Tagset
import Verif.Puddle.Spec
import Mathlib.Data.List.SplitOn
import Mathlib.Order.Lattice
import Mathlib.Data.List.Perm.Basic
import Mathlib.Data.List.Pairwise

/-! # Lemmas about tagsets -/

namespace Verif.Puddle

open Verif.Numconv Spec

theorem lt_irrefl' (a : Str) : ¬ a < a := List.lt_irrefl a
theorem lt_trans' {a b c : Str} (h1 : a < b) (h2 : b < c) : a < c := List.lt_trans h1 h2
theorem lt_tri {a b : Str} (h1 : ¬ a < b) (h2 : a ≠ b) : b < a := by
  rcases Std.lt_trichotomy a b with h | h | h
  · exact absurd h h1
  · exact absurd h h2
  · exact h

theorem mem_minsert {k v : Str} {m : Morph} {p : Str × Str} (h : p ∈ minsert k v m) :
    p = (k, v) ∨ p ∈ m := by
  induction m with
  | nil => simpa [minsert] using h
  | cons q m ih =>
    obtain ⟨k', v'⟩ := q
    rw [minsert] at h
    split at h
    · simpa using h
    · split at h
      · exact Or.inr h
      · rcases List.mem_cons.1 h with h | h
        · exact Or.inr (by rw [h]; exact List.mem_cons_self)
        · rcases ih h with h | h
          · exact Or.inl h
          · exact Or.inr (List.mem_cons_of_mem _ h)

theorem minsert_ordered {k v : Str} {m : Morph} (h : Ordered m) : Ordered (minsert k v m) := by
  induction m with
  | nil => simp [minsert, Ordered]
  | cons q m ih =>
    obtain ⟨k', v'⟩ := q
    unfold Ordered at h ih ⊢
    rw [List.pairwise_cons] at h
    rw [minsert]
    split
    · rename_i hk
      rw [List.pairwise_cons]
      refine ⟨?_, List.pairwise_cons.2 h⟩
      intro p hp
      rcases List.mem_cons.1 hp with rfl | hp
      · exact hk
      · exact lt_trans' hk (h.1 p hp)
    · split
      · exact List.pairwise_cons.2 h
      · rename_i h1 h2
        rw [List.pairwise_cons]
        refine ⟨?_, ih h.2⟩
        intro p hp
        rcases mem_minsert hp with rfl | hp
        · exact lt_tri h1 h2
        · exact h.1 p hp

theorem minsert_perm {k v : Str} {m : Morph} (h : k ∉ m.map Prod.fst) :
    (minsert k v m).Perm ((k, v) :: m) := by
  induction m with
  | nil => exact List.Perm.refl _
  | cons q m ih =>
    obtain ⟨k', v'⟩ := q
    simp only [List.map_cons, List.mem_cons, not_or] at h
    rw [minsert]
    split
    · exact List.Perm.refl _
    · rw [if_neg h.1]
      exact ((ih h.2).cons _).trans (List.Perm.swap _ _ _)

/-- Inserting some entries. -/
def insertAll (c : List (Str × Str)) (m : Morph) : Morph := c.foldl (fun m p => minsert p.1 p.2 m) m

theorem insertAll_ordered {c : List (Str × Str)} : ∀ {m : Morph}, Ordered m → Ordered (insertAll c m) := by
  induction c with
  | nil => intro m h; exact h
  | cons p c ih => intro m h; exact ih (minsert_ordered h)

theorem insertAll_perm {c : List (Str × Str)} : ∀ {m : Morph},
    ((c ++ m).map Prod.fst).Nodup → (insertAll c m).Perm (c ++ m) := by
  induction c with
  | nil => intro m _; exact List.Perm.refl _
  | cons p c ih =>
    intro m h
    have hn : p.1 ∉ m.map Prod.fst := by
      simp only [List.cons_append, List.map_cons, List.nodup_cons, List.map_append,
        List.mem_append, not_or] at h
      exact h.1.2
    have hp := minsert_perm (v := p.2) hn
    have hq : (c ++ minsert p.1 p.2 m).Perm (p :: (c ++ m)) :=
      (hp.append_left c).trans List.perm_middle
    have : (insertAll (p :: c) m) = insertAll c (minsert p.1 p.2 m) := rfl
    rw [this]
    refine (ih ?_).trans hq
    exact ((hq.map Prod.fst).nodup_iff).2 (by simpa using h)

theorem choice_names {vals : Str → List Str} {as : List (Str × Bool)} {c : List (Str × Str)}
    (h : Choice vals as c) : (c.map Prod.fst).Sublist (as.map Prod.fst) := by
  induction h with
  | nil => exact List.Sublist.refl _
  | take _ _ ih => exact ih.cons₂ _
  | leave _ ih => exact ih.cons _

theorem clear_choice {vals : Str → List Str} {as : List (Str × Bool)} {c : List (Str × Str)}
    (h : Clear vals as c) : Choice vals as c := by
  induction h with
  | nil => exact .nil
  | take hv _ ih => exact .take hv ih
  | leave _ _ ih => exact .leave ih

theorem plain_byte {c : Byte} (h : c ∉ b!" \t\n\r[]" ∧ c ≠ 11 ∧ c ≠ 12) :
    reSpace c = false ∧ c ≠ 91 ∧ c ≠ 93 := by
  simp only [List.mem_cons, List.not_mem_nil, or_false, not_or] at h
  simp [reSpace, h]

theorem optionalName_written {n : Str} {o : Bool} (h : Plain n) :
    optionalName (written (n, o)) = if o then some n else none := by
  cases o with
  | true =>
    simp only [written, if_true]
    rw [optionalName]
    rw [if_pos]
    · simp
    · refine ⟨by simp, by simpa using h.1, ?_⟩
      intro c hc
      simp only [List.dropLast_concat] at hc
      exact plain_byte (h.2 c hc)
  | false =>
    simp only [written, Bool.false_eq_true, if_false]
    cases n with
    | nil => exact absurd rfl h.1
    | cons x n =>
      have := (plain_byte (h.2 x List.mem_cons_self)).2.1
      unfold optionalName
      split
      · rename_i he; cases he; exact absurd rfl this
      · rfl

theorem bareName_plain {n : Str} (h : Plain n) : bareName n = n := by
  unfold bareName
  rw [if_neg]
  rintro ⟨h1, _⟩
  exact (plain_byte (h.2 91 (List.mem_of_mem_head? h1))).2.1 rfl

theorem bareName_written {n : Str} {o : Bool} (h : Plain n) : bareName (written (n, o)) = n := by
  cases o with
  | true =>
    simp only [written, if_true]
    unfold bareName
    have e : (91 :: (n ++ [93]) : Str).getLast? = some 93 := by
      rw [← List.cons_append, List.getLast?_append]; rfl
    rw [if_pos ⟨rfl, e⟩]
    simp
  | false => exact bareName_plain h

theorem fold_labels (t : Tagset) : ∀ (as : List (Str × Bool)) (ms : List Morph) (m' : Morph),
    (∀ a ∈ as, Plain a.1) →
    (m' ∈ (as.map written).foldl (labelStep t) ms ↔
      ∃ m ∈ ms, ∃ c, Choice t.values as c ∧ m' = insertAll c m) := by
  intro as
  induction as with
  | nil =>
    intro ms m' _
    constructor
    · intro h; exact ⟨m', h, [], .nil, rfl⟩
    · rintro ⟨m, hm, c, hc, rfl⟩; cases hc; exact hm
  | cons a as ih =>
    obtain ⟨n, o⟩ := a
    intro ms m' hp
    have hn := hp _ List.mem_cons_self
    rw [List.map_cons, List.foldl_cons, ih _ _ fun a ha => hp a (List.mem_cons_of_mem _ ha)]
    unfold labelStep
    rw [optionalName_written hn]
    cases o with
    | true =>
      simp only [if_true, Option.getD_some, Option.isSome_some, List.mem_append, List.mem_flatMap,
        List.mem_map]
      constructor
      · rintro ⟨m, (hm | ⟨m0, hm0, v, hv, rfl⟩), c, hc, rfl⟩
        · exact ⟨m, hm, c, .leave hc, rfl⟩
        · exact ⟨m0, hm0, (n, v) :: c, .take hv hc, rfl⟩
      · rintro ⟨m, hm, c, hc, rfl⟩
        cases hc with
        | take hv hc => exact ⟨_, Or.inr ⟨m, hm, _, hv, rfl⟩, _, hc, rfl⟩
        | leave hc => exact ⟨m, Or.inl hm, c, hc, rfl⟩
    | false =>
      have e : written (n, false) = n := rfl
      simp only [Bool.false_eq_true, if_false, Option.getD_none, Option.isSome_none,
        List.mem_flatMap, List.mem_map, e]
      constructor
      · rintro ⟨m, ⟨m0, hm0, v, hv, rfl⟩, c, hc, rfl⟩
        exact ⟨m0, hm0, (n, v) :: c, .take hv hc, rfl⟩
      · rintro ⟨m, hm, c, hc, rfl⟩
        cases hc with
        | take hv hc => exact ⟨_, ⟨m, hm, _, hv, rfl⟩, _, hc, rfl⟩

theorem lookup_ordered {m : Morph} (h : Ordered m) {k v : Str} (hm : (k, v) ∈ m) :
    m.lookup k = some v := by
  induction m with
  | nil => simp at hm
  | cons q m ih =>
    obtain ⟨k', v'⟩ := q
    unfold Ordered at h ih
    rw [List.pairwise_cons] at h
    rcases List.mem_cons.1 hm with e | hm'
    · cases e; simp [List.lookup]
    · have hne : k ≠ k' := by
        intro e
        have h' := h.1 _ hm'
        rw [← e] at h'
        exact lt_irrefl' _ h'
      have hb : (k == k') = false := by simpa using hne
      rw [List.lookup_cons, ih h.2 hm', hb]

theorem morphLoop_eq (m : Morph) : ∀ (s : Str), s ≠ [] →
    morphLoop m s = label s (m.filter fun q => q.1 ≠ b!"pos") := by
  induction m with
  | nil => intro s _; simp [morphLoop, label]
  | cons q m ih =>
    obtain ⟨a, v⟩ := q
    intro s hs
    rw [morphLoop]
    by_cases ha : a = b!"pos"
    · rw [if_pos ha, ih s hs]
      simp [ha]
    · rw [if_neg ha, if_pos hs, ih _ (by simp [hs])]
      simp [ha, label]

/-- The label of a choice. -/
theorem morphString_choice {p : Str} {c : List (Str × Str)} (hp : p ≠ [])
    (hn : (c.map Prod.fst).Nodup) (hpos : b!"pos" ∉ c.map Prod.fst) :
    ∃ c' : List (Str × Str), c'.Perm c ∧ Ordered c' ∧
      morphString (insertAll c [(b!"pos", p)]) = label p c' := by
  have hnd : ((c ++ [(b!"pos", p)]).map Prod.fst).Nodup := by
    simp only [List.map_append, List.map_cons, List.map_nil]
    rw [List.nodup_append]
    refine ⟨hn, by simp, ?_⟩
    intro x hx y hy
    simp only [List.mem_singleton] at hy
    subst hy
    rintro rfl
    exact hpos hx
  have hperm := insertAll_perm hnd
  have hord : Ordered (insertAll c [(b!"pos", p)]) := insertAll_ordered (by simp [Ordered])
  have hmem : (b!"pos", p) ∈ insertAll c [(b!"pos", p)] := hperm.mem_iff.2 (by simp)
  refine ⟨(insertAll c [(b!"pos", p)]).filter fun q => q.1 ≠ b!"pos", ?_, ?_, ?_⟩
  · have := hperm.filter (fun q => decide (q.1 ≠ b!"pos"))
    rw [List.filter_append] at this
    have e1 : c.filter (fun q => decide (q.1 ≠ b!"pos")) = c := by
      rw [List.filter_eq_self]
      intro q hq
      simp only [decide_eq_true_eq]
      rintro e
      exact hpos (List.mem_map.2 ⟨q, hq, e⟩)
    have e2 : [(b!"pos", p)].filter (fun q => decide (q.1 ≠ b!"pos")) = [] := by simp
    rw [e1, e2, List.append_nil] at this
    exact this
  · exact List.Pairwise.filter _ hord
  · unfold morphString mget
    rw [lookup_ordered hord hmem, Option.getD_some, morphLoop_eq _ _ hp]

theorem ordered_unique {c d : List (Str × Str)} (h : c.Perm d) (hc : Ordered c) (hd : Ordered d) :
    c = d := by
  apply List.Perm.eq_of_pairwise _ hc hd h
  intro a b _ _ h1 h2
  exact absurd (lt_trans' h1 h2) (lt_irrefl' _)

/-! ### Reading labels -/

theorem split_label {p : Str} {c : List (Str × Str)} (hp : (58 : Byte) ∉ p)
    (hc : ∀ q ∈ c, (58 : Byte) ∉ q.2) :
    (label p c).splitOnP (· == 58) = p :: c.map Prod.snd := by
  induction c generalizing p with
  | nil =>
    have h : ∀ x ∈ p, (x == (58 : Byte)) = false := by
      intro x hx
      simp only [beq_eq_false_iff_ne]
      rintro rfl; exact hp hx
    simp only [label, List.flatMap_nil, List.append_nil, List.map_nil]
    exact List.splitOnP_eq_single h
  | cons q c ih =>
    have h : ∀ x ∈ p, (x == (58 : Byte)) = false := by
      intro x hx
      simp only [beq_eq_false_iff_ne]
      rintro rfl; exact hp hx
    have e : label p (q :: c) = p ++ 58 :: label q.2 c := by simp [label]
    rw [e, List.splitOnP_append_cons_of_forall_mem h _ (by simp), ih (hc q List.mem_cons_self)
      fun r hr => hc r (List.mem_cons_of_mem _ hr)]
    rfl

theorem trim_word {w : Str} (h : Word w) : Unumsunt.trim w = w := by
  have hs : ∀ c ∈ w, Verif.Annot.isSpace c = false := by
    intro c hc
    have := h.2 c hc
    simp only [Verif.Annot.isSpace, Bool.or_eq_false_iff, beq_eq_false_iff_ne, Bool.and_eq_false_iff,
      decide_eq_false_iff_not]
    refine ⟨this.1, ?_⟩
    by_cases h9 : (9 : Byte) ≤ c
    · right; exact fun h13 => this.2 ⟨h9, h13⟩
    · left; exact h9
  have hd : ∀ v : Str, (∀ c ∈ v, Verif.Annot.isSpace c = false) →
      v.dropWhile Verif.Annot.isSpace = v := by
    intro v hv
    cases v with
    | nil => rfl
    | cons x v => rw [List.dropWhile_cons_of_neg]; simp [hv x List.mem_cons_self]
  unfold Unumsunt.trim
  rw [hd w hs, hd _ fun c hc => hs c (by simpa using hc), List.reverse_reverse]

theorem attrLoop_clear {t : Tagset} {as : List (Str × Bool)} {c : List (Str × Str)}
    (h : Clear t.values as c) : (∀ a ∈ as, Plain a.1) → ∀ r : Morph,
    attrLoop t (as.map written) (c.map Prod.snd) r = insertAll c r := by
  induction h with
  | nil => intro _ r; rfl
  | @take n o v as c hv _ ih =>
    intro hp r
    have hn := hp _ List.mem_cons_self
    rw [List.map_cons, List.map_cons, attrLoop, findAttr, bareName_written hn]
    have : t.checkValue n v = true := by
      unfold Tagset.checkValue
      rw [bareName_plain hn]
      simpa using hv
    rw [this]
    simp only [if_true]
    exact ih (fun a ha => hp a (List.mem_cons_of_mem _ ha)) _
  | @leave n as c hx _ ih =>
    intro hp r
    have hn := hp _ List.mem_cons_self
    have ih := ih (fun a ha => hp a (List.mem_cons_of_mem _ ha)) r
    cases c with
    | nil => simp [attrLoop, insertAll]
    | cons q c =>
      have hq := hx q (by simp)
      rw [← ih, List.map_cons, List.map_cons, attrLoop, findAttr, bareName_written hn]
      have : t.checkValue n q.2 = false := by
        unfold Tagset.checkValue
        rw [bareName_plain hn]
        simpa using hq
      rw [this, attrLoop]
      simp

theorem findAttr_sound {t : Tagset} {v : Str} : ∀ {as : List (Str × Bool)}, (∀ a ∈ as, Plain a.1) →
    (∀ n rest, findAttr t v (as.map written) = (some n, rest) →
      n ∈ as.map Prod.fst ∧ v ∈ t.values n) ∧
    ∃ as' : List (Str × Bool), (∀ a ∈ as', a ∈ as) ∧ (findAttr t v (as.map written)).2 = as'.map written := by
  intro as
  induction as with
  | nil => intro _; exact ⟨by simp [findAttr], [], by simp, rfl⟩
  | cons a as ih =>
    obtain ⟨n, o⟩ := a
    intro hp
    have hn := hp _ List.mem_cons_self
    obtain ⟨h1, as', h2, h3⟩ := ih fun a ha => hp a (List.mem_cons_of_mem _ ha)
    rw [List.map_cons, findAttr, bareName_written hn]
    split
    · rename_i hc
      refine ⟨?_, as, fun a ha => List.mem_cons_of_mem _ ha, rfl⟩
      intro m rest he
      cases he
      refine ⟨by simp, ?_⟩
      unfold Tagset.checkValue at hc
      rw [bareName_plain hn] at hc
      simpa using hc
    · refine ⟨?_, as', fun a ha => List.mem_cons_of_mem _ (h2 a ha), h3⟩
      intro m rest he
      have := h1 m rest he
      exact ⟨by simp [this.1], this.2⟩

theorem attrLoop_sound {t : Tagset} : ∀ {vs : List Str} {as : List (Str × Bool)} {r : Morph} {p : Str × Str},
    (∀ a ∈ as, Plain a.1) → p ∈ attrLoop t (as.map written) vs r →
    p ∈ r ∨ (p.1 ∈ as.map Prod.fst ∧ p.2 ∈ t.values p.1 ∧ p.2 ∈ vs) := by
  intro vs
  induction vs with
  | nil => intro as r p _ h; exact Or.inl h
  | cons v vs ih =>
    intro as r p hp h
    obtain ⟨h1, as', h2, h3⟩ := findAttr_sound (t := t) (v := v) hp
    rw [attrLoop] at h
    have hsub : ∀ {x}, x ∈ as'.map Prod.fst → x ∈ as.map Prod.fst := by
      intro x hx
      obtain ⟨a, ha, rfl⟩ := List.mem_map.1 hx
      exact List.mem_map.2 ⟨a, h2 a ha, rfl⟩
    split at h
    · rename_i rest he
      rw [he] at h3
      simp only at h3
      rw [h3] at h
      rcases ih (fun a ha => hp a (h2 a ha)) h with h | ⟨g1, g2, g3⟩
      · exact Or.inl h
      · exact Or.inr ⟨hsub g1, g2, List.mem_cons_of_mem _ g3⟩
    · rename_i n rest he
      have hn := h1 _ _ he
      rw [he] at h3
      simp only at h3
      rw [h3] at h
      rcases ih (fun a ha => hp a (h2 a ha)) h with h | ⟨g1, g2, g3⟩
      · rcases mem_minsert h with rfl | h
        · exact Or.inr ⟨hn.1, hn.2, by simp⟩
        · exact Or.inl h
      · exact Or.inr ⟨hsub g1, g2, List.mem_cons_of_mem _ g3⟩

end Verif.Puddle
