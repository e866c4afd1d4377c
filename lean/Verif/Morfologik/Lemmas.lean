import Verif.Morfologik.Model
import Verif.Morfologik.Spec
set_option linter.unusedSimpArgs false
set_option linter.unusedVariables false

namespace Verif.Morfologik
open Verif
open Verif.Server (ascii)

/-! ### Splitting -/

theorem split_plain {c : Byte} : ∀ {s : Str}, c ∉ s → split c s = [s]
  | [], _ => rfl
  | x :: s, h => by
    have hx : x ≠ c := fun e => h (by simp [e])
    have hs : c ∉ s := fun e => h (by simp [e])
    rw [split, if_neg hx, split_plain hs]

theorem split_append {c : Byte} (r : Str) : ∀ {s : Str}, c ∉ s → split c (s ++ c :: r) = s :: split c r
  | [], _ => by rw [List.nil_append, split, if_pos rfl]
  | x :: s, h => by
    have hx : x ≠ c := fun e => h (by simp [e])
    have hs : c ∉ s := fun e => h (by simp [e])
    rw [List.cons_append, split, if_neg hx, split_append r hs]

theorem split_joined {c : Byte} : ∀ {ps : List Str}, ps ≠ [] → (∀ p ∈ ps, c ∉ p) → split c (joined c ps) = ps
  | [], h, _ => absurd rfl h
  | [p], _, h => split_plain (h p (by simp))
  | p :: q :: ps, _, h => by
    rw [joined, split_append _ (h p (by simp)), split_joined (by simp) (fun x hx => h x (by simp [hx]))]
    simp

theorem split_ne (c : Byte) (s : Str) : split c s ≠ [] := by
  cases s with
  | nil => simp [split]
  | cons x s =>
    rw [split]
    split
    · simp
    · split <;> simp

theorem split_mem {c : Byte} : ∀ {s p : Str}, p ∈ split c s → c ∉ p ∧ ∀ x ∈ p, x ∈ s
  | [], p, h => by simp [split] at h; simp [h]
  | x :: s, p, h => by
    rw [split] at h
    split at h
    · simp only [List.mem_cons] at h
      rcases h with rfl | h
      · simp
      · have := split_mem h
        exact ⟨this.1, fun y hy => by simp [this.2 y hy]⟩
    · rename_i hx
      split at h
      · rename_i e; exact absurd e (split_ne c s)
      · rename_i q qs e
        simp only [List.mem_cons] at h
        rcases h with rfl | h
        · have := split_mem (s := s) (p := q) (by rw [e]; simp)
          refine ⟨?_, ?_⟩
          · simp only [List.mem_cons, not_or]
            exact ⟨fun e => hx e.symm, this.1⟩
          · intro y hy
            simp only [List.mem_cons] at hy ⊢
            rcases hy with rfl | hy
            · exact Or.inl rfl
            · exact Or.inr (this.2 y hy)
        · have := split_mem (s := s) (p := p) (by rw [e]; simp [h])
          exact ⟨this.1, fun y hy => by simp [this.2 y hy]⟩

theorem joined_split (c : Byte) : ∀ s : Str, joined c (split c s) = s
  | [] => rfl
  | x :: s => by
    have ih := joined_split c s
    rw [split]
    split
    · rename_i hx
      cases e : split c s with
      | nil => exact absurd e (split_ne c s)
      | cons q qs =>
        rw [e] at ih
        rw [joined, ih, hx]
        · rfl
        · simp
    · cases e : split c s with
      | nil => exact absurd e (split_ne c s)
      | cons q qs =>
        rw [e] at ih
        cases qs with
        | nil => simp only [joined] at ih ⊢; rw [ih]
        | cons r rs => simp only [joined] at ih ⊢; rw [List.cons_append, ih]

theorem split_length (c : Byte) : ∀ s : Str, (split c s).length = s.count c + 1
  | [] => rfl
  | x :: s => by
    have ih := split_length c s
    rw [split]
    split
    · rename_i hx
      rw [List.length_cons, ih, hx, List.count_cons_self]
    · rename_i hx
      cases e : split c s with
      | nil => exact absurd e (split_ne c s)
      | cons q qs =>
        rw [e] at ih
        rw [List.count_cons_of_ne hx]
        simpa using ih

theorem joined_mem {c x : Byte} : ∀ {ps : List Str}, x ∈ joined c ps → x = c ∨ ∃ p ∈ ps, x ∈ p
  | [], h => by simp [joined] at h
  | [p], h => Or.inr ⟨p, by simp, h⟩
  | p :: q :: ps, h => by
    simp only [joined, List.mem_append, List.mem_cons] at h
    rcases h with h | rfl | h
    · exact Or.inr ⟨p, by simp, h⟩
    · exact Or.inl rfl
    · rcases joined_mem h with h | ⟨r, hr, hx⟩
      · exact Or.inl h
      · exact Or.inr ⟨r, by simp at hr ⊢; exact Or.inr hr, hx⟩

/-! ### Maps -/

/-- The entries are in increasing order of the keys. -/
def Sorted (d : Attrs) : Prop := d.Pairwise fun e e' => e.1 < e'.1

theorem lt_irrefl' (a : Str) : ¬ a < a := List.lt_irrefl a

theorem lt_tri {a b : Str} (h : ¬ a < b) (h' : ¬ b < a) : a = b :=
  Std.Trichotomous.trichotomous (r := fun (x y : Str) => x < y) a b h h'

theorem mapFind_cons (k : Str) (e : Str × Str) (d : Attrs) :
    mapFind k (e :: d) = if e.1 = k then some e.2 else mapFind k d := by
  unfold mapFind
  rw [List.find?_cons]
  by_cases h : e.1 = k <;> simp [h]

theorem mapFind_none {k : Str} {d : Attrs} : mapFind k d = none ↔ ∀ e ∈ d, e.1 ≠ k := by
  unfold mapFind; simp

theorem mapFind_some {k v : Str} {d : Attrs} (hs : Sorted d) : mapFind k d = some v ↔ (k, v) ∈ d := by
  induction d with
  | nil => simp [mapFind]
  | cons e d ih =>
    have hs' := List.pairwise_cons.1 hs
    rw [mapFind_cons, List.mem_cons]
    split
    · rename_i h
      constructor
      · intro h2; left; cases h2; rw [← h]
      · rintro (h2 | h2)
        · rw [← h2]
        · have := hs'.1 _ h2
          rw [h] at this
          exact absurd this (lt_irrefl' _)
    · rename_i h
      rw [ih hs'.2]
      constructor
      · exact Or.inr
      · rintro (h2 | h2)
        · rw [← h2] at h; exact absurd rfl h
        · exact h2

theorem mapInsert_mem {k v : Str} {d : Attrs} {e : Str × Str} (h : e ∈ mapInsert k v d) : e = (k, v) ∨ e ∈ d := by
  induction d with
  | nil => simp [mapInsert] at h; exact Or.inl h
  | cons a d ih =>
    obtain ⟨k', v'⟩ := a
    rw [mapInsert] at h
    split at h
    · simpa using h
    · split at h
      · simp only [List.mem_cons] at h ⊢
        rcases h with h | h
        · exact Or.inr (Or.inl h)
        · rcases ih h with h | h
          · exact Or.inl h
          · exact Or.inr (Or.inr h)
      · exact Or.inr h

theorem mapInsert_sorted {k v : Str} {d : Attrs} (hs : Sorted d) : Sorted (mapInsert k v d) := by
  induction d with
  | nil => simp [mapInsert, Sorted]
  | cons a d ih =>
    obtain ⟨k', v'⟩ := a
    have hs' := List.pairwise_cons.1 hs
    rw [mapInsert]
    split
    · rename_i h
      refine List.pairwise_cons.2 ⟨?_, hs⟩
      intro e he
      simp only [List.mem_cons] at he
      rcases he with rfl | he
      · exact h
      · exact List.lt_trans h (hs'.1 e he)
    · split
      · rename_i h
        refine List.pairwise_cons.2 ⟨?_, ih hs'.2⟩
        intro e he
        rcases mapInsert_mem he with rfl | he
        · exact h
        · exact hs'.1 e he
      · exact hs

theorem mapFind_insert {k v : Str} {d : Attrs} (hs : Sorted d) (c : Str) :
    mapFind c (mapInsert k v d) = if c = k then (mapFind c d).or (some v) else mapFind c d := by
  induction d with
  | nil =>
    rw [mapInsert, mapFind_cons]
    by_cases h : c = k
    · subst h; simp [mapFind]
    · rw [if_neg (fun e => h e.symm), if_neg h]
  | cons a d ih =>
    obtain ⟨k', v'⟩ := a
    have hs' := List.pairwise_cons.1 hs
    rw [mapInsert]
    split
    · rename_i h
      rw [mapFind_cons]
      by_cases hc : c = k
      · subst hc
        rw [if_pos rfl, if_pos rfl]
        have : mapFind c ((k', v') :: d) = none := by
          rw [mapFind_none]
          intro e he
          simp only [List.mem_cons] at he
          rintro e2
          rcases he with rfl | he
          · simp only at e2; rw [e2] at h; exact lt_irrefl' _ h
          · have := List.lt_trans h (hs'.1 e he)
            rw [e2] at this; exact lt_irrefl' _ this
        rw [this]; rfl
      · rw [if_neg (fun e => hc e.symm), if_neg hc]
    · split
      · rename_i h
        rw [mapFind_cons, ih hs'.2, mapFind_cons]
        by_cases hk : k' = c
        · subst hk
          rw [if_pos rfl, if_pos rfl]
          have : k' ≠ k := by rintro rfl; exact lt_irrefl' _ h
          rw [if_neg this]
        · simp only [if_neg hk]
      · rename_i h1 h2
        have := lt_tri h1 h2
        subst this
        rw [mapFind_cons]
        by_cases hk : k = c
        · subst hk; simp
        · simp only [if_neg hk, if_neg (fun e => hk e.symm : ¬ c = k)]

theorem mapErase_sorted {k : Str} {d : Attrs} (hs : Sorted d) : Sorted (mapErase k d) := List.Pairwise.filter _ hs

theorem mapFind_erase (k c : Str) (d : Attrs) : mapFind c (mapErase k d) = if c = k then none else mapFind c d := by
  induction d with
  | nil => simp [mapErase, mapFind]
  | cons e d ih =>
    unfold mapErase at ih ⊢
    rw [List.filter_cons]
    by_cases h : e.1 = k
    · simp only [h, ne_eq, not_true_eq_false, decide_false, Bool.false_eq_true, if_false]
      rw [ih, mapFind_cons, h]
      by_cases hc : c = k
      · simp [hc]
      · rw [if_neg (fun e : k = c => hc e.symm)]
    · simp only [h, ne_eq, not_false_eq_true, decide_true, if_true]
      rw [mapFind_cons, ih, mapFind_cons]
      by_cases hc : c = k
      · have : e.1 ≠ c := by rw [hc]; exact h
        rw [if_neg this, if_pos hc, if_pos hc]
      · rw [if_neg hc, if_neg hc]

theorem mapInsert_end {k v : Str} {d : Attrs} (h : ∀ e ∈ d, e.1 < k) : mapInsert k v d = d ++ [(k, v)] := by
  induction d with
  | nil => rfl
  | cons a d ih =>
    obtain ⟨k', v'⟩ := a
    have h1 : k' < k := h (k', v') (by simp)
    have h2 : ¬ k < k' := fun h2 => lt_irrefl' _ (List.lt_trans h1 h2)
    rw [mapInsert, if_neg h2, if_pos h1, ih (fun e he => h e (by simp [he]))]
    rfl

theorem mapInsert_old {k v : Str} {d : Attrs} (hs : Sorted d) (h : (mapFind k d).isSome) : mapInsert k v d = d := by
  induction d with
  | nil => simp [mapFind] at h
  | cons a d ih =>
    obtain ⟨k', v'⟩ := a
    have hs' := List.pairwise_cons.1 hs
    rw [mapInsert]
    rw [mapFind_cons] at h
    by_cases hk : k' = k
    · subst hk; simp [lt_irrefl']
    · simp only [if_neg hk] at h
      obtain ⟨w, hw⟩ := Option.isSome_iff_exists.1 h
      have hlt : k' < k := hs'.1 _ ((mapFind_some hs'.2).1 hw)
      have h2 : ¬ k < k' := fun h2 => lt_irrefl' _ (List.lt_trans hlt h2)
      rw [if_neg h2, if_pos hlt, ih hs'.2 h]

/-- Sorted lists of entries are equal if they have the same values for all keys. -/
theorem sorted_ext {d e : Attrs} (hd : Sorted d) (he : Sorted e) (h : ∀ c, mapFind c d = mapFind c e) : d = e := by
  have hm : ∀ x, x ∈ d ↔ x ∈ e := by
    rintro ⟨k, v⟩
    rw [← mapFind_some hd, ← mapFind_some he, h]
  have nd : ∀ {d : Attrs}, Sorted d → d.Nodup := fun h => h.imp fun {a b} hab => by
    rintro rfl; exact lt_irrefl' _ hab
  have hp : d.Perm e := (List.perm_ext_iff_of_nodup (nd hd) (nd he)).2 hm
  exact hp.eq_of_pairwise (fun a b _ _ h1 h2 => absurd (List.lt_trans h1 h2) (lt_irrefl' _)) hd he

/-! ### Expansion -/

/-- The number of entries with several alternatives. -/
def complexCount (d : Attrs) : Nat := d.countP fun e => complex e.2

/-- All choices of alternatives. -/
def choices : Attrs → List Attrs
  | [] => [[]]
  | (k, v) :: d => (split innerSep v).flatMap fun a => (choices d).map ((k, a) :: ·)

theorem complex_false {v : Str} : complex v = false ↔ innerSep ∉ v := by simp [complex]

theorem insertEach_end {k : Str} : ∀ {ms : List Attrs} {ss : List Str}, ms.length = ss.length →
    (∀ m ∈ ms, ∀ e ∈ m, e.1 < k) → insertEach k ms ss = some (List.zipWith (fun m s => m ++ [(k, s)]) ms ss)
  | [], ss, _, _ => by simp [insertEach]
  | m :: ms, [], h, _ => by simp at h
  | m :: ms, s :: ss, h, hk => by
    rw [insertEach, insertEach_end (by simpa using h) (fun m hm => hk m (by simp [hm]))]
    simp [mapInsert_end (hk m (by simp))]

theorem expandLoop_rest : ∀ {d : Attrs} {ms : List Attrs}, Sorted d → (∀ m ∈ ms, ∀ e ∈ m, ∀ e' ∈ d, e.1 < e'.1) →
    expandLoop false ms d = some (ms.map (· ++ d))
  | [], ms, _, _ => by simp [expandLoop]
  | (k, v) :: d, ms, hs, h => by
    have hs' := List.pairwise_cons.1 hs
    simp only [expandLoop, Bool.false_and, Bool.false_eq_true, if_false]
    rw [expandLoop_rest hs'.2]
    · rw [List.map_map]
      congr 1
      apply List.map_congr_left
      intro m hm
      simp only [Function.comp]
      rw [mapInsert_end (fun e he => h m hm e he (k, v) (by simp))]
      simp
    · intro m hm e he e' he'
      obtain ⟨m', hm', rfl⟩ := List.mem_map.1 hm
      rcases mapInsert_mem he with rfl | he
      · exact hs'.1 e' he'
      · exact h m' hm' e he e' (by simp [he'])

theorem expandLoop_first : ∀ {pre : Attrs} {k v : Str} {post ms : Attrs} {p : Attrs}, Sorted (p ++ (pre ++ (k, v) :: post)) →
    (∀ e ∈ pre, complex e.2 = false) → complex v = true →
    expandLoop true (List.replicate (v.count innerSep + 1) p) (pre ++ (k, v) :: post) =
      some ((split innerSep v).map fun a => p ++ (pre ++ (k, a) :: post)) := by
  intro pre
  induction pre with
  | nil =>
    intro k v post ms p hs hp hv
    simp only [List.nil_append]
    have hs1 := List.pairwise_append.1 hs
    have hs2 := List.pairwise_cons.1 hs1.2.1
    simp only [expandLoop, Bool.true_and, hv, if_true]
    rw [insertEach_end (by simp [split_length])
      (by intro m hm e he; rw [(List.mem_replicate.1 hm).2] at he; exact hs1.2.2 e he (k, v) (by simp))]
    simp only
    have hz : List.zipWith (fun (m : Attrs) s => m ++ [(k, s)]) (List.replicate (v.count innerSep + 1) p) (split innerSep v) =
        (split innerSep v).map fun a => p ++ [(k, a)] := by
      rw [← split_length]
      generalize split innerSep v = ss
      induction ss with
      | nil => rfl
      | cons s ss ih => simp [List.replicate_succ, ih]
    rw [hz, expandLoop_rest hs2.2]
    · simp [List.map_map, Function.comp]
    · intro m hm e he e' he'
      obtain ⟨a, _, rfl⟩ := List.mem_map.1 hm
      simp only [List.mem_append, List.mem_cons, List.not_mem_nil, or_false] at he
      rcases he with he | rfl
      · exact hs1.2.2 e he e' (by simp [he'])
      · exact hs2.1 e' he'
  | cons e pre ih =>
    intro k v post ms p hs hp hv
    obtain ⟨k1, v1⟩ := e
    have hs1 := List.pairwise_append.1 hs
    have h1 : complex v1 = false := hp (k1, v1) (by simp)
    simp only [List.cons_append, expandLoop, Bool.true_and, h1, Bool.false_eq_true, if_false, List.map_replicate]
    rw [mapInsert_end (fun e he => hs1.2.2 e he (k1, v1) (by simp)), ih (ms := []) (by simpa using hs) (fun e he => hp e (by simp [he])) hv]
    simp

theorem lengthOfFirstComplex_first {pre : Attrs} {k v : Str} {post : Attrs} (hp : ∀ e ∈ pre, complex e.2 = false) (hv : complex v = true) :
    lengthOfFirstComplex (pre ++ (k, v) :: post) = v.count innerSep + 1 := by
  induction pre with
  | nil => simp [lengthOfFirstComplex, hv]
  | cons e pre ih =>
    obtain ⟨k1, v1⟩ := e
    have h1 : complex v1 = false := hp (k1, v1) (by simp)
    simp [lengthOfFirstComplex, h1, ih (fun e he => hp e (by simp [he]))]

theorem lengthOfFirstComplex_none {d : Attrs} (h : complexCount d = 0) : lengthOfFirstComplex d = 0 := by
  induction d with
  | nil => rfl
  | cons e d ih =>
    obtain ⟨k, v⟩ := e
    unfold complexCount at h ih
    rw [List.countP_cons] at h
    have h1 : complex v = false := by
      by_cases hv : complex v = true
      · simp [hv] at h
      · simpa using hv
    simp only [h1, Bool.false_eq_true, if_false, Nat.add_zero] at h
    simp [lengthOfFirstComplex, h1, ih h]

theorem expandLoop_nil (b : Bool) : ∀ d : Attrs, expandLoop b [] d = some []
  | [] => rfl
  | (k, v) :: d => by
    rw [expandLoop]
    split
    · simp [insertEach, expandLoop_nil false d]
    · simp [expandLoop_nil b d]

theorem expandSingle_none {d : Attrs} (h : complexCount d = 0) : expandSingle d = some [] := by
  rw [expandSingle, lengthOfFirstComplex_none h]
  exact expandLoop_nil _ _

/-- An entry with several alternatives is the first one. -/
theorem first_complex : ∀ {d : Attrs}, complexCount d ≠ 0 → ∃ pre k v post, d = pre ++ (k, v) :: post ∧
    (∀ e ∈ pre, complex e.2 = false) ∧ complex v = true
  | [], h => by simp [complexCount] at h
  | (k, v) :: d, h => by
    by_cases hv : complex v = true
    · exact ⟨[], k, v, d, rfl, by simp, hv⟩
    · have hv' : complex v = false := by simpa using hv
      have : complexCount d ≠ 0 := by
        unfold complexCount at h ⊢
        rw [List.countP_cons] at h
        simpa [hv'] using h
      obtain ⟨pre, k', v', post, rfl, h1, h2⟩ := first_complex this
      refine ⟨(k, v) :: pre, k', v', post, rfl, ?_, h2⟩
      intro e he
      simp only [List.mem_cons] at he
      rcases he with rfl | he
      · exact hv'
      · exact h1 e he

theorem choices_simple {pre d : Attrs} (h : ∀ e ∈ pre, complex e.2 = false) :
    choices (pre ++ d) = (choices d).map (pre ++ ·) := by
  induction pre with
  | nil => simp
  | cons e pre ih =>
    obtain ⟨k, v⟩ := e
    have hv : complex v = false := h (k, v) (by simp)
    simp only [List.cons_append, choices, split_plain (complex_false.1 hv), List.flatMap_cons, List.flatMap_nil, List.append_nil,
      ih (fun e he => h e (by simp [he])), List.map_map]
    rfl

theorem choices_split {pre : Attrs} {k v : Str} {post : Attrs} (hp : ∀ e ∈ pre, complex e.2 = false) :
    choices (pre ++ (k, v) :: post) = (split innerSep v).flatMap fun a => choices (pre ++ (k, a) :: post) := by
  rw [choices_simple hp, choices, List.map_flatMap]
  have : ∀ ss : List Str, (∀ a ∈ ss, innerSep ∉ a) →
      (ss.flatMap fun a => ((choices post).map ((k, a) :: ·)).map (pre ++ ·)) = ss.flatMap fun a => choices (pre ++ (k, a) :: post) := by
    intro ss
    induction ss with
    | nil => intro _; rfl
    | cons a ss ih =>
      intro h
      rw [List.flatMap_cons, List.flatMap_cons, ih (fun b hb => h b (by simp [hb])), choices_simple hp, choices,
        split_plain (h a (by simp))]
      simp
  exact this _ fun a ha => (split_mem ha).1

theorem complexCount_split {pre : Attrs} {k v a : Str} {post : Attrs} (hv : complex v = true) (ha : a ∈ split innerSep v) :
    complexCount (pre ++ (k, v) :: post) = complexCount (pre ++ (k, a) :: post) + 1 := by
  have : complex a = false := complex_false.2 (split_mem ha).1
  simp only [complexCount, List.countP_append, List.countP_cons, hv, this]
  simp; omega

theorem sorted_replace {pre : Attrs} {k v a : Str} {post : Attrs} (hs : Sorted (pre ++ (k, v) :: post)) :
    Sorted (pre ++ (k, a) :: post) := by
  have h1 := List.pairwise_append.1 hs
  have h2 := List.pairwise_cons.1 h1.2.1
  refine List.pairwise_append.2 ⟨h1.1, List.pairwise_cons.2 ⟨h2.1, h2.2⟩, ?_⟩
  intro e he e' he'
  simp only [List.mem_cons] at he'
  rcases he' with rfl | he'
  · exact h1.2.2 e he (k, v) (by simp)
  · exact h1.2.2 e he e' (by simp [he'])

theorem expandTimes_append : ∀ {n : Nat} {ds es xs ys : List Attrs}, expandTimes n ds = some xs → expandTimes n es = some ys →
    expandTimes n (ds ++ es) = some (xs ++ ys)
  | 0, ds, es, xs, ys, h1, h2 => by simp only [expandTimes, Option.some.injEq] at h1 h2 ⊢; rw [h1, h2]
  | n + 1, ds, es, xs, ys, h1, h2 => by
    simp only [expandTimes] at h1 h2 ⊢
    have happ : ∀ {ds es xs ys : List Attrs}, expandAll ds = some xs → expandAll es = some ys → expandAll (ds ++ es) = some (xs ++ ys) := by
      intro ds
      induction ds with
      | nil => intro es xs ys h1 h2; simp only [expandAll, Option.some.injEq] at h1; rw [← h1]; simpa using h2
      | cons d ds ih =>
        intro es xs ys h1 h2
        simp only [expandAll] at h1
        cases e1 : expandSingle d with
        | none => rw [e1] at h1; simp at h1
        | some z =>
          cases e2 : expandAll ds with
          | none => rw [e1, e2] at h1; simp at h1
          | some zs =>
            rw [e1, e2] at h1
            simp only [Option.some.injEq] at h1
            simp only [List.cons_append, expandAll, e1, ih e2 h2]
            rw [← h1, List.append_assoc]
    cases e1 : expandAll ds with
    | none => rw [e1] at h1; simp at h1
    | some zs =>
      cases e2 : expandAll es with
      | none => rw [e2] at h2; simp at h2
      | some ws =>
        rw [e1] at h1; rw [e2] at h2
        simp only at h1 h2
        rw [happ e1 e2]
        exact expandTimes_append h1 h2

theorem expandTimes_nil : ∀ n, expandTimes n [] = some []
  | 0 => rfl
  | n + 1 => by simp only [expandTimes, expandAll]; exact expandTimes_nil n

theorem expandTimes_flat {n : Nat} {f : Str → Attrs} {g : Str → List Attrs} : ∀ {ss : List Str},
    (∀ s ∈ ss, expandTimes n [f s] = some (g s)) → expandTimes n (ss.map f) = some (ss.flatMap g)
  | [], _ => expandTimes_nil n
  | s :: ss, h => by
    have := expandTimes_append (h s (by simp)) (expandTimes_flat (ss := ss) (fun s' hs => h s' (by simp [hs])))
    simpa using this

theorem expandTimes_single {n : Nat} : ∀ {d : Attrs}, Sorted d → complexCount d ≤ n →
    expandTimes n [d] = some (if complexCount d = n then choices d else []) := by
  induction n with
  | zero =>
    intro d hs h
    have h0 : complexCount d = 0 := by omega
    rw [if_pos h0, expandTimes]
    congr 1
    have := choices_simple (pre := d) (d := []) (by
      intro e he
      unfold complexCount at h0
      have := List.countP_eq_zero.1 h0 e he
      simpa using this)
    simp only [List.append_nil, choices, List.map_cons, List.map_nil] at this
    exact this.symm
  | succ n ih =>
    intro d hs h
    by_cases h0 : complexCount d = 0
    · rw [if_neg (by omega)]
      simp only [expandTimes, expandAll, expandSingle_none h0, List.append_nil]
      exact expandTimes_nil n
    · obtain ⟨pre, k, v, post, rfl, hp, hv⟩ := first_complex h0
      have he : expandSingle (pre ++ (k, v) :: post) = some ((split innerSep v).map fun a => pre ++ (k, a) :: post) := by
        rw [expandSingle, lengthOfFirstComplex_first hp hv, expandLoop_first (ms := []) (by simpa using hs) hp hv]
        simp
      simp only [expandTimes, expandAll, he, List.append_nil]
      by_cases hn : complexCount (pre ++ (k, v) :: post) = n + 1
      · rw [if_pos hn, choices_split hp]
        apply expandTimes_flat
        intro a ha
        have hc := complexCount_split (pre := pre) (k := k) (post := post) hv ha
        rw [ih (sorted_replace hs) (by omega), if_pos (by omega)]
      · rw [if_neg hn]
        have := expandTimes_flat (n := n) (f := fun a => pre ++ (k, a) :: post) (g := fun _ => []) (ss := split innerSep v) (by
          intro a ha
          have hc := complexCount_split (pre := pre) (k := k) (post := post) hv ha
          rw [ih (sorted_replace hs) (by omega), if_neg (by omega)])
        rw [this]
        congr 1
        exact List.flatMap_eq_nil_iff.2 fun _ _ => rfl

theorem choices_mem {d m : Attrs} (hs : Sorted d) : m ∈ choices d ↔ Sorted m ∧ ∀ c,
    (∃ v a, mapFind c d = some v ∧ a ∈ split innerSep v ∧ mapFind c m = some a) ∨ (mapFind c d = none ∧ mapFind c m = none) := by
  induction d generalizing m with
  | nil =>
    simp only [choices, List.mem_singleton]
    constructor
    · rintro rfl; exact ⟨List.Pairwise.nil, fun c => Or.inr ⟨rfl, rfl⟩⟩
    · rintro ⟨h1, h2⟩
      apply sorted_ext h1 List.Pairwise.nil
      intro c
      rcases h2 c with ⟨v, a, h, _⟩ | ⟨_, h⟩
      · simp [mapFind] at h
      · rw [h]; rfl
  | cons e d ih =>
    obtain ⟨k, v⟩ := e
    have hs' := List.pairwise_cons.1 hs
    have hkd : mapFind k d = none := by
      rw [mapFind_none]; rintro e he rfl
      exact lt_irrefl' _ (hs'.1 e he)
    simp only [choices, List.mem_flatMap, List.mem_map]
    constructor
    · rintro ⟨a, ha, m', hm', rfl⟩
      obtain ⟨h1, h2⟩ := (ih hs'.2).1 hm'
      refine ⟨List.pairwise_cons.2 ⟨?_, h1⟩, ?_⟩
      · rintro ⟨k', v'⟩ he
        rcases h2 k' with ⟨w, b, h3, _, _⟩ | ⟨_, h3⟩
        · exact hs'.1 (k', w) ((mapFind_some hs'.2).1 h3)
        · rw [(mapFind_some h1).2 he] at h3; cases h3
      · intro c
        rw [mapFind_cons, mapFind_cons]
        by_cases hc : k = c
        · simp only [if_pos hc]
          exact Or.inl ⟨v, a, rfl, ha, rfl⟩
        · simp only [if_neg hc]; exact h2 c
    · rintro ⟨h1, h2⟩
      rcases h2 k with ⟨w, a, h3, ha, h4⟩ | ⟨h3, _⟩
      · rw [mapFind_cons, if_pos rfl] at h3
        cases h3
        refine ⟨a, ha, mapErase k m, ?_, ?_⟩
        · refine (ih hs'.2).2 ⟨mapErase_sorted h1, fun c => ?_⟩
          rw [mapFind_erase]
          by_cases hc : c = k
          · rw [if_pos hc, hc]; exact Or.inr ⟨hkd, rfl⟩
          · rw [if_neg hc]
            have := h2 c
            rw [mapFind_cons, if_neg (fun e => hc e.symm)] at this
            exact this
        · have hlt : ∀ e ∈ mapErase k m, k < e.1 := by
            rintro ⟨k', v'⟩ he
            unfold mapErase at he
            simp only [List.mem_filter, decide_eq_true_eq] at he
            have hf := (mapFind_some h1).2 he.1
            rcases h2 k' with ⟨w, b, h5, _, _⟩ | ⟨_, h5⟩
            · rw [mapFind_cons, if_neg (fun e => he.2 e.symm)] at h5
              exact hs'.1 (k', w) ((mapFind_some hs'.2).1 h5)
            · rw [hf] at h5; cases h5
          apply sorted_ext (List.pairwise_cons.2 ⟨hlt, mapErase_sorted h1⟩) h1
          intro c
          rw [mapFind_cons, mapFind_erase]
          by_cases hc : k = c
          · subst hc; rw [if_pos rfl, h4]
          · rw [if_neg hc, if_neg (fun e => hc e.symm)]
      · rw [mapFind_cons, if_pos rfl] at h3; cases h3

theorem choices_nodup {d : Attrs} (h : ∀ e ∈ d, (split innerSep e.2).Nodup) : (choices d).Nodup := by
  induction d with
  | nil => simp [choices]
  | cons e d ih =>
    obtain ⟨k, v⟩ := e
    have h1 := h (k, v) (by simp)
    have h2 := ih (fun e he => h e (by simp [he]))
    simp only [choices]
    unfold List.Nodup at *
    rw [List.pairwise_flatMap]
    refine ⟨?_, ?_⟩
    · intro a _
      rw [List.pairwise_map]
      exact h2.imp fun {x y} hxy he => hxy (by simpa using he)
    · exact h1.imp fun {a b} hab x hx y hy => by
        simp only [List.mem_map] at hx hy
        obtain ⟨x', _, rfl⟩ := hx
        obtain ⟨y', _, rfl⟩ := hy
        intro he
        simp at he
        exact hab he.1

end Verif.Morfologik
