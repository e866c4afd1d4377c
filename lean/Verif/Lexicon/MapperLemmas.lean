import Verif.Lexicon.Lemmas
import Verif.Annot.Props
import Mathlib.Data.List.Nodup

/-! Lemmas on the mapper, simplenorm and detok. -/
set_option linter.unusedVariables false
set_option linter.unusedSimpArgs false

namespace Verif.Lexicon
open Verif

/-! ### Attributes -/

theorem splitOnP_intercalate_none (f : Byte → Bool) {c : Byte} (hc : f c = true) {ws : List Str} (h0 : ws ≠ [])
    (h : ∀ w ∈ ws, ∀ d ∈ w, f d = false) : ([c].intercalate ws).splitOnP f = ws := by
  rw [splitOnP_intercalate f hc h0]
  clear h0
  induction ws with
  | nil => rfl
  | cons w ws ih =>
    rw [List.flatMap_cons, ih (fun v hv => h v (by simp [hv])), splitOnP_none f (h w (by simp))]
    rfl

theorem takeWhile_pos {p : Byte → Bool} {s t : Str} {c : Byte} (h : ∀ d ∈ s, p d = true) (hc : p c = false) :
    (s ++ c :: t).takeWhile p = s ∧ (s ++ c :: t).dropWhile p = c :: t := by
  induction s with
  | nil => simp [hc]
  | cons d s ih =>
    have hd := h d (by simp)
    have := ih (fun e he => h e (by simp [he]))
    simp [hd, this.1, this.2]

theorem while_all {p : Byte → Bool} {s : Str} (h : ∀ d ∈ s, p d = true) : s.takeWhile p = s ∧ s.dropWhile p = [] := by
  induction s with
  | nil => simp
  | cons d s ih =>
    have hd := h d (by simp)
    have := ih (fun e he => h e (by simp [he]))
    simp [hd, this.1, this.2]

theorem parseAttribute_pair {a v : Str} (h : (61 : Byte) ∉ a) : parseAttribute (a ++ [61] ++ v) = (a, v) := by
  have hp : ∀ d ∈ a, (d != 61) = true := by
    intro d hd; rw [bne_iff_ne]; rintro rfl; exact h hd
  obtain ⟨h1, h2⟩ := takeWhile_pos (t := v) (c := 61) hp (by decide)
  rw [List.append_assoc, List.singleton_append, parseAttribute, h1, h2]

theorem parseAttribute_bare {a : Str} (h : (61 : Byte) ∉ a) : parseAttribute a = (a, [49]) := by
  have hp : ∀ d ∈ a, (d != 61) = true := by
    intro d hd; rw [bne_iff_ne]; rintro rfl; exact h hd
  rw [parseAttribute, (while_all hp).2]

/-! ### Order of strings -/

theorem strLe_total (s t : Str) : (strLe s t || strLe t s) = true := by
  induction s generalizing t with
  | nil => simp [strLe]
  | cons a s ih =>
    cases t with
    | nil => simp [strLe]
    | cons b t =>
      simp only [strLe]
      by_cases h1 : a < b
      · simp [h1]
      · by_cases h2 : a = b
        · subst h2; simpa [UInt8.lt_irrefl] using ih t
        · have h3 : b < a := by
            rw [UInt8.lt_iff_toNat_lt] at *
            have : a.toNat ≠ b.toNat := fun h => h2 (UInt8.toNat_inj.1 h)
            omega
          simp [h3]

theorem strLe_trans (s t u : Str) : strLe s t = true → strLe t u = true → strLe s u = true := by
  induction s generalizing t u with
  | nil => intros; simp [strLe]
  | cons a s ih =>
    cases t with
    | nil => simp [strLe]
    | cons b t =>
      cases u with
      | nil => simp [strLe]
      | cons c u =>
        simp only [strLe]
        by_cases h1 : a < b
        · by_cases h2 : b < c
          · have : a < c := by rw [UInt8.lt_iff_toNat_lt] at *; omega
            simp [this]
          · by_cases h3 : b = c
            · subst h3; simp [h1]
            · simp [h2, h3]
        · by_cases h2 : a = b
          · subst h2
            by_cases h3 : a < c
            · simp [h3]
            · by_cases h4 : a = c
              · subst h4; simp [h3]; exact ih t u
              · simp [h3, h4]
          · simp [h1, h2]

theorem strLe_antisymm (s t : Str) : strLe s t = true → strLe t s = true → s = t := by
  induction s generalizing t with
  | nil => cases t <;> simp [strLe]
  | cons a s ih =>
    cases t with
    | nil => simp [strLe]
    | cons b t =>
      simp only [strLe]
      by_cases h1 : a < b
      · have h2 : ¬ b < a := by rw [UInt8.lt_iff_toNat_lt] at *; omega
        have h3 : b ≠ a := by rintro rfl; exact UInt8.lt_irrefl _ h1
        simp [h1, h2, h3]
      · by_cases h2 : a = b
        · subst h2; simp [h1]; exact ih t
        · simp [h1, h2]

theorem insertStr_perm (s : Str) (l : List Str) : (insertStr s l).Perm (s :: l) := by
  induction l with
  | nil => exact .refl _
  | cons t l ih =>
    rw [insertStr]
    split
    · exact .refl _
    · exact (ih.cons t).trans (.swap s t l)

theorem sortStr_perm (l : List Str) : (sortStr l).Perm l := by
  induction l with
  | nil => exact .refl _
  | cons s l ih => exact (insertStr_perm s _).trans (ih.cons s)

theorem insertStr_sorted (s : Str) {l : List Str} (h : l.Pairwise (fun a b => strLe a b = true)) :
    (insertStr s l).Pairwise (fun a b => strLe a b = true) := by
  induction l with
  | nil => simp [insertStr]
  | cons t l ih =>
    have h0 := h
    rw [List.pairwise_cons] at h
    rw [insertStr]
    split
    · rename_i hs
      rw [List.pairwise_cons]
      refine ⟨fun u hu => ?_, h0⟩
      rcases List.mem_cons.1 hu with rfl | hu
      · exact hs
      · exact strLe_trans _ _ _ hs (h.1 u hu)
    · rename_i hs
      rw [List.pairwise_cons]
      refine ⟨fun u hu => ?_, ih h.2⟩
      rcases List.mem_cons.1 ((insertStr_perm s l).subset hu) with rfl | hu
      · have := strLe_total t u
        rw [Bool.or_eq_true] at this
        exact this.resolve_right hs
      · exact h.1 u hu

theorem sortStr_sorted (l : List Str) : (sortStr l).Pairwise (fun a b => strLe a b = true) := by
  induction l with
  | nil => exact .nil
  | cons s l ih => exact insertStr_sorted s ih

theorem sortStr_perm_eq {l l' : List Str} (h : l.Perm l') : sortStr l = sortStr l' := by
  apply List.Perm.eq_of_pairwise (le := fun a b => strLe a b = true)
  · intro a b _ _; exact strLe_antisymm a b
  · exact sortStr_sorted l
  · exact sortStr_sorted l'
  · exact (sortStr_perm l).trans (h.trans (sortStr_perm l').symm)

theorem strLe_iff (s t : Str) : strLe s t = true ↔ ¬ List.Lex (· < ·) t s := by
  induction s generalizing t with
  | nil => simp only [strLe, true_iff]; intro h; cases h
  | cons a s ih =>
    cases t with
    | nil => simp only [strLe, Bool.false_eq_true, false_iff, Classical.not_not]; exact .nil
    | cons b t =>
      simp only [strLe]
      by_cases h1 : a < b
      · simp only [h1, if_true, true_iff]
        intro h
        rw [UInt8.lt_iff_toNat_lt] at h1
        cases h with
        | rel h => rw [UInt8.lt_iff_toNat_lt] at h; omega
        | cons h => omega
      · by_cases h2 : a = b
        · subst h2
          simp only [h1, if_false, if_true, ih]
          constructor
          · intro h h'
            cases h' with
            | rel h' => exact h1 h'
            | cons h' => exact h h'
          · intro h h'; exact h (.cons h')
        · simp only [h1, h2, if_false, Bool.false_eq_true, false_iff, Classical.not_not]
          apply List.Lex.rel
          rw [UInt8.lt_iff_toNat_lt] at *
          have : a.toNat ≠ b.toNat := fun h => h2 (UInt8.toNat_inj.1 h)
          omega

/-! ### Items -/
open Annot

theorem pairs_perm {x : AItem} {m m' : List Str} (hn : m.Nodup) (hn' : m'.Nodup) (hk : ∀ a v, x.val a = some v → a ∈ m)
    (hk' : ∀ a v, x.val a = some v → a ∈ m') : (x.pairs m).Perm (x.pairs m') := by
  have hf : ∀ m : List Str, x.pairs m = x.pairs (m.filter (fun a => (x.val a).isSome)) := by
    intro m
    unfold AItem.pairs
    rw [List.filterMap_filter]
    congr 1
    funext a
    cases x.val a <;> simp
  rw [hf m, hf m']
  apply List.Perm.filterMap
  rw [List.perm_ext_iff_of_nodup (hn.filter _) (hn'.filter _)]
  intro a
  simp only [List.mem_filter, Option.isSome_iff_exists]
  constructor
  · rintro ⟨_, v, hv⟩; exact ⟨hk' a v hv, v, hv⟩
  · rintro ⟨_, v, hv⟩; exact ⟨hk a v hv, v, hv⟩

theorem getValuesStr_rep {m it x} (h : Rep m it x) (hm : m.length ≤ maxAttrs) :
    Annot.getValues m it = some ((x.pairs m).map fun av => (av.1, Annot.toString av.2)) := by
  unfold Annot.getValues
  rw [getValues_rep h hm]
  rfl

/-- The attributes of the manager after more of them were used. -/
def entered (m : List Str) (as : List Str) : List Str := as.foldl enter m

/-- The abstract item after strings were set. -/
def putAll (x : AItem) (avs : List (Str × Str)) : AItem := avs.foldl (fun x av => x.put av.1 (ofString av.2)) x

theorem entered_length (m as : List Str) : m.length ≤ (entered m as).length ∧ (entered m as).length ≤ m.length + as.length := by
  induction as generalizing m with
  | nil => simp [entered]
  | cons a as ih =>
    have := ih (enter m a)
    have h1 : m.length ≤ (enter m a).length ∧ (enter m a).length ≤ m.length + 1 := by
      rw [enter_eq]; split <;> simp
    simp only [entered, List.foldl_cons, List.length_cons] at *
    omega

theorem setStrings_some {m it x} (h : Rep m it x) (hn : m.Nodup) (hm : m.length ≤ maxAttrs) (avs : List (Str × Str)) {m' it'}
    (hs : setStrings m it avs = some (m', it')) :
    m' = entered m (avs.map (·.1)) ∧ m'.Nodup ∧ m'.length ≤ maxAttrs ∧ Rep m' it' (putAll x avs) := by
  induction avs generalizing m it x with
  | nil =>
    simp only [setStrings, Option.some.injEq, Prod.mk.injEq] at hs
    obtain ⟨rfl, rfl⟩ := hs
    exact ⟨rfl, hn, hm, h⟩
  | cons av avs ih =>
    obtain ⟨a, v⟩ := av
    rw [setStrings] at hs
    by_cases hle : (enter m a).length ≤ maxAttrs
    · obtain ⟨it1, h1, h2⟩ := setValue_rep h hn a (ofString v) hle
      rw [h1] at hs
      exact ih h2 (enter_nodup hn a) hle hs
    · rw [setValue_full h hn a (ofString v) hm (by omega)] at hs
      simp at hs

theorem setStrings_total {m it x} (h : Rep m it x) (hn : m.Nodup) (avs : List (Str × Str))
    (hm : (entered m (avs.map (·.1))).length ≤ maxAttrs) : ∃ m' it', setStrings m it avs = some (m', it') := by
  induction avs generalizing m it x with
  | nil => exact ⟨m, it, rfl⟩
  | cons av avs ih =>
    obtain ⟨a, v⟩ := av
    have hl := (entered_length (enter m a) (avs.map (·.1))).1
    have hm2 : (entered (enter m a) (avs.map (·.1))).length ≤ maxAttrs := hm
    obtain ⟨it1, h1, h2⟩ := setValue_rep h hn a (ofString v) (by omega)
    obtain ⟨m', it', h3⟩ := ih h2 (enter_nodup hn a) hm2
    exact ⟨m', it', by rw [setStrings, h1]; exact h3⟩

theorem putAll_cat (x : AItem) (avs : List (Str × Str)) : (putAll x avs).cat = x.cat ∧ (putAll x avs).text = x.text := by
  induction avs generalizing x with
  | nil => exact ⟨rfl, rfl⟩
  | cons av avs ih => exact ih (x.put av.1 (ofString av.2))

theorem lastOf_cons (av : Str × Str) (avs : List (Str × Str)) (a : Str) :
    Spec.lastOf (av :: avs) a = (Spec.lastOf avs a).or (if av.1 = a then some av.2 else none) := by
  unfold Spec.lastOf
  rw [List.filter_cons]
  by_cases h : av.1 = a
  · simp only [h, decide_true, if_true]
    cases he : avs.filter (fun av => av.1 = a) with
    | nil => simp
    | cons b bs => simp [List.getLast?_cons_cons, List.getLast?_cons]
  · simp [h]

theorem putAll_val (x : AItem) (avs : List (Str × Str)) (a : Str) :
    (putAll x avs).val a = ((Spec.lastOf avs a).map ofString).or (x.val a) := by
  induction avs generalizing x with
  | nil => simp [putAll, Spec.lastOf]
  | cons av avs ih =>
    have : putAll x (av :: avs) = putAll (x.put av.1 (ofString av.2)) avs := rfl
    rw [this, ih, lastOf_cons]
    cases Spec.lastOf avs a with
    | some v => simp
    | none =>
      simp only [Option.map_none, Option.none_or, AItem.put]
      by_cases h : a = av.1
      · subst h; simp
      · rw [if_neg h, if_neg (fun hh => h hh.symm)]; simp

theorem lastOf_pairs {x : AItem} {m : List Str} (hn : m.Nodup) (hk : ∀ a v, x.val a = some v → a ∈ m) (a : Str) :
    Spec.lastOf ((x.pairs m).map fun av => (av.1, Annot.toString av.2)) a = (x.val a).map Annot.toString := by
  have key : ∀ m : List Str, m.Nodup → Spec.lastOf ((x.pairs m).map fun av => (av.1, Annot.toString av.2)) a =
      if a ∈ m then (x.val a).map Annot.toString else none := by
    intro m hn
    induction m with
    | nil => rfl
    | cons b m ih =>
      rw [List.nodup_cons] at hn
      have ih := ih hn.2
      have hp : x.pairs (b :: m) = (match x.val b with | some v => [(b, v)] | none => []) ++ x.pairs m := by
        unfold AItem.pairs
        rw [List.filterMap_cons]
        cases x.val b <;> rfl
      rw [hp]
      cases hb : x.val b with
      | none =>
        simp only [List.nil_append, ih, List.mem_cons]
        by_cases hab : a = b
        · subst hab; simp [hb]
        · simp [hab]
      | some v =>
        simp only [List.singleton_append, List.map_cons, lastOf_cons, ih, List.mem_cons]
        by_cases hab : a = b
        · subst hab; simp [hb, hn.1]
        · have hba : ¬ b = a := fun h => hab h.symm
          simp [hab, hba]
  rw [key m hn]
  split
  · rfl
  · rename_i h
    cases hv : x.val a with
    | none => rfl
    | some v => exact absurd (hk a v hv) h

/-! ### Simplenorm -/

theorem mapFind_set (m : List (Str × Str)) (k v k' : Str) :
    mapFind (mapSet m k v) k' = if k = k' then some v else mapFind m k' := by
  induction m with
  | nil => simp [mapSet, mapFind]
  | cons p m ih =>
    obtain ⟨q, w⟩ := p
    rw [mapSet]
    by_cases h : q = k
    · subst h
      simp only [if_true, mapFind]
      by_cases h2 : q = k' <;> simp [h2]
    · simp only [h, if_false, mapFind, ih]
      by_cases h2 : q = k'
      · subst h2; simp only [if_true]; rw [if_neg (fun h' => h h'.symm)]
      · simp [h2]

/-- The first two columns of a line, if it has a tab. -/
def columns (l : Str) : Option (Str × Str) := match l.splitOnP (· == 9) with
  | k :: v :: _ => some (k, v)
  | _ => none

theorem tableLoop_spec (ls : List Str) (m : List (Str × Str)) :
    (∀ m', tableLoop ls m = some m' → ∀ k, mapFind m' k = (Spec.lastOf (ls.filterMap columns) k).or (mapFind m k)) ∧
    ((∃ m', tableLoop ls m = some m') ↔ ∀ l ∈ ls, columns l ≠ none) := by
  induction ls generalizing m with
  | nil => simp [tableLoop, Spec.lastOf]
  | cons l ls ih =>
    rw [tableLoop, split_eq]
    unfold columns at *
    cases h : l.splitOnP (· == 9) with
    | nil => simp [h]
    | cons k ws =>
      cases ws with
      | nil => simp [h]
      | cons v ws =>
        obtain ⟨h1, h2⟩ := ih (mapSet m k v)
        simp only [List.filterMap_cons, h]
        refine ⟨fun m' hm k' => ?_, ?_⟩
        · rw [h1 m' hm, lastOf_cons, mapFind_set]
          cases Spec.lastOf _ k' with
          | some _ => rfl
          | none =>
            simp only [Option.none_or]
            by_cases hk : k = k' <;> simp [hk]
        · rw [h2]; simp [h]

theorem columns_some {l k v : Str} (h : columns l = some (k, v)) :
    (9 : Byte) ∉ k ∧ (9 : Byte) ∉ v ∧ (l = k ++ 9 :: v ∨ ∃ rest, l = k ++ 9 :: (v ++ 9 :: rest)) := by
  have key : ∀ l : Str, ∀ w ws, l.splitOnP (· == 9) = w :: ws →
      (9 : Byte) ∉ w ∧ ((ws = [] ∧ l = w) ∨ ∃ t, l = w ++ 9 :: t ∧ t.splitOnP (· == 9) = ws) := by
    intro l
    induction l with
    | nil => intro w ws h; simp at h; simp [h]
    | cons c l ih =>
      intro w ws h
      rw [List.splitOnP_cons] at h
      by_cases hc : c = 9
      · subst hc
        simp at h
        obtain ⟨rfl, rfl⟩ := h
        exact ⟨by simp, .inr ⟨l, rfl, rfl⟩⟩
      · have hcb : (c == 9) = false := by simpa using hc
        rw [hcb] at h
        simp only [Bool.false_eq_true, if_false] at h
        cases hs : l.splitOnP (· == 9) with
        | nil => exact absurd hs (List.splitOnP_ne_nil _ _)
        | cons w' ws' =>
          rw [hs] at h
          simp at h
          obtain ⟨rfl, rfl⟩ := h
          obtain ⟨h1, h2⟩ := ih w' ws' hs
          refine ⟨by simp [h1]; exact fun h => hc h.symm, ?_⟩
          rcases h2 with ⟨h2, h3⟩ | ⟨t, h2, h3⟩
          · exact .inl ⟨h2, by rw [h3]⟩
          · exact .inr ⟨t, by rw [h2]; rfl, h3⟩
  unfold columns at h
  split at h
  · rename_i k' v' rest hs
    simp only [Option.some.injEq, Prod.mk.injEq] at h
    obtain ⟨rfl, rfl⟩ := h
    obtain ⟨h1, h2⟩ := key _ _ _ hs
    rcases h2 with ⟨h2, _⟩ | ⟨t, h2, h3⟩
    · simp at h2
    · obtain ⟨h4, h5⟩ := key _ _ _ h3
      refine ⟨h1, h4, ?_⟩
      rcases h5 with ⟨_, h5⟩ | ⟨u, h5, _⟩
      · exact .inl (by rw [h2, h5])
      · exact .inr ⟨u, by rw [h2, h5]⟩
  · simp at h

/-! ### Detok -/

theorem orderSet_mem {m : List (Int × Str)} (hs : m.Pairwise (·.1 < ·.1)) (p : Int) (t : Str) (q : Int) (u : Str) :
    (q, u) ∈ orderSet m p t ↔ (q = p ∧ u = t) ∨ (q ≠ p ∧ (q, u) ∈ m) := by
  induction m with
  | nil =>
    simp only [orderSet, List.mem_singleton, Prod.mk.injEq, List.not_mem_nil, and_false, or_false]
  | cons a m ih =>
    obtain ⟨r, w⟩ := a
    rw [List.pairwise_cons] at hs
    have ih := ih hs.2
    rw [orderSet]
    split
    · rename_i h
      have hne : ∀ v, (p, v) ∈ (r, w) :: m → False := by
        intro v hv
        rcases List.mem_cons.1 hv with hv | hv
        · simp only [Prod.mk.injEq] at hv; omega
        · have := hs.1 _ hv; simp only at this; omega
      rw [List.mem_cons, Prod.mk.injEq]
      constructor
      · rintro (h | h)
        · exact .inl h
        · right; exact ⟨fun hq => hne u (hq ▸ h), h⟩
      · rintro (h | h)
        · exact .inl h
        · exact .inr h.2
    · split
      · rename_i h
        subst h
        rw [List.mem_cons, List.mem_cons, Prod.mk.injEq, Prod.mk.injEq]
        constructor
        · rintro (h | h)
          · exact .inl h
          · right
            have := hs.1 _ h
            simp only at this
            exact ⟨by omega, .inr h⟩
        · rintro (h | ⟨h1, h2 | h2⟩)
          · exact .inl h
          · exact absurd h2.1 h1
          · exact .inr h2
      · rename_i h1 h2
        rw [List.mem_cons, ih, List.mem_cons, Prod.mk.injEq]
        constructor
        · rintro (h | h | h)
          · right; exact ⟨by omega, .inl h⟩
          · exact .inl h
          · exact .inr ⟨h.1, .inr h.2⟩
        · rintro (h | ⟨h, h3 | h3⟩)
          · exact .inr (.inl h)
          · exact .inl h3
          · exact .inr (.inr ⟨h, h3⟩)

theorem orderSet_sorted {m : List (Int × Str)} (hs : m.Pairwise (·.1 < ·.1)) (p : Int) (t : Str) :
    (orderSet m p t).Pairwise (·.1 < ·.1) := by
  induction m with
  | nil => simp [orderSet]
  | cons a m ih =>
    obtain ⟨r, w⟩ := a
    have hs0 := hs
    rw [List.pairwise_cons] at hs
    rw [orderSet]
    split
    · rename_i h
      rw [List.pairwise_cons]
      refine ⟨fun b hb => ?_, hs0⟩
      rcases List.mem_cons.1 hb with rfl | hb
      · exact h
      · have := hs.1 b hb; simp only at *; omega
    · split
      · rename_i h; subst h
        rw [List.pairwise_cons]; exact hs
      · rename_i h1 h2
        rw [List.pairwise_cons]
        refine ⟨fun b hb => ?_, ih hs.2⟩
        obtain ⟨q, u⟩ := b
        rcases (orderSet_mem hs.2 p t q u).1 hb with ⟨rfl, _⟩ | ⟨_, hb⟩
        · simp only; omega
        · exact hs.1 _ hb

theorem orderAll_spec (tokens : List (Int × Str)) : (orderAll tokens).Pairwise (·.1 < ·.1) ∧
    ∀ p t, (p, t) ∈ orderAll tokens ↔ Spec.lastAt tokens p = some t := by
  unfold orderAll
  suffices ∀ m : List (Int × Str), m.Pairwise (·.1 < ·.1) →
      (tokens.foldl (fun m pt => orderSet m pt.1 pt.2) m).Pairwise (·.1 < ·.1) ∧
      ∀ p t, (p, t) ∈ tokens.foldl (fun m pt => orderSet m pt.1 pt.2) m ↔
        Spec.lastAt tokens p = some t ∨ (Spec.lastAt tokens p = none ∧ (p, t) ∈ m) by
    obtain ⟨h1, h2⟩ := this [] .nil
    exact ⟨h1, fun p t => by rw [h2]; simp⟩
  induction tokens with
  | nil => intro m hm; exact ⟨hm, fun p t => by simp [Spec.lastAt]⟩
  | cons a tokens ih =>
    intro m hm
    obtain ⟨h1, h2⟩ := ih (orderSet m a.1 a.2) (orderSet_sorted hm _ _)
    refine ⟨h1, fun p t => ?_⟩
    rw [List.foldl_cons, h2, orderSet_mem hm]
    have hla : Spec.lastAt (a :: tokens) p = (Spec.lastAt tokens p).or (if a.1 = p then some a.2 else none) := by
      unfold Spec.lastAt
      rw [List.filter_cons]
      by_cases h : a.1 = p
      · simp only [h, decide_true, if_true]
        cases he : tokens.filter (fun t => t.1 = p) with
        | nil => simp
        | cons b bs => simp [List.getLast?_cons_cons, List.getLast?_cons]
      · simp [h]
    rw [hla]
    cases hl : Spec.lastAt tokens p with
    | some u => simp
    | none =>
      simp only [reduceCtorEq, false_or, true_and, Option.none_or]
      by_cases h : a.1 = p
      · subst h; simp [eq_comm]
      · rw [if_neg h]
        have h' : ¬ p = a.1 := fun h' => h h'.symm
        simp [h']

theorem preceded_iff {t : Str} (h : t ≠ []) : precededBySpace t = true ↔ ∀ c, t.head? = some c → c ∉ Server.ascii ".,;:)]}!?" := by
  have he : Server.ascii ".,;:)]}!?" = [46, 44, 59, 58, 41, 93, 125, 33, 63] := by decide
  cases t with
  | nil => exact absurd rfl h
  | cons c t => simp [precededBySpace, he]

theorem followed_iff {s : Str} (h : s ≠ []) : followedBySpace s = true ↔ ∀ c, s.getLast? = some c → c ∉ Server.ascii "([{" := by
  have he : Server.ascii "([{" = [40, 91, 123] := by decide
  unfold followedBySpace
  cases hl : s.getLast? with
  | none => simp at hl; exact absurd hl h
  | some c => simp [he]

theorem joinLoop_glue (s final : Str) (hs : s ≠ []) (ts : List Str) (pre : Str) (hf : final = pre ++ s) :
    joinLoop final ts = pre ++ Spec.glue (s :: ts.filter (· ≠ [])) := by
  induction ts generalizing s final pre with
  | nil => simp [joinLoop, Spec.glue, hf]
  | cons t ts ih =>
    rw [joinLoop]
    by_cases ht : t = []
    · subst ht
      rw [List.filter_cons_of_neg (by simp)]
      rw [show (precededBySpace [] && followedBySpace final) = false from rfl]
      simp only [Bool.false_eq_true, if_false, List.append_nil]
      exact ih s final hs pre hf
    · rw [List.filter_cons_of_pos (by simpa using ht), Spec.glue]
      have hfin : final.getLast? = s.getLast? := by
        rw [hf, List.getLast?_append]
        cases h : s.getLast? with
        | none => simp at h; exact absurd h hs
        | some c => rfl
      have hne : final ≠ [] := by rw [hf]; simp [hs]
      have hsp : (precededBySpace t && followedBySpace final) = true ↔ Spec.Spaced s t := by
        rw [Bool.and_eq_true, preceded_iff ht, followed_iff hne, hfin]
        exact and_comm
      by_cases hd : Spec.Spaced s t
      · rw [if_pos (hsp.2 hd), if_pos hd, ih t _ ht (final ++ [32]) rfl, hf]
        simp
      · rw [if_neg (fun h => hd (hsp.1 h)), if_neg hd, ih t _ ht final rfl, hf]
        simp

theorem joinTokens_glue (ts : List Str) : joinTokens ts = Spec.glue (ts.filter (· ≠ [])) := by
  cases ts with
  | nil => rfl
  | cons t ts =>
    rw [joinTokens]
    by_cases ht : t = []
    · subst ht
      rw [List.filter_cons_of_neg (by simp)]
      induction ts with
      | nil => rfl
      | cons u us ih =>
        rw [joinLoop]
        rw [show (precededBySpace u && followedBySpace []) = false from by simp [followedBySpace]]
        simp only [Bool.false_eq_true, if_false, List.nil_append]
        by_cases hu : u = []
        · subst hu; rw [List.filter_cons_of_neg (by simp)]; exact ih
        · rw [List.filter_cons_of_pos (by simpa using hu)]
          exact joinLoop_glue u u hu us [] rfl
    · rw [List.filter_cons_of_pos (by simpa using ht)]
      exact joinLoop_glue t t ht ts [] rfl

end Verif.Lexicon
