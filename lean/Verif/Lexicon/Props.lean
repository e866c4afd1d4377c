import Verif.Lexicon.Lemmas
import Verif.KeyValue.Props
import Mathlib.Data.List.Dedup
import Mathlib.Data.List.Nodup
import Mathlib.Data.List.TakeWhile

/-!
Property theorems C125-C129 (the text and the records of a lexicon).

`Spec.text ls` is the text of the lines `ls`.  `KeyValue.MinimalPerfect h keys` says that `h` maps the keys to distinct numbers
below their number; `KeyValue.Fits` that the values fit in 32-bit positions.
-/
set_option linter.unusedVariables false
set_option linter.unusedSimpArgs false

namespace Verif.Lexicon
open Verif

/-! ### C125 -/

/-- **C125** What a lexicon is read as: each line is taken for an entry or nothing, and neighbours with the same key are put
together. -/
theorem C125_reads {ls : List Str} (h : ∀ l ∈ ls, (10 : Byte) ∉ l) (adds : List (Str × Str)) :
    readPlainText (Spec.text ls) = .ok adds ↔
      ∃ es, List.Forall₂ Spec.Taken ls es ∧ adds = (Spec.group (es.filterMap id)).map Spec.value := by
  rw [readPlainText, getlines_text h, readLoop_none]

/-- **C125** It does not matter whether there is a newline after the last line, so C125 is about all files. -/
theorem C125_files (s : Str) : ∃ ls, (∀ l ∈ ls, (10 : Byte) ∉ l) ∧ (Spec.text ls = s ∨ Spec.text ls = s ++ [10]) ∧
    readPlainText s = readPlainText (Spec.text ls) := by
  refine ⟨getlines s, getlines_no_newline s, ?_, ?_⟩
  · by_cases h : s = []
    · subst h; exact .inl rfl
    · by_cases hl : s.getLast? = some 10
      · exact .inl (getlines_text_again s h hl)
      · right
        rw [← getlines_final h hl]
        exact getlines_text_again _ (by simp) (by simp)
  · rw [readPlainText, readPlainText, getlines_text (getlines_no_newline s)]

theorem not_taken {l : Str} : (∀ e, ¬ Spec.Taken l e) ↔ ¬ Spec.Indented l ∧
    ((∃ w ∈ Spec.words (Spec.content l), ∀ r, ¬ Quoter.Spec.Reads [] w r) ∨ (Spec.words (Spec.content l)).length = 1) := by
  by_cases hi : Spec.Indented l
  · simp only [hi, not_true, false_and, iff_false]
    exact fun h => h none (.inl ⟨hi, rfl⟩)
  · simp only [hi, not_false_iff, true_and]
    have ht : ∀ e, Spec.Taken l e ↔ Spec.Means l e := fun e => by simp [Spec.Taken, hi]
    simp only [ht]
    have hr : (∃ fs, List.Forall₂ (Quoter.Spec.Reads []) (Spec.words (Spec.content l)) fs) ↔
        ¬ ∃ w ∈ Spec.words (Spec.content l), ∀ r, ¬ Quoter.Spec.Reads [] w r := by
      generalize Spec.words (Spec.content l) = ws
      constructor
      · rintro ⟨fs, h⟩ ⟨w, hw, hn⟩
        induction h with
        | nil => simp at hw
        | cons h1 _ ih =>
          rcases List.mem_cons.1 hw with rfl | hw
          · exact hn _ h1
          · exact ih hw
      · intro h
        induction ws with
        | nil => exact ⟨[], .nil⟩
        | cons w ws ih =>
          obtain ⟨fs, hf⟩ := ih (fun ⟨v, hv, hn⟩ => h ⟨v, by simp [hv], hn⟩)
          by_cases hw : ∃ r, Quoter.Spec.Reads [] w r
          · obtain ⟨r, hr⟩ := hw; exact ⟨r :: fs, .cons hr hf⟩
          · exact absurd ⟨w, by simp, fun r hr => hw ⟨r, hr⟩⟩ h
    constructor
    · intro h
      by_cases hb : ∃ w ∈ Spec.words (Spec.content l), ∀ r, ¬ Quoter.Spec.Reads [] w r
      · exact .inl hb
      · right
        obtain ⟨fs, hf⟩ := hr.2 hb
        have hlen := hf.length_eq
        match fs, hf with
        | [], hf => cases hw : Spec.words (Spec.content l) with
          | nil => exact absurd (.nothing hw) (h none)
          | cons w ws => rw [hw] at hlen; simp at hlen
        | [f], hf => simpa using hlen
        | k :: f :: fs, hf => exact absurd (.entry hf) (h _)
    · rintro (h | h) e he
      · cases he with
        | nothing h0 => obtain ⟨w, hw, _⟩ := h; rw [h0] at hw; simp at hw
        | entry hf => exact hr.1 ⟨_, hf⟩ h
      · cases he with
        | nothing h0 => rw [h0] at h; simp at h
        | entry hf => have := hf.length_eq; rw [h] at this; simp at this

/-- **C125** The lexicon is refused exactly if some line that is not indented has a wrongly quoted word or only one word. -/
theorem C125_refused {ls : List Str} (h : ∀ l ∈ ls, (10 : Byte) ∉ l) :
    (∃ x, readPlainText (Spec.text ls) = .error x) ↔ ∃ l ∈ ls, ¬ Spec.Indented l ∧
      ((∃ w ∈ Spec.words (Spec.content l), ∀ r, ¬ Quoter.Spec.Reads [] w r) ∨ (Spec.words (Spec.content l)).length = 1) := by
  have h1 : (∃ x, readPlainText (Spec.text ls) = .error x) ↔ ¬ ∃ adds, readPlainText (Spec.text ls) = .ok adds := by
    cases readPlainText (Spec.text ls) <;> simp
  have h2 : (∃ adds, readPlainText (Spec.text ls) = .ok adds) ↔ ∃ es, List.Forall₂ Spec.Taken ls es := by
    constructor
    · rintro ⟨adds, ha⟩
      obtain ⟨es, he, _⟩ := (C125_reads h adds).1 ha
      exact ⟨es, he⟩
    · rintro ⟨es, he⟩
      exact ⟨_, (C125_reads h _).2 ⟨es, he, rfl⟩⟩
  rw [h1, h2]
  have h3 : (∃ es, List.Forall₂ Spec.Taken ls es) ↔ ¬ ∃ l ∈ ls, ∀ e, ¬ Spec.Taken l e := by
    clear h h1 h2
    constructor
    · rintro ⟨es, h⟩ ⟨l, hl, hn⟩
      induction h with
      | nil => simp at hl
      | cons h1 _ ih =>
        rcases List.mem_cons.1 hl with rfl | hl
        · exact hn _ h1
        · exact ih hl
    · intro h
      induction ls with
      | nil => exact ⟨[], .nil⟩
      | cons l ls ih =>
        obtain ⟨fs, hf⟩ := ih (fun ⟨v, hv, hn⟩ => h ⟨v, by simp [hv], hn⟩)
        by_cases hw : ∃ e, Spec.Taken l e
        · obtain ⟨r, hr⟩ := hw; exact ⟨r :: fs, .cons hr hf⟩
        · exact absurd ⟨l, by simp, fun r hr => hw ⟨r, hr⟩⟩ h
  rw [h3, Classical.not_not]
  simp only [not_taken]

/-- The lines "a x # first", "# none", "", "a y" and "b_c\tz w". -/
def sampleLines : List Str :=
  [Server.ascii "a x # first", Server.ascii "# none", [], Server.ascii "a y", Server.ascii "b_c\tz w"]

example : readPlainText (Spec.text sampleLines) =
    .ok [(Server.ascii "a", Server.ascii "x;y"), (Server.ascii "b c", Server.ascii "z\tw")] := by decide +kernel

example : ∀ l ∈ sampleLines, (10 : Byte) ∉ l := by decide +kernel

example : readPlainText (Server.ascii "a x\nb\n") = .error .fields ∧ readPlainText (Server.ascii "a x\nb\\q y\n") = .error .quoter := by
  decide +kernel

/-! ### C126 -/

/-- **C126** The claim is that each line gives the entry it means.  A line with a space or a tab before its words gives nothing. -/
theorem C126_false : ∃ l k f, Spec.Means l (some (k, [f])) ∧ readPlainText (Spec.text [l]) = .ok [] := by
  refine ⟨Server.ascii " a x", Server.ascii "a", Server.ascii "x", fieldsOf_ok.1 (by decide +kernel), by decide +kernel⟩

/-- **C126** Nor is anything said about such a line that has only one word or a wrongly quoted one: whatever stands in indented
lines, the lexicon is the same without them. -/
theorem C126_dropped {ls : List Str} (h : ∀ l ∈ ls, (10 : Byte) ∉ l) (keep : List Str)
    (hk : keep.Sublist ls) (hd : ∃ p : Str → Bool, (∀ l, p l = false → Spec.Indented l) ∧ keep = ls.filter p) :
    readPlainText (Spec.text ls) = readPlainText (Spec.text keep) := by
  obtain ⟨p, hp, rfl⟩ := hd
  rw [readPlainText, readPlainText, getlines_text h, getlines_text (fun l hl => h l (hk.subset hl))]
  clear h hk
  suffices ∀ prev, readLoop ls prev = readLoop (ls.filter p) prev from this none
  induction ls with
  | nil => intro prev; rfl
  | cons l ls ih =>
    intro prev
    by_cases hl : p l = true
    · rw [List.filter_cons_of_pos hl]
      unfold readLoop
      simp only [ih]
    · rw [List.filter_cons_of_neg hl, ← ih]
      have := (isEmptyLine_iff l).2 (.inl (hp l (by simpa using hl)))
      rw [readLoop]
      simp only [this, if_true]

/-- **C126** Without indented lines every line gives what it means. -/
theorem C126_partial {ls : List Str} (h : ∀ l ∈ ls, (10 : Byte) ∉ l) (hi : ∀ l ∈ ls, ¬ Spec.Indented l) (adds : List (Str × Str)) :
    readPlainText (Spec.text ls) = .ok adds ↔
      ∃ es, List.Forall₂ Spec.Means ls es ∧ adds = (Spec.group (es.filterMap id)).map Spec.value := by
  rw [C125_reads h]
  have : ∀ es, List.Forall₂ Spec.Taken ls es ↔ List.Forall₂ Spec.Means ls es := by
    clear h
    intro es
    induction ls generalizing es with
    | nil => cases es <;> simp
    | cons l ls ih =>
      cases es with
      | nil => simp
      | cons e es =>
        rw [List.forall₂_cons, List.forall₂_cons, ih (fun m hm => hi m (by simp [hm]))]
        simp [Spec.Taken, hi l]
  simp only [this]

example : ∀ l ∈ sampleLines, ¬ Spec.Indented l := by
  rintro l hl ⟨c, s, rfl, hc⟩
  have : ∀ l ∈ sampleLines, ∀ c, l.head? = some c → c ≠ 9 ∧ c ≠ 32 := by decide +kernel
  have := this _ hl c rfl
  rcases hc with rfl | rfl <;> simp at this

/-! ### C127, C128 -/

theorem minimalPerfect_perm {h : Str → Nat} {a b : List Str} (hp : a.Perm b) (hm : KeyValue.MinimalPerfect h a) : KeyValue.MinimalPerfect h b :=
  ⟨(hp.map h).nodup_iff.1 hm.1, fun k hk => by rw [← hp.length_eq]; exact hm.2 k (hp.mem_iff.2 hk)⟩

/-- **C127** A key of the lexicon gives the records of all its entries in their order, if equal keys stand together; a record with
";" in a field comes in pieces. -/
theorem C127_records {ls : List Str} {es : List (Option Spec.Entry)} {adds : List (Str × Str)} (hl : ∀ l ∈ ls, (10 : Byte) ∉ l)
    (he : List.Forall₂ Spec.Taken ls es) (ht : Spec.Together ((es.filterMap id).map (·.1)))
    (hr : readPlainText (Spec.text ls) = .ok adds) (hf : KeyValue.Fits adds) (h fp : Str → Nat)
    (hm : KeyValue.MinimalPerfect h (((es.filterMap id).map (·.1)).dedup.map KeyValue.cstr)) :
    ∃ s, buildStore h fp adds = some s ∧
      (∀ k ∈ (es.filterMap id).map (·.1), getRecords h fp s k =
        some (((es.filterMap id).filter (fun e => e.1 = k)).flatMap (fun e => (Spec.record e).splitOn 59))) ∧
      ∀ q, getRecords h fp s q = some [] ∨ ∃ k ∈ (es.filterMap id).map (·.1),
        h (KeyValue.cstr q) = h (KeyValue.cstr k) ∧ fp (KeyValue.cstr q) = fp (KeyValue.cstr k) ∧
        getRecords h fp s q = getRecords h fp s k := by
  obtain ⟨es', he', ha⟩ := (C125_reads hl adds).1 hr
  have hee : es' = es := by
    clear ha hr hm ht hl
    induction he generalizing es' with
    | nil => cases he'; rfl
    | cons h1 _ ih =>
      cases he' with
      | cons h2 h3 => rw [taken_unique h2 h1, ih _ h3]
  subst hee
  clear he he' hr
  generalize es'.filterMap id = es at *
  have hnd := (group_nodup es).2 ht
  have hkeys : adds.map (·.1) = (Spec.group es).map (·.1) := by rw [ha, List.map_map]; rfl
  have hperm : ((es.map (·.1)).dedup).Perm (adds.map (·.1)) := by
    rw [List.perm_ext_iff_of_nodup (List.nodup_dedup _) (by rw [hkeys]; exact hnd)]
    intro k
    rw [List.mem_dedup, hkeys, group_keys_mem]
  have hm' : KeyValue.MinimalPerfect h (adds.map fun e => KeyValue.cstr e.1) := by
    have := minimalPerfect_perm (hperm.map KeyValue.cstr) hm
    rwa [List.map_map] at this
  obtain ⟨s, hs, hg⟩ := KeyValue.C29_get h fp adds hf hm'
  refine ⟨s, hs, ?_, ?_⟩
  · intro k hk
    rw [← group_keys_mem] at hk
    obtain ⟨g, hgm, rfl⟩ := List.mem_map.1 hk
    have h1 := hg _ _ (show (g.1, [59].intercalate g.2) ∈ adds by rw [ha]; exact List.mem_map.2 ⟨g, hgm, rfl⟩)
    rw [getRecords, h1]
    simp only
    have h2 := group_records hnd (k := g.1) (rs := g.2) hgm
    rw [split_eq, splitOnP_intercalate _ (by simp) (group_nonempty hgm), h2, List.flatMap_map]
    rfl
  · intro q
    rcases KeyValue.C29_other_keys h fp adds hf hm' s hs q with h1 | ⟨k, v, hkv, h2, h3, h4⟩
    · left; rw [getRecords, h1]
    · right
      refine ⟨k, ?_, h2, h3, ?_⟩
      · rw [← group_keys_mem, ← hkeys]; exact List.mem_map.2 ⟨_, hkv, rfl⟩
      · rw [getRecords, getRecords, h4, hg k v hkv]

/-- **C128** The keys given to the builder of the store are distinct exactly if equal keys stand together in the file. -/
theorem C128_distinct {ls : List Str} {es : List (Option Spec.Entry)} {adds : List (Str × Str)} (hl : ∀ l ∈ ls, (10 : Byte) ∉ l)
    (he : List.Forall₂ Spec.Taken ls es) (hr : readPlainText (Spec.text ls) = .ok adds) :
    (adds.map (·.1)).Nodup ↔ Spec.Together ((es.filterMap id).map (·.1)) := by
  have h1 := (C125_reads hl _).2 ⟨es, he, rfl⟩
  rw [h1] at hr
  simp only [Except.ok.injEq] at hr
  rw [← group_nodup, ← hr, List.map_map]
  rfl

/-- **C128** The claim is that a lexicon can be made from any entries.  If equal keys are apart, there is no hash that the store
could use. -/
theorem C128_false : ∃ file adds, readPlainText file = .ok adds ∧ ∀ h, ¬ KeyValue.MinimalPerfect h (adds.map fun e => KeyValue.cstr e.1) := by
  refine ⟨Server.ascii "a x\nb y\na z\n", [(Server.ascii "a", Server.ascii "x"), (Server.ascii "b", Server.ascii "y"), (Server.ascii "a", Server.ascii "z")],
    by decide +kernel, ?_⟩
  rintro h ⟨h1, _⟩
  simp at h1

/-- **C128** For all lexica with equal keys apart it is so. -/
theorem C128_apart {ls : List Str} {es : List (Option Spec.Entry)} {adds : List (Str × Str)} (hl : ∀ l ∈ ls, (10 : Byte) ∉ l)
    (he : List.Forall₂ Spec.Taken ls es) (hr : readPlainText (Spec.text ls) = .ok adds)
    (ht : ¬ Spec.Together ((es.filterMap id).map (·.1))) (h : Str → Nat) :
    ¬ KeyValue.MinimalPerfect h (adds.map fun e => KeyValue.cstr e.1) := by
  rintro ⟨h1, _⟩
  apply ht
  rw [← C128_distinct hl he hr]
  rw [List.map_map] at h1
  have : (adds.map (h ∘ fun e => KeyValue.cstr e.1)) = (adds.map (·.1)).map (fun k => h (KeyValue.cstr k)) := by
    rw [List.map_map]; rfl
  rw [this] at h1
  exact List.Nodup.of_map _ h1

/-- A hash for the keys "a" and "b c". -/
def sampleHash (k : Str) : Nat := if k = Server.ascii "a" then 0 else 1

example : ∃ es adds, List.Forall₂ Spec.Taken sampleLines es ∧ Spec.Together ((es.filterMap id).map (·.1)) ∧
    readPlainText (Spec.text sampleLines) = .ok adds ∧ KeyValue.Fits adds ∧
    KeyValue.MinimalPerfect sampleHash (((es.filterMap id).map (·.1)).dedup.map KeyValue.cstr) := by
  have hr : readPlainText (Spec.text sampleLines) =
    .ok [(Server.ascii "a", Server.ascii "x;y"), (Server.ascii "b c", Server.ascii "z\tw")] := by decide +kernel
  have he : List.Forall₂ Spec.Taken sampleLines [some (Server.ascii "a", [Server.ascii "x"]), none, none,
      some (Server.ascii "a", [Server.ascii "y"]), some (Server.ascii "b c", [Server.ascii "z", Server.ascii "w"])] := by
    refine .cons (taken_some.2 ⟨by decide +kernel, by decide +kernel⟩) (.cons (skipped_iff.1 (by decide +kernel)) (.cons (skipped_iff.1 (by decide +kernel))
      (.cons (taken_some.2 ⟨by decide +kernel, by decide +kernel⟩) (.cons (taken_some.2 ⟨by decide +kernel, by decide +kernel⟩) .nil))))
  refine ⟨_, _, he, ?_, hr, ?_, ?_⟩
  · rw [← C128_distinct (by decide +kernel) he hr]; decide +kernel
  · unfold KeyValue.Fits; decide +kernel
  · unfold KeyValue.MinimalPerfect; decide +kernel

/-! ### C129 -/

theorem escape_hash {s : Str} (h : (35 : Byte) ∉ s) : (35 : Byte) ∉ Quoter.escape [] s := by
  induction s with
  | nil => simp [Quoter.escape]
  | cons b s ih =>
    rw [Quoter.escape, List.mem_append, not_or]
    simp only [List.mem_cons, not_or] at h
    refine ⟨?_, ih h.2⟩
    unfold Quoter.escapeByte
    repeat' split
    all_goals first
      | decide
      | simp only [List.mem_singleton]; exact h.1
      | (rename_i hc; simp at hc)

theorem words_written {ws : List Str} (hne : ws ≠ []) (h : ∀ w ∈ ws, w ≠ [] ∧ ∀ c ∈ w, ¬ Spec.Separator c) :
    Spec.words ([9].intercalate ws) = ws := by
  unfold Spec.words
  rw [splitOnP_intercalate _ (by decide) hne]
  have : ws.flatMap (fun w => w.splitOnP (fun c => decide (Spec.Separator c))) = ws := by
    clear hne
    induction ws with
    | nil => rfl
    | cons w ws ih =>
      rw [List.flatMap_cons, ih (fun v hv => h v (by simp [hv])), splitOnP_none _ (fun c hc => by simpa using (h w (by simp)).2 c hc)]
      rfl
  rw [this, List.filter_eq_self]
  intro w hw
  simpa using (h w hw).1

/-- **C129** Entries written with quoted fields and tabs between them are read back, if no field is empty or has a "#". -/
theorem C129_round_trip {es : List Spec.Entry} (h : ∀ e ∈ es, e.2 ≠ [] ∧ ∀ f ∈ e.1 :: e.2, f ≠ [] ∧ (35 : Byte) ∉ f) :
    readPlainText (Spec.text (es.map (Spec.written (Quoter.escape [])))) = .ok ((Spec.group es).map Spec.value) := by
  have hsep : ∀ s : Str, ∀ c ∈ Quoter.escape [] s, ¬ Spec.Separator c ∧ c ≠ 10 := by
    intro s c hc
    have := Quoter.C16_no_separator [] (by simp) s c hc
    simp only [Quoter.Spec.isSeparator, not_or] at this
    exact ⟨fun hs => by rcases hs with rfl | rfl <;> simp at this, this.2.2.1⟩
  have hmem : ∀ {ws : List Str} {c : Byte}, c ∈ [9].intercalate ws → c = 9 ∨ ∃ w ∈ ws, c ∈ w := by
    intro ws c hc
    induction ws with
    | nil => simp [List.intercalate] at hc
    | cons w ws ih =>
      cases ws with
      | nil => exact .inr ⟨w, by simp, by simpa [List.intercalate] using hc⟩
      | cons v vs =>
        rw [intercalate_cons (by simp), List.mem_append, List.mem_append] at hc
        rcases hc with (hc | hc) | hc
        · exact .inr ⟨w, by simp, hc⟩
        · exact .inl (by simpa using hc)
        · rcases ih hc with h1 | ⟨u, hu, h1⟩
          · exact .inl h1
          · exact .inr ⟨u, by simp at hu ⊢; exact .inr hu, h1⟩
  rw [C125_reads]
  · refine ⟨es.map some, ?_, by simp⟩
    rw [List.forall₂_map_left_iff, List.forall₂_map_right_iff, List.forall₂_same]
    intro e he
    obtain ⟨h1, h2⟩ := h e he
    have hcont : Spec.content (Spec.written (Quoter.escape []) e) = Spec.written (Quoter.escape []) e := by
      unfold Spec.content
      rw [List.takeWhile_eq_self_iff]
      intro c hc
      rcases hmem hc with rfl | ⟨w, hw, hc⟩
      · decide
      · obtain ⟨f, hf, rfl⟩ := List.mem_map.1 hw
        simp only [ne_eq, decide_eq_true_eq]
        rintro rfl
        exact escape_hash (h2 f hf).2 hc
    have hw : Spec.words (Spec.content (Spec.written (Quoter.escape []) e)) = (e.1 :: e.2).map (Quoter.escape []) := by
      rw [hcont]
      unfold Spec.written
      apply words_written (by simp)
      intro w hw
      obtain ⟨f, hf, rfl⟩ := List.mem_map.1 hw
      exact ⟨fun h0 => (h2 f hf).1 ((Quoter.C16_nonempty [] f).1 h0), fun c hc => (hsep f c hc).1⟩
    right
    constructor
    · rintro ⟨c, s, hcs, hc⟩
      unfold Spec.written at hcs
      rw [List.map_cons] at hcs
      cases hq : Quoter.escape [] e.1 with
      | nil => exact (h2 e.1 (by simp)).1 ((Quoter.C16_nonempty [] _).1 hq)
      | cons d t =>
        rw [intercalate_cons (by simpa using h1), hq] at hcs
        simp only [List.cons_append, List.cons.injEq] at hcs
        exact (hsep e.1 d (by rw [hq]; simp)).1 (hcs.1 ▸ hc)
    · obtain ⟨k, fs⟩ := e
      obtain ⟨f, fs, rfl⟩ : ∃ f fs', fs = f :: fs' := by cases fs with
        | nil => simp at h1
        | cons f fs => exact ⟨f, fs, rfl⟩
      refine .entry ?_
      rw [hw, List.forall₂_map_left_iff, List.forall₂_same]
      intro g _
      rw [← Quoter.unescape_iff]
      exact Quoter.C15_utt g
  · intro l hl hc
    obtain ⟨e, he, rfl⟩ := List.mem_map.1 hl
    rcases hmem hc with hc | ⟨w, hw, hc⟩
    · simp at hc
    · obtain ⟨f, hf, rfl⟩ := List.mem_map.1 hw
      exact (hsep f 10 hc).2 rfl

theorem reads_hash {s r : Str} (h : Quoter.Spec.Reads [] s r) : (35 : Byte) ∈ r → (35 : Byte) ∈ s := by
  induction h with
  | nil => simp
  | blank _ ih => intro h; simp at h; simp [ih h]
  | esc he _ ih =>
    intro h
    rcases List.mem_cons.1 h with h | h
    · cases he <;> simp at *
    · simp [ih h]
  | lit _ _ _ ih =>
    intro h
    rcases List.mem_cons.1 h with h | h
    · simp [h]
    · simp [ih h]

theorem reads_nonempty {q s r : Str} (h : Quoter.Spec.Reads q s r) : r = [] → s = [] := by
  cases h <;> simp

theorem splitOnP_mem (f : Byte → Bool) (s : Str) : ∀ w ∈ s.splitOnP f, ∀ c ∈ w, c ∈ s := by
  induction s with
  | nil => simp
  | cons d s ih =>
    rw [List.splitOnP_cons]
    split
    · intro w hw c hc
      rcases List.mem_cons.1 hw with rfl | hw
      · simp at hc
      · exact List.mem_cons_of_mem _ (ih w hw c hc)
    · have := List.splitOnP_ne_nil f s
      cases h : s.splitOnP f with
      | nil => exact absurd h this
      | cons v vs =>
        rw [h] at ih
        intro w hw c hc
        simp only [List.modifyHead_cons, List.mem_cons] at hw
        rcases hw with rfl | hw
        · rcases List.mem_cons.1 hc with rfl | hc
          · simp
          · exact List.mem_cons_of_mem _ (ih v (by simp) c hc)
        · exact List.mem_cons_of_mem _ (ih w (by simp [hw]) c hc)

theorem forall₂_right {α β : Type} {R : α → β → Prop} {l : List α} {m : List β} (h : List.Forall₂ R l m) {b : β} (hb : b ∈ m) :
    ∃ a ∈ l, R a b := by
  induction h with
  | nil => simp at hb
  | cons h1 _ ih =>
    rcases List.mem_cons.1 hb with rfl | hb
    · exact ⟨_, by simp, h1⟩
    · obtain ⟨a, ha, hr⟩ := ih hb; exact ⟨a, by simp [ha], hr⟩

theorem group_mem {es : List Spec.Entry} {g : Str × List Str} (h : g ∈ Spec.group es) :
    (∃ e ∈ es, g.1 = e.1) ∧ ∀ r ∈ g.2, ∃ e ∈ es, r = Spec.record e := by
  induction es generalizing g with
  | nil => simp [Spec.group] at h
  | cons e es ih =>
    rw [Spec.group] at h
    have ihs : ∀ g ∈ Spec.group es, (∃ d ∈ e :: es, g.1 = d.1) ∧ ∀ r ∈ g.2, ∃ d ∈ e :: es, r = Spec.record d := by
      intro g hg
      obtain ⟨⟨d, hd, h1⟩, h2⟩ := ih hg
      refine ⟨⟨d, by simp [hd], h1⟩, fun r hr => ?_⟩
      obtain ⟨d, hd, h3⟩ := h2 r hr
      exact ⟨d, by simp [hd], h3⟩
    have hself : ∀ rs : List Str, (∀ r ∈ rs, ∃ d ∈ e :: es, r = Spec.record d) →
        ∀ r ∈ Spec.record e :: rs, ∃ d ∈ e :: es, r = Spec.record d := by
      intro rs hrs r hr
      rcases List.mem_cons.1 hr with rfl | hr
      · exact ⟨e, by simp, rfl⟩
      · exact hrs r hr
    split at h
    · simp at h; subst h; exact ⟨⟨e, by simp, rfl⟩, hself [] (by simp)⟩
    · rename_i k rs gs hg
      rw [hg] at ihs
      split at h
      · rename_i hk
        rcases List.mem_cons.1 h with rfl | h
        · exact ⟨⟨e, by simp, hk.symm⟩, hself rs (ihs (k, rs) (by simp)).2⟩
        · exact ihs g (by simp [h])
      · rcases List.mem_cons.1 h with rfl | h
        · exact ⟨⟨e, by simp, rfl⟩, hself [] (by simp)⟩
        · exact ihs g h

theorem mem_intercalate {sep : Str} {ws : List Str} {c : Byte} (hc : c ∈ sep.intercalate ws) : c ∈ sep ∨ ∃ w ∈ ws, c ∈ w := by
  induction ws with
  | nil => simp [List.intercalate] at hc
  | cons w ws ih =>
    cases ws with
    | nil => exact .inr ⟨w, by simp, by simpa [List.intercalate] using hc⟩
    | cons v vs =>
      rw [intercalate_cons (by simp), List.mem_append, List.mem_append] at hc
      rcases hc with (hc | hc) | hc
      · exact .inr ⟨w, by simp, hc⟩
      · exact .inl hc
      · rcases ih hc with h1 | ⟨u, hu, h1⟩
        · exact .inl h1
        · exact .inr ⟨u, by simp at hu ⊢; exact .inr hu, h1⟩

theorem intercalate_eq_nil {sep : Str} {ws : List Str} (h0 : ws ≠ []) (h : ∀ w ∈ ws, w ≠ []) : sep.intercalate ws ≠ [] := by
  cases ws with
  | nil => exact absurd rfl h0
  | cons w ws =>
    have := h w (by simp)
    cases ws with
    | nil => simpa [List.intercalate] using this
    | cons v vs => rw [intercalate_cons (by simp)]; simp [this]

/-- **C129** The restriction cannot be avoided: there is no way to write an entry with an empty field or a "#" in a field, whatever
the file is. -/
theorem C129_needed (file : Str) (adds : List (Str × Str)) (h : readPlainText file = .ok adds) :
    ∀ kv ∈ adds, kv.1 ≠ [] ∧ kv.2 ≠ [] ∧ (35 : Byte) ∉ kv.1 ∧ (35 : Byte) ∉ kv.2 := by
  obtain ⟨es, he, rfl⟩ := readLoop_none.1 h
  have hes : ∀ e ∈ es.filterMap id, e.2 ≠ [] ∧ ∀ f ∈ e.1 :: e.2, f ≠ [] ∧ (35 : Byte) ∉ f := by
    intro e hem
    obtain ⟨o, ho, ho2⟩ := List.mem_filterMap.1 hem
    simp only [id] at ho2
    subst ho2
    obtain ⟨l, hl, ht⟩ := forall₂_right he ho
    rcases ht with ⟨_, h0⟩ | ⟨_, hm⟩
    · simp at h0
    · cases hm with
      | entry hf =>
        refine ⟨by simp, fun f hfm => ?_⟩
        obtain ⟨w, hw, hr⟩ := forall₂_right hf hfm
        obtain ⟨hw1, hw2⟩ := List.mem_filter.1 hw
        refine ⟨fun h0 => ?_, fun h35 => ?_⟩
        · have := reads_nonempty hr h0
          simp [this] at hw2
        · have h1 := splitOnP_mem _ _ w hw1 35 (reads_hash hr h35)
          have := List.mem_takeWhile_imp h1
          simp at this
  have hrec : ∀ e ∈ es.filterMap id, Spec.record e ≠ [] ∧ (35 : Byte) ∉ Spec.record e := by
    intro e hem
    obtain ⟨h1, h2⟩ := hes e hem
    refine ⟨intercalate_eq_nil h1 (fun w hw => (h2 w (by simp [hw])).1), fun hc => ?_⟩
    rcases mem_intercalate hc with hc | ⟨w, hw, hc⟩
    · simp at hc
    · exact (h2 w (by simp [hw])).2 hc
  intro kv hkv
  obtain ⟨g, hg, rfl⟩ := List.mem_map.1 hkv
  obtain ⟨⟨e, hem, hk⟩, hv⟩ := group_mem hg
  have hk2 := (hes e hem).2 e.1 (by simp)
  refine ⟨by simp only [Spec.value, hk]; exact hk2.1, ?_, by simp only [Spec.value, hk]; exact hk2.2, ?_⟩
  · refine intercalate_eq_nil (group_nonempty hg) (fun w hw => ?_)
    obtain ⟨d, hd, rfl⟩ := hv w hw
    exact (hrec d hd).1
  · intro hc
    rcases mem_intercalate hc with hc | ⟨w, hw, hc⟩
    · simp at hc
    · obtain ⟨d, hd, rfl⟩ := hv w hw
      exact (hrec d hd).2 hc

example : Spec.written (Quoter.escape []) (Server.ascii "b c", [Server.ascii "z", Server.ascii "w"]) = Server.ascii "b_c\tz\tw" := by
  decide +kernel

example : ∀ e ∈ [(Server.ascii "b c", [Server.ascii "z", Server.ascii "w"])], e.2 ≠ [] ∧ ∀ f ∈ e.1 :: e.2, f ≠ [] ∧ (35 : Byte) ∉ f := by
  decide +kernel

end Verif.Lexicon
