import Verif.IterWriter.Lemmas

/-!
Helper lemmas for Props.lean: opening and closing groups.
-/
set_option linter.unusedSimpArgs false
set_option linter.unusedVariables false
namespace Verif.IterWriter
open Verif

variable {I : Type}

/-! ### Order of keys -/

theorem before_irrefl (a : Str) : before a a = false := by
  induction a with
  | nil => rfl
  | cons x a ih => simp [before, ih]

theorem before_trans {a b c : Str} (h1 : before a b = true) (h2 : before b c = true) : before a c = true := by
  induction a generalizing b c with
  | nil =>
    cases b with
    | nil => simp [before] at h1
    | cons y b => cases c with
      | nil => simp [before] at h2
      | cons z c => rfl
  | cons x a ih =>
    cases b with
    | nil => simp [before] at h1
    | cons y b => cases c with
      | nil => simp [before] at h2
      | cons z c =>
        simp only [before, Bool.or_eq_true, Bool.and_eq_true, decide_eq_true_eq] at h1 h2 ⊢
        rcases h1 with h1 | ⟨rfl, h1⟩
        · rcases h2 with h2 | ⟨rfl, h2⟩
          · exact .inl (UInt8.lt_trans h1 h2)
          · exact .inl h1
        · rcases h2 with h2 | ⟨rfl, h2⟩
          · exact .inl h2
          · exact .inr ⟨rfl, ih h1 h2⟩

theorem before_total (a b : Str) (h : a ≠ b) (h1 : before a b = false) : before b a = true := by
  induction a generalizing b with
  | nil => cases b with
    | nil => exact absurd rfl h
    | cons y b => simp [before] at h1
  | cons x a ih =>
    cases b with
    | nil => rfl
    | cons y b =>
      simp only [before, Bool.or_eq_false_iff, Bool.and_eq_false_iff, decide_eq_false_iff_not, Bool.or_eq_true, Bool.and_eq_true,
        decide_eq_true_eq] at h1 ⊢
      obtain ⟨h1, h2⟩ := h1
      by_cases hxy : x = y
      · subst hxy
        refine .inr ⟨rfl, ih b (fun h' => h (by rw [h'])) ?_⟩
        rcases h2 with h2 | h2
        · exact absurd rfl h2
        · exact h2
      · refine .inl ?_
        rcases UInt8.lt_or_lt_of_ne hxy with h3 | h3
        · exact absurd h3 h1
        · exact h3

theorem mem_addKey (k : Str) (l : List Str) (u : Str) : u ∈ addKey k l ↔ u = k ∨ u ∈ l := by
  induction l with
  | nil => simp [addKey]
  | cons a l ih =>
    rw [addKey]
    split
    · next h => subst h; simp
    · split
      · simp
      · rw [List.mem_cons, ih, List.mem_cons]
        constructor
        · rintro (h | h | h)
          · exact .inr (.inl h)
          · exact .inl h
          · exact .inr (.inr h)
        · rintro (h | h | h)
          · exact .inr (.inl h)
          · exact .inl h
          · exact .inr (.inr h)

theorem addKey_sorted (k : Str) (l : List Str) (h : l.Pairwise (fun a b => before a b = true)) :
    (addKey k l).Pairwise (fun a b => before a b = true) := by
  induction l with
  | nil => simp [addKey]
  | cons a l ih =>
    have h' := h
    rw [List.pairwise_cons] at h
    rw [addKey]
    split
    · exact h'
    · next hne =>
      split
      · next hb =>
        rw [List.pairwise_cons]
        refine ⟨?_, h'⟩
        intro b hb'
        rcases List.mem_cons.mp hb' with rfl | hb'
        · exact hb
        · exact before_trans hb (h.1 b hb')
      · next hb =>
        rw [List.pairwise_cons]
        refine ⟨?_, ih h.2⟩
        intro b hb'
        rcases (mem_addKey k l b).mp hb' with rfl | hb'
        · exact before_total b a (fun h => hne h.symm) (by simpa using hb)
        · exact h.1 b hb'

theorem sorted_nodup {l : List Str} (h : l.Pairwise (fun a b => before a b = true)) : l.Nodup := by
  refine h.imp ?_
  intro a b hab e
  subst e
  rw [before_irrefl] at hab
  exact absurd hab (by simp)

/-! ### Calls for one tag -/

theorem groupCalls_append (t : Str) (a b : List (Ev I)) : groupCalls t (a ++ b) = groupCalls t a ++ groupCalls t b := by
  unfold groupCalls; rw [List.flatMap_append]

theorem pairs_succ (k : Nat) : pairs k ++ [true, false] = pairs (k + 1) := by
  unfold pairs
  rw [List.replicate_succ', List.flatten_append]
  simp

/-- What holds of a tag at any time. -/
structure GInv (cfg : Config) (t : Str) (s : St I) : Prop where
  sorted : s.known.Pairwise (fun a b => before a b = true)
  handled : ∀ u ∈ s.known, u ∈ cfg.handled
  on : s.opened t = true → t ∈ s.known ∧ ∃ k, groupCalls t s.evs = pairs k ++ [true]
  off : s.opened t = false → groupCalls t s.evs = []

theorem gInv_start (cfg : Config) (t : Str) : GInv cfg t (start : St I) :=
  ⟨List.Pairwise.nil, fun u h => (by cases h), fun h => (by cases h), fun _ => rfl⟩

theorem gInv_tag {cfg : Config} {t : Str} {s : St I} (h : GInv cfg t s) (v : Int) (e : Edge I) (u : Str) :
    GInv cfg t (tagStep cfg v e s u) := by
  unfold tagStep
  simp only
  split
  · next hu =>
    have hu' : u ∈ cfg.handled := by simpa using hu
    have hk : ∀ x ∈ addKey u s.known, x ∈ cfg.handled := by
      intro x hx
      rcases (mem_addKey u s.known x).mp hx with rfl | hx
      · exact hu'
      · exact h.handled x hx
    split
    · refine ⟨addKey_sorted u _ h.sorted, hk, ?_, ?_⟩
      · intro ho
        by_cases htu : t = u
        · subst htu
          refine ⟨(mem_addKey t s.known t).mpr (.inl rfl), ?_⟩
          show ∃ k, groupCalls t (s.evs ++ _ ++ _) = _
          rw [groupCalls_append, groupCalls_append]
          cases hop : s.opened t with
          | true =>
            obtain ⟨_, k, hk⟩ := h.on hop
            refine ⟨k + 1, ?_⟩
            rw [hk, ← pairs_succ]
            simp [groupCalls]
          | false =>
            refine ⟨0, ?_⟩
            rw [h.off hop]
            simp [groupCalls, pairs]
        · have ho' : s.opened t = true := by
            have : (if t = u then true else s.opened t) = true := ho
            rwa [if_neg htu] at this
          obtain ⟨h1, k, hk⟩ := h.on ho'
          refine ⟨(mem_addKey u s.known t).mpr (.inr h1), k, ?_⟩
          show groupCalls t (s.evs ++ _ ++ _) = _
          rw [groupCalls_append, groupCalls_append, hk]
          have : u ≠ t := fun h => htu h.symm
          cases s.opened u <;> simp [groupCalls, this]
      · intro ho
        have ho' : (if t = u then true else s.opened t) = false := ho
        by_cases htu : t = u
        · rw [if_pos htu] at ho'; cases ho'
        · rw [if_neg htu] at ho'
          show groupCalls t (s.evs ++ _ ++ _) = _
          rw [groupCalls_append, groupCalls_append, h.off ho']
          have : u ≠ t := fun h => htu h.symm
          cases s.opened u <;> simp [groupCalls, this]
    · refine ⟨addKey_sorted u _ h.sorted, hk, ?_, h.off⟩
      intro ho
      obtain ⟨h1, h2⟩ := h.on ho
      exact ⟨(mem_addKey u s.known t).mpr (.inr h1), h2⟩
  · exact ⟨h.sorted, h.handled, h.on, h.off⟩

theorem gInv_edge {cfg : Config} {t : Str} {s : St I} (h : GInv cfg t s) (v : Int) (e : Edge I) : GInv cfg t (edgeStep cfg v s e) := by
  unfold edgeStep
  split
  · exact h
  · have h0 : GInv cfg t (if (visible cfg e && e.basic) = true then { s with queue := s.queue ++ [e] } else s) := by
      split
      · exact ⟨h.sorted, h.handled, h.on, h.off⟩
      · exact h
    generalize (if (visible cfg e && e.basic) = true then { s with queue := s.queue ++ [e] } else s) = s' at h0
    generalize e.tags = ts
    induction ts generalizing s' with
    | nil => exact h0
    | cons u ts ih => exact ih _ (gInv_tag h0 v e u)

theorem gInv_edges {cfg : Config} {t : Str} (v : Int) (es : List (Edge I)) {s : St I} (h : GInv cfg t s) :
    GInv cfg t (es.foldl (edgeStep cfg v) s) := by
  induction es generalizing s with
  | nil => exact h
  | cons e es ih => exact ih (gInv_edge h v e)

theorem groupCalls_alternative (t : Str) (l : List (Edge I)) : groupCalls t (alternative l) = [] := by
  unfold alternative
  split
  · rfl
  · rw [groupCalls_append, groupCalls_append]
    simp [groupCalls]

theorem gInv_vertex {cfg : Config} {t : Str} {s : St I} (h : GInv cfg t s) (out : Int → List (Edge I)) (v : Int) :
    GInv cfg t (vertexStep cfg out s v) := by
  have hg := gInv_edges v (out v) h
  have he : groupCalls t (vertexStep cfg out s v).evs = groupCalls t ((out v).foldl (edgeStep cfg v) s).evs := by
    show groupCalls t (_ ++ _ ++ _) = _
    rw [List.append_assoc, groupCalls_append]
    have := printed_eq cfg (printing cfg ((out v).foldl (edgeStep cfg v) s))
      (fill cfg.fallback ((out v).foldl (edgeStep cfg v) s).queue ((out v).foldl (edgeStep cfg v) s).fb).1
    unfold printed at this
    rw [this]
    split
    · rw [groupCalls_alternative, List.append_nil]
    · simp [groupCalls]
  refine ⟨hg.sorted, hg.handled, ?_, ?_⟩
  · intro ho
    obtain ⟨h1, h2⟩ := hg.on ho
    exact ⟨h1, by rw [he]; exact h2⟩
  · intro ho
    rw [he]; exact hg.off ho

theorem gInv_fold {cfg : Config} {t : Str} (out : Int → List (Edge I)) (vs : List Int) {s : St I} (h : GInv cfg t s) :
    GInv cfg t (vs.foldl (vertexStep cfg out) s) := by
  induction vs generalizing s with
  | nil => exact h
  | cons v vs ih => exact ih (gInv_vertex h out v)

theorem groupCalls_closes (t : Str) (l : List Str) (h : l.Nodup) :
    groupCalls t (l.map (Ev.closeGroup (I := I))) = if t ∈ l then [false] else [] := by
  induction l with
  | nil => rfl
  | cons a l ih =>
    rw [List.nodup_cons] at h
    have : groupCalls t (List.map (Ev.closeGroup (I := I)) (a :: l)) = (if a = t then [false] else []) ++ groupCalls t (l.map (Ev.closeGroup (I := I))) := by
      simp [groupCalls]
    rw [this, ih h.2]
    by_cases ha : a = t
    · subst ha
      simp [h.1]
    · have : t ≠ a := fun h => ha h.symm
      simp [ha, this]

theorem run_calls (cfg : Config) (out : Int → List (Edge I)) (vs : List Int) (t : Str) :
    (∃ k, groupCalls t (run cfg out vs) = pairs k ∧ (k = 0 ↔ (vs.foldl (vertexStep cfg out) start).opened t = false)) ∨
      (groupCalls t (run cfg out vs) = [false] ∧ t ∈ cfg.handled ∧ (vs.foldl (vertexStep cfg out) start).opened t = false) := by
  have h := gInv_fold out vs (gInv_start (I := I) cfg t)
  unfold run
  simp only
  rw [groupCalls_append, groupCalls_closes t _ (sorted_nodup h.sorted)]
  cases ho : (vs.foldl (vertexStep cfg out) start).opened t with
  | true =>
    obtain ⟨h1, k, hk⟩ := h.on ho
    refine .inl ⟨k + 1, ?_, by simp⟩
    rw [hk, if_pos h1, ← pairs_succ]
    simp
  | false =>
    rw [h.off ho]
    by_cases hm : t ∈ (vs.foldl (vertexStep cfg out) start).known
    · exact .inr ⟨by rw [if_pos hm]; rfl, h.handled t hm, rfl⟩
    · exact .inl ⟨0, by rw [if_neg hm]; rfl, by simp⟩

/-! ### Openings -/

/-- A tag is open exactly if its group was opened. -/
def OInv (cfg : Config) (s : St I) : Prop := ∀ t, (s.opened t = true ↔ .openGroup t ∈ s.evs) ∧ (s.opened t = true → t ∈ cfg.handled)

/-- Nothing but calls about groups is added while edges are looked at. -/
def elems (evs : List (Ev I)) : List (Ev I) := evs.filter (fun e => !e.isGroup)

theorem elems_append (a b : List (Ev I)) : elems (a ++ b) = elems a ++ elems b := List.filter_append ..

structure Quiet (cfg : Config) (s s' : St I) : Prop where
  elems : elems s'.evs = elems s.evs
  opened : ∀ t, s.opened t = true → s'.opened t = true
  inv : OInv cfg s → OInv cfg s'

theorem Quiet.refl (cfg : Config) (s : St I) : Quiet cfg s s := ⟨rfl, fun _ h => h, fun h => h⟩

theorem Quiet.trans {cfg : Config} {a b c : St I} (h1 : Quiet cfg a b) (h2 : Quiet cfg b c) : Quiet cfg a c :=
  ⟨h2.elems.trans h1.elems, fun t h => h2.opened t (h1.opened t h), fun h => h2.inv (h1.inv h)⟩

theorem quiet_tag (cfg : Config) (v : Int) (e : Edge I) (s : St I) (u : Str) : Quiet cfg s (tagStep cfg v e s u) := by
  unfold tagStep
  simp only
  split
  · next hu =>
    have hu' : u ∈ cfg.handled := by simpa using hu
    split
    · refine ⟨?_, ?_, ?_⟩
      · show IterWriter.elems (s.evs ++ _ ++ _) = _
        rw [elems_append, elems_append]
        cases s.opened u <;> simp [IterWriter.elems, Ev.isGroup]
      · intro t h
        show (if t = u then true else s.opened t) = true
        split
        · rfl
        · exact h
      · intro hi t
        show ((if t = u then true else s.opened t) = true ↔ _) ∧ ((if t = u then true else s.opened t) = true → _)
        by_cases htu : t = u
        · subst htu
          simp [hu']
        · rw [if_neg htu]
          refine ⟨(hi t).1.trans ?_, (hi t).2⟩
          have : u ≠ t := fun h => htu h.symm
          cases s.opened u <;> simp [htu]
    · exact ⟨rfl, fun _ h => h, fun h => h⟩
  · exact ⟨rfl, fun _ h => h, fun h => h⟩

theorem quiet_edges (cfg : Config) (v : Int) (es : List (Edge I)) (s : St I) : Quiet cfg s (es.foldl (edgeStep cfg v) s) := by
  induction es generalizing s with
  | nil => exact Quiet.refl cfg s
  | cons e es ih =>
    refine Quiet.trans ?_ (ih _)
    unfold edgeStep
    split
    · exact Quiet.refl cfg s
    · have h0 : Quiet cfg s (if (visible cfg e && e.basic) = true then { s with queue := s.queue ++ [e] } else s) := by
        split <;> exact ⟨rfl, fun _ h => h, fun h => h⟩
      generalize (if (visible cfg e && e.basic) = true then { s with queue := s.queue ++ [e] } else s) = s' at h0
      generalize e.tags = ts
      induction ts generalizing s' with
      | nil => exact h0
      | cons u ts ih => exact ih _ (h0.trans (quiet_tag cfg v e s' u))

theorem elems_alternative (l : List (Edge I)) : elems (alternative l) = alternative l := by
  unfold alternative
  split
  · rfl
  · unfold elems
    rw [List.filter_eq_self]
    intro a ha
    simp only [List.mem_append, List.mem_singleton, List.mem_map] at ha
    rcases ha with (rfl | ⟨e, _, rfl⟩) | rfl <;> rfl

theorem not_open_alternative (t : Str) (l : List (Edge I)) : Ev.openGroup t ∉ alternative l := by
  unfold alternative
  split
  · simp
  · simp

theorem vertex_oInv {cfg : Config} {out : Int → List (Edge I)} (hc : CleanTags out) {s : St I} (hs : Idle cfg s) (ho : OInv cfg s)
    (v : Int) : OInv cfg (vertexStep cfg out s v) := by
  obtain ⟨h1, h2, h3, h4, h5⟩ := vertexStep_eq hc hs v
  have hg := (quiet_edges cfg v (out v) s).inv ho
  intro t
  rw [h5, h2]
  refine ⟨(hg t).1.trans ?_, (hg t).2⟩
  rw [List.mem_append]
  constructor
  · exact .inl
  · rintro (h | h)
    · exact h
    · split at h
      · exact absurd h (not_open_alternative t _)
      · cases h

theorem fold_oInv {cfg : Config} {out : Int → List (Edge I)} (hc : CleanTags out) (vs : List Int) {s : St I} (hs : Idle cfg s)
    (ho : OInv cfg s) : OInv cfg (vs.foldl (vertexStep cfg out) s) := by
  induction vs generalizing s with
  | nil => exact ho
  | cons v vs ih => exact ih (vertexStep_eq hc hs v).1 (vertex_oInv hc hs ho v)

theorem oInv_start (cfg : Config) : OInv cfg (start : St I) := by
  intro t
  exact ⟨⟨fun h => (by cases h), fun h => (by cases h)⟩, fun h => (by cases h)⟩

theorem fold_opened {cfg : Config} {out : Int → List (Edge I)} (vs : List Int) {s : St I} {t : Str} (h : s.opened t = true) :
    (vs.foldl (vertexStep cfg out) s).opened t = true := by
  induction vs generalizing s with
  | nil => exact h
  | cons v vs ih => exact ih ((quiet_edges cfg v (out v) s).opened t h)

theorem printing_mono {cfg : Config} {s s' : St I} (h : Quiet cfg s s') (hp : printing cfg s = true) : printing cfg s' = true := by
  unfold printing at hp ⊢
  rw [Bool.or_eq_true, List.any_eq_true] at hp ⊢
  rcases hp with hp | ⟨t, ht, hp⟩
  · exact .inl hp
  · exact .inr ⟨t, ht, h.opened t hp⟩

theorem vertex_elems {cfg : Config} {out : Int → List (Edge I)} (hc : CleanTags out) {s : St I} (hs : Idle cfg s) (v : Int) :
    elems (vertexStep cfg out s v).evs = elems s.evs ++ (if printing cfg (vertexStep cfg out s v) then altOf cfg out v else []) := by
  obtain ⟨h1, h2, h3, h4, h5⟩ := vertexStep_eq hc hs v
  have hq : elems (gathered cfg out s v).evs = elems s.evs := (quiet_edges cfg v (out v) s).elems
  rw [h2, elems_append, hq]
  have : printing cfg (vertexStep cfg out s v) = printing cfg (gathered cfg out s v) := by
    unfold printing; rw [h5]
  rw [this]
  split
  · unfold altOf; rw [elems_alternative]
  · rfl

theorem fold_on {cfg : Config} {out : Int → List (Edge I)} (hc : CleanTags out) (vs : List Int) {s : St I} (hs : Idle cfg s)
    (hp : printing cfg s = true) : elems (vs.foldl (vertexStep cfg out) s).evs = elems s.evs ++ vs.flatMap (altOf cfg out) := by
  induction vs generalizing s with
  | nil => simp
  | cons v vs ih =>
    obtain ⟨h1, h2, h3, h4, h5⟩ := vertexStep_eq hc hs v
    have hp' : printing cfg (vertexStep cfg out s v) = true := by
      have := printing_mono (quiet_edges cfg v (out v) s) hp
      unfold printing at this ⊢
      rw [h5]; exact this
    rw [List.foldl_cons, ih h1 hp', vertex_elems hc hs v, if_pos hp']
    simp

/-- The vertices up to the one where the first group is opened, and the others. -/
theorem fold_split {cfg : Config} {out : Int → List (Edge I)} (hc : CleanTags out) (vs : List Int) {s : St I} (hs : Idle cfg s)
    (hp : printing cfg s = false) : ∃ vs1 vs2, vs = vs1 ++ vs2 ∧
      elems (vs.foldl (vertexStep cfg out) s).evs = elems s.evs ++ vs2.flatMap (altOf cfg out) ∧
      printing cfg (vs1.foldl (vertexStep cfg out) s) = false ∧
      (vs2 = [] ∨ ∃ v rest, vs2 = v :: rest ∧ printing cfg ((vs1 ++ [v]).foldl (vertexStep cfg out) s) = true) := by
  induction vs generalizing s with
  | nil => exact ⟨[], [], rfl, by simp, hp, .inl rfl⟩
  | cons v vs ih =>
    have h1 := (vertexStep_eq hc hs v).1
    cases hp' : printing cfg (vertexStep cfg out s v) with
    | true =>
      refine ⟨[], v :: vs, rfl, ?_, hp, .inr ⟨v, vs, rfl, hp'⟩⟩
      rw [List.foldl_cons, fold_on hc vs h1 hp', vertex_elems hc hs v, if_pos hp']
      simp
    | false =>
      obtain ⟨vs1, vs2, e1, e2, e3, e4⟩ := ih h1 hp'
      refine ⟨v :: vs1, vs2, by rw [e1]; rfl, ?_, e3, e4⟩
      rw [List.foldl_cons, e2, vertex_elems hc hs v, hp']
      simp

theorem open_tag {cfg : Config} {t : Str} (hh : t ∈ cfg.handled) (v : Int) (e : Edge I) (s : St I) (u : Str)
    (h : s.opened t = true ∨ s.targets t = v) :
    ((tagStep cfg v e s u).opened t = true ∨ (tagStep cfg v e s u).targets t = v) ∧ (u = t → (tagStep cfg v e s u).opened t = true) := by
  unfold tagStep
  simp only
  by_cases hu : u = t
  · subst hu
    rw [if_pos (by simpa using hh)]
    by_cases hv : s.targets u = v
    · rw [if_pos hv]; simp
    · rw [if_neg hv]
      rcases h with h | h
      · exact ⟨.inl h, fun _ => h⟩
      · exact absurd h hv
  · have : t ≠ u := fun h => hu h.symm
    refine ⟨?_, fun h => absurd h hu⟩
    split
    · split
      · simpa [this] using h
      · exact h
    · exact h

theorem open_tags {cfg : Config} {t : Str} (hh : t ∈ cfg.handled) (v : Int) (e : Edge I) (ts : List Str) (s : St I)
    (h : s.opened t = true ∨ s.targets t = v) :
    ((ts.foldl (tagStep cfg v e) s).opened t = true ∨ (ts.foldl (tagStep cfg v e) s).targets t = v) ∧
      (t ∈ ts → (ts.foldl (tagStep cfg v e) s).opened t = true) := by
  induction ts generalizing s with
  | nil => exact ⟨h, fun h => by cases h⟩
  | cons u ts ih =>
    obtain ⟨a, b⟩ := open_tag hh v e s u h
    obtain ⟨c, d⟩ := ih _ a
    refine ⟨c, fun hm => ?_⟩
    rcases List.mem_cons.mp hm with rfl | hm
    · have hb := b rfl
      clear c d ih
      rw [List.foldl_cons]
      generalize tagStep cfg v e s t = s' at hb
      clear a b hm h
      induction ts generalizing s' with
      | nil => exact hb
      | cons u ts ih => exact ih _ ((quiet_tag cfg v e s' u).opened t hb)
    · exact d hm

theorem open_edges {cfg : Config} {t : Str} (hh : t ∈ cfg.handled) (v : Int) (es : List (Edge I)) (s : St I)
    (h : s.opened t = true ∨ s.targets t = v) (hm : ∃ e ∈ es, e.discarded = false ∧ t ∈ e.tags) :
    (es.foldl (edgeStep cfg v) s).opened t = true := by
  induction es generalizing s with
  | nil => obtain ⟨e, he, _⟩ := hm; cases he
  | cons e es ih =>
    rw [List.foldl_cons]
    cases hd : e.discarded with
    | true =>
      have h1 : edgeStep cfg v s e = s := by unfold edgeStep; rw [hd]; rfl
      rw [h1]
      refine ih s h ?_
      obtain ⟨x, hx, hx1, hx2⟩ := hm
      rcases List.mem_cons.mp hx with rfl | hx
      · rw [hd] at hx1; cases hx1
      · exact ⟨x, hx, hx1, hx2⟩
    | false =>
      have h1 : ∃ s0 : St I, edgeStep cfg v s e = e.tags.foldl (tagStep cfg v e) s0 ∧ (s0.opened t = true ∨ s0.targets t = v) := by
        unfold edgeStep
        rw [hd]
        simp only [Bool.false_eq_true, if_false]
        refine ⟨_, rfl, ?_⟩
        split <;> exact h
      obtain ⟨s0, e0, e1⟩ := h1
      obtain ⟨a, b⟩ := open_tags hh v e e.tags s0 e1
      rw [e0]
      by_cases hmt : t ∈ e.tags
      · exact (quiet_edges cfg v es _).opened t (b hmt)
      · refine ih _ a ?_
        obtain ⟨x, hx, hx1, hx2⟩ := hm
        rcases List.mem_cons.mp hx with rfl | hx
        · exact absurd hx2 hmt
        · exact ⟨x, hx, hx1, hx2⟩

/-! ### One tag -/

section One

variable {cfg : Config} {t : Str} (hh : cfg.handled = [t])

include hh in
theorem one_other (v : Int) (e : Edge I) (ts : List Str) (ht : t ∉ ts) (s : St I) :
    let s' := ts.foldl (tagStep cfg v e) s
    s'.evs = s.evs ∧ s'.targets = s.targets ∧ s'.opened = s.opened ∧ s'.known = s.known := by
  induction ts generalizing s with
  | nil => exact ⟨rfl, rfl, rfl, rfl⟩
  | cons u ts ih =>
    simp only [List.mem_cons, not_or] at ht
    have hu : cfg.handled.contains u = false := by
      rw [hh]; simp; exact fun h => ht.1 h.symm
    have h1 : tagStep cfg v e s u = { s with fb := (if visible cfg e && cfg.fallback.contains u then fun x => if x = u then s.fb u ++ [e] else s.fb x else s.fb) } := by
      unfold tagStep
      simp only [hu, Bool.false_eq_true, if_false]
    obtain ⟨a, b, c, d⟩ := ih ht.2 (tagStep cfg v e s u)
    rw [List.foldl_cons]
    refine ⟨a.trans ?_, b.trans ?_, c.trans ?_, d.trans ?_⟩ <;> rw [h1]

theorem addKey_one (l : List Str) (h : l = [] ∨ l = [t]) : addKey t l = [t] := by
  rcases h with rfl | rfl <;> simp [addKey]

include hh in
/-- The tag while no group may be opened. -/
theorem one_quiet (v : Int) (e : Edge I) (ts : List Str) (s : St I) (ht : s.targets t ≠ v) (hk : s.known = [] ∨ s.known = [t]) :
    let s' := ts.foldl (tagStep cfg v e) s
    s'.evs = s.evs ∧ s'.targets = s.targets ∧ s'.opened = s.opened ∧ (s'.known = s.known ∨ s'.known = [t]) := by
  induction ts generalizing s with
  | nil => exact ⟨rfl, rfl, rfl, .inl rfl⟩
  | cons u ts ih =>
    by_cases hu : u = t
    · subst hu
      have h1 : (tagStep cfg v e s u).evs = s.evs ∧ (tagStep cfg v e s u).targets = s.targets ∧
          (tagStep cfg v e s u).opened = s.opened ∧ (tagStep cfg v e s u).known = [u] := by
        unfold tagStep
        simp only [hh, List.contains_cons, BEq.rfl, Bool.true_or, if_true, if_neg ht]
        exact ⟨trivial, trivial, trivial, addKey_one _ hk⟩
      obtain ⟨a, b, c, d⟩ := ih (tagStep cfg v e s u) (by rw [h1.2.1]; exact ht) (.inr h1.2.2.2)
      rw [List.foldl_cons]
      refine ⟨a.trans h1.1, b.trans h1.2.1, c.trans h1.2.2.1, ?_⟩
      rcases d with d | d
      · exact .inr (d.trans h1.2.2.2)
      · exact .inr d
    · obtain ⟨a, b, c, d⟩ := one_other hh v e [u] (by simp; exact fun h => hu h.symm) s
      simp only [List.foldl_cons, List.foldl_nil] at a b c d
      obtain ⟨a', b', c', d'⟩ := ih (tagStep cfg v e s u) (by rw [b]; exact ht) (by rw [d]; exact hk)
      rw [List.foldl_cons]
      exact ⟨a'.trans a, b'.trans b, c'.trans c, by rw [← d]; exact d'⟩

include hh in
/-- The tag where a group is opened. -/
theorem one_open (v : Int) (e : Edge I) (ts : List Str) (s : St I) (hm : t ∈ ts) (ht : s.targets t = v) (he : e.target ≠ v)
    (hk : s.known = [] ∨ s.known = [t]) :
    let s' := ts.foldl (tagStep cfg v e) s
    s'.evs = s.evs ++ (if s.opened t then [.closeGroup t] else []) ++ [.openGroup t] ∧ s'.targets t = e.target ∧ s'.opened t = true ∧
      s'.known = [t] := by
  induction ts generalizing s with
  | nil => cases hm
  | cons u ts ih =>
    by_cases hu : u = t
    · subst hu
      have h1 : (tagStep cfg v e s u).evs = s.evs ++ (if s.opened u then [.closeGroup u] else []) ++ [.openGroup u] ∧
          (tagStep cfg v e s u).targets u = e.target ∧
          (tagStep cfg v e s u).opened u = true ∧ (tagStep cfg v e s u).known = [u] := by
        unfold tagStep
        simp only [hh, List.contains_cons, BEq.rfl, Bool.true_or, if_true, if_pos ht]
        exact ⟨trivial, trivial, trivial, addKey_one _ hk⟩
      obtain ⟨a, b, c, d⟩ := one_quiet hh v e ts (tagStep cfg v e s u) (by rw [h1.2.1]; exact he) (.inr h1.2.2.2)
      rw [List.foldl_cons]
      refine ⟨a.trans h1.1, by rw [b]; exact h1.2.1, by rw [c]; exact h1.2.2.1, ?_⟩
      rcases d with d | d
      · exact d.trans h1.2.2.2
      · exact d
    · obtain ⟨a, b, c, d⟩ := one_other hh v e [u] (by simp; exact fun h => hu h.symm) s
      simp only [List.foldl_cons, List.foldl_nil] at a b c d
      have hm' : t ∈ ts := by
        rcases List.mem_cons.mp hm with h | h
        · exact absurd h.symm hu
        · exact h
      have := ih (tagStep cfg v e s u) hm' (by rw [b]; exact ht) (by rw [d]; exact hk)
      rw [List.foldl_cons]
      rw [a, c] at this
      exact this

theorem edgeStep_base (s : St I) (e : Edge I) (hd : e.discarded = false) (v : Int) :
    ∃ s0 : St I, edgeStep cfg v s e = e.tags.foldl (tagStep cfg v e) s0 ∧ s0.evs = s.evs ∧ s0.targets = s.targets ∧
      s0.opened = s.opened ∧ s0.known = s.known := by
  unfold edgeStep
  rw [hd]
  simp only [Bool.false_eq_true, if_false]
  refine ⟨_, rfl, ?_⟩
  split <;> exact ⟨rfl, rfl, rfl, rfl⟩

include hh in
theorem edges_quiet (v : Int) (es : List (Edge I)) (s : St I) (ht : s.targets t ≠ v) (hk : s.known = [] ∨ s.known = [t]) :
    let s' := es.foldl (edgeStep cfg v) s
    s'.evs = s.evs ∧ s'.targets = s.targets ∧ s'.opened = s.opened ∧ (s'.known = s.known ∨ s'.known = [t]) := by
  induction es generalizing s with
  | nil => exact ⟨rfl, rfl, rfl, .inl rfl⟩
  | cons e es ih =>
    have h1 : (edgeStep cfg v s e).evs = s.evs ∧ (edgeStep cfg v s e).targets = s.targets ∧ (edgeStep cfg v s e).opened = s.opened ∧
        ((edgeStep cfg v s e).known = s.known ∨ (edgeStep cfg v s e).known = [t]) := by
      cases hd : e.discarded with
      | true =>
        have : edgeStep cfg v s e = s := by unfold edgeStep; rw [hd]; rfl
        rw [this]; exact ⟨rfl, rfl, rfl, .inl rfl⟩
      | false =>
        obtain ⟨s0, e0, e1, e2, e3, e4⟩ := edgeStep_base (cfg := cfg) s e hd v
        have := one_quiet hh v e e.tags s0 (by rw [e2]; exact ht) (by rw [e4]; exact hk)
        rw [e0, ← e1, ← e2, ← e3, ← e4]
        exact this
    have hk' : (edgeStep cfg v s e).known = [] ∨ (edgeStep cfg v s e).known = [t] := by
      rcases h1.2.2.2 with h | h
      · rw [h]; exact hk
      · exact .inr h
    obtain ⟨a, b, c, d⟩ := ih (edgeStep cfg v s e) (by rw [h1.2.1]; exact ht) hk'
    rw [List.foldl_cons]
    refine ⟨a.trans h1.1, b.trans h1.2.1, c.trans h1.2.2.1, ?_⟩
    rcases d with d | d
    · rcases h1.2.2.2 with h | h
      · exact .inl (d.trans h)
      · exact .inr (d.trans h)
    · exact .inr d

include hh in
theorem edges_open (v w : Int) (es : List (Edge I)) (s : St I) (ht : s.targets t = v) (hf : firstTarget t es = some w) (hw : w ≠ v)
    (hk : s.known = [] ∨ s.known = [t]) :
    let s' := es.foldl (edgeStep cfg v) s
    s'.evs = s.evs ++ (if s.opened t then [.closeGroup t] else []) ++ [.openGroup t] ∧ s'.targets t = w ∧ s'.opened t = true ∧
      s'.known = [t] := by
  induction es generalizing s with
  | nil => simp [firstTarget] at hf
  | cons e es ih =>
    rw [List.foldl_cons]
    cases hd : e.discarded with
    | true =>
      have h1 : edgeStep cfg v s e = s := by unfold edgeStep; rw [hd]; rfl
      rw [h1]
      refine ih s ht ?_ hk
      unfold firstTarget at hf ⊢
      rw [List.filter_cons_of_neg (by simp [hd])] at hf
      exact hf
    | false =>
      obtain ⟨s0, e0, e1, e2, e3, e4⟩ := edgeStep_base (cfg := cfg) s e hd v
      by_cases hm : t ∈ e.tags
      · have hf' : e.target = w := by
          unfold firstTarget at hf
          rw [List.filter_cons_of_pos (by simp [hd, hm])] at hf
          simpa using hf
        obtain ⟨a, b, c, d⟩ := one_open hh v e e.tags s0 hm (by rw [e2]; exact ht) (by rw [hf']; exact hw) (by rw [e4]; exact hk)
        rw [← e0] at a b c d
        obtain ⟨a', b', c', d'⟩ := edges_quiet hh v es (edgeStep cfg v s e) (by rw [b, hf']; exact hw) (.inr d)
        refine ⟨?_, by rw [b', b, hf'], by rw [c', c], ?_⟩
        · rw [a', a, e1, e3]
        · rcases d' with d' | d'
          · exact d'.trans d
          · exact d'
      · obtain ⟨a, b, c, d⟩ := one_other hh v e e.tags hm s0
        rw [← e0] at a b c d
        have hf' : firstTarget t es = some w := by
          unfold firstTarget at hf ⊢
          rw [List.filter_cons_of_neg (by simp [hd, hm])] at hf
          exact hf
        have := ih (edgeStep cfg v s e) (by rw [b, e2]; exact ht) hf' (by rw [d, e4]; exact hk)
        rw [a, c, e1, e3] at this
        exact this

theorem printing_one (hh : cfg.handled = [t]) (s : St I) (h : s.opened t = true) : printing cfg s = true := by
  unfold printing; rw [hh]; simp [h]

include hh in
theorem body_fold {out : Int → List (Edge I)} (hc : CleanTags out) (body : List Int) {s : St I} (hs : Idle cfg s) (w : Int)
    (hw : s.targets t = w) (hb : ∀ u ∈ body, u ≠ w) (ho : s.opened t = true) (hk : s.known = [t]) :
    let s' := body.foldl (vertexStep cfg out) s
    Idle cfg s' ∧ s'.evs = s.evs ++ body.flatMap (altOf cfg out) ∧ s'.targets t = w ∧ s'.opened t = true ∧ s'.known = [t] := by
  induction body generalizing s with
  | nil => exact ⟨hs, by simp, hw, ho, hk⟩
  | cons u body ih =>
    obtain ⟨h1, h2, h3, h4, h5⟩ := vertexStep_eq hc hs u
    obtain ⟨a, b, c, d⟩ := edges_quiet hh u (out u) s (by rw [hw]; exact fun h => hb u (by simp) h.symm) (.inr hk)
    have hop : (gathered cfg out s u).opened t = true := by
      unfold gathered; rw [c]; exact ho
    have hk' : (gathered cfg out s u).known = [t] := by
      unfold gathered
      rcases d with d | d
      · exact d.trans hk
      · exact d
    have := ih h1 (by rw [h3]; unfold gathered; rw [b]; exact hw) (fun x hx => hb x (List.mem_cons_of_mem _ hx)) (by rw [h5]; exact hop)
      (by rw [h4]; exact hk')
    rw [List.foldl_cons]
    refine ⟨this.1, ?_, this.2.2⟩
    rw [this.2.1, h2, printing_one hh _ hop]
    unfold gathered
    rw [a]
    simp

include hh in
theorem chain_fold {out : Int → List (Edge I)} (hc : CleanTags out) {v : Int} {segs : List (List Int)} (h : Chain out t v segs) {s : St I}
    (hs : Idle cfg s) (hv : s.targets t = v) (hk : (s.opened t = false ∧ s.known = []) ∨ (s.opened t = true ∧ s.known = [t])) :
    let s' := segs.flatten.foldl (vertexStep cfg out) s
    s'.evs ++ s'.known.map .closeGroup =
      if segs.isEmpty then s.evs ++ s.known.map .closeGroup else
      s.evs ++ (if s.opened t then [.closeGroup t] else []) ++ segs.flatMap (groupOf cfg out t) := by
  induction h generalizing s with
  | nil v => rfl
  | @cons v w body rest hf hb hr ih =>
    obtain ⟨h1, h2, h3, h4, h5⟩ := vertexStep_eq hc hs v
    have hwv : w ≠ v := fun h => hb v (by simp) h.symm
    obtain ⟨a, b, c, d⟩ := edges_open hh v w (out v) s hv hf hwv (by rcases hk with hk | hk; exact .inl hk.2; exact .inr hk.2)
    obtain ⟨b1, b2, b3, b4, b5⟩ := body_fold hh hc body h1 w (by rw [h3]; exact b) (fun u hu => hb u (List.mem_cons_of_mem _ hu))
      (by rw [h5]; exact c) (by rw [h4]; exact d)
    have := ih b1 b3 (.inr ⟨b4, b5⟩)
    simp only [List.flatten_cons, List.cons_append, List.foldl_cons, List.foldl_append, List.isEmpty_cons, Bool.false_eq_true, if_false]
    rw [this, b5, b4, b2, h2, printing_one hh (gathered cfg out s v) c]
    unfold gathered
    rw [a]
    cases rest with
    | nil => simp [groupOf]
    | cons r rest => simp [groupOf]

end One

end Verif.IterWriter
