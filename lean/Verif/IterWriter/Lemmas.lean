import Verif.IterWriter.Spec

/-!
Helper lemmas for Props.lean: going through the lattice.
-/
set_option linter.unusedSimpArgs false
set_option linter.unusedVariables false
namespace Verif.IterWriter
open Verif

variable {I : Type}

/-! ### Queues -/

theorem tagStep_queue (cfg : Config) (v : Int) (e : Edge I) (s : St I) (t : Str) : (tagStep cfg v e s t).queue = s.queue := by
  unfold tagStep
  simp only
  split
  · split <;> rfl
  · rfl

theorem tagStep_fb (cfg : Config) (v : Int) (e : Edge I) (s : St I) (t : Str) (u : Str) :
    (tagStep cfg v e s t).fb u = if visible cfg e = true ∧ u ∈ cfg.fallback ∧ u = t then s.fb u ++ [e] else s.fb u := by
  have h : ∀ fb : Str → List (Edge I), fb = (if visible cfg e && cfg.fallback.contains t then fun u => if u = t then s.fb t ++ [e] else s.fb u else s.fb) →
      fb u = if visible cfg e = true ∧ u ∈ cfg.fallback ∧ u = t then s.fb u ++ [e] else s.fb u := by
    intro fb hfb
    subst hfb
    by_cases hu : u = t
    · subst hu
      by_cases hv : visible cfg e = true <;> by_cases hm : u ∈ cfg.fallback <;> simp [hv, hm]
    · by_cases hv : visible cfg e = true <;> by_cases hm : t ∈ cfg.fallback <;> simp [hv, hm, hu]
  unfold tagStep
  simp only
  split
  · split
    · exact h _ rfl
    · exact h _ rfl
  · exact h _ rfl

theorem tags_queue (cfg : Config) (v : Int) (e : Edge I) (ts : List Str) (s : St I) :
    (ts.foldl (tagStep cfg v e) s).queue = s.queue := by
  induction ts generalizing s with
  | nil => rfl
  | cons t ts ih => rw [List.foldl_cons, ih, tagStep_queue]

theorem tags_fb (cfg : Config) (v : Int) (e : Edge I) (ts : List Str) (hn : ts.Nodup) (s : St I) (u : Str) :
    (ts.foldl (tagStep cfg v e) s).fb u = if visible cfg e = true ∧ u ∈ cfg.fallback ∧ u ∈ ts then s.fb u ++ [e] else s.fb u := by
  induction ts generalizing s with
  | nil => simp
  | cons t ts ih =>
    rw [List.nodup_cons] at hn
    rw [List.foldl_cons, ih hn.2, tagStep_fb]
    by_cases hu : u = t
    · subst hu
      simp only [hn.1, and_false, if_false, List.mem_cons, true_or, and_true]
    · simp only [hu, and_false, if_false, List.mem_cons, false_or]

/-- Edges looked at. -/
def cand (cfg : Config) (e : Edge I) : Bool := !e.discarded && (cfg.withBlank || !e.blank)

theorem edgeStep_queue (cfg : Config) (v : Int) (s : St I) (e : Edge I) :
    (edgeStep cfg v s e).queue = s.queue ++ (if cand cfg e && e.basic then [e] else []) := by
  unfold edgeStep cand visible
  cases hd : e.discarded with
  | true => simp
  | false =>
    simp only [Bool.false_eq_true, if_false, Bool.not_false, Bool.true_and]
    rw [tags_queue]
    split
    · rfl
    · simp

theorem edgeStep_fb (cfg : Config) (v : Int) (s : St I) (e : Edge I) (hn : e.tags.Nodup) (u : Str) (hu : u ∈ cfg.fallback) :
    (edgeStep cfg v s e).fb u = s.fb u ++ (if cand cfg e && e.tags.contains u then [e] else []) := by
  unfold edgeStep cand
  cases hd : e.discarded with
  | true => simp
  | false =>
    simp only [Bool.false_eq_true, if_false, Bool.not_false, Bool.true_and]
    rw [tags_fb cfg v e e.tags hn]
    have hq : (if (visible cfg e && e.basic) = true then { s with queue := s.queue ++ [e] } else s).fb u = s.fb u := by
      split <;> rfl
    rw [hq]
    unfold visible
    by_cases hv : (cfg.withBlank || !e.blank) = true <;> by_cases hm : u ∈ e.tags <;> simp [hv, hm, hu]

theorem edges_queue (cfg : Config) (v : Int) (es : List (Edge I)) (s : St I) :
    (es.foldl (edgeStep cfg v) s).queue = s.queue ++ (candidates cfg es).filter (fun e => e.basic) := by
  induction es generalizing s with
  | nil => simp [candidates]
  | cons e es ih =>
    rw [List.foldl_cons, ih, edgeStep_queue, List.append_assoc]
    congr 1
    unfold candidates cand
    rw [List.filter_cons]
    by_cases h : (!e.discarded && (cfg.withBlank || !e.blank)) = true
    · rw [if_pos h, h, Bool.true_and, List.filter_cons]
      cases e.basic <;> simp
    · rw [if_neg h]
      simp only [Bool.not_eq_true] at h
      rw [h]; simp

theorem edges_fb (cfg : Config) (v : Int) (es : List (Edge I)) (hn : ∀ e ∈ es, e.tags.Nodup) (s : St I) (u : Str) (hu : u ∈ cfg.fallback) :
    (es.foldl (edgeStep cfg v) s).fb u = s.fb u ++ (candidates cfg es).filter (fun e => e.tags.contains u) := by
  induction es generalizing s with
  | nil => simp [candidates]
  | cons e es ih =>
    rw [List.foldl_cons, ih (fun e h => hn e (List.mem_cons_of_mem _ h)), edgeStep_fb cfg v s e (hn e (by simp)) u hu, List.append_assoc]
    congr 1
    unfold candidates cand
    rw [List.filter_cons]
    by_cases h : (!e.discarded && (cfg.withBlank || !e.blank)) = true
    · rw [if_pos h, h, Bool.true_and, List.filter_cons]
      cases e.tags.contains u <;> simp
    · rw [if_neg h]
      simp only [Bool.not_eq_true] at h
      rw [h]; simp

theorem fill_queue (ts : List Str) (q : List (Edge I)) (fb : Str → List (Edge I)) :
    (fill ts q fb).1 = firstNonempty (q :: ts.map fb) := by
  induction ts generalizing q fb with
  | nil =>
    cases q <;> rfl
  | cons t ts ih =>
    rw [fill, ih]
    cases q with
    | cons a q => simp [firstNonempty]
    | nil =>
      simp only [List.isEmpty_nil, if_true, List.map_cons]
      have e : ∀ x : List (Edge I), firstNonempty ([] :: x :: ts.map fb) = firstNonempty (x :: ts.map fb) := by
        intro x; rfl
      rw [e]
      by_cases ht : t ∈ ts
      · -- the queue of the tag is empty the second time
        cases hf : fb t with
        | cons a q => simp [firstNonempty]
        | nil =>
          congr 2
          refine List.map_congr_left (fun u hu => ?_)
          by_cases hut : u = t
          · rw [if_pos hut, hut, hf]
          · rw [if_neg hut]
      · congr 2
        refine List.map_congr_left (fun u hu => ?_)
        have hne : u ≠ t := fun h => ht (h ▸ hu)
        rw [if_neg hne]

theorem fill_fb (ts : List Str) (q : List (Edge I)) (fb : Str → List (Edge I)) (u : Str) :
    (fill ts q fb).2 u = if u ∈ ts then [] else fb u := by
  induction ts generalizing q fb with
  | nil => rfl
  | cons t ts ih =>
    rw [fill, ih]
    by_cases h1 : u ∈ ts
    · simp [h1]
    · by_cases h2 : u = t
      · simp [h2]
      · simp [h1, h2]

theorem printLoop_open (cfg : Config) (o : Bool) (q : List (Edge I)) (hn : cfg.noAlts = false) :
    printLoop cfg true o q = (if q.isEmpty then ([], o) else ((if o then [] else [.openAlt]) ++ q.map (fun e => .put e.item), true)) := by
  induction q generalizing o with
  | nil => rfl
  | cons e q ih =>
    rw [printLoop, hn]
    simp only [if_false, Bool.or_true, if_true, List.isEmpty_cons, Bool.false_eq_true]
    rw [ih true]
    cases q with
    | nil => simp
    | cons a q => simp

theorem printLoop_off (cfg : Config) (q : List (Edge I)) : printLoop cfg false false q = ([], false) := by
  induction q with
  | nil => rfl
  | cons e q ih =>
    rw [printLoop]
    simp only [Bool.or_false, ih]
    cases cfg.noAlts <;> rfl

/-- What is printed for a queue. -/
def printed (cfg : Config) (on : Bool) (q : List (Edge I)) : List (Ev I) :=
  (printLoop cfg on false q).1 ++ (if (printLoop cfg on false q).2 then [.closeAlt] else [])

theorem printed_eq (cfg : Config) (on : Bool) (q : List (Edge I)) :
    printed cfg on q = if on then alternative (if cfg.noAlts then q.take 1 else q) else [] := by
  unfold printed
  cases on with
  | false => rw [printLoop_off]; rfl
  | true =>
    cases hn : cfg.noAlts with
    | false =>
      rw [printLoop_open cfg false q hn]
      cases q with
      | nil => rfl
      | cons e q => simp [alternative]
    | true =>
      cases q with
      | nil => rfl
      | cons e q => simp [printLoop, hn, alternative]

theorem chosen_eq (cfg : Config) (es : List (Edge I)) (q : List (Edge I)) (fb : Str → List (Edge I))
    (hq : q = (candidates cfg es).filter (fun e => e.basic))
    (hfb : ∀ u ∈ cfg.fallback, fb u = (candidates cfg es).filter (fun e => e.tags.contains u)) :
    (if cfg.noAlts then (fill cfg.fallback q fb).1.take 1 else (fill cfg.fallback q fb).1) = chosen cfg es := by
  unfold chosen
  rw [fill_queue, hq, List.map_congr_left hfb]

/-! ### Events -/

/-- Between two vertices all queues are empty. -/
structure Idle (cfg : Config) (s : St I) : Prop where
  queue : s.queue = []
  fb : ∀ u ∈ cfg.fallback, s.fb u = []

/-- After the edges of a vertex were looked at. -/
def gathered (cfg : Config) (out : Int → List (Edge I)) (s : St I) (v : Int) : St I := (out v).foldl (edgeStep cfg v) s

theorem vertexStep_eq {cfg : Config} {out : Int → List (Edge I)} (hc : CleanTags out) {s : St I} (hs : Idle cfg s) (v : Int) :
    let g := gathered cfg out s v
    let s' := vertexStep cfg out s v
    Idle cfg s' ∧ s'.evs = g.evs ++ (if printing cfg g then altOf cfg out v else []) ∧ s'.targets = g.targets ∧ s'.known = g.known ∧
      s'.opened = g.opened := by
  intro g s'
  have hq := edges_queue cfg v (out v) s
  have hfb := edges_fb cfg v (out v) (hc v) s
  rw [hs.queue, List.nil_append] at hq
  refine ⟨⟨rfl, ?_⟩, ?_, rfl, rfl, rfl⟩
  · intro u hu
    show (fill cfg.fallback _ _).2 u = []
    rw [fill_fb, if_pos hu]
  · show (g.evs ++ _ ++ _) = _
    rw [List.append_assoc]
    congr 1
    have := printed_eq cfg (printing cfg g) (fill cfg.fallback g.queue g.fb).1
    unfold printed at this
    refine this.trans ?_
    congr 1
    unfold altOf
    congr 1
    exact chosen_eq cfg (out v) g.queue g.fb hq (fun u hu => (hfb u hu).trans (by rw [hs.fb u hu, List.nil_append]))

theorem idle_start (cfg : Config) : Idle cfg (start : St I) := ⟨rfl, fun _ _ => rfl⟩

theorem idle_fold {cfg : Config} {out : Int → List (Edge I)} (hc : CleanTags out) (vs : List Int) {s : St I} (hs : Idle cfg s) :
    Idle cfg (vs.foldl (vertexStep cfg out) s) := by
  induction vs generalizing s with
  | nil => exact hs
  | cons v vs ih => exact ih (vertexStep_eq hc hs v).1

/-! ### No groups -/

theorem tagStep_plain {cfg : Config} (hh : cfg.handled = []) (v : Int) (e : Edge I) (s : St I) (t : Str) :
    (tagStep cfg v e s t).evs = s.evs ∧ (tagStep cfg v e s t).known = s.known := by
  unfold tagStep
  simp only [hh]
  exact ⟨rfl, rfl⟩

theorem tags_plain {cfg : Config} (hh : cfg.handled = []) (v : Int) (e : Edge I) (ts : List Str) (s : St I) :
    (ts.foldl (tagStep cfg v e) s).evs = s.evs ∧ (ts.foldl (tagStep cfg v e) s).known = s.known := by
  induction ts generalizing s with
  | nil => exact ⟨rfl, rfl⟩
  | cons t ts ih =>
    rw [List.foldl_cons, (ih _).1, (ih _).2]
    exact tagStep_plain hh v e s t

theorem gathered_plain {cfg : Config} (hh : cfg.handled = []) (v : Int) (es : List (Edge I)) (s : St I) :
    (es.foldl (edgeStep cfg v) s).evs = s.evs ∧ (es.foldl (edgeStep cfg v) s).known = s.known := by
  induction es generalizing s with
  | nil => exact ⟨rfl, rfl⟩
  | cons e es ih =>
    rw [List.foldl_cons, (ih _).1, (ih _).2]
    unfold edgeStep
    split
    · exact ⟨rfl, rfl⟩
    · rw [(tags_plain hh v e e.tags _).1, (tags_plain hh v e e.tags _).2]
      split <;> exact ⟨rfl, rfl⟩

theorem fold_plain {cfg : Config} (hh : cfg.handled = []) {out : Int → List (Edge I)} (hc : CleanTags out) (vs : List Int) {s : St I}
    (hs : Idle cfg s) :
    (vs.foldl (vertexStep cfg out) s).evs = s.evs ++ vs.flatMap (altOf cfg out) ∧ (vs.foldl (vertexStep cfg out) s).known = s.known := by
  induction vs generalizing s with
  | nil => simp
  | cons v vs ih =>
    obtain ⟨h1, h2, h3, h4, h5⟩ := vertexStep_eq hc hs v
    have hg := gathered_plain hh v (out v) s
    have := ih h1
    rw [List.foldl_cons, this.1, this.2, h2, h4]
    unfold gathered
    rw [hg.1, hg.2]
    have hp : printing cfg ((out v).foldl (edgeStep cfg v) s) = true := by
      unfold printing; rw [hh]; rfl
    rw [hp]
    simp

end Verif.IterWriter
