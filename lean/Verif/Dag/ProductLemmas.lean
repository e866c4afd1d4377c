import Verif.Dag.Product
import Verif.Dag.Language

/-! # The product -/

namespace Verif.Dag

/-! ## The common arcs -/

theorem meet_spec (fuel : Nat) (r s : List Arc) (hf : r.length + s.length ≤ fuel)
    (hr : r.Pairwise fun x y => x.a < y.a) (hs : s.Pairwise fun x y => x.a < y.a) :
    (∀ x, x ∈ meet fuel r s ↔ (⟨x.a, x.t.1, x.w⟩ : Arc) ∈ r ∧ ∃ w, (⟨x.a, x.t.2, w⟩ : Arc) ∈ s) ∧
      (meet fuel r s).Pairwise fun x y => x.a < y.a := by
  fun_induction meet fuel r s with
  | case1 fuel x r y s h ih =>
    rw [List.pairwise_cons] at hr hs
    obtain ⟨h1, h2⟩ := ih (by simp at hf ⊢; omega) hr.2 hs.2
    constructor
    · intro z
      simp only [List.mem_cons, h1]
      constructor
      · rintro (rfl | ⟨h3, w, h4⟩)
        · exact ⟨.inl rfl, y.w, .inl (by cases y; simp at h ⊢; exact h)⟩
        · exact ⟨.inr h3, w, .inr h4⟩
      · rintro ⟨h3 | h3, w, h4 | h4⟩
        · left
          subst h3; subst h4
          rfl
        · exfalso
          subst h3
          have := hs.1 _ h4
          simp at this h; omega
        · exfalso
          subst h4
          have := hr.1 _ h3
          simp at this h; omega
        · exact .inr ⟨h3, w, h4⟩
    · rw [List.pairwise_cons]
      refine ⟨fun z hz => ?_, h2⟩
      have := hr.1 _ ((h1 z).1 hz).1
      exact this
  | case2 fuel x r y s h h' ih =>
    have hr' := List.pairwise_cons.1 hr
    obtain ⟨h1, h2⟩ := ih (by simp at hf ⊢; omega) hr'.2 hs
    refine ⟨fun z => ?_, h2⟩
    rw [h1]
    constructor
    · rintro ⟨h3, h4⟩; exact ⟨by simp [h3], h4⟩
    · rintro ⟨h3, w, h4⟩
      refine ⟨?_, w, h4⟩
      rcases List.mem_cons.1 h3 with e | h3
      · exfalso
        subst e
        rcases List.mem_cons.1 h4 with e | h4
        · subst e; simp at h
        · have := (List.pairwise_cons.1 hs).1 _ h4
          simp at this h'; omega
      · exact h3
  | case3 fuel x r y s h h' ih =>
    have hs' := List.pairwise_cons.1 hs
    obtain ⟨h1, h2⟩ := ih (by simp at hf ⊢; omega) hr hs'.2
    refine ⟨fun z => ?_, h2⟩
    rw [h1]
    constructor
    · rintro ⟨h3, w, h4⟩; exact ⟨h3, w, by simp [h4]⟩
    · rintro ⟨h3, w, h4⟩
      refine ⟨h3, w, ?_⟩
      rcases List.mem_cons.1 h4 with e | h4
      · exfalso
        subst e
        rcases List.mem_cons.1 h3 with e | h3
        · subst e; simp at h
        · have := (List.pairwise_cons.1 hr).1 _ h3
          simp at this h'; omega
      · exact h4
  | case4 fuel r s hne =>
    refine ⟨fun x => ?_, by simp⟩
    simp only [List.not_mem_nil, false_iff, not_and, not_exists]
    intro h1 w h2
    cases r with
    | nil => simp at h1
    | cons a r =>
      cases s with
      | nil => simp at h2
      | cons b s =>
        cases fuel with
        | zero => simp at hf
        | succ fuel => exact hne _ _ _ _ _ rfl rfl rfl

/-- Sorted arcs with different symbols. -/
def StrictRows (d : Dag) : Prop := ∀ p, (d.row p).Pairwise fun x y => x.a < y.a

theorem common_spec {d o : Dag} (hd : StrictRows d) (ho : StrictRows o) (p : Nat × Nat) :
    (∀ x, x ∈ common d o p ↔
      (⟨x.a, x.t.1, x.w⟩ : Arc) ∈ d.row p.1 ∧ ∃ w, (⟨x.a, x.t.2, w⟩ : Arc) ∈ o.row p.2) ∧
      (common d o p).Pairwise fun x y => x.a < y.a :=
  meet_spec _ _ _ (Nat.le_refl _) (hd _) (ho _)

/-! ## The walk -/

theorem idxOf?_pair {l : List (Nat × Nat)} {S : Nat × Nat} :
    match l.idxOf? S with
    | some i => l[i]? = some S
    | none => S ∉ l := by
  cases h : l.idxOf? S with
  | none => simpa [List.idxOf?_eq_none_iff] using h
  | some i =>
    simp only [List.idxOf?, List.findIdx?_eq_some_iff_getElem] at h
    obtain ⟨h1, h2, _⟩ := h
    simp only
    rw [List.getElem?_eq_getElem h1]
    simpa using h2

/-- What is known while arcs are added. `G` are the arcs added, `F` the final pairs. -/
structure Pairing (b : Pairs) (G : Nat × Nat → PairArc → Prop) (F : Nat × Nat → Prop) : Prop where
  len : b.dag.rows.length = b.mapper.length
  nodup : b.mapper.Nodup
  starts : b.dag.starts = 1
  first : b.mapper[0]? = some (0, 0)
  arcs : ∀ i x, x ∈ b.dag.row i ↔
    ∃ p t, b.mapper[i]? = some p ∧ b.mapper[x.q]? = some t ∧ G p ⟨x.a, x.w, t⟩
  closed : ∀ p x, G p x → p ∈ b.mapper ∧ x.t ∈ b.mapper
  ends : ∀ i, i ∈ b.dag.ends ↔ ∃ p, b.mapper[i]? = some p ∧ F p
  finals : ∀ p, F p → p ∈ b.mapper
  sorted : Sorted b.dag
  queued : ∀ p ∈ b.queue, p ∈ b.mapper
  once : b.queue.Nodup

theorem Pairing.congr {b : Pairs} {G G' : Nat × Nat → PairArc → Prop} {F F' : Nat × Nat → Prop}
    (h : Pairing b G F) (hG : ∀ p x, G p x ↔ G' p x) (hF : ∀ p, F p ↔ F' p) : Pairing b G' F' := by
  have e : G = G' := by funext p x; exact propext (hG p x)
  have e' : F = F' := by funext p; exact propext (hF p)
  rw [← e, ← e']; exact h

theorem nodup_getElem? {l : List (Nat × Nat)} (h : l.Nodup) {i j : Nat} {p : Nat × Nat}
    (hi : l[i]? = some p) (hj : l[j]? = some p) : i = j := by
  obtain ⟨hi', e⟩ := List.getElem?_eq_some_iff.1 hi
  obtain ⟨hj', e'⟩ := List.getElem?_eq_some_iff.1 hj
  exact (h.getElem_inj_iff).1 (e.trans e'.symm)

/-- An arc between two known pairs. -/
theorem Pairing.newArc {b : Pairs} {G : Nat × Nat → PairArc → Prop} {F : Nat × Nat → Prop}
    (h : Pairing b G F) {s i a w : Nat} {p t : Nat × Nat} (hs : b.mapper[s]? = some p)
    (hi : b.mapper[i]? = some t) :
    Pairing { b with dag := b.dag.newArc s i a w } (fun q x => G q x ∨ (q = p ∧ x = ⟨a, w, t⟩)) F where
  len := by simpa using h.len
  nodup := h.nodup
  starts := h.starts
  first := h.first
  arcs := by
    intro j x
    simp only
    rw [mem_newArc, h.arcs]
    constructor
    · rintro (⟨q, u, h1, h2, h3⟩ | ⟨rfl, _, rfl⟩)
      · exact ⟨q, u, h1, h2, .inl h3⟩
      · exact ⟨p, t, hs, hi, .inr ⟨rfl, rfl⟩⟩
    · rintro ⟨q, u, h1, h2, h3 | ⟨rfl, h3⟩⟩
      · exact .inl ⟨q, u, h1, h2, h3⟩
      · right
        have hjs := nodup_getElem? h.nodup h1 hs
        cases h3
        have hqi := nodup_getElem? h.nodup h2 hi
        refine ⟨hjs, ?_, ?_⟩
        · rw [h.len]; exact (List.getElem?_eq_some_iff.1 hs).1
        · rw [← hqi]
  closed := by
    rintro q x (h1 | ⟨rfl, rfl⟩)
    · exact h.closed q x h1
    · exact ⟨List.mem_of_getElem? hs, List.mem_of_getElem? hi⟩
  ends := h.ends
  finals := h.finals
  sorted := newArc_sorted h.sorted _ _ _ _
  queued := h.queued
  once := h.once

/-- A new pair. -/
theorem Pairing.newState {b : Pairs} {G : Nat × Nat → PairArc → Prop} {F : Nat × Nat → Prop}
    (h : Pairing b G F) {t : Nat × Nat} (ht : t ∉ b.mapper) :
    Pairing { dag := b.dag.newState false, mapper := b.mapper ++ [t], queue := t :: b.queue } G F := by
  have keep : ∀ {i : Nat} {p : Nat × Nat}, b.mapper[i]? = some p → (b.mapper ++ [t])[i]? = some p := by
    intro i p hi
    rw [List.getElem?_append_left (List.getElem?_eq_some_iff.1 hi).1]; exact hi
  have back : ∀ {i : Nat} {p : Nat × Nat}, p ∈ b.mapper → (b.mapper ++ [t])[i]? = some p →
      b.mapper[i]? = some p := by
    intro i p hp hi
    rcases Nat.lt_or_ge i b.mapper.length with c | c
    · rwa [List.getElem?_append_left c] at hi
    · rw [List.getElem?_append_right c] at hi
      have := List.mem_of_getElem? hi
      simp only [List.mem_singleton] at this
      subst this
      exact absurd hp ht
  refine ⟨by simp [h.len], ?_, by simpa [Dag.newState] using h.starts, keep h.first, ?_, ?_, ?_, ?_, ?_, ?_, ?_⟩
  · simp only [List.nodup_append, h.nodup, List.nodup_singleton, List.mem_singleton, true_and]
    intro a ha c hc
    subst hc
    exact fun e => ht (e ▸ ha)
  · intro i x
    simp only [newState_row, h.arcs]
    constructor
    · rintro ⟨p, u, h1, h2, h3⟩; exact ⟨p, u, keep h1, keep h2, h3⟩
    · rintro ⟨p, u, h1, h2, h3⟩
      exact ⟨p, u, back (h.closed p _ h3).1 h1, back (h.closed p _ h3).2 h2, h3⟩
  · intro p x hx
    have := h.closed p x hx
    simp [this.1, this.2]
  · intro i
    simp only [newState_ends, h.ends]
    constructor
    · rintro ⟨p, h1, h2⟩; exact ⟨p, keep h1, h2⟩
    · rintro ⟨p, h1, h2⟩; exact ⟨p, back (h.finals p h2) h1, h2⟩
  · intro p hp; simp [h.finals p hp]
  · intro p; simpa using h.sorted p
  · intro p hp
    rcases List.mem_cons.1 hp with rfl | hp
    · simp
    · simp [h.queued p hp]
  · rw [List.nodup_cons]
    exact ⟨fun hq => ht (h.queued t hq), h.once⟩

theorem Pairing.addArc {b : Pairs} {G : Nat × Nat → PairArc → Prop} {F : Nat × Nat → Prop}
    (h : Pairing b G F) {s : Nat} {p : Nat × Nat} (x : PairArc) (hs : b.mapper[s]? = some p) :
    Pairing (b.addArc s x) (fun q y => G q y ∨ (q = p ∧ y = x)) F ∧
      ((b.addArc s x).mapper = b.mapper ∧ (b.addArc s x).queue = b.queue ∧ x.t ∈ b.mapper ∨
      (b.addArc s x).mapper = b.mapper ++ [x.t] ∧ (b.addArc s x).queue = x.t :: b.queue ∧
        x.t ∉ b.mapper) := by
  have hx := idxOf?_pair (l := b.mapper) (S := x.t)
  unfold Pairs.addArc
  cases hi : b.mapper.idxOf? x.t with
  | some i =>
    rw [hi] at hx
    simp only at hx ⊢
    exact ⟨h.newArc hs hx, .inl ⟨trivial, trivial, List.mem_of_getElem? hx⟩⟩
  | none =>
    rw [hi] at hx
    simp only at hx ⊢
    refine ⟨?_, .inr ⟨trivial, trivial, hx⟩⟩
    have h1 := h.newState hx
    refine h1.newArc (s := s) (i := b.dag.rows.length) (p := p) (t := x.t) (a := x.a) (w := x.w) ?_ ?_
    · simp only
      rw [List.getElem?_append_left (List.getElem?_eq_some_iff.1 hs).1]; exact hs
    · simp [h.len]

/-- Arcs of one pair. -/
theorem Pairing.addArcs {F : Nat × Nat → Prop} {s : Nat} {p : Nat × Nat} (l : List PairArc) {b : Pairs}
    {G : Nat × Nat → PairArc → Prop} (h : Pairing b G F) (hs : b.mapper[s]? = some p) :
    ∃ new, Pairing (l.foldl (Pairs.addArc s) b) (fun q y => G q y ∨ (q = p ∧ y ∈ l)) F ∧
      (l.foldl (Pairs.addArc s) b).mapper = b.mapper ++ new ∧
      (l.foldl (Pairs.addArc s) b).queue = new.reverse ++ b.queue ∧
      (∀ t ∈ new, t ∉ b.mapper ∧ ∃ x ∈ l, x.t = t) := by
  induction l generalizing b G with
  | nil => exact ⟨[], by simpa using h, by simp, by simp, by simp⟩
  | cons x l ih =>
    obtain ⟨h1, h2⟩ := h.addArc x hs
    have hs' : (b.addArc s x).mapper[s]? = some p := by
      rcases h2 with ⟨e, _⟩ | ⟨e, _⟩
      · rw [e]; exact hs
      · rw [e, List.getElem?_append_left (List.getElem?_eq_some_iff.1 hs).1]; exact hs
    obtain ⟨new, h3, h4, h5, h6⟩ := ih h1 hs'
    have cg : Pairing ((x :: l).foldl (Pairs.addArc s) b) (fun q y => G q y ∨ (q = p ∧ y ∈ x :: l)) F := by
      refine h3.congr (fun q y => ?_) fun _ => Iff.rfl
      simp only [List.mem_cons, or_assoc]
      constructor
      · rintro (h | ⟨rfl, rfl⟩ | ⟨rfl, h⟩)
        · exact .inl h
        · exact .inr ⟨rfl, .inl rfl⟩
        · exact .inr ⟨rfl, .inr h⟩
      · rintro (h | ⟨rfl, rfl | h⟩)
        · exact .inl h
        · exact .inr (.inl ⟨rfl, rfl⟩)
        · exact .inr (.inr ⟨rfl, h⟩)
    rcases h2 with ⟨e, e', _⟩ | ⟨e, e', hn⟩
    · refine ⟨new, cg, by rw [List.foldl_cons, h4, e], by rw [List.foldl_cons, h5, e'], fun t ht => ?_⟩
      obtain ⟨h7, y, h8, h9⟩ := h6 t ht
      exact ⟨e ▸ h7, y, by simp [h8], h9⟩
    · refine ⟨x.t :: new, cg, by rw [List.foldl_cons, h4, e]; simp,
        by rw [List.foldl_cons, h5, e']; simp, fun t ht => ?_⟩
      rcases List.mem_cons.1 ht with rfl | ht
      · exact ⟨hn, x, by simp, rfl⟩
      · obtain ⟨h7, y, h8, h9⟩ := h6 t ht
        rw [e, List.mem_append, not_or] at h7
        exact ⟨h7.1, y, by simp [h8], h9⟩

theorem Pairing.setEnd {b : Pairs} {G : Nat × Nat → PairArc → Prop} {F : Nat × Nat → Prop}
    (h : Pairing b G F) {s : Nat} {p : Nat × Nat} (hs : b.mapper[s]? = some p) :
    Pairing { b with dag := b.dag.setEnd s } G fun q => F q ∨ q = p where
  len := by simpa using h.len
  nodup := h.nodup
  starts := by simpa using h.starts
  first := h.first
  arcs := by intro i x; simpa using h.arcs i x
  closed := h.closed
  ends := by
    intro i
    simp only
    rw [mem_setEnd, h.ends]
    constructor
    · rintro (⟨q, h1, h2⟩ | rfl)
      · exact ⟨q, h1, .inl h2⟩
      · exact ⟨p, hs, .inr rfl⟩
    · rintro ⟨q, h1, h2 | rfl⟩
      · exact .inl ⟨q, h1, h2⟩
      · exact .inr (nodup_getElem? h.nodup h1 hs)
  finals := by
    rintro q (h1 | rfl)
    · exact h.finals q h1
    · exact List.mem_of_getElem? hs
  sorted := by intro p; simpa using h.sorted p
  queued := h.queued
  once := h.once

/-- What is known between the rounds. -/
abbrev Round (next : Nat × Nat → List PairArc) (final : Nat × Nat → Bool) (b : Pairs) : Prop :=
  Pairing b (fun p x => p ∈ b.mapper ∧ p ∉ b.queue ∧ x ∈ next p)
    (fun p => p ∈ b.mapper ∧ p ∉ b.queue ∧ final p = true)

theorem idxOf_pair {l : List (Nat × Nat)} {p : Nat × Nat} (h : p ∈ l) :
    l[l.idxOf p]? = some p := by
  rw [List.getElem?_eq_getElem (List.idxOf_lt_length_of_mem h)]
  simp

theorem Pairing.dequeue {b : Pairs} {G : Nat × Nat → PairArc → Prop} {F : Nat × Nat → Prop}
    (h : Pairing b G F) {q : List (Nat × Nat)} (hq : ∀ p ∈ q, p ∈ b.queue) (hn : q.Nodup) :
    Pairing { b with queue := q } G F :=
  ⟨h.len, h.nodup, h.starts, h.first, h.arcs, h.closed, h.ends, h.finals, h.sorted,
    fun p hp => h.queued p (hq p hp), hn⟩

/-! ## Determinism -/

/-- Different symbols in each row. -/
def Distinct (d : Dag) : Prop := ∀ i, (d.row i).Pairwise fun x y => x.a ≠ y.a

theorem Distinct.newArc {d : Dag} (h : Distinct d) {s t a w : Nat} (hn : ∀ x ∈ d.row s, x.a ≠ a) :
    Distinct (d.newArc s t a w) := by
  intro i
  by_cases hs : s < d.rows.length
  · rw [newArc_row d s t a w i hs]
    split
    · rw [(insertArc_perm _ _).pairwise_iff (fun h => Ne.symm h), List.pairwise_cons]
      exact ⟨fun y hy => Ne.symm (hn y hy), h s⟩
    · exact h i
  · rw [newArc_out d s t a w (by omega)]; exact h i

theorem distinct_addArcs (s : Nat) (l : List PairArc) (b : Pairs) (h : Distinct b.dag)
    (hl : l.Pairwise fun x y => x.a ≠ y.a) (hn : ∀ x ∈ b.dag.row s, ∀ y ∈ l, x.a ≠ y.a) :
    Distinct (l.foldl (Pairs.addArc s) b).dag := by
  induction l generalizing b with
  | nil => exact h
  | cons x l ih =>
    rw [List.pairwise_cons] at hl
    rw [List.foldl_cons]
    have step : ∀ (d : Dag) (i : Nat), Distinct d → d.row s = b.dag.row s →
        Distinct (d.newArc s i x.a x.w) ∧
          ∀ z ∈ (d.newArc s i x.a x.w).row s, ∀ y ∈ l, z.a ≠ y.a := by
      intro d i hd hr
      refine ⟨hd.newArc fun z hz => hn z (hr ▸ hz) x (by simp), fun z hz y hy => ?_⟩
      rcases mem_newArc.1 hz with hz | ⟨_, _, rfl⟩
      · exact hn z (hr ▸ hz) y (by simp [hy])
      · exact hl.1 y hy
    unfold Pairs.addArc
    cases b.mapper.idxOf? x.t with
    | some i =>
      obtain ⟨h1, h2⟩ := step b.dag i h rfl
      exact ih _ h1 hl.2 h2
    | none =>
      obtain ⟨h1, h2⟩ := step (b.dag.newState false) b.dag.rows.length (fun i => by simpa using h i)
        (by simp)
      exact ih _ h1 hl.2 h2

theorem walkPairs_spec (next : Nat × Nat → List PairArc) (final : Nat × Nat → Bool)
    (U : List (Nat × Nat)) (hU : ∀ p ∈ U, ∀ x ∈ next p, x.t ∈ U) (fuel : Nat) (b : Pairs)
    (h : Round next final b) (hm : ∀ p ∈ b.mapper, p ∈ U)
    (hf : b.queue.length + (U.length - b.mapper.length) ≤ fuel) :
    ∃ e, walkPairs next final fuel b = some e ∧ e.queue = [] ∧ Round next final e ∧
      (∀ p ∈ e.mapper, p ∈ U) ∧
      ((∀ p, (next p).Pairwise fun x y => x.a ≠ y.a) → Distinct b.dag → Distinct e.dag) := by
  have bound : ∀ l : List (Nat × Nat), l.Nodup → (∀ p ∈ l, p ∈ U) → l.length ≤ U.length :=
    fun l hn hs => (hn.subperm hs).length_le
  induction fuel generalizing b with
  | zero =>
    obtain ⟨dag, mapper, queue⟩ := b
    cases queue with
    | nil => exact ⟨_, by rw [walkPairs], rfl, h, hm, fun _ h => h⟩
    | cons p q => simp at hf
  | succ fuel ih =>
    obtain ⟨dag, mapper, queue⟩ := b
    cases queue with
    | nil => exact ⟨_, by rw [walkPairs], rfl, h, hm, fun _ h => h⟩
    | cons p queue =>
      rw [walkPairs]
      have hp : p ∈ mapper := h.queued p (by simp)
      have hs : mapper[mapper.idxOf p]? = some p := idxOf_pair hp
      have hnd := h.once
      rw [List.nodup_cons] at hnd
      have h1 := h.dequeue (q := queue) (fun q hq => by simp [hq]) hnd.2
      -- the final state
      have h2 : Pairing ⟨if final p then dag.setEnd (mapper.idxOf p) else dag, mapper, queue⟩
          (fun q x => q ∈ mapper ∧ q ∉ p :: queue ∧ x ∈ next q)
          (fun q => q ∈ mapper ∧ q ∉ queue ∧ final q = true) := by
        by_cases c : final p = true
        · rw [if_pos c]
          refine (h1.setEnd (s := mapper.idxOf p) (p := p) hs).congr (fun _ _ => Iff.rfl) fun q => ?_
          simp only [List.mem_cons, not_or]
          constructor
          · rintro (⟨h3, ⟨_, h4⟩, h5⟩ | rfl)
            · exact ⟨h3, h4, h5⟩
            · exact ⟨hp, hnd.1, c⟩
          · rintro ⟨h3, h4, h5⟩
            by_cases e : q = p
            · exact .inr e
            · exact .inl ⟨h3, ⟨e, h4⟩, h5⟩
        · rw [if_neg c]
          refine h1.congr (fun _ _ => Iff.rfl) fun q => ?_
          simp only [List.mem_cons, not_or]
          constructor
          · rintro ⟨h3, ⟨_, h4⟩, h5⟩; exact ⟨h3, h4, h5⟩
          · rintro ⟨h3, h4, h5⟩
            exact ⟨h3, ⟨by rintro rfl; exact c h5, h4⟩, h5⟩
      obtain ⟨new, h3, h4, h5, h6⟩ := h2.addArcs (next p) (s := mapper.idxOf p) (p := p) hs
      have hround : Round next final ((next p).foldl (Pairs.addArc (mapper.idxOf p))
          ⟨if final p then dag.setEnd (mapper.idxOf p) else dag, mapper, queue⟩) := by
        refine h3.congr (fun q y => ?_) fun q => ?_
        · rw [h4, h5]
          simp only [List.mem_append, List.mem_reverse, List.mem_cons, not_or]
          constructor
          · rintro (⟨g1, ⟨g2, g3⟩, g4⟩ | ⟨rfl, g⟩)
            · exact ⟨.inl g1, ⟨fun hn => (h6 q hn).1 g1, g3⟩, g4⟩
            · exact ⟨.inl hp, ⟨fun hn => (h6 q hn).1 hp, hnd.1⟩, g⟩
          · rintro ⟨g1 | g1, ⟨g2, g3⟩, g4⟩
            · by_cases e : q = p
              · exact .inr ⟨e, e ▸ g4⟩
              · exact .inl ⟨g1, ⟨e, g3⟩, g4⟩
            · exact absurd g1 g2
        · rw [h4, h5]
          simp only [List.mem_append, List.mem_reverse, not_or]
          constructor
          · rintro ⟨g1, g3, g4⟩
            exact ⟨.inl g1, ⟨fun hn => (h6 q hn).1 g1, g3⟩, g4⟩
          · rintro ⟨g1 | g1, ⟨g2, g3⟩, g4⟩
            · exact ⟨g1, g3, g4⟩
            · exact absurd g1 g2
      have hmU : ∀ q ∈ ((next p).foldl (Pairs.addArc (mapper.idxOf p))
          ⟨if final p then dag.setEnd (mapper.idxOf p) else dag, mapper, queue⟩).mapper, q ∈ U := by
        rw [h4]
        intro q hq
        rcases List.mem_append.1 hq with hq | hq
        · exact hm q hq
        · obtain ⟨_, x, hx, rfl⟩ := h6 q hq
          exact hU p (hm p hp) x hx
      have hdist : (∀ p, (next p).Pairwise fun x y => x.a ≠ y.a) → Distinct dag →
          Distinct ((next p).foldl (Pairs.addArc (mapper.idxOf p))
            ⟨if final p then dag.setEnd (mapper.idxOf p) else dag, mapper, queue⟩).dag := by
        intro hn hd
        apply distinct_addArcs _ _ _ ?_ (hn p)
        · intro x hx
          obtain ⟨p', t, g1, _, g3, g4, _⟩ := (h2.arcs _ _).1 hx
          rw [hs] at g1; cases g1
          exact absurd (by simp) g4
        · simp only
          split
          · intro i; simpa using hd i
          · exact hd
      have hfuel : ((next p).foldl (Pairs.addArc (mapper.idxOf p))
          ⟨if final p then dag.setEnd (mapper.idxOf p) else dag, mapper, queue⟩).queue.length +
          (U.length - ((next p).foldl (Pairs.addArc (mapper.idxOf p))
          ⟨if final p then dag.setEnd (mapper.idxOf p) else dag, mapper, queue⟩).mapper.length) ≤
          fuel := ?_
      · obtain ⟨e, g1, g2, g3, g4, g5⟩ := ih _ hround hmU hfuel
        exact ⟨e, g1, g2, g3, g4, fun hn hd => g5 hn (hdist hn hd)⟩
      have hb := bound _ hround.nodup hmU
      rw [h4] at hb
      rw [h5, h4]
      simp only [List.length_append, List.length_reverse, List.length_cons] at hf hb ⊢
      omega

/-- A way through the pairs. -/
inductive Joint (next : Nat × Nat → List PairArc) : Nat × Nat → List Nat → Nat × Nat → Prop
  | nil (p : Nat × Nat) : Joint next p [] p
  | cons {p t : Nat × Nat} {x : PairArc} {u : List Nat} (h : x ∈ next p) (r : Joint next x.t u t) :
      Joint next p (x.a :: u) t

theorem Round.path {next : Nat × Nat → List PairArc} {final : Nat × Nat → Bool} {b : Pairs}
    (h : Round next final b) (hq : b.queue = []) {i j : Nat} {w : List Nat} (hw : Path b.dag i w j)
    {p : Nat × Nat} (hp : b.mapper[i]? = some p) : ∃ t, b.mapper[j]? = some t ∧ Joint next p w t := by
  induction hw generalizing p with
  | nil => exact ⟨p, hp, .nil p⟩
  | cons hx _ ih =>
    obtain ⟨p', t, h1, h2, _, _, h3⟩ := (h.arcs _ _).1 hx
    rw [hp] at h1; cases h1
    obtain ⟨t', h4, h5⟩ := ih h2
    exact ⟨t', h4, .cons h3 h5⟩

theorem Round.path' {next : Nat × Nat → List PairArc} {final : Nat × Nat → Bool} {b : Pairs}
    (h : Round next final b) (hq : b.queue = []) {p t : Nat × Nat} {w : List Nat}
    (hw : Joint next p w t) {i : Nat} (hp : b.mapper[i]? = some p) :
    ∃ j, b.mapper[j]? = some t ∧ Path b.dag i w j := by
  induction hw generalizing i with
  | nil => exact ⟨i, hp, .nil i⟩
  | @cons p t x u hx _ ih =>
    have hm := List.mem_of_getElem? hp
    have hg : p ∈ b.mapper ∧ p ∉ b.queue ∧ x ∈ next p := ⟨hm, by simp [hq], hx⟩
    have := (h.closed p x hg).2
    obtain ⟨j, hj⟩ := List.mem_iff_getElem?.1 this
    obtain ⟨k, h1, h2⟩ := ih hj
    refine ⟨k, h1, .cons (w := x.w) ((h.arcs _ _).2 ⟨p, x.t, hp, hj, hg⟩) h2⟩

theorem Round.start (next : Nat × Nat → List PairArc) (final : Nat × Nat → Bool) :
    Round next final Pairs.start := by
  refine ⟨by simp [Pairs.start], by simp [Pairs.start], by decide, rfl, ?_, ?_, ?_, ?_, ?_,
    by simp [Pairs.start], by simp [Pairs.start]⟩
  · intro i x
    simp only [Pairs.start, newState_row]
    simp [Dag.row]
  · rintro p x ⟨h1, h2, _⟩; exact absurd h1 h2
  · intro i
    simp [Pairs.start]
  · rintro p ⟨h1, h2, _⟩; exact absurd h1 h2
  · intro p
    simp only [Pairs.start, newState_row]
    simp [Dag.row]

theorem product_spec (next : Nat × Nat → List PairArc) (final : Nat × Nat → Bool) (n m : Nat)
    (hU : ∀ p, ∀ x ∈ next p, x.t.1 < n ∧ x.t.2 < m) :
    ∃ e, walkPairs next final (n * m + 2) Pairs.start = some e ∧ Valid e.dag ∧ Sorted e.dag ∧
      (∀ i, Initial e.dag i ↔ i = 0) ∧
      (∀ w, Accepts e.dag 0 w ↔ ∃ t, Joint next (0, 0) w t ∧ final t = true) ∧
      ((∀ p, (next p).Pairwise fun x y => x.a ≠ y.a) → Distinct e.dag) ∧
      e.dag.rows.length ≤ n * m + 1 := by
  obtain ⟨e, h1, h2, h3, h4, h5⟩ := walkPairs_spec next final
    ((0, 0) :: (List.range n).flatMap fun i => (List.range m).map fun j => (i, j))
    (by
      intro p _ x hx
      obtain ⟨g1, g2⟩ := hU p x hx
      apply List.mem_cons_of_mem
      rw [List.mem_flatMap]
      exact ⟨x.t.1, List.mem_range.2 g1, List.mem_map.2 ⟨x.t.2, List.mem_range.2 g2, rfl⟩⟩)
    (n * m + 2) Pairs.start (Round.start next final) (by simp [Pairs.start])
    (by
      simp only [Pairs.start, List.length_cons, List.length_nil, List.length_flatMap, List.length_map,
        List.length_range, List.map_const', List.sum_replicate_nat]
      omega)
  have hpos : 0 < e.dag.rows.length := by
    rw [h3.len]; exact (List.getElem?_eq_some_iff.1 h3.first).1
  refine ⟨e, h1, ⟨?_, ?_, ?_⟩, h3.sorted, ?_, ?_, ?_, ?_⟩
  · intro p x hx
    obtain ⟨_, t, _, g, _⟩ := (h3.arcs p x).1 hx
    rw [h3.len]; exact (List.getElem?_eq_some_iff.1 g).1
  · intro p hp
    obtain ⟨_, g, _⟩ := (h3.ends p).1 hp
    rw [h3.len]; exact (List.getElem?_eq_some_iff.1 g).1
  · rw [h3.starts]; exact Nat.one_lt_two_pow (by omega)
  · intro i
    unfold Initial
    rw [h3.starts]
    constructor
    · rintro ⟨_, h⟩
      by_contra c
      obtain ⟨k, rfl⟩ := Nat.exists_eq_succ_of_ne_zero c
      simp [Nat.testBit_succ] at h
    · rintro rfl
      exact ⟨hpos, by decide⟩
  · intro w
    constructor
    · rintro ⟨j, g1, g2⟩
      obtain ⟨t, g3, g4⟩ := Round.path h3 h2 g1 h3.first
      obtain ⟨t', g5, _, _, g6⟩ := (h3.ends j).1 g2
      rw [g3] at g5; cases g5
      exact ⟨t, g4, g6⟩
    · rintro ⟨t, g1, g2⟩
      obtain ⟨j, g3, g4⟩ := Round.path' h3 h2 g1 h3.first
      exact ⟨j, g4, (h3.ends j).2 ⟨t, g3, List.mem_of_getElem? g3, by simp [h2], g2⟩⟩
  · intro hn
    apply h5 hn
    intro i
    simp only [Pairs.start, newState_row]
    simp [Dag.row]
  · rw [h3.len]
    have := (h3.nodup.subperm h4).length_le
    simpa using this

theorem words_of_initial {d : Dag} (h : ∀ i, Initial d i ↔ i = 0) (w : List Nat) :
    Words d w ↔ Accepts d 0 w := by
  constructor
  · rintro ⟨p, h1, h2⟩
    rw [h] at h1; subst h1; exact h2
  · exact fun h' => ⟨0, (h 0).2 rfl, h'⟩

/-! ## The intersection -/

theorem joint_common {d o : Dag} (hd : StrictRows d) (ho : StrictRows o) {p t : Nat × Nat}
    {w : List Nat} : Joint (common d o) p w t ↔ Path d p.1 w t.1 ∧ Path o p.2 w t.2 := by
  constructor
  · intro h
    induction h with
    | nil => exact ⟨.nil _, .nil _⟩
    | @cons p t x u hx _ ih =>
      obtain ⟨h1, w, h2⟩ := ((common_spec hd ho p).1 x).1 hx
      exact ⟨.cons h1 ih.1, .cons h2 ih.2⟩
  · induction w generalizing p with
    | nil =>
      rintro ⟨h1, h2⟩
      rw [path_nil] at h1 h2
      have : p = t := Prod.ext h1 h2
      subst this
      exact .nil _
    | cons a u ih =>
      rintro ⟨h1, h2⟩
      obtain ⟨q, w, h3, h4⟩ := path_cons.1 h1
      obtain ⟨r, v, h5, h6⟩ := path_cons.1 h2
      exact .cons (x := ⟨a, w, (q, r)⟩) (((common_spec hd ho p).1 _).2 ⟨h3, v, h5⟩)
        (ih (p := (q, r)) ⟨h4, h6⟩)

theorem intersect_spec {d o : Dag} (hv : Valid d) (hw : Valid o) (hd : StrictRows d)
    (ho : StrictRows o) :
    ∃ e, d.intersect o = some e ∧ Valid e ∧ Sorted e ∧ Distinct e ∧ (∀ i, Initial e i ↔ i = 0) ∧
      (∀ w, Accepts e 0 w ↔ Accepts d 0 w ∧ Accepts o 0 w) ∧
      e.rows.length ≤ d.rows.length * o.rows.length + 1 := by
  obtain ⟨e, h1, h2, h3, h4, h5, h6, h7⟩ := product_spec (common d o)
    (fun p => d.isEnd p.1 && o.isEnd p.2) d.rows.length o.rows.length (by
      intro p x hx
      obtain ⟨g1, w, g2⟩ := ((common_spec hd ho p).1 x).1 hx
      exact ⟨hv.arcs _ _ g1, hw.arcs _ _ g2⟩)
  refine ⟨e.dag, by simp [Dag.intersect, h1], h2, h3, h6 fun p => ?_, h4, fun w => ?_, h7⟩
  · exact (common_spec hd ho p).2.imp fun h => Nat.ne_of_lt h
  · rw [h5]
    simp only [joint_common hd ho, Bool.and_eq_true, isEnd_iff]
    constructor
    · rintro ⟨t, ⟨g1, g2⟩, g3, g4⟩; exact ⟨⟨t.1, g1, g3⟩, t.2, g2, g4⟩
    · rintro ⟨⟨q, g1, g3⟩, r, g2, g4⟩; exact ⟨(q, r), ⟨g1, g2⟩, g3, g4⟩

/-! ## The pruning -/

theorem intmap_spec {row : List Arc} (h : row.Pairwise fun x y => x.a ≠ y.a) (a q : Nat) :
    intmap row a = some q ↔ ∃ w, (⟨a, q, w⟩ : Arc) ∈ row := by
  unfold intmap
  constructor
  · intro hq
    rw [Option.map_eq_some_iff] at hq
    obtain ⟨x, hx, rfl⟩ := hq
    have h1 := List.mem_of_find?_eq_some hx
    have h2 := List.find?_some hx
    simp only [beq_iff_eq] at h2
    subst h2
    exact ⟨x.w, by simpa using h1⟩
  · rintro ⟨w, hw⟩
    cases hf : row.reverse.find? fun x => x.a == a with
    | none =>
      rw [List.find?_eq_none] at hf
      exact absurd (hf ⟨a, q, w⟩ (by simpa using hw)) (by simp)
    | some x =>
      have h1 := List.mem_of_find?_eq_some hf
      have h2 := List.find?_some hf
      simp only [beq_iff_eq] at h2
      have := unique_arc h (by simpa using h1) hw h2
      subst this
      rfl

/-- The kinds of the symbols: 1 for nonterminals. -/
def kinds (nts : Nat → Bool) (w : List Nat) : List Nat := w.map fun a => if nts a then 1 else 0

theorem mem_allowed {nts : Nat → Bool} {int d : Dag} (hi : Distinct int) {p : Nat × Nat} {x : PairArc} :
    x ∈ allowed nts int d p ↔ (∃ w, (⟨x.a, x.t.2, w⟩ : Arc) ∈ d.row p.2) ∧ x.w = 0 ∧
      ∃ w, (⟨if nts x.a then 1 else 0, x.t.1, w⟩ : Arc) ∈ int.row p.1 := by
  unfold allowed
  rw [List.mem_filterMap]
  constructor
  · rintro ⟨y, hy, h⟩
    rw [Option.map_eq_some_iff] at h
    obtain ⟨q, hq, rfl⟩ := h
    exact ⟨⟨y.w, hy⟩, rfl, (intmap_spec (hi _) _ _).1 hq⟩
  · rintro ⟨⟨w, h1⟩, h2, h3⟩
    refine ⟨_, h1, ?_⟩
    rw [(intmap_spec (hi _) _ _).2 h3]
    obtain ⟨a, w, q, r⟩ := x
    simp only at h2
    subst h2
    rfl

theorem joint_allowed {nts : Nat → Bool} {int d : Dag} (hi : Distinct int) {p t : Nat × Nat}
    {w : List Nat} :
    Joint (allowed nts int d) p w t ↔ Path int p.1 (kinds nts w) t.1 ∧ Path d p.2 w t.2 := by
  constructor
  · intro h
    induction h with
    | nil => exact ⟨.nil _, .nil _⟩
    | @cons p t x u hx _ ih =>
      obtain ⟨⟨w, h1⟩, _, w', h2⟩ := (mem_allowed hi).1 hx
      exact ⟨.cons h2 ih.1, .cons h1 ih.2⟩
  · induction w generalizing p with
    | nil =>
      rintro ⟨h1, h2⟩
      simp only [kinds, List.map_nil] at h1
      rw [path_nil] at h1 h2
      have : p = t := Prod.ext h1 h2
      subst this
      exact .nil _
    | cons a u ih =>
      rintro ⟨h1, h2⟩
      simp only [kinds, List.map_cons] at h1
      obtain ⟨q, w, h3, h4⟩ := path_cons.1 h1
      obtain ⟨r, v, h5, h6⟩ := path_cons.1 h2
      exact .cons (x := ⟨a, 0, (q, r)⟩) ((mem_allowed hi).2 ⟨⟨v, h5⟩, rfl, w, h3⟩)
        (ih (p := (q, r)) ⟨h4, h6⟩)

theorem minimized {d : Dag} (hv : Valid d) :
    ∃ m, d.minimize = some m ∧ Valid m ∧ Sorted m ∧ Distinct m ∧ (∀ i, Initial m i ↔ i = 0) ∧
      ∀ w, Words m w ↔ Words d w := by
  obtain ⟨e, m, L, h1, h2, h3, h4, h5, h6⟩ := minimize_spec hv
  refine ⟨m, h1, h6.valid, h6.sorted, h6.distinct, fun i => h6.initial, fun w => ?_⟩
  rw [h6.words (reverse_valid e), reverse_words h2, h5, List.reverse_reverse]

theorem prune_spec {int d : Dag} (nts : Nat → Bool) (hv : Valid int) (hi : Distinct int)
    (h0 : ∀ i, Initial int i ↔ i = 0) (hd : Valid d) :
    ∃ e, int.prune nts d = some e ∧ Valid e ∧ Sorted e ∧ Distinct e ∧ (∀ i, Initial e i ↔ i = 0) ∧
      ∀ w, Words e w ↔ Words d w ∧ Words int (kinds nts w) := by
  obtain ⟨d1, g1, g2, g3, g4, g5, g6⟩ := minimized hd
  obtain ⟨b, h1, h2, h3, h4, h5, h6, h7⟩ := product_spec (allowed nts int d1)
    (fun p => int.isEnd p.1 && d1.isEnd p.2) int.rows.length d1.rows.length (by
      intro p x hx
      obtain ⟨⟨w, k1⟩, _, w', k2⟩ := (mem_allowed hi).1 hx
      exact ⟨hv.arcs _ _ k2, g2.arcs _ _ k1⟩)
  obtain ⟨m, k1, k2, k3, k4, k5, k6⟩ := minimized h2
  refine ⟨m, by simp [Dag.prune, g1, h1, k1], k2, k3, k4, k5, fun w => ?_⟩
  rw [k6, words_of_initial h4, h5, ← g6, words_of_initial g5, words_of_initial h0]
  simp only [joint_allowed hi, Bool.and_eq_true, isEnd_iff]
  constructor
  · rintro ⟨t, ⟨l1, l2⟩, l3, l4⟩; exact ⟨⟨t.2, l2, l4⟩, t.1, l1, l3⟩
  · rintro ⟨⟨q, l1, l3⟩, r, l2, l4⟩; exact ⟨(r, q), ⟨l2, l1⟩, l4, l3⟩

end Verif.Dag
