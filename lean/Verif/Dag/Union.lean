import Verif.Dag.Lemmas

/-! # The union -/

namespace Verif.Dag

/-- What holds while an automaton is copied: `G` are the arcs copied, `F` the final states and `H` the
initial states copied. -/
structure Joining (d : Dag) (j : Join) (G : Nat → Arc → Prop) (F H : Nat → Prop) : Prop where
  old : d.rows.length ≤ j.dag.rows.length
  range : ∀ p s, j.mapper.lookup p = some s → d.rows.length ≤ s ∧ s < j.dag.rows.length
  inj : ∀ p q s, j.mapper.lookup p = some s → j.mapper.lookup q = some s → p = q
  onto : ∀ s, d.rows.length ≤ s → s < j.dag.rows.length → ∃ p, j.mapper.lookup p = some s
  have_ : ∀ p x, G p x → (∃ s, j.mapper.lookup p = some s) ∧ ∃ t, j.mapper.lookup x.q = some t
  keep : ∀ s, s < d.rows.length → j.dag.row s = d.row s
  arcs : ∀ p s, j.mapper.lookup p = some s → ∀ x, x ∈ j.dag.row s ↔
    ∃ y, G p y ∧ j.mapper.lookup y.q = some x.q ∧ x.a = y.a ∧ x.w = y.w
  haveF : ∀ p, F p → ∃ s, j.mapper.lookup p = some s
  haveH : ∀ p, H p → ∃ s, j.mapper.lookup p = some s
  ends : ∀ s, s ∈ j.dag.ends ↔ s ∈ d.ends ∨ ∃ p, F p ∧ j.mapper.lookup p = some s
  starts : ∀ s, j.dag.starts.testBit s = true ↔
    d.starts.testBit s = true ∨ ∃ p, H p ∧ j.mapper.lookup p = some s
  sorted : Sorted d → Sorted j.dag

section
variable {d : Dag} {j : Join} {G : Nat → Arc → Prop} {F H : Nat → Prop}

theorem Joining.congr (h : Joining d j G F H) {G' : Nat → Arc → Prop} {F' H' : Nat → Prop}
    (hG : ∀ p x, G p x ↔ G' p x) (hF : ∀ p, F p ↔ F' p) (hH : ∀ p, H p ↔ H' p) :
    Joining d j G' F' H' := by
  have e1 : G = G' := by funext p x; exact propext (hG p x)
  have e2 : F = F' := by funext p; exact propext (hF p)
  have e3 : H = H' := by funext p; exact propext (hH p)
  subst e1 e2 e3; exact h

theorem state_cases (j : Join) (p : Nat) (b : Bool) :
    (∃ s, j.mapper.lookup p = some s ∧ j.state p b = (s, j)) ∨
    (j.mapper.lookup p = none ∧ j.state p b = (j.dag.rows.length,
      { dag := j.dag.newState b, mapper := (p, j.dag.rows.length) :: j.mapper })) := by
  unfold Join.state
  cases h : j.mapper.lookup p with
  | none => exact .inr ⟨rfl, rfl⟩
  | some s => exact .inl ⟨s, rfl, rfl⟩

theorem Joining.state (h : Joining d j G F H) (p : Nat) (b : Bool) :
    Joining d (j.state p b).2 G F (fun q => H q ∨ (b = true ∧ q = p ∧ j.mapper.lookup p = none)) ∧
      (j.state p b).2.mapper.lookup p = some (j.state p b).1 ∧
      ∀ q s, j.mapper.lookup q = some s → (j.state p b).2.mapper.lookup q = some s := by
  rcases state_cases j p b with ⟨s, h1, h2⟩ | ⟨h1, h2⟩
  · rw [h2]
    refine ⟨h.congr (fun _ _ => Iff.rfl) (fun _ => Iff.rfl) fun q => ?_, h1, fun _ _ => id⟩
    simp [h1]
  · rw [h2]
    have look : ∀ q, List.lookup q ((p, j.dag.rows.length) :: j.mapper) =
        if q = p then some j.dag.rows.length else j.mapper.lookup q := by
      intro q
      rw [List.lookup_cons]
      by_cases c : q = p
      · subst c; simp
      · simp only [c, if_false]
        rw [show (q == p) = false by simpa using c]
    have keep : ∀ q s, j.mapper.lookup q = some s →
        List.lookup q ((p, j.dag.rows.length) :: j.mapper) = some s := by
      intro q s hq
      rw [look, if_neg, hq]
      rintro rfl
      rw [h1] at hq; cases hq
    have back : ∀ q s, List.lookup q ((p, j.dag.rows.length) :: j.mapper) = some s →
        (q = p ∧ s = j.dag.rows.length) ∨ j.mapper.lookup q = some s := by
      intro q s hq
      rw [look] at hq
      split at hq
      next e => cases hq; exact .inl ⟨e, rfl⟩
      next e => exact .inr hq
    refine ⟨⟨?_, ?_, ?_, ?_, ?_, ?_, ?_, ?_, ?_, ?_, ?_, ?_⟩, by simp [look], keep⟩
    · have := h.old; simp; omega
    · intro q s hq
      have := h.old
      rcases back q s hq with ⟨_, rfl⟩ | hq
      · simpa using this
      · have := h.range q s hq
        simp; omega
    · intro q r s hq hr
      rcases back q s hq with ⟨e1, e2⟩ | hq' <;> rcases back r s hr with ⟨e3, e4⟩ | hr'
      · rw [e1, e3]
      · have := (h.range _ _ hr').2; omega
      · have := (h.range _ _ hq').2; omega
      · exact h.inj q r s hq' hr'
    · intro s h3 h4
      simp only [newState_length] at h4
      rcases Nat.lt_or_ge s j.dag.rows.length with c | c
      · obtain ⟨q, hq⟩ := h.onto s h3 c
        exact ⟨q, keep q s hq⟩
      · have : s = j.dag.rows.length := by omega
        subst this
        exact ⟨p, by simp⟩
    · intro q x hq
      obtain ⟨⟨s, h3⟩, t, h4⟩ := h.have_ q x hq
      exact ⟨⟨s, keep _ _ h3⟩, t, keep _ _ h4⟩
    · intro s hs
      simpa using h.keep s hs
    · intro q s hq x
      simp only [newState_row]
      rcases back q s hq with ⟨rfl, rfl⟩ | hq'
      · rw [row_of_ge (Nat.le_refl _)]
        simp only [List.not_mem_nil, false_iff, not_exists]
        rintro y ⟨h3, _⟩
        obtain ⟨⟨s, h4⟩, _⟩ := h.have_ _ _ h3
        rw [h1] at h4; cases h4
      · rw [h.arcs q s hq']
        constructor
        · rintro ⟨y, h3, h4, h5⟩
          exact ⟨y, h3, keep _ _ h4, h5⟩
        · rintro ⟨y, h3, h4, h5⟩
          refine ⟨y, h3, ?_, h5⟩
          obtain ⟨_, t, ht⟩ := h.have_ _ _ h3
          have := keep _ _ ht
          rw [h4] at this; cases this; exact ht
    · intro q hq
      obtain ⟨s, hs⟩ := h.haveF q hq
      exact ⟨s, keep _ _ hs⟩
    · rintro q (hq | ⟨_, rfl, _⟩)
      · obtain ⟨s, hs⟩ := h.haveH q hq
        exact ⟨s, keep _ _ hs⟩
      · exact ⟨_, by simp [look]; rfl⟩
    · intro s
      simp only [newState_ends]
      rw [h.ends]
      constructor
      · rintro (h3 | ⟨q, h3, h4⟩)
        · exact .inl h3
        · exact .inr ⟨q, h3, keep _ _ h4⟩
      · rintro (h3 | ⟨q, h3, h4⟩)
        · exact .inl h3
        · refine .inr ⟨q, h3, ?_⟩
          obtain ⟨t, ht⟩ := h.haveF q h3
          have := keep _ _ ht
          rw [h4] at this; cases this; exact ht
    · intro s
      simp only [newState_starts, Bool.or_eq_true, Bool.and_eq_true, decide_eq_true_eq]
      rw [h.starts]
      constructor
      · rintro ((h3 | ⟨q, h3, h4⟩) | ⟨rfl, rfl⟩)
        · exact .inl h3
        · exact .inr ⟨q, .inl h3, keep _ _ h4⟩
        · exact .inr ⟨p, .inr ⟨rfl, rfl, h1⟩, by simp⟩
      · rintro (h3 | ⟨q, h3 | ⟨rfl, rfl, _⟩, h4⟩)
        · exact .inl (.inl h3)
        · refine .inl (.inr ⟨q, h3, ?_⟩)
          obtain ⟨t, ht⟩ := h.haveH q h3
          have := keep _ _ ht
          rw [h4] at this; cases this; exact ht
        · refine .inr ⟨rfl, ?_⟩
          simp only [look, if_true, Option.some.injEq] at h4
          exact h4.symm
    · intro hs q
      simpa using h.sorted hs q

theorem Joining.arc (h : Joining d j G F H) {p s : Nat} (x : Arc) (hs : j.mapper.lookup p = some s) :
    Joining d (Join.addArc s j x) (fun q y => G q y ∨ (q = p ∧ y = x)) F H ∧
      ∀ q t, j.mapper.lookup q = some t → (Join.addArc s j x).mapper.lookup q = some t := by
  unfold Join.addArc
  obtain ⟨h1, h2, h3⟩ := h.state x.q false
  generalize j.state x.q false = r at h1 h2 h3
  obtain ⟨t, k⟩ := r
  simp only at h1 h2 h3 ⊢
  replace h1 : Joining d k G F H := h1.congr (fun _ _ => Iff.rfl) (fun _ => Iff.rfl) (by simp)
  have hs' := h3 p s hs
  have hr := h1.range p s hs'
  refine ⟨⟨by simpa using h1.old, by simpa using h1.range, h1.inj, by simpa using h1.onto, ?_, ?_, ?_,
    h1.haveF, h1.haveH, by simpa using h1.ends, by simpa using h1.starts,
    fun hs => newArc_sorted (h1.sorted hs) _ _ _ _⟩, h3⟩
  · rintro q y (h4 | ⟨rfl, rfl⟩)
    · exact h1.have_ q y h4
    · exact ⟨⟨s, hs'⟩, t, h2⟩
  · intro q hq
    rw [newArc_row _ _ _ _ _ _ hr.2, if_neg (by omega)]
    exact h1.keep q hq
  · intro q u hq z
    rw [mem_newArc, h1.arcs q u hq]
    constructor
    · rintro (⟨y, h4, h5⟩ | ⟨rfl, _, rfl⟩)
      · exact ⟨y, .inl h4, h5⟩
      · exact ⟨x, .inr ⟨h1.inj _ _ _ hq hs', rfl⟩, h2, rfl, rfl⟩
    · rintro ⟨y, h4 | ⟨rfl, rfl⟩, h5, h6, h7⟩
      · exact .inl ⟨y, h4, h5, h6, h7⟩
      · rw [hs'] at hq
        simp only at h5
        rw [h2] at h5
        cases hq; cases h5
        exact .inr ⟨rfl, hr.2, by rw [← h6, ← h7]⟩

theorem Joining.arcs_ (h : Joining d j G F H) {p s : Nat} (l : List Arc)
    (hs : j.mapper.lookup p = some s) :
    Joining d (l.foldl (Join.addArc s) j) (fun q y => G q y ∨ (q = p ∧ y ∈ l)) F H := by
  induction l generalizing j G with
  | nil => simpa using h
  | cons x l ih =>
    obtain ⟨h1, h2⟩ := h.arc x hs
    refine (ih h1 (h2 p s hs)).congr (fun q y => ?_) (fun _ => Iff.rfl) (fun _ => Iff.rfl)
    simp only [List.mem_cons]
    constructor
    · rintro ((h | ⟨h, h'⟩) | ⟨h, h'⟩)
      · exact .inl h
      · exact .inr ⟨h, .inl h'⟩
      · exact .inr ⟨h, .inr h'⟩
    · rintro (h | ⟨h, h' | h'⟩)
      · exact .inl (.inl h)
      · exact .inl (.inr ⟨h, h'⟩)
      · exact .inr ⟨h, h'⟩

theorem Joining.final (h : Joining d j G F H) {p s : Nat} (hs : j.mapper.lookup p = some s) :
    Joining d { j with dag := j.dag.setEnd s } G (fun q => F q ∨ q = p) H := by
  refine ⟨by simpa using h.old, by simpa using h.range, h.inj, by simpa using h.onto, h.have_,
    by simpa using h.keep, by simpa using h.arcs, ?_, h.haveH, ?_, by simpa using h.starts,
    fun hs q => by simpa using h.sorted hs q⟩
  · rintro q (h1 | rfl)
    · exact h.haveF q h1
    · exact ⟨s, hs⟩
  · intro t
    simp only [mem_setEnd]
    rw [h.ends]
    constructor
    · rintro ((h1 | ⟨q, h1, h2⟩) | rfl)
      · exact .inl h1
      · exact .inr ⟨q, .inl h1, h2⟩
      · exact .inr ⟨p, .inr rfl, hs⟩
    · rintro (h1 | ⟨q, h1 | rfl, h2⟩)
      · exact .inl (.inl h1)
      · exact .inl (.inr ⟨q, h1, h2⟩)
      · rw [hs] at h2; cases h2; exact .inr rfl

theorem Joining.initial (h : Joining d j G F H) {p s : Nat} (hs : j.mapper.lookup p = some s) :
    Joining d { j with dag := j.dag.setStart s } G F (fun q => H q ∨ q = p) := by
  refine ⟨by simpa using h.old, by simpa using h.range, h.inj, by simpa using h.onto, h.have_,
    by simpa using h.keep, by simpa using h.arcs, h.haveF, ?_, by simpa using h.ends, ?_,
    fun hs q => by simpa using h.sorted hs q⟩
  · rintro q (h1 | rfl)
    · exact h.haveH q h1
    · exact ⟨s, hs⟩
  · intro t
    simp only [setStart_starts, Bool.or_eq_true, decide_eq_true_eq]
    rw [h.starts]
    constructor
    · rintro ((h1 | ⟨q, h1, h2⟩) | rfl)
      · exact .inl h1
      · exact .inr ⟨q, .inl h1, h2⟩
      · exact .inr ⟨p, .inr rfl, hs⟩
    · rintro (h1 | ⟨q, h1 | rfl, h2⟩)
      · exact .inl (.inl h1)
      · exact .inl (.inr ⟨q, h1, h2⟩)
      · rw [hs] at h2; cases h2; exact .inr rfl

end

theorem lookup_addArcs {j : Join} {s p t : Nat} (l : List Arc) (h : j.mapper.lookup p = some t) :
    (l.foldl (Join.addArc s) j).mapper.lookup p = some t := by
  induction l generalizing j with
  | nil => exact h
  | cons x l ih =>
    rw [List.foldl_cons]
    apply ih
    unfold Join.addArc
    rcases state_cases j x.q false with ⟨s', h1, h2⟩ | ⟨h1, h2⟩
    · rw [h2]; exact h
    · rw [h2]
      simp only [List.lookup_cons]
      have : (p == x.q) = false := by
        rw [beq_eq_false_iff_ne]; rintro rfl; rw [h1] at h; cases h
      rw [this]; exact h

theorem joinState_spec {d o : Dag} {j : Join} {G : Nat → Arc → Prop} {F H : Nat → Prop}
    (h : Joining d j G F H) (i : Nat) :
    Joining d (o.joinState j i) (fun p x => G p x ∨ (p = i ∧ x ∈ o.row i))
      (fun p => F p ∨ (p = i ∧ i ∈ o.ends)) (fun p => H p ∨ (p = i ∧ o.starts.testBit i = true)) ∧
      ∃ s, (o.joinState j i).mapper.lookup i = some s := by
  unfold Dag.joinState
  obtain ⟨h1, h2, _⟩ := h.state i (o.starts.testBit i)
  generalize j.state i (o.starts.testBit i) = r at h1 h2
  obtain ⟨s, k⟩ := r
  simp only at h1 h2 ⊢
  have h3 : Joining d (if o.isEnd i = true then { k with dag := k.dag.setEnd s } else k) G
      (fun p => F p ∨ (p = i ∧ i ∈ o.ends))
      (fun q => H q ∨ (o.starts.testBit i = true ∧ q = i ∧ j.mapper.lookup i = none)) := by
    split
    next c =>
      refine (h1.final h2).congr (fun _ _ => Iff.rfl) (fun p => ?_) (fun _ => Iff.rfl)
      simp [isEnd_iff.1 c]
    next c =>
      refine h1.congr (fun _ _ => Iff.rfl) (fun p => ?_) (fun _ => Iff.rfl)
      have c' : i ∉ o.ends := fun h => c (isEnd_iff.2 h)
      simp [c']
  have h4 : (if o.isEnd i = true then { k with dag := k.dag.setEnd s } else k).mapper.lookup i =
      some s := by split <;> exact h2
  generalize (if o.isEnd i = true then ({ k with dag := k.dag.setEnd s } : Join) else k) = k2 at h3 h4
  have h5 : Joining d (if o.starts.testBit i = true then { k2 with dag := k2.dag.setStart s } else k2) G
      (fun p => F p ∨ (p = i ∧ i ∈ o.ends)) (fun p => H p ∨ (p = i ∧ o.starts.testBit i = true)) := by
    split
    next c =>
      refine (h3.initial h4).congr (fun _ _ => Iff.rfl) (fun _ => Iff.rfl) (fun p => ?_)
      simp only [c, true_and, and_true, or_assoc]
      constructor
      · rintro (h | h | h)
        · exact .inl h
        · exact .inr h.1
        · exact .inr h
      · rintro (h | h)
        · exact .inl h
        · exact .inr (.inr h)
    next c =>
      refine h3.congr (fun _ _ => Iff.rfl) (fun _ => Iff.rfl) (fun p => ?_)
      simp [c]
  have h6 : (if o.starts.testBit i = true then { k2 with dag := k2.dag.setStart s }
      else k2).mapper.lookup i = some s := by split <;> exact h4
  generalize (if o.starts.testBit i = true then ({ k2 with dag := k2.dag.setStart s } : Join)
    else k2) = k3 at h5 h6
  exact ⟨h5.arcs_ (o.row i) h6, s, lookup_addArcs _ h6⟩

theorem ndUnion_aux (d o : Dag) (hv : Valid d) (n : Nat) :
    Joining d ((List.range n).foldl o.joinState { dag := d, mapper := [] })
      (fun p x => p < n ∧ x ∈ o.row p) (fun p => p < n ∧ p ∈ o.ends)
      (fun p => p < n ∧ o.starts.testBit p = true) := by
  induction n with
  | zero => exact ⟨by simp, by simp, by simp, fun s h1 h2 => by simp at h2; omega, by simp, by simp,
      by simp, by simp, by simp, by simp, by simp, fun h => h⟩
  | succ n ih =>
    rw [List.range_succ, List.foldl_append, List.foldl_cons, List.foldl_nil]
    refine (joinState_spec (o := o) ih n).1.congr (fun p x => ?_) (fun p => ?_) (fun p => ?_)
    · constructor
      · rintro (⟨h, h'⟩ | ⟨rfl, h⟩)
        · exact ⟨by omega, h'⟩
        · exact ⟨by omega, h⟩
      · rintro ⟨h, h'⟩
        rcases Nat.lt_or_eq_of_le (Nat.lt_succ_iff.1 h) with c | c
        · exact .inl ⟨c, h'⟩
        · exact .inr ⟨c, c ▸ h'⟩
    · constructor
      · rintro (⟨h, h'⟩ | ⟨rfl, h⟩)
        · exact ⟨by omega, h'⟩
        · exact ⟨by omega, h⟩
      · rintro ⟨h, h'⟩
        rcases Nat.lt_or_eq_of_le (Nat.lt_succ_iff.1 h) with c | c
        · exact .inl ⟨c, h'⟩
        · exact .inr ⟨c, c ▸ h'⟩
    · constructor
      · rintro (⟨h, h'⟩ | ⟨rfl, h⟩)
        · exact ⟨by omega, h'⟩
        · exact ⟨by omega, h⟩
      · rintro ⟨h, h'⟩
        rcases Nat.lt_or_eq_of_le (Nat.lt_succ_iff.1 h) with c | c
        · exact .inl ⟨c, h'⟩
        · exact .inr ⟨c, c ▸ h'⟩

theorem ndUnion_spec {d o : Dag} (hv : Valid d) (ho : Valid o) :
    Valid (d.ndUnion o) ∧ (Sorted d → Sorted (d.ndUnion o)) ∧
      ∀ w, Words (d.ndUnion o) w ↔ Words d w ∨ Words o w := by
  have h := ndUnion_aux d o hv o.rows.length
  have hlook : ∀ p, p < o.rows.length → ∃ s, ((List.range o.rows.length).foldl o.joinState
      { dag := d, mapper := [] }).mapper.lookup p = some s := by
    have : ∀ n, ∀ p, p < n → ∃ s, ((List.range n).foldl o.joinState
      { dag := d, mapper := [] }).mapper.lookup p = some s := by
      intro n
      induction n with
      | zero => simp
      | succ n ih =>
        intro p hp
        rw [List.range_succ, List.foldl_append, List.foldl_cons, List.foldl_nil]
        have hj := ndUnion_aux d o hv n
        rcases Nat.lt_or_eq_of_le (Nat.lt_succ_iff.1 hp) with c | c
        · obtain ⟨s, hs⟩ := ih p c
          refine ⟨s, ?_⟩
          generalize List.foldl _ _ (List.range n) = j at hs
          unfold Dag.joinState
          apply lookup_addArcs
          rcases state_cases j n (o.starts.testBit n) with ⟨s', h1, h2⟩ | ⟨h1, h2⟩
          · rw [h2]
            split <;> split <;> exact hs
          · rw [h2]
            have : (p == n) = false := by
              rw [beq_eq_false_iff_ne]; omega
            split <;> split <;> simp only [List.lookup_cons, this] <;> exact hs
        · subst c
          exact (joinState_spec (o := o) hj p).2
    exact this _
  have hdag : d.ndUnion o = ((List.range o.rows.length).foldl o.joinState
      { dag := d, mapper := [] }).dag := rfl
  rw [hdag]
  generalize (List.range o.rows.length).foldl o.joinState { dag := d, mapper := [] } = j at h hlook
  have smallD : ∀ s, d.starts.testBit s = true → s < d.rows.length := by
    intro s hs
    by_contra c
    have := Nat.testBit_lt_two_pow (Nat.lt_of_lt_of_le hv.starts (Nat.pow_le_pow_right (by omega)
      (show d.rows.length ≤ s by omega)))
    rw [this] at hs; cases hs
  have valid : Valid j.dag := by
    refine ⟨?_, ?_, ?_⟩
    · intro s x hx
      have hlt := lt_of_mem_row hx
      rcases Nat.lt_or_ge s d.rows.length with c | c
      · rw [h.keep s c] at hx
        have := hv.arcs _ _ hx
        have := h.old
        omega
      · obtain ⟨p, hp⟩ := h.onto s c hlt
        obtain ⟨y, _, h2, _⟩ := (h.arcs p s hp x).1 hx
        exact (h.range _ _ h2).2
    · intro s hs
      rcases (h.ends s).1 hs with h1 | ⟨p, _, hp⟩
      · have := hv.ends s h1
        have := h.old
        omega
      · exact (h.range _ _ hp).2
    · apply Nat.lt_pow_two_of_testBit
      intro i hi
      cases c : j.dag.starts.testBit i with
      | false => rfl
      | true =>
        rcases (h.starts i).1 c with h1 | ⟨p, _, hp⟩
        · have := smallD i h1
          have := h.old
          omega
        · have := (h.range _ _ hp).2
          omega
  refine ⟨valid, h.sorted, fun w => ?_⟩
  have pathD : ∀ {p q w}, p < d.rows.length → (Path j.dag p w q ↔ Path d p w q) := by
    intro p q w hp
    induction w generalizing p with
    | nil => simp [path_nil]
    | cons a w ih =>
      simp only [path_cons, h.keep p hp]
      constructor
      · rintro ⟨r, u, h1, h2⟩; exact ⟨r, u, h1, (ih (hv.arcs _ _ h1)).1 h2⟩
      · rintro ⟨r, u, h1, h2⟩; exact ⟨r, u, h1, (ih (hv.arcs _ _ h1)).2 h2⟩
  have pathO : ∀ {p s t w}, j.mapper.lookup p = some s →
      (Path j.dag s w t ↔ ∃ q, j.mapper.lookup q = some t ∧ Path o p w q) := by
    intro p s t w hp
    induction w generalizing p s with
    | nil =>
      simp only [path_nil]
      constructor
      · rintro rfl; exact ⟨p, hp, rfl⟩
      · rintro ⟨q, h1, rfl⟩; rw [hp] at h1; cases h1; rfl
    | cons a w ih =>
      simp only [path_cons]
      constructor
      · rintro ⟨r, u, h1, h2⟩
        obtain ⟨y, ⟨_, h3⟩, h4, h5, h6⟩ := (h.arcs p s hp _).1 h1
        obtain ⟨q, h7, h8⟩ := (ih h4).1 h2
        simp only at h5
        exact ⟨q, h7, y.q, y.w, h5 ▸ h3, h8⟩
      · rintro ⟨q, h7, r, u, h3, h8⟩
        obtain ⟨t', ht'⟩ := hlook r (ho.arcs _ _ h3)
        exact ⟨t', u, (h.arcs p s hp _).2 ⟨⟨a, r, u⟩, ⟨lt_of_mem_row h3, h3⟩, ht', rfl, rfl⟩,
          (ih ht').2 ⟨q, h7, h8⟩⟩
  constructor
  · rintro ⟨p, ⟨_, hp⟩, q, hw, hq⟩
    rcases (h.starts p).1 hp with h1 | ⟨p', h1, h2⟩
    · left
      have hl := smallD p h1
      have hw' := (pathD hl).1 hw
      refine ⟨p, ⟨hl, h1⟩, q, hw', ?_⟩
      rcases (h.ends q).1 hq with h3 | ⟨q', _, h4⟩
      · exact h3
      · have := (h.range _ _ h4).1
        have := hw'.lt hv hl
        omega
    · right
      obtain ⟨q', h3, h4⟩ := (pathO h2).1 hw
      refine ⟨p', ⟨h1.1, h1.2⟩, q', h4, ?_⟩
      rcases (h.ends q).1 hq with h5 | ⟨q2, h5, h6⟩
      · have := (h.range _ _ h3).1
        have := hv.ends _ h5
        omega
      · rw [h.inj _ _ _ h3 h6]; exact h5.2
  · rintro (⟨p, ⟨hp, hp'⟩, q, hw, hq⟩ | ⟨p, ⟨hp, hp'⟩, q, hw, hq⟩)
    · exact ⟨p, ⟨Nat.lt_of_lt_of_le hp h.old, (h.starts p).2 (.inl hp')⟩, q, (pathD hp).2 hw,
        (h.ends q).2 (.inl hq)⟩
    · obtain ⟨s, hs⟩ := hlook p hp
      have hql := hw.lt ho hp
      obtain ⟨t, ht⟩ := hlook q hql
      exact ⟨s, ⟨(h.range _ _ hs).2, (h.starts s).2 (.inr ⟨p, ⟨hp, hp'⟩, hs⟩)⟩, t,
        (pathO hs).2 ⟨q, ht, hw⟩, (h.ends t).2 (.inr ⟨q, ⟨hql, hq⟩, ht⟩)⟩

end Verif.Dag
