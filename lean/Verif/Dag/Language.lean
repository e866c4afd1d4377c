import Verif.Dag.Determinize

/-! # The words of the automata -/

namespace Verif.Dag

/-! ## Determinization -/

section
variable {d e : Dag} {L : List Nat}

theorem Powerset.run (h : Powerset d e L) {i j S : Nat} {w : List Nat} (hi : L[i]? = some S)
    (hp : Path e i w j) :
    ∃ T, L[j]? = some T ∧ ∀ q, T.testBit q = true ↔ ∃ s, S.testBit s = true ∧ Path d s w q := by
  induction w generalizing i S with
  | nil =>
    rw [path_nil] at hp; subst hp
    exact ⟨S, hi, fun q => by simp [path_nil]⟩
  | cons a w ih =>
    obtain ⟨k, u, h1, h2⟩ := path_cons.1 hp
    obtain ⟨S', U, g1, g2, g3, _⟩ := (h.arcs _ _).1 h1
    rw [hi] at g1; cases g1
    obtain ⟨T, f1, f2⟩ := ih g2 h2
    refine ⟨T, f1, fun q => ?_⟩
    rw [f2]
    simp only at g3
    constructor
    · rintro ⟨s, hs, hq⟩
      obtain ⟨r, hr, v, ha⟩ := (narcs_bit g3 s).1 hs
      exact ⟨r, hr, .cons ha hq⟩
    · rintro ⟨s, hs, hq⟩
      obtain ⟨r, v, ha, hr⟩ := path_cons.1 hq
      exact ⟨r, (narcs_bit g3 r).2 ⟨s, hs, v, ha⟩, hr⟩

theorem Powerset.run' (h : Powerset d e L) {i S s q : Nat} {w : List Nat} (hi : L[i]? = some S)
    (hs : S.testBit s = true) (hp : Path d s w q) : ∃ j, Path e i w j := by
  induction w generalizing i S s with
  | nil => exact ⟨i, .nil i⟩
  | cons a w ih =>
    obtain ⟨k, u, h1, h2⟩ := path_cons.1 hp
    obtain ⟨T, hT, hk⟩ := narcs_of_after ⟨s, hs, u, h1⟩
    have hm := h.closed S (List.mem_of_getElem? hi) a T hT
    obtain ⟨m, hm⟩ := List.mem_iff_getElem?.1 hm
    obtain ⟨j, hj⟩ := ih hm hk h2
    exact ⟨j, .cons ((h.arcs i ⟨a, m, 0⟩).2 ⟨S, T, hi, hm, hT, rfl⟩) hj⟩

theorem Powerset.accepts (h : Powerset d e L) {i S : Nat} {w : List Nat} (hi : L[i]? = some S) :
    Accepts e i w ↔ ∃ s, S.testBit s = true ∧ Accepts d s w := by
  constructor
  · rintro ⟨j, hp, hj⟩
    obtain ⟨T, h1, h2⟩ := h.run hi hp
    obtain ⟨T', g1, q, g2, g3⟩ := (h.ends j).1 hj
    rw [h1] at g1; cases g1
    obtain ⟨s, hs, hq⟩ := (h2 q).1 g2
    exact ⟨s, hs, q, hq, g3⟩
  · rintro ⟨s, hs, q, hp, hq⟩
    obtain ⟨j, hj⟩ := h.run' hi hs hp
    obtain ⟨T, h1, h2⟩ := h.run hi hj
    exact ⟨j, hj, (h.ends j).2 ⟨T, h1, q, (h2 q).2 ⟨s, hs, hp⟩, hq⟩⟩

theorem Powerset.initial (h : Powerset d e L) {p : Nat} : Initial e p ↔ p = 0 := by
  unfold Initial
  rw [h.starts, ← h.length]
  have := (List.getElem?_eq_some_iff.1 h.first).1
  constructor
  · rintro ⟨_, h⟩
    rw [show (1 : Nat) = 2 ^ 0 from rfl, Nat.testBit_two_pow] at h
    exact (of_decide_eq_true h).symm
  · rintro rfl
    exact ⟨this, rfl⟩

theorem Powerset.words (h : Powerset d e L) (hv : Valid d) (w : List Nat) :
    Words e w ↔ Words d w := by
  unfold Words
  constructor
  · rintro ⟨p, hp, ha⟩
    rw [h.initial] at hp; subst hp
    obtain ⟨s, h1, h2⟩ := (h.accepts h.first).1 ha
    refine ⟨s, ⟨?_, h1⟩, h2⟩
    by_contra c
    have := Nat.testBit_lt_two_pow (Nat.lt_of_lt_of_le hv.starts (Nat.pow_le_pow_right (by omega)
      (show d.rows.length ≤ s by omega)))
    rw [this] at h1
    simp at h1
  · rintro ⟨p, hp, ha⟩
    exact ⟨0, h.initial.2 rfl, (h.accepts h.first).2 ⟨p, hp.2, ha⟩⟩

theorem Powerset.valid (h : Powerset d e L) : Valid e := by
  refine ⟨?_, ?_, ?_⟩
  · intro p x hx
    obtain ⟨S, T, _, h2, _⟩ := (h.arcs p x).1 hx
    rw [← h.length]
    exact (List.getElem?_eq_some_iff.1 h2).1
  · intro p hp
    obtain ⟨S, h1, _⟩ := (h.ends p).1 hp
    rw [← h.length]
    exact (List.getElem?_eq_some_iff.1 h1).1
  · rw [h.starts, ← h.length]
    have := (List.getElem?_eq_some_iff.1 h.first).1
    exact Nat.one_lt_two_pow (by omega)

theorem Powerset.deterministic (h : Powerset d e L) : Deterministic e :=
  ⟨h.distinct, 0, h.initial.2 rfl, fun _ hq => h.initial.1 hq⟩

theorem Powerset.accessible (h : Powerset d e L) : Accessible e := by
  have key : ∀ S, Reached d S → ∃ i w, L[i]? = some S ∧ Path e 0 w i := by
    intro S hS
    induction hS with
    | start => exact ⟨0, [], h.first, .nil 0⟩
    | @step S a T hS hT ih =>
      obtain ⟨i, w, h1, h2⟩ := ih
      obtain ⟨j, hj⟩ := List.mem_iff_getElem?.1 (h.closed S (List.mem_of_getElem? h1) a T hT)
      exact ⟨j, w ++ [a], hj, path_snoc.2 ⟨i, 0, h2, (h.arcs i ⟨a, j, 0⟩).2 ⟨S, T, h1, hj, hT, rfl⟩⟩⟩
  intro p hp
  rw [← h.length] at hp
  obtain ⟨i, w, h1, h2⟩ := key L[p] (h.reached _ (List.getElem_mem hp))
  have : i = p := by
    obtain ⟨hi, e1⟩ := List.getElem?_eq_some_iff.1 h1
    exact (List.Nodup.getElem_inj_iff h.nodup).1 e1
  subst this
  exact ⟨0, w, h.initial.2 rfl, h2⟩

end

/-! ## Reversing -/

theorem reverse_valid (d : Dag) : Valid d.reverse := by
  obtain ⟨h1, _, h3, h4, h5⟩ := reverse_spec d
  refine ⟨?_, ?_, ?_⟩
  · intro p x hx
    rw [h1]
    exact lt_of_mem_row ((h5 p x).1 hx).2
  · intro p hp
    rw [h1]
    exact ((h3 p).1 hp).1
  · rw [h1]
    exact lt_two_pow fun q hq => ((h4 q).1 hq).1

theorem reverse_path {d : Dag} (hv : Valid d) {p q : Nat} {w : List Nat} :
    Path d.reverse p w q ↔ Path d q w.reverse p := by
  obtain ⟨_, _, _, _, h5⟩ := reverse_spec d
  induction w generalizing p with
  | nil => simp [path_nil, eq_comm]
  | cons a w ih =>
    rw [List.reverse_cons, path_cons, path_snoc]
    constructor
    · rintro ⟨r, u, h1, h2⟩
      exact ⟨r, u, ih.1 h2, ((h5 _ _).1 h1).2⟩
    · rintro ⟨r, u, h1, h2⟩
      exact ⟨r, u, (h5 _ _).2 ⟨hv.arcs _ _ h2, h2⟩, ih.2 h1⟩

theorem reverse_words {d : Dag} (hv : Valid d) (w : List Nat) :
    Words d.reverse w ↔ Words d w.reverse := by
  obtain ⟨h1, _, h3, h4, _⟩ := reverse_spec d
  unfold Words Accepts Initial
  rw [h1]
  constructor
  · rintro ⟨p, ⟨_, hp⟩, q, hq, he⟩
    exact ⟨q, (h3 q).1 he, p, (reverse_path hv).1 hq, ((h4 p).1 hp).2⟩
  · rintro ⟨p, hp, q, hq, he⟩
    have hl := hv.ends q he
    exact ⟨q, ⟨hl, (h4 q).2 ⟨hl, he⟩⟩, p, (reverse_path hv).2 hq, (h3 p).2 hp⟩

/-! ## Minimization -/

/-- The automaton made deterministic from the reversed one of a deterministic automaton all of whose
states can be reached has no two equivalent states. -/
theorem brzozowski {d e : Dag} {L : List Nat} (hv : Valid d) (hd : Deterministic d)
    (hr : Accessible d) (h : Powerset d.reverse e L) {i j S T : Nat} (hi : L[i]? = some S)
    (hj : L[j]? = some T) (he : ∀ w, Accepts e i w ↔ Accepts e j w) : S = T := by
  obtain ⟨hlen, _, h3, h4, _⟩ := reverse_spec d
  have small : ∀ {S}, S ∈ L → ∀ p, S.testBit p = true → p < d.rows.length := by
    intro S hS p hp
    have hR := h.reached S hS
    cases hR with
    | start => exact ((h4 p).1 hp).1
    | step _ hn =>
      obtain ⟨s, _, w, hw⟩ := (narcs_bit hn p).1 hp
      rw [← hlen]
      exact (reverse_valid d).arcs _ _ hw
  have half : ∀ {i j S T : Nat}, L[i]? = some S → L[j]? = some T →
      (∀ w, Accepts e i w → Accepts e j w) → ∀ p, S.testBit p = true → T.testBit p = true := by
    intro i j S T hi hj he p hp
    obtain ⟨s, w, hs, hw⟩ := hr p (small (List.mem_of_getElem? hi) p hp)
    have ha : Accepts e i w.reverse :=
      (h.accepts hi).2 ⟨p, hp, s, (reverse_path hv).2 (by simpa using hw), (h3 s).2 hs⟩
    obtain ⟨q, hq, s', hs', he'⟩ := (h.accepts hj).1 (he _ ha)
    have hs'' := (h3 s').1 he'
    have hpath := (reverse_path hv).1 hs'
    rw [List.reverse_reverse] at hpath
    obtain ⟨s0, _, hu⟩ := hd.start
    rw [hu s' hs'', ← hu s hs] at hpath
    rwa [path_unique hd.arcs hw hpath]
  apply Nat.eq_of_testBit_eq
  intro p
  have h1 := half hi hj (fun w => (he w).1) p
  have h2 := half hj hi (fun w => (he w).2) p
  cases c1 : S.testBit p <;> cases c2 : T.testBit p <;> simp_all

theorem minimize_spec {d : Dag} (hv : Valid d) :
    ∃ e m L, d.minimize = some m ∧ Valid e ∧ Deterministic e ∧ Accessible e ∧
      (∀ w, Words e w ↔ Words d w.reverse) ∧ Powerset e.reverse m L := by
  obtain ⟨e, L1, h1, h2⟩ := determinize_spec (reverse_valid d)
  obtain ⟨m, L, h3, h4⟩ := determinize_spec (reverse_valid e)
  refine ⟨e, m, L, by simp [Dag.minimize, h1, h3], h2.valid, h2.deterministic, h2.accessible, ?_, h4⟩
  intro w
  rw [h2.words (reverse_valid d), reverse_words hv]

/-- A deterministic automaton all of whose states can be reached, lead to a final state and are not
equivalent has no more states than any other deterministic one with these words. -/
theorem fewest {m o : Dag} (hd : Deterministic m) (hr : Accessible m)
    (hu : ∀ p, p < m.rows.length → ∃ w, Accepts m p w)
    (hne : ∀ p q, p < m.rows.length → q < m.rows.length → (∀ w, Accepts m p w ↔ Accepts m q w) → p = q)
    (hvo : Valid o) (hdo : Deterministic o) (hw : ∀ w, Words o w ↔ Words m w) :
    m.rows.length ≤ o.rows.length := by
  obtain ⟨sm, hsm, hsm'⟩ := hd.start
  obtain ⟨so, hso, hso'⟩ := hdo.start
  have key : ∀ p, p < m.rows.length → ∃ q, q < o.rows.length ∧ ∃ u, Path m sm u p ∧ Path o so u q := by
    intro p hp
    obtain ⟨s, u, hs, hu'⟩ := hr p hp
    rw [hsm' s hs] at hu'
    obtain ⟨v, f, hf, hfe⟩ := hu p hp
    obtain ⟨s2, hs2, g, hg, hge⟩ := (hw (u ++ v)).2 ⟨sm, hsm, f, hu'.append hf, hfe⟩
    rw [hso' s2 hs2] at hg
    obtain ⟨q, hq, _⟩ := hg.split
    exact ⟨q, hq.lt hvo hso.1, u, hu', hq⟩
  have acc : ∀ p q u, Path m sm u p → Path o so u q → ∀ w, Accepts m p w ↔ Accepts o q w := by
    intro p q u hp hq w
    constructor
    · rintro ⟨f, hf, hfe⟩
      obtain ⟨s2, hs2, g, hg, hge⟩ := (hw (u ++ w)).2 ⟨sm, hsm, f, hp.append hf, hfe⟩
      rw [hso' s2 hs2] at hg
      obtain ⟨q', hq', hg'⟩ := hg.split
      rw [path_unique hdo.arcs hq' hq] at hg'
      exact ⟨g, hg', hge⟩
    · rintro ⟨f, hf, hfe⟩
      obtain ⟨s2, hs2, g, hg, hge⟩ := (hw (u ++ w)).1 ⟨so, hso, f, hq.append hf, hfe⟩
      rw [hsm' s2 hs2] at hg
      obtain ⟨q', hq', hg'⟩ := hg.split
      rw [path_unique hd.arcs hq' hp] at hg'
      exact ⟨g, hg', hge⟩
  classical
  let f : Nat → Nat := fun p => if h : p < m.rows.length then (key p h).choose else 0
  have hf : ∀ p, p < m.rows.length → f p < o.rows.length ∧ ∃ u, Path m sm u p ∧ Path o so u (f p) := by
    intro p hp
    simp only [f, hp, dite_true]
    exact (key p hp).choose_spec
  have nd : ((List.range m.rows.length).map f).Nodup := by
    refine List.Nodup.map_on ?_ List.nodup_range
    intro p hp q hq hpq
    rw [List.mem_range] at hp hq
    obtain ⟨_, u, h1, h2⟩ := hf p hp
    obtain ⟨_, v, h3, h4⟩ := hf q hq
    rw [hpq] at h2
    exact hne p q hp hq fun w => (acc _ _ _ h1 h2 w).trans (acc _ _ _ h3 h4 w).symm
  have := nodup_bound nd (N := o.rows.length) (by
    intro x hx
    obtain ⟨p, hp, rfl⟩ := List.mem_map.1 hx
    exact (hf p (List.mem_range.1 hp)).1)
  simpa using this

theorem minimize_useful {e m : Dag} {L : List Nat} (hv : Valid e) (hr : Accessible e)
    (h : Powerset e.reverse m L) {p : Nat} (hp : p < m.rows.length) :
    (∃ w, Accepts m p w) ∨ (m.rows.length = 1 ∧ m.row 0 = [] ∧ ∀ w, ¬ Words m w) := by
  obtain ⟨hlen, _, h3, h4, h5⟩ := reverse_spec e
  have nonempty : ∀ {i S q}, L[i]? = some S → S.testBit q = true → ∃ w, Accepts m i w := by
    intro i S q hi hq
    have hlt : q < e.rows.length := by
      have hR := h.reached S (List.mem_of_getElem? hi)
      cases hR with
      | start => exact ((h4 q).1 hq).1
      | step _ hn =>
        obtain ⟨s, _, w, hw⟩ := (narcs_bit hn q).1 hq
        rw [← hlen]
        exact (reverse_valid e).arcs _ _ hw
    obtain ⟨s, w, hs, hw⟩ := hr q hlt
    exact ⟨w.reverse, (h.accepts hi).2 ⟨q, hq, s, (reverse_path hv).2 (by simpa using hw), (h3 s).2 hs⟩⟩
  have hp' : p < L.length := by rw [h.length]; exact hp
  have hi : L[p]? = some L[p] := List.getElem?_eq_getElem hp'
  by_cases c : L[p] = 0
  · right
    have hst : e.reverse.starts = 0 := by
      have hR := h.reached _ (List.getElem_mem hp')
      rw [c] at hR
      generalize hz : (0 : Nat) = z at hR
      cases hR with
      | start => rfl
      | step _ hn => exact absurd hz.symm ((narcs_spec _ _).nonzero _ hn)
    have all : ∀ S, Reached e.reverse S → S = 0 := by
      intro S hS
      induction hS with
      | start => exact hst
      | step _ hn ih =>
        subst ih
        have := (narcs_spec e.reverse 0).nonzero _ hn
        simp only at this
        obtain ⟨q, hq⟩ := Nat.exists_testBit_of_ne_zero this
        obtain ⟨s, hs, _⟩ := (narcs_bit hn q).1 hq
        simp at hs
    constructor
    · have h1 := (List.getElem?_eq_some_iff.1 h.first).1
      rw [← h.length]
      by_contra c'
      have h2 : 1 < L.length := by omega
      have e1 := all _ (h.reached _ (List.getElem_mem h1))
      have e2 := all _ (h.reached _ (List.getElem_mem h2))
      have := (List.Nodup.getElem_inj_iff h.nodup (hi := h1) (hj := h2)).1 (e1.trans e2.symm)
      omega
    constructor
    · rw [List.eq_nil_iff_forall_not_mem]
      intro x hx
      obtain ⟨S, T, g1, g2, g3, _⟩ := (h.arcs 0 x).1 hx
      exact (narcs_spec _ _).nonzero _ g3 (all T (h.reached T (List.mem_of_getElem? g2)))
    · rintro w ⟨q, hq, ha⟩
      rw [h.initial] at hq; subst hq
      obtain ⟨s, hs, _⟩ := (h.accepts h.first).1 ha
      rw [hst] at hs
      simp at hs
  · left
    obtain ⟨q, hq⟩ := Nat.exists_testBit_of_ne_zero c
    exact nonempty hi hq

/-- The states of two automata with the same words correspond to each other. -/
theorem correspond {m o : Dag} (hd : Deterministic m) (hr : Accessible m)
    (hu : ∀ p, p < m.rows.length → ∃ w, Accepts m p w)
    (hne : ∀ p q, p < m.rows.length → q < m.rows.length → (∀ w, Accepts m p w ↔ Accepts m q w) → p = q)
    (hvm : Valid m) (hvo : Valid o) (hdo : Deterministic o) (hro : Accessible o)
    (huo : ∀ p, p < o.rows.length → ∃ w, Accepts o p w)
    (hneo : ∀ p q, p < o.rows.length → q < o.rows.length → (∀ w, Accepts o p w ↔ Accepts o q w) → p = q)
    (hw : ∀ w, Words o w ↔ Words m w) :
    ∃ f : Nat → Nat, (∀ p, p < m.rows.length → f p < o.rows.length) ∧
      (∀ p q, p < m.rows.length → q < m.rows.length → f p = f q → p = q) ∧
      (∀ q, q < o.rows.length → ∃ p, p < m.rows.length ∧ f p = q) ∧
      (∀ p, p < m.rows.length → (Initial m p ↔ Initial o (f p))) ∧
      (∀ p, p < m.rows.length → (p ∈ m.ends ↔ f p ∈ o.ends)) ∧
      ∀ p q a, p < m.rows.length → q < m.rows.length →
        ((∃ w, (⟨a, q, w⟩ : Arc) ∈ m.row p) ↔ ∃ w, (⟨a, f q, w⟩ : Arc) ∈ o.row (f p)) := by
  obtain ⟨sm, hsm, hsm'⟩ := hd.start
  obtain ⟨so, hso, hso'⟩ := hdo.start
  have go : ∀ {m o : Dag} {sm so : Nat}, Deterministic m → Deterministic o → Accessible m →
      (∀ p, p < m.rows.length → ∃ w, Accepts m p w) → Valid o → Initial m sm → Initial o so →
      (∀ q, Initial m q → q = sm) → (∀ q, Initial o q → q = so) → (∀ w, Words o w ↔ Words m w) →
      ∀ p u, p < m.rows.length → Path m sm u p → ∃ q, q < o.rows.length ∧ Path o so u q := by
    intro m o sm so _ _ _ hu hvo hsm hso hsm' hso' hw p u hp hpu
    obtain ⟨v, f, hf, hfe⟩ := hu p hp
    obtain ⟨s2, hs2, g, hg, hge⟩ := (hw (u ++ v)).2 ⟨sm, hsm, f, hpu.append hf, hfe⟩
    rw [hso' s2 hs2] at hg
    obtain ⟨q, hq, _⟩ := hg.split
    exact ⟨q, hq.lt hvo hso.1, hq⟩
  have goM := go hd hdo hr hu hvo hsm hso hsm' hso' hw
  have goO := go hdo hd hro huo hvm hso hsm hso' hsm' (fun w => (hw w).symm)
  have acc : ∀ p q u, Path m sm u p → Path o so u q → ∀ w, Accepts m p w ↔ Accepts o q w := by
    intro p q u hp hq w
    constructor
    · rintro ⟨f, hf, hfe⟩
      obtain ⟨s2, hs2, g, hg, hge⟩ := (hw (u ++ w)).2 ⟨sm, hsm, f, hp.append hf, hfe⟩
      rw [hso' s2 hs2] at hg
      obtain ⟨q', hq', hg'⟩ := hg.split
      rw [path_unique hdo.arcs hq' hq] at hg'
      exact ⟨g, hg', hge⟩
    · rintro ⟨f, hf, hfe⟩
      obtain ⟨s2, hs2, g, hg, hge⟩ := (hw (u ++ w)).1 ⟨so, hso, f, hq.append hf, hfe⟩
      rw [hsm' s2 hs2] at hg
      obtain ⟨q', hq', hg'⟩ := hg.split
      rw [path_unique hd.arcs hq' hp] at hg'
      exact ⟨g, hg', hge⟩
  have key : ∀ p, p < m.rows.length → ∃ q, q < o.rows.length ∧ ∃ u, Path m sm u p ∧ Path o so u q := by
    intro p hp
    obtain ⟨s, u, hs, hu'⟩ := hr p hp
    rw [hsm' s hs] at hu'
    obtain ⟨q, hq, hq'⟩ := goM p u hp hu'
    exact ⟨q, hq, u, hu', hq'⟩
  classical
  let f : Nat → Nat := fun p => if h : p < m.rows.length then (key p h).choose else 0
  have hf : ∀ p, p < m.rows.length → f p < o.rows.length ∧ ∃ u, Path m sm u p ∧ Path o so u (f p) := by
    intro p hp
    simp only [f, hp, dite_true]
    exact (key p hp).choose_spec
  have same : ∀ p q u, p < m.rows.length → q < o.rows.length → Path m sm u p → Path o so u q →
      f p = q := by
    intro p q u hp hq h1 h2
    obtain ⟨h3, v, h4, h5⟩ := hf p hp
    exact hneo _ _ h3 hq fun w => (acc _ _ _ h4 h5 w).symm.trans (acc _ _ _ h1 h2 w)
  have inj : ∀ p q, p < m.rows.length → q < m.rows.length → f p = f q → p = q := by
    intro p q hp hq e
    obtain ⟨_, u, h1, h2⟩ := hf p hp
    obtain ⟨_, v, h3, h4⟩ := hf q hq
    rw [e] at h2
    exact hne p q hp hq fun w => (acc _ _ _ h1 h2 w).trans (acc _ _ _ h3 h4 w).symm
  have fs : f sm = so := same sm so [] hsm.1 hso.1 (.nil _) (.nil _)
  refine ⟨f, fun p hp => (hf p hp).1, inj, ?_, ?_, ?_, ?_⟩
  · intro q hq
    obtain ⟨s, u, hs, hu'⟩ := hro q hq
    rw [hso' s hs] at hu'
    obtain ⟨p, hp, hp'⟩ := goO q u hq hu'
    exact ⟨p, hp, same p q u hp hq hp' hu'⟩
  · intro p hp
    constructor
    · intro h; rw [hsm' p h, fs]; exact hso
    · intro h
      have := hso' _ h
      rw [← fs] at this
      rw [inj p sm hp hsm.1 this]; exact hsm
  · intro p hp
    obtain ⟨_, u, h1, h2⟩ := hf p hp
    have e := acc _ _ _ h1 h2 []
    constructor
    · intro h
      obtain ⟨g, hg, hge⟩ := e.1 ⟨p, .nil p, h⟩
      rw [path_nil] at hg; subst hg; exact hge
    · intro h
      obtain ⟨g, hg, hge⟩ := e.2 ⟨f p, .nil _, h⟩
      rw [path_nil] at hg; subst hg; exact hge
  · intro p q a hp hq
    obtain ⟨_, u, h1, h2⟩ := hf p hp
    constructor
    · rintro ⟨w, hw'⟩
      have h3 : Path m sm (u ++ [a]) q := path_snoc.2 ⟨p, w, h1, hw'⟩
      obtain ⟨r, hr', h4⟩ := goM q _ hq h3
      obtain ⟨r', w', h5, h6⟩ := path_snoc.1 h4
      rw [path_unique hdo.arcs h5 h2] at h6
      rw [same q r _ hq hr' h3 h4]
      exact ⟨w', h6⟩
    · rintro ⟨w, hw'⟩
      have h3 : Path o so (u ++ [a]) (f q) := path_snoc.2 ⟨f p, w, h2, hw'⟩
      obtain ⟨r, hr', h4⟩ := goO (f q) _ (hf q hq).1 h3
      obtain ⟨r', w', h5, h6⟩ := path_snoc.1 h4
      rw [path_unique hd.arcs h5 h1] at h6
      have := same r (f q) _ hr' (hf q hq).1 h4 h3
      rw [← inj r q hr' hq this]
      exact ⟨w', h6⟩

end Verif.Dag
