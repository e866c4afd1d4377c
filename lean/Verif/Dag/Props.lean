import Verif.Dag.Language
import Verif.Dag.Union

/-! # What the automata of the rules do -/

namespace Verif.Dag

/-! ## Examples -/

/-- `0 -1-> 1`, `0 -1-> 2`, `1 -2-> 3`, `2 -3-> 3`, `0 -4-> 3`; from `0` to `3`. -/
def exDag : Dag :=
  (((((((((({} : Dag).newState true).newState false).newState false).newState false).newArc 0 1 1 0).newArc
    0 2 1 0).newArc 1 3 2 0).newArc 2 3 3 0).newArc 0 3 4 0).setEnd 3

/-- A deterministic automaton whose states 1 and 2 are equivalent. -/
def exDet : Dag :=
  { rows := [[⟨1, 1, 0⟩, ⟨2, 2, 0⟩], [⟨3, 3, 0⟩], [⟨3, 3, 0⟩], []], ends := [3], starts := 1 }

theorem exDag_valid : Valid exDag := by
  refine ⟨?_, by decide, by decide⟩
  intro p x hx
  have := lt_of_mem_row hx
  have : p < 4 := this
  revert x
  revert p
  decide

theorem exDet_valid : Valid exDet := by
  refine ⟨?_, by decide, by decide⟩
  intro p x hx
  have := lt_of_mem_row hx
  have : p < 4 := this
  revert x
  revert p
  decide

theorem exDet_sorted : Sorted exDet := by
  intro p
  by_cases h : p < 4
  · revert p; decide
  · rw [row_of_ge (by exact Nat.le_of_not_lt h)]; simp

theorem exDet_deterministic : Deterministic exDet := by
  refine ⟨?_, 0, by unfold Initial; decide, ?_⟩
  · intro p
    by_cases h : p < 4
    · revert p; decide
    · rw [row_of_ge (by exact Nat.le_of_not_lt h)]; simp
  · rintro q ⟨h, h'⟩
    have : q < 4 := h
    revert q; decide

/-! ## C152: searching -/

/-- Among sorted arcs the search (linear for ten arcs at most, binary for more) finds an arc with the
symbol whenever there is one; it finds nothing else. -/
theorem C152_search (row : List Arc) (h : row.Pairwise fun x y => x.a ≤ y.a) (v : Nat) :
    (∀ x, search row v = some x → x ∈ row ∧ x.a = v) ∧
      (search row v = none ↔ ∀ x ∈ row, x.a ≠ v) := by
  refine ⟨fun x => search_some, search_none h, fun hn => ?_⟩
  cases c : search row v with
  | none => rfl
  | some x => exact absurd (search_some c).2 (hn x (search_some c).1)

example : ([⟨1, 5, 0⟩, ⟨2, 6, 0⟩, ⟨2, 7, 0⟩] : List Arc).Pairwise (fun x y => x.a ≤ y.a) ∧
    search [⟨1, 5, 0⟩, ⟨2, 6, 0⟩, ⟨2, 7, 0⟩] 2 = some ⟨2, 6, 0⟩ := by decide

example : search ((List.range 12).map fun i => ⟨2 * i, i, 0⟩) 14 = some ⟨14, 7, 0⟩ := by decide

/-- New arcs and states keep the rows sorted; every reversed automaton is sorted. -/
theorem C152_sorted (d : Dag) :
    (Sorted d → (∀ s t a w, Sorted (d.newArc s t a w)) ∧ (∀ b, Sorted (d.newState b)) ∧
      (∀ p, Sorted (d.setEnd p)) ∧ ∀ p, Sorted (d.setStart p)) ∧
    Sorted ({} : Dag) ∧ Sorted d.reverse :=
  ⟨fun h => ⟨fun s t a w => newArc_sorted h s t a w, fun b p => by simpa using h p,
    fun q p => by simpa using h p, fun q p => by simpa using h p⟩,
    fun p => by simp [Dag.row], (reverse_spec d).2.1⟩

example : Sorted exDet := exDet_sorted

/-- A new arc is added to its state and nothing else is changed. -/
theorem C152_new_arc (d : Dag) (s t a w : Nat) (hs : s < d.rows.length) :
    (∀ p x, x ∈ (d.newArc s t a w).row p ↔ x ∈ d.row p ∨ (p = s ∧ x = ⟨a, t, w⟩)) ∧
      (d.newArc s t a w).rows.length = d.rows.length ∧ (d.newArc s t a w).ends = d.ends ∧
      (d.newArc s t a w).starts = d.starts ∧
      ((d.newArc s t a w).row s).length = (d.row s).length + 1 := by
  refine ⟨fun p x => by rw [mem_newArc]; simp [hs], by simp, rfl, rfl, ?_⟩
  rw [newArc_row d s t a w s hs, if_pos rfl, (insertArc_perm _ _).length_eq, List.length_cons]

example : 1 < exDet.rows.length := by decide

/-! ## C153: membership -/

/-- For a deterministic automaton with the initial state 0, `in` is true for the words of the
automaton, and `prefix` for the words along which one can go at all. -/
theorem C153_in (d : Dag) (hs : Sorted d) (hd : Deterministic d) (h0 : Initial d 0) (w : List Nat) :
    (d.isIn w = true ↔ Words d w) ∧ (d.isPrefix w = true ↔ ∃ q, Path d 0 w q) := by
  obtain ⟨s, _, hu⟩ := hd.start
  have e0 : (0 : Nat) = s := hu 0 h0
  subst e0
  constructor
  · unfold Dag.isIn
    cases c : d.walk 0 w with
    | none =>
      simp only [Bool.false_eq_true, false_iff]
      rintro ⟨p, hp, q, hq, _⟩
      rw [hu p hp] at hq
      rw [walk_of_path hs hd.arcs hq] at c
      cases c
    | some q =>
      simp only [isEnd_iff]
      constructor
      · exact fun h => ⟨0, h0, q, walk_some c, h⟩
      · rintro ⟨p, hp, q', hq, he⟩
        rw [hu p hp] at hq
        rw [walk_of_path hs hd.arcs hq] at c
        cases c
        exact he
  · unfold Dag.isPrefix
    rw [Option.isSome_iff_exists]
    constructor
    · rintro ⟨q, hq⟩; exact ⟨q, walk_some hq⟩
    · rintro ⟨q, hq⟩; exact ⟨q, walk_of_path hs hd.arcs hq⟩

example : Sorted exDet ∧ Deterministic exDet ∧ Initial exDet 0 ∧ exDet.isIn [1, 3] = true ∧
    exDet.isIn [1] = false ∧ exDet.isPrefix [1] = true :=
  ⟨exDet_sorted, exDet_deterministic, by unfold Initial; decide, by decide, by decide, by decide⟩

/-- Whatever `in` is true for is a word, if the state 0 is initial. -/
theorem C153_in_word (d : Dag) (h0 : Initial d 0) (w : List Nat) (h : d.isIn w = true) : Words d w := by
  unfold Dag.isIn at h
  split at h
  · cases h
  next q hq => exact ⟨0, h0, q, walk_some hq, isEnd_iff.1 h⟩

example : Initial exDag 0 ∧ exDag.isIn [1, 2] = true := ⟨by unfold Initial; decide, by decide⟩

/-- Without determinism `in` misses words: only the first arc with a symbol is tried. -/
theorem C153_nondeterministic_false :
    ¬ ∀ (d : Dag) (w : List Nat), Valid d → Sorted d → Initial d 0 → (d.isIn w = true ↔ Words d w) := by
  intro h
  have hs : Sorted exDag := by
    intro p
    by_cases h : p < 4
    · revert p; decide
    · rw [row_of_ge (by exact Nat.le_of_not_lt h)]; simp
  have := (h exDag [1, 3] exDag_valid hs (by unfold Initial; decide)).2
    ⟨0, by unfold Initial; decide, 3, .cons (q := 2) (w := 0) (by decide)
      (.cons (q := 3) (w := 0) (by decide) (.nil 3)), by decide⟩
  exact absurd this (by decide)

/-! ## C154: reversing -/

/-- Reversing keeps the number of states and turns all words round. -/
theorem C154_reverse (d : Dag) (hv : Valid d) :
    Valid d.reverse ∧ d.reverse.rows.length = d.rows.length ∧
      (∀ w, Words d.reverse w ↔ Words d w.reverse) ∧ ∀ w, Words d.reverse.reverse w ↔ Words d w := by
  refine ⟨reverse_valid d, (reverse_spec d).1, reverse_words hv, fun w => ?_⟩
  rw [reverse_words (reverse_valid d), reverse_words hv, List.reverse_reverse]

example : Valid exDag := exDag_valid

/-! ## C155: determinization -/

/-- The determinization always ends; its result is deterministic and sorted, has the initial state 0 and
no state that cannot be reached, and has the same words. -/
theorem C155_determinize (d : Dag) (hv : Valid d) :
    ∃ e, d.determinize = some e ∧ Valid e ∧ Sorted e ∧ Deterministic e ∧ Accessible e ∧ Initial e 0 ∧
      ∀ w, Words e w ↔ Words d w := by
  obtain ⟨e, L, h1, h2⟩ := determinize_spec hv
  exact ⟨e, h1, h2.valid, h2.sorted, h2.deterministic, h2.accessible, h2.initial.2 rfl, h2.words hv⟩

example : Valid exDag ∧ exDag.determinize.isSome = true := ⟨exDag_valid, by decide +kernel⟩

/-- So `in` of the determinized automaton is membership in the words of any automaton. -/
theorem C155_membership (d : Dag) (hv : Valid d) :
    ∃ e, d.determinize = some e ∧ ∀ w, e.isIn w = true ↔ Words d w := by
  obtain ⟨e, h1, _, h3, h4, _, h6, h7⟩ := C155_determinize d hv
  exact ⟨e, h1, fun w => (C153_in e h3 h4 h6 w).1.trans (h7 w)⟩

example : Valid exDag := exDag_valid

/-- There are at most as many states as sets of states. -/
theorem C155_bound (d e : Dag) (hv : Valid d) (h : d.determinize = some e) :
    1 ≤ e.rows.length ∧ e.rows.length ≤ 2 ^ d.rows.length := by
  obtain ⟨e', L, h1, h2⟩ := determinize_spec hv
  rw [h] at h1; cases h1
  rw [← h2.length]
  refine ⟨(List.getElem?_eq_some_iff.1 h2.first).1, nodup_bound h2.nodup fun S hS => ?_⟩
  have hR := h2.reached S hS
  cases hR with
  | start => exact hv.starts
  | step _ hn => exact narcs_lt hv hn

example : Valid exDag ∧ ∃ e, exDag.determinize = some e :=
  ⟨exDag_valid, by obtain ⟨e, h, _⟩ := C155_determinize exDag exDag_valid; exact ⟨e, h⟩⟩

/-! ## C156: minimization -/

/-- Minimizing keeps the words; the result is deterministic, and no deterministic automaton with the
same words has fewer states. -/
theorem C156_minimize (d : Dag) (hv : Valid d) :
    ∃ m, d.minimize = some m ∧ Valid m ∧ Sorted m ∧ Deterministic m ∧ Accessible m ∧ Initial m 0 ∧
      (∀ w, Words m w ↔ Words d w) ∧
      ∀ o, Valid o → Deterministic o → (∀ w, Words o w ↔ Words d w) → m.rows.length ≤ o.rows.length := by
  obtain ⟨e, m, L, h1, h2, h3, h4, h5, h6⟩ := minimize_spec hv
  have hw : ∀ w, Words m w ↔ Words d w := by
    intro w
    rw [h6.words (reverse_valid e), reverse_words h2, h5, List.reverse_reverse]
  refine ⟨m, h1, h6.valid, h6.sorted, h6.deterministic, h6.accessible, h6.initial.2 rfl, hw, ?_⟩
  intro o hvo hdo hwo
  by_cases c : ∀ p, p < m.rows.length → ∃ w, Accepts m p w
  · refine fewest h6.deterministic h6.accessible c ?_ hvo hdo fun w => (hwo w).trans (hw w).symm
    intro p q hp hq he
    rw [← h6.length] at hp hq
    have := brzozowski h2 h3 h4 h6 (List.getElem?_eq_getElem hp) (List.getElem?_eq_getElem hq) he
    exact (List.Nodup.getElem_inj_iff h6.nodup).1 this
  · simp only [not_forall] at c
    obtain ⟨p, hp, c⟩ := c
    rcases minimize_useful h2 h4 h6 hp with h | h
    · exact absurd h c
    · obtain ⟨s, hs, _⟩ := hdo.start
      have := hs.1
      omega

example : Valid exDet ∧ (exDet.minimize.map fun m => m.rows.length) = some 3 ∧
    exDet.rows.length = 4 := ⟨exDet_valid, by decide +kernel, rfl⟩

/-- Automata with the same words give the same minimal automaton but for the numbers of the states. -/
theorem C156_unique (d e : Dag) (hd : Valid d) (he : Valid e) (hw : ∀ w, Words d w ↔ Words e w) :
    ∃ m n, d.minimize = some m ∧ e.minimize = some n ∧ SameButNumbers m n := by
  obtain ⟨d', m, L, h1, h2, h3, h4, h5, h6⟩ := minimize_spec hd
  obtain ⟨e', n, M, g1, g2, g3, g4, g5, g6⟩ := minimize_spec he
  refine ⟨m, n, h1, g1, ?_⟩
  have hwm : ∀ w, Words m w ↔ Words d w := by
    intro w
    rw [h6.words (reverse_valid d'), reverse_words h2, h5, List.reverse_reverse]
  have hwn : ∀ w, Words n w ↔ Words e w := by
    intro w
    rw [g6.words (reverse_valid e'), reverse_words g2, g5, List.reverse_reverse]
  have hmn : ∀ w, Words n w ↔ Words m w := fun w => by rw [hwm, hwn, hw]
  have useful : ∀ {e m : Dag} {L : List Nat}, Valid e → Accessible e → Powerset e.reverse m L →
      (∃ w, Words m w) → ∀ p, p < m.rows.length → ∃ w, Accepts m p w := by
    rintro e m L hv ha hp ⟨w, hw⟩ p hlt
    rcases minimize_useful hv ha hp hlt with h | ⟨_, _, h⟩
    · exact h
    · exact absurd hw (h w)
  have trivial_ : ∀ {e m : Dag} {L : List Nat}, Valid e → Accessible e → Powerset e.reverse m L →
      (¬ ∃ w, Words m w) → m.rows.length = 1 ∧ m.row 0 = [] ∧ 0 ∉ m.ends := by
    intro e m L hv ha hp hn
    have h0 : Initial m 0 := hp.initial.2 rfl
    have hend : 0 ∉ m.ends := fun h => hn ⟨[], 0, h0, 0, .nil 0, h⟩
    rcases minimize_useful hv ha hp h0.1 with ⟨w, h⟩ | ⟨h, h', _⟩
    · exact absurd ⟨w, 0, h0, h⟩ hn
    · exact ⟨h, h', hend⟩
  have dist : ∀ {e m : Dag} {L : List Nat}, Valid e → Deterministic e → Accessible e →
      Powerset e.reverse m L → ∀ p q, p < m.rows.length → q < m.rows.length →
      (∀ w, Accepts m p w ↔ Accepts m q w) → p = q := by
    intro e m L hv hd ha hp p q h1 h2 he
    rw [← hp.length] at h1 h2
    have := brzozowski hv hd ha hp (List.getElem?_eq_getElem h1) (List.getElem?_eq_getElem h2) he
    exact (List.Nodup.getElem_inj_iff hp.nodup).1 this
  by_cases c : ∃ w, Words m w
  · have c' : ∃ w, Words n w := c.imp fun w h => (hmn w).2 h
    exact correspond h6.deterministic h6.accessible (useful h2 h4 h6 c) (dist h2 h3 h4 h6) h6.valid
      g6.valid g6.deterministic g6.accessible (useful g2 g4 g6 c') (dist g2 g3 g4 g6) hmn
  · have c' : ¬ ∃ w, Words n w := fun h => c (h.imp fun w h => (hmn w).1 h)
    obtain ⟨a1, a2, a3⟩ := trivial_ h2 h4 h6 c
    obtain ⟨b1, b2, b3⟩ := trivial_ g2 g4 g6 c'
    refine ⟨id, ?_, ?_, ?_, ?_, ?_, ?_⟩
    · intro p hp; simp only [id]; omega
    · intro p q _ _ h; exact h
    · intro q hq; exact ⟨q, by omega, rfl⟩
    · intro p _
      simp only [id]
      rw [h6.initial, g6.initial]
    · intro p hp
      have : p = 0 := by omega
      subst this
      simp [a3, b3]
    · intro p q a hp hq
      have : p = 0 := by omega
      subst this
      simp [a2, b2]

example : Valid exDag ∧ Valid exDag.reverse.reverse ∧
    ∀ w, Words exDag w ↔ Words exDag.reverse.reverse w :=
  ⟨exDag_valid, reverse_valid _, fun w => ((C154_reverse exDag exDag_valid).2.2.2 w).symm⟩

/-! ## C157: union -/

/-- The union of two automata has the words of both. -/
theorem C157_union (d o : Dag) (hd : Valid d) (ho : Valid o) :
    Valid (d.ndUnion o) ∧ (Sorted d → Sorted (d.ndUnion o)) ∧
      ∀ w, Words (d.ndUnion o) w ↔ Words d w ∨ Words o w := ndUnion_spec hd ho

example : Valid exDag ∧ Valid exDet := ⟨exDag_valid, exDet_valid⟩

/-- The deterministic union is a minimal deterministic automaton with the words of both. -/
theorem C157_det_union (d o : Dag) (hd : Valid d) (ho : Valid o) :
    ∃ m, d.detUnion o = some m ∧ Deterministic m ∧ (∀ w, m.isIn w = true ↔ Words d w ∨ Words o w) ∧
      ∀ q, Valid q → Deterministic q → (∀ w, Words q w ↔ Words d w ∨ Words o w) →
        m.rows.length ≤ q.rows.length := by
  obtain ⟨h1, _, h3⟩ := ndUnion_spec hd ho
  obtain ⟨m, g1, g2, g3, g4, g5, g6, g7, g8⟩ := C156_minimize _ h1
  refine ⟨m, g1, g4, fun w => ?_, fun q hv hdq hw => g8 q hv hdq fun w => (hw w).trans (h3 w).symm⟩
  rw [(C153_in m g3 g4 g6 w).1, g7, h3]

example : Valid exDag ∧ Valid exDet ∧ ((exDag.detUnion exDet).map fun m => m.isIn [1, 3]) = some true :=
  ⟨exDag_valid, exDet_valid, by decide +kernel⟩

end Verif.Dag
