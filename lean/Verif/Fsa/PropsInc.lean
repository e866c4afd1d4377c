import Verif.Fsa.IncSim
import Verif.Fsa.PropsBin
import Verif.Fsa.Props

/-!
C39: the incremental construction accepts exactly the word list.
-/
set_option linter.unusedVariables false
set_option linter.unusedSimpArgs false

namespace Verif.Fsa
open BinSpec Spec

/-! ### Membership -/

theorem din_acc {a : Fsa} {A : Abs} (hp : Plain a A) (hs : ∀ p, (ar A p).Pairwise (fun a b => a.1 < b.1))
    (hc : ∀ p, p < A.length → ∀ b ∈ ar A p, b.2 < A.length) (w : List Sym) : ∀ {p : Nat}, p < A.length →
    (a.dinLoop p w = true ↔ Acc A p w) := by
  induction w with
  | nil =>
    intro p hpl
    show decide (p ∈ a.ends) = true ↔ fi A p = true
    rw [decide_eq_true_eq, hp.ends]
  | cons x w ih =>
    intro p hpl
    obtain ⟨r, e1, e2⟩ := delta_abs (cap := 0) hpl (hs p) x
    have e3 : a.ddelta p x = r := by
      have h1 := (sim_dfsa 0).delta x hp hpl
      have h2 : (absOps 0).delta A p x =
          some ((checkFound x ((ar A p).dropWhile (fun arc => arcLt natLt arc (x, 0)))).head?.map (·.2)) := if_pos hpl
      rw [← h2, e1] at h1
      have h3 : (if p = a.size then none else some (a.ddelta p x)) = some r := h1
      split at h3
      · simp at h3
      · exact Option.some.inj h3
    unfold Fsa.dinLoop
    rw [e3]
    cases r with
    | none =>
      simp only [Bool.false_eq_true, Acc, false_iff]
      rintro ⟨q, h1, _⟩
      exact absurd ((e2 q).2 h1) (by simp)
    | some q =>
      have hq := (e2 q).1 rfl
      show a.dinLoop q w = true ↔ _
      rw [ih (hc p hpl _ hq)]
      simp only [Acc]
      constructor
      · intro h1; exact ⟨q, hq, h1⟩
      · rintro ⟨q', h1, h2⟩
        have : some q = some q' := (e2 q').2 h1
        rw [Option.some.inj this]; exact h2

theorem inv_closed {A : Abs} {Reg : List Nat} (hI : Inv A Reg 0 [] []) :
    ∀ p, p < A.length → ∀ b ∈ ar A p, b.2 < A.length := by
  intro p hp b hb
  rcases (hI.cover p).1 hp with h | h
  · exact hI.glob.lt _ (hI.glob.arcs_mem h b hb)
  · simp only [List.mem_singleton] at h
    subst h
    exact hI.glob.lt _ (hI.head b hb)

/-- **C39** (`DFSA`): for every sorted list of words, at least one of them not empty, the automaton built
incrementally accepts exactly the words of the list.  Nothing undefined happens.  The hash function is
arbitrary.  (Missing: lists without a non-empty word, see `C39_empty_false`.) -/
theorem C39_dfsa_partial (h : Bool × List (Sym × Nat) → Nat) {ws : List (List Sym)} (hs : ws.Pairwise (· ≤ ·))
    (hne : ∃ w ∈ ws, w ≠ []) :
    ∃ a, minimizeIncremental dfsaOps h ws = some a ∧ ∀ w, a.din w = true ↔ w ∈ ws := by
  obtain ⟨A, Reg, e, hI, _, ha⟩ := minimizeIncremental_spec (cap := (ws.map List.length).sum + 1) h hs hne (by omega)
  obtain ⟨a, e1, r1⟩ := sim_minimizeIncremental (sim_dfsa _) e
  refine ⟨a, e1, ?_⟩
  intro w
  rw [← ha]
  exact din_acc r1 hI.glob.sorted (inv_closed hI) w ((hI.cover 0).2 (by simp))

theorem path_acc {A : Abs} (w : List Sym) : ∀ {p : Nat},
    (∃ q, BinSpec.Path A p w q ∧ (A[q]?).map (·.1) = some true) ↔ Acc A p w := by
  have hfi : ∀ q, (A[q]?).map (·.1) = some true ↔ fi A q = true := by
    intro q; unfold fi; cases A[q]? with
    | none => simp
    | some s => simp
  induction w with
  | nil =>
    intro p
    simp only [Acc, ← hfi]
    constructor
    · rintro ⟨q, h1, h2⟩; cases h1; exact h2
    · intro h2; exact ⟨p, .nil, h2⟩
  | cons x w ih =>
    intro p
    simp only [Acc, ← ih, absPath_cons]
    constructor
    · rintro ⟨r, ⟨q, h1, h2⟩, h3⟩; exact ⟨q, h1, r, h2, h3⟩
    · rintro ⟨q, h1, r, h2, h3⟩; exact ⟨r, ⟨q, h1, h2⟩, h3⟩

theorem bin_acc {b : Bin} {A : Abs} (hp : Pack b A) (hs : ∀ p, (ar A p).Pairwise (fun a b => a.1 < b.1))
    (hc : ∀ p, p < A.length → ∀ b ∈ ar A p, b.2 < A.length) (hA : 0 < A.length) (w : List Sym) :
    ∃ r, b.accepts w = some r ∧ (r = true ↔ Acc A 0 w) := by
  have hget : ∀ (p : Nat) s, A[p]? = some s → p < A.length ∧ s.2 = ar A p := by
    intro p s e
    have hpl : p < A.length := by
      by_contra hn; rw [List.getElem?_eq_none (by omega)] at e; simp at e
    rw [get_sg hpl] at e
    exact ⟨hpl, by rw [← Option.some.inj e]; rfl⟩
  have hrep : Rep b A := by
    refine ⟨A, ?_, hp⟩
    rw [List.forall₂_same]
    intro s hsA
    obtain ⟨p, hpl, rfl⟩ := List.getElem_of_mem hsA
    refine ⟨rfl, List.Perm.refl _, ?_⟩
    rw [(hget p _ (List.getElem?_eq_getElem hpl)).2]
    refine (hs p).imp ?_
    intro x y hxy
    have h1 : symLt y.1 x.1 = false := by
      simp only [symLt, decide_eq_false_iff_not]
      exact fun h => absurd (UInt8.lt_trans h hxy) (by simp)
    have h2 : y.1 ≠ x.1 := by intro e; rw [e] at hxy; exact absurd hxy (by simp)
    simp [arcLt, h1, h2]
  obtain ⟨r, h1, h2⟩ := rep_in hrep (List.length_pos_iff.1 hA) (by
      intro p s e
      rw [(hget p s e).2]
      refine (hs p).imp ?_
      intro x y hxy e'
      rw [e'] at hxy; exact absurd hxy (by simp))
    (by
      intro p s e x q hq
      obtain ⟨h3, h4⟩ := hget p s e
      rw [h4] at hq
      exact hc p h3 _ hq) w 0 hA
  exact ⟨r, h1, h2.trans (path_acc w)⟩

/-- **C39** (`BinDFSA`): the same for the packed automaton, if the words have less than 2^31 symbols in all. -/
theorem C39_bin_partial (h : Bool × List (Sym × Nat) → Nat) {ws : List (List Sym)} (hs : ws.Pairwise (· ≤ ·))
    (hne : ∃ w ∈ ws, w ≠ []) (hcap : (ws.map List.length).sum < 2 ^ 31) :
    ∃ b, minimizeIncremental binOps h ws = some b ∧ ∀ w, b.accepts w = some (decide (w ∈ ws)) := by
  obtain ⟨A, Reg, e, hI, _, ha⟩ := minimizeIncremental_spec (cap := 2 ^ 31) h hs hne hcap
  obtain ⟨b, e1, r1⟩ := sim_minimizeIncremental sim_bin e
  refine ⟨b, e1, ?_⟩
  intro w
  obtain ⟨r, h1, h2⟩ := bin_acc r1 hI.glob.sorted (inv_closed hI) ((hI.cover 0).2 (by simp)) w
  rw [h1, Option.some.injEq, Bool.eq_iff_iff, h2, ha, decide_eq_true_eq]

/-! ### The number of states -/

theorem mem_unique {l : List (Sym × Nat)} (hs : l.Pairwise (fun a b => a.1 < b.1)) {x : Sym} {q q' : Nat} (h1 : (x, q) ∈ l)
    (h2 : (x, q') ∈ l) : q = q' := by
  by_contra hne
  have := pairwise_ne (hs.imp (fun {a b} h e => by rw [e] at h; exact absurd h (by simp))) h1 h2
    (by intro e; exact hne (Prod.mk.inj e).2)
  exact this rfl

theorem sorted_arcs_ext {l1 l2 : List (Sym × Nat)} (h1 : l1.Pairwise (fun a b => a.1 < b.1))
    (h2 : l2.Pairwise (fun a b => a.1 < b.1)) (h : ∀ a, a ∈ l1 ↔ a ∈ l2) : l1 = l2 := by
  have hn : ∀ l : List (Sym × Nat), l.Pairwise (fun a b => a.1 < b.1) → l.Nodup := fun l hl =>
    hl.imp (fun {a b} hab e => by rw [e] at hab; exact absurd hab (by simp))
  refine ((List.perm_ext_iff_of_nodup (hn _ h1) (hn _ h2)).2 h).eq_of_pairwise ?_ h1 h2
  intro a b _ _ hab hba
  exact absurd (UInt8.lt_trans hab hba) (by simp)

/-- The same right language, if the same holds for the targets of arcs: the same flag and arcs. -/
theorem same_sg {A : Abs} (hs : ∀ p, (ar A p).Pairwise (fun a b => a.1 < b.1)) {s t : Nat}
    (hu : ∀ a ∈ ar A s, ∃ w, Acc A a.2 w) (hu' : ∀ a ∈ ar A t, ∃ w, Acc A a.2 w)
    (hrec : ∀ a ∈ ar A s, ∀ b ∈ ar A t, (∀ w, Acc A a.2 w ↔ Acc A b.2 w) → a.2 = b.2)
    (h : ∀ w, Acc A s w ↔ Acc A t w) : sg A s = sg A t := by
  have hfi : fi A s = fi A t := by rw [Bool.eq_iff_iff]; exact h []
  have key : ∀ x q q', (x, q) ∈ ar A s → (x, q') ∈ ar A t → q = q' := by
    intro x q q' h1 h2
    refine hrec (x, q) h1 (x, q') h2 ?_
    intro w
    constructor
    · intro h3
      obtain ⟨q2, h4, h5⟩ := (h (x :: w)).1 ⟨q, h1, h3⟩
      rw [mem_unique (hs t) h2 h4]; exact h5
    · intro h3
      obtain ⟨q2, h4, h5⟩ := (h (x :: w)).2 ⟨q', h2, h3⟩
      rw [mem_unique (hs s) h1 h4]; exact h5
  have har : ar A s = ar A t := by
    apply sorted_arcs_ext (hs s) (hs t)
    rintro ⟨x, q⟩
    constructor
    · intro h1
      obtain ⟨w, hw⟩ := hu _ h1
      obtain ⟨q2, h4, h5⟩ := (h (x :: w)).1 ⟨q, h1, hw⟩
      rw [key x q q2 h1 h4]; exact h4
    · intro h1
      obtain ⟨w, hw⟩ := hu' _ h1
      obtain ⟨q2, h4, h5⟩ := (h (x :: w)).2 ⟨q, h1, hw⟩
      rw [← key x q2 q h4 h1]; exact h4
  exact Prod.ext hfi har

theorem reg_distinct {A : Abs} {Reg : List Nat} (g : Glob A Reg) (n : Nat) : ∀ s ∈ Reg, ∀ t ∈ Reg, Reg.idxOf s < n →
    (∀ w, Acc A s w ↔ Acc A t w) → s = t := by
  induction n with
  | zero => intro s _ t _ h; omega
  | succ n ih =>
    intro s hs t ht hn h
    apply g.sigs s hs t ht
    refine same_sg g.sorted (fun a ha => g.useful _ (g.arcs_mem hs a ha)) (fun a ha => g.useful _ (g.arcs_mem ht a ha)) ?_ h
    intro a ha b hb hab
    have := rch_idx.idx_lt g hs ha
    exact ih _ (g.arcs_mem hs a ha) _ (g.arcs_mem ht b hb) (by omega) hab

theorem inv_distinct {A : Abs} {Reg : List Nat} (hI : Inv A Reg 0 [] []) {s t : Nat} (hs : s < A.length) (ht : t < A.length)
    (h : ∀ w, Acc A s w ↔ Acc A t w) : s = t := by
  have g := hI.glob
  have hzero : ∀ t ∈ Reg, ¬ ∀ w, Acc A t w ↔ Acc A 0 w := by
    intro t ht h
    have e : sg A t = sg A 0 := by
      refine same_sg g.sorted (fun a ha => g.useful _ (g.arcs_mem ht a ha)) (fun a ha => g.useful _ (hI.head a ha)) ?_ h
      intro a ha b hb hab
      exact reg_distinct g _ _ (g.arcs_mem ht a ha) _ (hI.head b hb) (Nat.lt_succ_self _) hab
    have := last_of_equiv hI ht e
    have h0 := g.lt t ht
    have : t = 0 := by omega
    subst this
    exact hI.disj 0 (by simp) ht
  have hs' := (hI.cover s).1 hs
  have ht' := (hI.cover t).1 ht
  simp only [List.mem_singleton] at hs' ht'
  rcases hs' with hs' | rfl <;> rcases ht' with ht' | rfl
  · exact reg_distinct g _ s hs' t ht' (Nat.lt_succ_self _) h
  · exact absurd h (hzero s hs')
  · exact absurd (fun w => (h w).symm) (hzero t ht')
  · rfl

/-- The list of states as an automaton with start state 0. -/
def toFsa (A : Abs) : Fsa := ⟨A.map (·.2), [0], (List.range A.length).filter (fi A)⟩

theorem toFsa_arcs (A : Abs) (p : Nat) : (toFsa A).arcs p = ar A p := by
  show (A.map (·.2)).getD p [] = _
  rw [List.getD_eq_getElem?_getD, List.getElem?_map]; rfl

theorem toFsa_right (A : Abs) (w : List Sym) : ∀ p, Right (toFsa A) p w ↔ Acc A p w := by
  induction w with
  | nil =>
    intro p
    constructor
    · rintro ⟨q, h1, h2⟩
      cases h2
      have : p ∈ (List.range A.length).filter (fi A) := h1
      exact (List.mem_filter.1 this).2
    · intro h
      exact ⟨p, List.mem_filter.2 ⟨List.mem_range.2 (fi_lt h), h⟩, .nil⟩
  | cons x w ih =>
    intro p
    simp only [Acc, ← ih]
    constructor
    · rintro ⟨r, h1, h2⟩
      obtain ⟨q, h3, h4⟩ := path_cons.1 h2
      rw [toFsa_arcs] at h3
      exact ⟨q, h3, r, h1, h4⟩
    · rintro ⟨q, h3, r, h1, h4⟩
      rw [← toFsa_arcs] at h3
      exact ⟨r, h1, path_cons.2 ⟨q, h3, h4⟩⟩

theorem rch_path {A : Abs} {p q : Nat} (h : Rch A p q) : ∃ w, Spec.Path (toFsa A) p w q := by
  induction h with
  | refl p => exact ⟨[], .nil⟩
  | @step p a r ha _ ih =>
    obtain ⟨w, hw⟩ := ih
    exact ⟨a.1 :: w, .cons (by rw [toFsa_arcs]; exact ha) hw⟩

theorem inv_smallest {A : Abs} {Reg : List Nat} (hI : Inv A Reg 0 [] []) {ws : List (List Sym)} (ha : ∀ v, Acc A 0 v ↔ v ∈ ws)
    {c : Fsa} (hc : Wf c) (hd : Spec.Deterministic c) (hl : ∀ w, Raw c w ↔ w ∈ ws) : A.length ≤ c.size := by
  have hsize : (toFsa A).size = A.length := by simp [toFsa, Fsa.size]
  rw [← hsize]
  refine smallest ⟨⟨0, rfl⟩, ?_⟩ ?_ hd hc ?_ ?_ ?_
  · intro p
    rw [toFsa_arcs]
    exact (hI.glob.sorted p).imp (fun {a b} hab e => by rw [e] at hab; exact absurd hab (by simp))
  · intro n hn
    rw [hsize] at hn
    refine ⟨0, by simp [toFsa], ?_⟩
    rcases (hI.cover n).1 hn with h | h
    · have hn0 : 0 < n := by
        rcases Nat.eq_zero_or_pos n with rfl | h0
        · exact absurd h (hI.disj 0 (by simp))
        · exact h0
      obtain ⟨a, h1, h2, h3⟩ := hI.good n h hn0
      exact rch_path (.step h1 h3)
    · simp only [List.mem_singleton] at h
      subst h
      exact ⟨[], .nil⟩
  · intro p q hp hq h
    rw [hsize] at hp hq
    simp only [toFsa_right] at h
    exact inv_distinct hI hp hq h
  · intro p hp
    rw [hsize] at hp
    rcases (hI.cover p).1 hp with h | h
    · right
      obtain ⟨w, hw⟩ := hI.glob.useful p h
      exact ⟨w, (toFsa_right A w p).2 hw⟩
    · left
      simpa [toFsa] using h
  · intro w
    rw [hl, ← ha, ← toFsa_right]
    simp [Raw, Right, toFsa]

/-- **C39** (size): no deterministic automaton that accepts exactly these words has fewer states than the
ones built incrementally. -/
theorem C39_minimal_partial (h : Bool × List (Sym × Nat) → Nat) {ws : List (List Sym)} (hs : ws.Pairwise (· ≤ ·))
    (hne : ∃ w ∈ ws, w ≠ []) {c : Fsa} (hc : Wf c) (hd : Spec.Deterministic c) (hl : ∀ w, Raw c w ↔ w ∈ ws) :
    (∃ a, minimizeIncremental dfsaOps h ws = some a ∧ a.size ≤ c.size) ∧
    ((ws.map List.length).sum < 2 ^ 31 → ∃ b, minimizeIncremental binOps h ws = some b ∧ b.size ≤ c.size) := by
  constructor
  · obtain ⟨A, Reg, e, hI, _, ha⟩ := minimizeIncremental_spec (cap := (ws.map List.length).sum + 1) h hs hne (by omega)
    obtain ⟨a, e1, r1⟩ := sim_minimizeIncremental (sim_dfsa _) e
    refine ⟨a, e1, ?_⟩
    rw [show a.size = A.length from (sim_dfsa 0).size r1]
    exact inv_smallest hI ha hc hd hl
  · intro hcap
    obtain ⟨A, Reg, e, hI, _, ha⟩ := minimizeIncremental_spec (cap := 2 ^ 31) h hs hne hcap
    obtain ⟨b, e1, r1⟩ := sim_minimizeIncremental sim_bin e
    refine ⟨b, e1, ?_⟩
    rw [pack_size r1]
    exact inv_smallest hI ha hc hd hl

/-- If there is no non-empty word, the last arc of a state without arcs is asked for: undefined. -/
theorem C39_empty_false (h : Bool × List (Sym × Nat) → Nat) :
    minimizeIncremental dfsaOps h [] = none ∧ minimizeIncremental dfsaOps h [[]] = none ∧
    minimizeIncremental binOps h [] = none ∧ minimizeIncremental binOps h [[]] = none :=
  ⟨rfl, rfl, rfl, rfl⟩

/-- Why the list must be sorted: of this list the last word is lost, and an arc to a state that was
removed is left. -/
theorem C39_unsorted_false : (minimizeIncremental dfsaOps (fun _ => 0) [[97, 120], [98, 120], [99, 120], [97, 121]]).map
    (fun a => (a.din [97, 121], (121, 4) ∈ a.arcs 1 ∧ a.size = 4)) = some (false, True) := by
  rw [show minimizeIncremental dfsaOps (fun _ => 0) [[97, 120], [98, 120], [99, 120], [97, 121]] =
    some ⟨[[(97, 1), (98, 1), (99, 3)], [(120, 2), (121, 4)], [], [(120, 2)]], [0], [2]⟩ by decide +kernel]
  simp only [Option.map_some, Option.some.injEq, Prod.mk.injEq, eq_iff_iff, iff_true]
  decide +kernel

/-- A sorted list with a repeated word, a prefix, and shared endings. -/
example : ([[], [97], [97], [97, 98, 99], [98, 98, 99], [254, 98, 99]] : List (List Sym)).Pairwise (· ≤ ·) ∧
    ∃ w ∈ ([[], [97], [97], [97, 98, 99], [98, 98, 99], [254, 98, 99]] : List (List Sym)), w ≠ [] := by
  decide +kernel

/-- The sharing in that list: 5 states. -/
example : (minimizeIncremental dfsaOps (fun _ => 0)
    [[], [97], [97], [97, 98, 99], [98, 98, 99], [254, 98, 99]]).map Fsa.size = some 5 := by decide +kernel

end Verif.Fsa
