import Verif.Dag.Lemmas
import Mathlib.Data.List.Nodup
import Mathlib.Data.List.Perm.Subperm

/-! # The determinization -/

namespace Verif.Dag

/-! ## The arcs of a set -/

theorem mem_addTarget_bit {a q b r : Nat} {l : List (Nat × Nat)} :
    (∃ T, (b, T) ∈ addTarget a q l ∧ T.testBit r = true) ↔
      (∃ T, (b, T) ∈ l ∧ T.testBit r = true) ∨ (b = a ∧ r = q) := by
  fun_induction addTarget a q l with
  | case1 =>
    simp only [List.mem_singleton, Prod.mk.injEq, List.not_mem_nil, false_and, exists_false, false_or]
    constructor
    · rintro ⟨T, ⟨rfl, rfl⟩, h⟩
      rw [Nat.testBit_two_pow] at h
      exact ⟨rfl, (of_decide_eq_true h).symm⟩
    · rintro ⟨rfl, rfl⟩
      exact ⟨_, ⟨rfl, rfl⟩, by simp⟩
  | case2 c S l h =>
    simp only [List.mem_cons, Prod.mk.injEq, or_and_right, exists_or]
    constructor
    · rintro (⟨T, ⟨rfl, rfl⟩, h⟩ | h)
      · rw [Nat.testBit_two_pow] at h
        exact .inr ⟨rfl, (of_decide_eq_true h).symm⟩
      · exact .inl h
    · rintro (h | ⟨rfl, rfl⟩)
      · exact .inr h
      · exact .inl ⟨_, ⟨rfl, rfl⟩, by simp⟩
  | case3 S l h =>
    simp only [List.mem_cons, Prod.mk.injEq, or_and_right, exists_or]
    constructor
    · rintro (⟨T, ⟨rfl, rfl⟩, h⟩ | h)
      · rw [Nat.testBit_or, Bool.or_eq_true, Nat.testBit_two_pow] at h
        rcases h with h | h
        · exact .inl (.inl ⟨_, ⟨rfl, rfl⟩, h⟩)
        · exact .inr ⟨rfl, (of_decide_eq_true h).symm⟩
      · exact .inl (.inr h)
    · rintro ((⟨T, ⟨rfl, rfl⟩, h1⟩ | h) | ⟨rfl, rfl⟩)
      · exact .inl ⟨_, ⟨rfl, rfl⟩, by rw [Nat.testBit_or, h1]; rfl⟩
      · exact .inr h
      · exact .inl ⟨_, ⟨rfl, rfl⟩, by simp⟩
  | case4 c S l h h' ih =>
    simp only [List.mem_cons, Prod.mk.injEq, or_and_right, exists_or, ih, or_assoc]

theorem addTarget_keys {a q b : Nat} {l : List (Nat × Nat)} :
    b ∈ (addTarget a q l).map Prod.fst ↔ b = a ∨ b ∈ l.map Prod.fst := by
  fun_induction addTarget a q l with
  | case1 => simp
  | case2 c S l h => simp
  | case3 S l h => simp
  | case4 c S l h h' ih =>
    simp only [List.map_cons, List.mem_cons, ih]
    constructor
    · rintro (h | h | h) <;> simp [h]
    · rintro (h | h | h) <;> simp [h]

theorem addTarget_sorted {a q : Nat} {l : List (Nat × Nat)}
    (h : l.Pairwise fun x y => x.1 < y.1) :
    (addTarget a q l).Pairwise fun x y => x.1 < y.1 := by
  fun_induction addTarget a q l with
  | case1 => simp
  | case2 c S l hc =>
    rw [List.pairwise_cons]
    refine ⟨fun z hz => ?_, h⟩
    rw [List.pairwise_cons] at h
    rcases List.mem_cons.1 hz with rfl | hz
    · exact hc
    · have := h.1 z hz; simp at this ⊢; omega
  | case3 S l hc =>
    rw [List.pairwise_cons] at h ⊢
    exact ⟨fun z hz => h.1 z hz, h.2⟩
  | case4 c S l hc hc' ih =>
    rw [List.pairwise_cons] at h ⊢
    refine ⟨fun z hz => ?_, ih h.2⟩
    have : z.1 ∈ (addTarget a q l).map Prod.fst := List.mem_map_of_mem hz
    rw [addTarget_keys] at this
    rcases this with e | e
    · simp; omega
    · rw [List.mem_map] at e
      obtain ⟨y, hy, e⟩ := e
      have := h.1 y hy
      simp at this ⊢; omega

theorem addTarget_ne_zero {a q : Nat} {l : List (Nat × Nat)} (h : ∀ x ∈ l, x.2 ≠ 0) :
    ∀ x ∈ addTarget a q l, x.2 ≠ 0 := by
  fun_induction addTarget a q l with
  | case1 => simp
  | case2 c S l hc =>
    intro x hx
    rcases List.mem_cons.1 hx with rfl | hx
    · simp
    · exact h x hx
  | case3 S l hc =>
    intro x hx
    rcases List.mem_cons.1 hx with rfl | hx
    · intro e
      have := h (a, S) (by simp)
      simp only at e this
      rw [Nat.or_eq_zero_iff] at e
      exact this e.1
    · exact h x (by simp [hx])
  | case4 c S l hc hc' ih =>
    intro x hx
    rcases List.mem_cons.1 hx with rfl | hx
    · exact h _ (by simp)
    · exact ih (fun x hx => h x (by simp [hx])) x hx

/-- What is known of the arcs collected so far. -/
structure ArcsOf (l : List (Nat × Nat)) (G : Nat → Nat → Prop) : Prop where
  sorted : l.Pairwise fun x y => x.1 < y.1
  bit : ∀ b r, (∃ T, (b, T) ∈ l ∧ T.testBit r = true) ↔ G b r
  nonzero : ∀ x ∈ l, x.2 ≠ 0

theorem ArcsOf.add {l : List (Nat × Nat)} {G : Nat → Nat → Prop} (h : ArcsOf l G) (a q : Nat) :
    ArcsOf (addTarget a q l) fun b r => G b r ∨ (b = a ∧ r = q) :=
  ⟨addTarget_sorted h.sorted, fun b r => by rw [mem_addTarget_bit, h.bit], addTarget_ne_zero h.nonzero⟩

theorem ArcsOf.congr {l : List (Nat × Nat)} {G H : Nat → Nat → Prop} (h : ArcsOf l G)
    (e : ∀ b r, G b r ↔ H b r) : ArcsOf l H :=
  ⟨h.sorted, fun b r => (h.bit b r).trans (e b r), h.nonzero⟩

theorem ArcsOf.addRow {l : List (Nat × Nat)} {G : Nat → Nat → Prop} (h : ArcsOf l G)
    (row : List Arc) :
    ArcsOf (row.foldl (fun l x => addTarget x.a x.q l) l) fun b r =>
      G b r ∨ ∃ w, (⟨b, r, w⟩ : Arc) ∈ row := by
  induction row generalizing l G with
  | nil => simpa using h
  | cons x row ih =>
    refine (ih (h.add x.a x.q)).congr fun b r => ?_
    simp only [List.mem_cons]
    constructor
    · rintro ((h | ⟨rfl, rfl⟩) | ⟨w, h⟩)
      · exact .inl h
      · exact .inr ⟨x.w, .inl rfl⟩
      · exact .inr ⟨w, .inr h⟩
    · rintro (h | ⟨w, rfl | h⟩)
      · exact .inl (.inl h)
      · exact .inl (.inr ⟨rfl, rfl⟩)
      · exact .inr ⟨w, h⟩

theorem ArcsOf.addRows {l : List (Nat × Nat)} {G : Nat → Nat → Prop} (d : Dag) (h : ArcsOf l G)
    (ss : List Nat) :
    ArcsOf (ss.foldl (fun l s => (d.row s).foldl (fun l x => addTarget x.a x.q l) l) l) fun b r =>
      G b r ∨ ∃ s ∈ ss, ∃ w, (⟨b, r, w⟩ : Arc) ∈ d.row s := by
  induction ss generalizing l G with
  | nil => simpa using h
  | cons s ss ih =>
    refine (ih (h.addRow (d.row s))).congr fun b r => ?_
    simp only [List.mem_cons, exists_eq_or_imp, or_assoc]

theorem mem_bits {n S i : Nat} : i ∈ bits n S ↔ i < n ∧ S.testBit i = true := by simp [bits]

/-- The states after the symbol. -/
def After (d : Dag) (S a q : Nat) : Prop := ∃ s, S.testBit s = true ∧ ∃ w, (⟨a, q, w⟩ : Arc) ∈ d.row s

theorem narcs_spec (d : Dag) (S : Nat) : ArcsOf (d.narcs S) (After d S) := by
  have h : ArcsOf [] (fun _ _ => False) := ⟨by simp, by simp, by simp⟩
  refine (h.addRows d (bits d.rows.length S)).congr fun b r => ?_
  simp only [false_or, mem_bits, After]
  constructor
  · rintro ⟨s, ⟨_, h⟩, w, h'⟩; exact ⟨s, h, w, h'⟩
  · rintro ⟨s, h, w, h'⟩; exact ⟨s, ⟨lt_of_mem_row h', h⟩, w, h'⟩

theorem key_unique {α : Type} {l : List (Nat × α)} (h : l.Pairwise fun x y => x.1 < y.1) {b : Nat} {T U : α}
    (hT : (b, T) ∈ l) (hU : (b, U) ∈ l) : T = U := by
  have h' : l.Pairwise fun x y => x.1 ≠ y.1 := h.imp fun h => by omega
  haveI : Std.Symm (fun x y : Nat × α => x.1 ≠ y.1) := ⟨fun _ _ => Ne.symm⟩
  by_contra c
  exact h'.forall hT hU (by simp [c]) rfl

theorem narcs_bit {d : Dag} {S a T : Nat} (h : (a, T) ∈ d.narcs S) (q : Nat) :
    T.testBit q = true ↔ After d S a q := by
  have hs := narcs_spec d S
  rw [← hs.bit]
  constructor
  · exact fun h' => ⟨T, h, h'⟩
  · rintro ⟨U, h1, h2⟩
    rw [key_unique hs.sorted h h1]; exact h2

theorem narcs_of_after {d : Dag} {S a q : Nat} (h : After d S a q) :
    ∃ T, (a, T) ∈ d.narcs S ∧ T.testBit q = true := ((narcs_spec d S).bit a q).2 h

theorem lt_two_pow {T n : Nat} (h : ∀ q, T.testBit q = true → q < n) : T < 2 ^ n := by
  apply Nat.lt_pow_two_of_testBit
  intro i hi
  cases c : T.testBit i with
  | false => rfl
  | true => have := h i c; omega

theorem narcs_lt {d : Dag} (hv : Valid d) {S a T : Nat} (h : (a, T) ∈ d.narcs S) :
    T < 2 ^ d.rows.length := by
  apply lt_two_pow
  intro q hq
  obtain ⟨s, _, w, h⟩ := (narcs_bit h q).1 hq
  exact hv.arcs s _ h

/-! ## The loop over the queue -/

theorem pushNew_spec (l : List (Nat × Nat)) (queue seen : List Nat) :
    ∃ new : List Nat, (pushNew l (queue, seen)) = (new ++ queue, new ++ seen) ∧
      (∀ T ∈ new, ∃ a, (a, T) ∈ l) ∧ (seen.Nodup → (new ++ seen).Nodup) ∧
      ∀ a T, (a, T) ∈ l → T ∈ new ++ seen := by
  induction l generalizing queue seen with
  | nil => exact ⟨[], rfl, by simp, by simp, by simp⟩
  | cons x l ih =>
    obtain ⟨a, T⟩ := x
    unfold pushNew
    split
    next h =>
      obtain ⟨new, h1, h2, h3, h4⟩ := ih queue seen
      refine ⟨new, h1, fun U hU => ?_, h3, fun b U hU => ?_⟩
      · obtain ⟨b, hb⟩ := h2 U hU
        exact ⟨b, by simp [hb]⟩
      · rcases List.mem_cons.1 hU with e | hU
        · cases e
          simp only [List.mem_append]
          exact .inr (by simpa using h)
        · exact h4 b U hU
    next h =>
      obtain ⟨new, h1, h2, h3, h4⟩ := ih (T :: queue) (T :: seen)
      refine ⟨new ++ [T], by simp [h1], fun U hU => ?_, fun hn => ?_, fun b U hU => ?_⟩
      · rcases List.mem_append.1 hU with hU | hU
        · obtain ⟨b, hb⟩ := h2 U hU
          exact ⟨b, by simp [hb]⟩
        · simp only [List.mem_singleton] at hU
          subst hU; exact ⟨a, by simp⟩
      · rw [List.append_assoc]
        exact h3 (List.nodup_cons.2 ⟨by simpa using h, hn⟩)
      · rw [List.append_assoc]
        rcases List.mem_cons.1 hU with e | hU
        · cases e; simp
        · exact h4 b U hU

theorem mem_putArcs {S : Nat} {arcs : List (Nat × Nat)} {l : List (Nat × List (Nat × Nat))}
    (hs : l.Pairwise fun x y => x.1 < y.1) {e : Nat × List (Nat × Nat)} :
    e ∈ putArcs S arcs l ↔ e = (S, arcs) ∨ (e ∈ l ∧ e.1 ≠ S) := by
  fun_induction putArcs S arcs l with
  | case1 => simp
  | case2 T b l h =>
    rw [List.mem_cons]
    constructor
    · rintro (h' | h')
      · exact .inl h'
      · refine .inr ⟨h', ?_⟩
        rcases List.mem_cons.1 h' with rfl | h'
        · simp; omega
        · have := (List.pairwise_cons.1 hs).1 e h'
          simp at this; omega
    · rintro (h' | h')
      · exact .inl h'
      · exact .inr h'.1
  | case3 b l h =>
    rw [List.mem_cons, List.mem_cons]
    constructor
    · rintro (h' | h')
      · exact .inl h'
      · have := (List.pairwise_cons.1 hs).1 e h'
        exact .inr ⟨.inr h', by simp at this; omega⟩
    · rintro (h' | ⟨rfl | h', c⟩)
      · exact .inl h'
      · simp at c
      · exact .inr h'
  | case4 T b l h h' ih =>
    rw [List.mem_cons, List.mem_cons, ih (List.pairwise_cons.1 hs).2]
    constructor
    · rintro (rfl | h' | h')
      · exact .inr ⟨.inl rfl, by simp; omega⟩
      · exact .inl h'
      · exact .inr ⟨.inr h'.1, h'.2⟩
    · rintro (h' | ⟨h' | h', c⟩)
      · exact .inr (.inl h')
      · exact .inl h'
      · exact .inr (.inr ⟨h', c⟩)

theorem putArcs_sorted {S : Nat} {arcs : List (Nat × Nat)} {l : List (Nat × List (Nat × Nat))}
    (hs : l.Pairwise fun x y => x.1 < y.1) : (putArcs S arcs l).Pairwise fun x y => x.1 < y.1 := by
  fun_induction putArcs S arcs l with
  | case1 => simp
  | case2 T b l h =>
    rw [List.pairwise_cons]
    refine ⟨fun z hz => ?_, hs⟩
    rcases List.mem_cons.1 hz with rfl | hz
    · exact h
    · have := (List.pairwise_cons.1 hs).1 z hz
      simp at this ⊢; omega
  | case3 b l h =>
    rw [List.pairwise_cons] at hs ⊢
    exact ⟨fun z hz => hs.1 z hz, hs.2⟩
  | case4 T b l h h' ih =>
    rw [List.pairwise_cons] at hs ⊢
    refine ⟨fun z hz => ?_, ih hs.2⟩
    rcases (mem_putArcs hs.2).1 hz with rfl | hz
    · simp; omega
    · exact hs.1 z hz.1

/-- A set that some word leads to. -/
inductive Reached (d : Dag) : Nat → Prop
  | start : Reached d d.starts
  | step {S a T : Nat} (h : Reached d S) (h' : (a, T) ∈ d.narcs S) : Reached d T

/-- What holds while the queue is worked off. -/
structure Exploring (d : Dag) (queue seen : List Nat) (fsa : List (Nat × List (Nat × Nat))) : Prop where
  sorted : fsa.Pairwise fun x y => x.1 < y.1
  arcs : ∀ e ∈ fsa, e.2 = d.narcs e.1
  queued : ∀ S ∈ queue, Reached d S
  reached : ∀ e ∈ fsa, Reached d e.1
  nodup : seen.Nodup
  small : ∀ S ∈ seen, S < 2 ^ d.rows.length
  have_ : ∀ S ∈ d.starts :: seen, S ∈ queue ∨ ∃ e ∈ fsa, e.1 = S
  closed : ∀ e ∈ fsa, ∀ a T, (a, T) ∈ e.2 → T ∈ seen

theorem nodup_bound {l : List Nat} {N : Nat} (h : l.Nodup) (hb : ∀ x ∈ l, x < N) : l.length ≤ N := by
  have : l.Subperm (List.range N) := h.subperm fun x hx => List.mem_range.2 (hb x hx)
  simpa using this.length_le

theorem explore_spec {d : Dag} (hv : Valid d) (fuel : Nat) (queue seen : List Nat)
    (fsa : List (Nat × List (Nat × Nat))) (h : Exploring d queue seen fsa)
    (hf : queue.length + (2 ^ d.rows.length - seen.length) ≤ fuel) :
    ∃ seen' fsa', d.explore fuel queue seen fsa = some fsa' ∧ Exploring d [] seen' fsa' := by
  induction fuel generalizing queue seen fsa with
  | zero =>
    have : queue = [] := List.eq_nil_of_length_eq_zero (by omega)
    subst this
    exact ⟨seen, fsa, rfl, h⟩
  | succ fuel ih =>
    cases queue with
    | nil => exact ⟨seen, fsa, rfl, h⟩
    | cons S queue =>
      unfold Dag.explore
      obtain ⟨new, h1, h2, h3, h4⟩ := pushNew_spec (d.narcs S) queue seen
      simp only [h1]
      have hn := h3 h.nodup
      have hsm : ∀ T ∈ new ++ seen, T < 2 ^ d.rows.length := by
        intro T hT
        rcases List.mem_append.1 hT with hT | hT
        · obtain ⟨a, ha⟩ := h2 T hT
          exact narcs_lt hv ha
        · exact h.small T hT
      have hlen := nodup_bound hn hsm
      have hS := h.queued S (by simp)
      apply ih
      · refine ⟨putArcs_sorted h.sorted, ?_, ?_, ?_, hn, hsm, ?_, ?_⟩
        · intro e he
          rcases (mem_putArcs h.sorted).1 he with rfl | he
          · rfl
          · exact h.arcs e he.1
        · intro T hT
          rcases List.mem_append.1 hT with hT | hT
          · obtain ⟨a, ha⟩ := h2 T hT
            exact hS.step ha
          · exact h.queued T (by simp [hT])
        · intro e he
          rcases (mem_putArcs h.sorted).1 he with rfl | he
          · exact hS
          · exact h.reached e he.1
        · intro T hT
          by_cases c : T = S
          · exact .inr ⟨(S, d.narcs S), (mem_putArcs h.sorted).2 (.inl rfl), c.symm⟩
          · have : T ∈ new ∨ T ∈ d.starts :: seen := by
              rcases List.mem_cons.1 hT with rfl | hT
              · simp
              · rcases List.mem_append.1 hT with hT | hT <;> simp [hT]
            rcases this with hT | hT
            · exact .inl (by simp [hT])
            · rcases h.have_ T hT with h5 | ⟨e, he, h5⟩
              · rcases List.mem_cons.1 h5 with h5 | h5
                · exact absurd h5 c
                · exact .inl (by simp [h5])
              · exact .inr ⟨e, (mem_putArcs h.sorted).2 (.inr ⟨he, h5 ▸ c⟩), h5⟩
        · intro e he a T hT
          rcases (mem_putArcs h.sorted).1 he with rfl | he
          · exact h4 a T hT
          · exact List.mem_append.2 (.inr (h.closed e he.1 a T hT))
      · simp only [List.length_append, List.length_cons] at hlen hf ⊢
        omega

/-- What the first part gives. -/
structure Explored (d : Dag) (fsa : List (Nat × List (Nat × Nat))) : Prop where
  sorted : fsa.Pairwise fun x y => x.1 < y.1
  arcs : ∀ e ∈ fsa, e.2 = d.narcs e.1
  reached : ∀ e ∈ fsa, Reached d e.1
  start : ∃ e ∈ fsa, e.1 = d.starts
  closed : ∀ e ∈ fsa, ∀ a T, (a, T) ∈ e.2 → ∃ f ∈ fsa, f.1 = T

theorem explored {d : Dag} (hv : Valid d) :
    ∃ fsa, d.explore (2 ^ d.rows.length + 1) [d.starts] [] [] = some fsa ∧ Explored d fsa := by
  have h0 : Exploring d [d.starts] [] [] :=
    ⟨by simp, by simp, by simpa using Reached.start, by simp, by simp, by simp, by simp, by simp⟩
  obtain ⟨seen, fsa, h1, h2⟩ := explore_spec hv (2 ^ d.rows.length + 1) _ _ _ h0 (by simp; omega)
  refine ⟨fsa, h1, h2.sorted, h2.arcs, h2.reached, ?_, fun e he a T hT => ?_⟩
  · simpa using h2.have_ d.starts (by simp)
  · simpa using h2.have_ T (by simp [h2.closed e he a T hT])

/-! ## The building of the new automaton -/

/-- What holds while the automaton is built: `G` are the arcs added, `F` the sets made final. -/
structure Building (b : Build) (R : Nat → Prop) (G : Nat → Nat → Nat → Prop) (F : Nat → Prop)
    (start : Nat) : Prop where
  nodup : b.mapper.Nodup
  length : b.mapper.length = b.dag.rows.length
  first : b.mapper[0]? = some start
  starts : b.dag.starts = 1
  all : ∀ S ∈ b.mapper, R S
  source : ∀ S a T, G S a T → S ∈ b.mapper ∧ T ∈ b.mapper
  arcs : ∀ i x, x ∈ b.dag.row i ↔
    ∃ S T, b.mapper[i]? = some S ∧ b.mapper[x.q]? = some T ∧ G S x.a T ∧ x.w = 0
  distinct : ∀ i, (b.dag.row i).Pairwise fun x y => x.a ≠ y.a
  sorted : Sorted b.dag
  final : ∀ S, F S → S ∈ b.mapper
  ends : ∀ i, i ∈ b.dag.ends ↔ ∃ S, b.mapper[i]? = some S ∧ F S

section
variable {b : Build} {R : Nat → Prop} {G : Nat → Nat → Nat → Prop} {F : Nat → Prop} {start : Nat}

theorem idxOf?_spec {l : List Nat} {S : Nat} :
    (∃ i, l.idxOf? S = some i ∧ l[i]? = some S) ∨ (l.idxOf? S = none ∧ S ∉ l) := by
  cases h : l.idxOf? S with
  | none => exact .inr ⟨rfl, by simpa using h⟩
  | some i =>
    refine .inl ⟨i, rfl, ?_⟩
    rw [List.idxOf?, List.findIdx?_eq_some_iff_getElem] at h
    obtain ⟨hi, h1, _⟩ := h
    rw [List.getElem?_eq_getElem hi]
    simpa using h1

theorem Building.congr (h : Building b R G F start) {G' : Nat → Nat → Nat → Prop} {F' : Nat → Prop}
    (hG : ∀ S a T, G S a T ↔ G' S a T) (hF : ∀ S, F S ↔ F' S) : Building b R G' F' start := by
  have e1 : G = G' := by funext S a T; exact propext (hG S a T)
  have e2 : F = F' := by funext S; exact propext (hF S)
  subst e1 e2; exact h

theorem Building.state (h : Building b R G F start) {S : Nat} (hS : R S) :
    Building (b.state S).2 R G F start ∧ (b.state S).2.mapper[(b.state S).1]? = some S := by
  unfold Build.state
  rcases idxOf?_spec (l := b.mapper) (S := S) with ⟨i, h1, h2⟩ | ⟨h1, h2⟩
  · rw [h1]; exact ⟨h, h2⟩
  · rw [h1]
    have old : ∀ (i T : Nat), b.mapper[i]? = some T → (b.mapper ++ [S])[i]? = some T := by
      intro i T hi
      rw [List.getElem?_append_left (List.getElem?_eq_some_iff.1 hi).1]; exact hi
    have new : ∀ (i T : Nat), (b.mapper ++ [S])[i]? = some T → b.mapper[i]? = some T ∨ T = S := by
      intro i T hi
      rcases Nat.lt_or_ge i b.mapper.length with c | c
      · rw [List.getElem?_append_left c] at hi; exact .inl hi
      · rw [List.getElem?_append_right c] at hi
        have := List.mem_of_getElem? hi
        simp at this; exact .inr this
    refine ⟨⟨?_, ?_, ?_, ?_, ?_, ?_, ?_, ?_, ?_, ?_, ?_⟩, ?_⟩
    · simp only [List.nodup_append, h.nodup, List.nodup_cons, List.not_mem_nil, not_false_eq_true,
        List.nodup_nil, true_and, and_self, List.mem_singleton]
      rintro a ha _ rfl rfl
      exact h2 ha
    · simp [h.length]
    · exact old _ _ h.first
    · simpa [Dag.newState] using h.starts
    · intro T hT
      rcases List.mem_append.1 hT with hT | hT
      · exact h.all T hT
      · rw [List.mem_singleton.1 hT]; exact hS
    · intro S' a T hG
      have := h.source S' a T hG
      simp [this]
    · intro i x
      simp only [newState_row]
      rw [h.arcs]
      constructor
      · rintro ⟨S', T, h3, h4, h5⟩
        exact ⟨S', T, old _ _ h3, old _ _ h4, h5⟩
      · rintro ⟨S', T, h3, h4, h5⟩
        have hm := h.source _ _ _ h5.1
        refine ⟨S', T, ?_, ?_, h5⟩
        · rcases new _ _ h3 with h3 | rfl
          · exact h3
          · exact absurd hm.1 h2
        · rcases new _ _ h4 with h4 | rfl
          · exact h4
          · exact absurd hm.2 h2
    · intro i
      simp only [newState_row]; exact h.distinct i
    · intro i
      simp only [newState_row]; exact h.sorted i
    · intro T hT
      simp [h.final T hT]
    · intro i
      simp only [newState_ends]
      rw [h.ends]
      constructor
      · rintro ⟨S', h3, h4⟩
        exact ⟨S', old _ _ h3, h4⟩
      · rintro ⟨S', h3, h4⟩
        rcases new _ _ h3 with h3 | rfl
        · exact ⟨S', h3, h4⟩
        · exact absurd (h.final _ h4) h2
    · simp only
      rw [← h.length, List.getElem?_append_right (Nat.le_refl _)]
      simp

theorem state_keeps (b : Build) (S i T : Nat) (h : b.mapper[i]? = some T) :
    (b.state S).2.mapper[i]? = some T := by
  unfold Build.state
  split
  · exact h
  · simp only
    rw [List.getElem?_append_left (List.getElem?_eq_some_iff.1 h).1]; exact h

theorem Building.arc (h : Building b R G F start) {s S a T : Nat} (hs : b.mapper[s]? = some S)
    (hT : R T) (hnew : ∀ U, ¬ G S a U) :
    Building (Build.addArc s b (a, T)) R (fun S' a' T' => G S' a' T' ∨ (S' = S ∧ a' = a ∧ T' = T)) F
      start ∧ ∀ i U : Nat, b.mapper[i]? = some U → (Build.addArc s b (a, T)).mapper[i]? = some U := by
  unfold Build.addArc
  obtain ⟨h1, h2⟩ := h.state hT
  have keep := state_keeps b T
  generalize b.state T = r at h1 h2 keep
  obtain ⟨t, c⟩ := r
  simp only at h1 h2 keep ⊢
  have hs' := keep s S hs
  have inj : ∀ {i j U : Nat}, c.mapper[i]? = some U → c.mapper[j]? = some U → i = j := by
    intro i j U hi hj
    obtain ⟨hi', e1⟩ := List.getElem?_eq_some_iff.1 hi
    obtain ⟨hj', e2⟩ := List.getElem?_eq_some_iff.1 hj
    exact (List.Nodup.getElem_inj_iff h1.nodup).1 (e1.trans e2.symm)
  have hlt : s < c.dag.rows.length := by
    rw [← h1.length]; exact (List.getElem?_eq_some_iff.1 hs').1
  refine ⟨⟨h1.nodup, by simp [h1.length], h1.first, by simp [h1.starts], h1.all, ?_, ?_, ?_,
    newArc_sorted h1.sorted _ _ _ _, h1.final, by simpa using h1.ends⟩, keep⟩
  · rintro S' a' T' (h3 | ⟨rfl, rfl, rfl⟩)
    · exact h1.source _ _ _ h3
    · exact ⟨List.mem_of_getElem? hs', List.mem_of_getElem? h2⟩
  · intro i x
    simp only [mem_newArc]
    rw [h1.arcs]
    constructor
    · rintro (⟨S', T', h3, h4, h5, h6⟩ | ⟨rfl, _, rfl⟩)
      · exact ⟨S', T', h3, h4, .inl h5, h6⟩
      · exact ⟨S, T, hs', h2, .inr ⟨rfl, rfl, rfl⟩, rfl⟩
    · rintro ⟨S', T', h3, h4, h5 | ⟨rfl, h5, rfl⟩, h6⟩
      · exact .inl ⟨S', T', h3, h4, h5, h6⟩
      · refine .inr ⟨inj h3 hs', hlt, ?_⟩
        obtain ⟨xa, xq, xw⟩ := x
        simp only at h4 h5 h6
        rw [h5, h6, inj h4 h2]
  · intro i
    simp only [newArc_row _ _ _ _ _ _ hlt]
    split
    next e =>
      haveI : Std.Symm (fun x y : Arc => x.a ≠ y.a) := ⟨fun _ _ => Ne.symm⟩
      rw [(insertArc_perm _ _).pairwise_iff (fun h => Ne.symm h), List.pairwise_cons]
      refine ⟨fun y hy => ?_, h1.distinct s⟩
      obtain ⟨S', T', h3, h4, h5, h6⟩ := (h1.arcs s y).1 hy
      intro e'
      rw [hs'] at h3
      cases h3
      exact hnew T' ((show a = y.a from e') ▸ h5)
    next e => exact h1.distinct i

theorem Building.arcs_ (h : Building b R G F start) {s S : Nat} (arcs : List (Nat × Nat))
    (hs : b.mapper[s]? = some S) (hT : ∀ x ∈ arcs, R x.2) (hd : arcs.Pairwise fun x y => x.1 ≠ y.1)
    (hnew : ∀ x ∈ arcs, ∀ U, ¬ G S x.1 U) :
    Building (arcs.foldl (Build.addArc s) b) R
      (fun S' a' T' => G S' a' T' ∨ (S' = S ∧ (a', T') ∈ arcs)) F start := by
  induction arcs generalizing b G with
  | nil => simpa using h
  | cons x arcs ih =>
    obtain ⟨a, T⟩ := x
    rw [List.pairwise_cons] at hd
    obtain ⟨h1, h2⟩ := h.arc hs (hT (a, T) (by simp)) (hnew (a, T) (by simp))
    have := ih h1 (h2 _ _ hs) (fun x hx => hT x (by simp [hx])) hd.2 (by
      rintro y hy U (h3 | ⟨_, h3, _⟩)
      · exact hnew y (by simp [hy]) U h3
      · exact hd.1 y hy h3.symm)
    rw [List.foldl_cons]
    refine this.congr (fun S' a' T' => ?_) (fun _ => Iff.rfl)
    simp only [List.mem_cons, Prod.mk.injEq]
    constructor
    · rintro ((h | ⟨rfl, rfl, rfl⟩) | ⟨rfl, h⟩)
      · exact .inl h
      · exact .inr ⟨rfl, .inl ⟨rfl, rfl⟩⟩
      · exact .inr ⟨rfl, .inr h⟩
    · rintro (h | ⟨rfl, ⟨rfl, rfl⟩ | h⟩)
      · exact .inl (.inl h)
      · exact .inl (.inr ⟨rfl, rfl, rfl⟩)
      · exact .inr ⟨rfl, h⟩

theorem Building.finals (h : Building b R G F start) (d : Dag) {s S : Nat} (ss : List Nat)
    (hs : b.mapper[s]? = some S) :
    let c := ss.foldl (fun b i => if d.isEnd i then { b with dag := b.dag.setEnd s } else b) b
    Building c R G (fun T => F T ∨ (T = S ∧ ∃ i ∈ ss, i ∈ d.ends)) start ∧ c.mapper = b.mapper := by
  induction ss generalizing b F with
  | nil => simpa using h
  | cons i ss ih =>
    simp only [List.foldl_cons]
    by_cases c : d.isEnd i = true
    · rw [if_pos c]
      have h1 : Building { b with dag := b.dag.setEnd s } R G (fun T => F T ∨ T = S) start := by
        refine ⟨h.nodup, by simpa using h.length, h.first, by simpa using h.starts, h.all, h.source,
          by simpa using h.arcs, by simpa using h.distinct, ?_, ?_, ?_⟩
        · intro p; simpa using h.sorted p
        · rintro T (hT | rfl)
          · exact h.final T hT
          · exact List.mem_of_getElem? hs
        · intro j
          simp only [mem_setEnd]
          rw [h.ends]
          constructor
          · rintro (⟨S', h1, h2⟩ | rfl)
            · exact ⟨S', h1, .inl h2⟩
            · exact ⟨S, hs, .inr rfl⟩
          · rintro ⟨S', h1, h2 | rfl⟩
            · exact .inl ⟨S', h1, h2⟩
            · obtain ⟨hi', e1⟩ := List.getElem?_eq_some_iff.1 h1
              obtain ⟨hj', e2⟩ := List.getElem?_eq_some_iff.1 hs
              exact .inr ((List.Nodup.getElem_inj_iff h.nodup).1 (e1.trans e2.symm))
      have := ih h1 hs
      refine ⟨this.1.congr (fun _ _ _ => Iff.rfl) (fun T => ?_), this.2⟩
      simp only [List.mem_cons, exists_eq_or_imp]
      have hi := isEnd_iff.1 c
      constructor
      · rintro ((h | rfl) | ⟨rfl, h⟩)
        · exact .inl h
        · exact .inr ⟨rfl, .inl hi⟩
        · exact .inr ⟨rfl, .inr h⟩
      · rintro (h | ⟨rfl, h⟩)
        · exact .inl (.inl h)
        · exact .inl (.inr rfl)
    · rw [if_neg c]
      have := ih h hs
      refine ⟨this.1.congr (fun _ _ _ => Iff.rfl) (fun T => ?_), this.2⟩
      have c' : i ∉ d.ends := fun h => c (isEnd_iff.2 h)
      simp only [List.mem_cons, exists_eq_or_imp, c', false_or]

end

theorem addSets {d : Dag} {R : Nat → Prop} (fsa : List (Nat × List (Nat × Nat))) {b : Build}
    {G : Nat → Nat → Nat → Prop} {F : Nat → Prop} {start : Nat} (h : Building b R G F start)
    (hs : fsa.Pairwise fun x y => x.1 < y.1) (hR : ∀ e ∈ fsa, R e.1 ∧ ∀ x ∈ e.2, R x.2)
    (hd : ∀ e ∈ fsa, e.2.Pairwise fun x y => x.1 ≠ y.1)
    (hnew : ∀ e ∈ fsa, ∀ a U, ¬ G e.1 a U) :
    Building (fsa.foldl d.addSet b) R
      (fun S a T => G S a T ∨ ∃ arcs, (S, arcs) ∈ fsa ∧ (a, T) ∈ arcs)
      (fun S => F S ∨ ((∃ arcs, (S, arcs) ∈ fsa) ∧ ∃ i ∈ bits d.rows.length S, i ∈ d.ends)) start := by
  induction fsa generalizing b G F with
  | nil => simpa using h
  | cons e fsa ih =>
    obtain ⟨S, arcs⟩ := e
    rw [List.pairwise_cons] at hs
    have hRe := hR (S, arcs) (by simp)
    obtain ⟨h1, h2⟩ := h.state hRe.1
    obtain ⟨h3, h4⟩ := h1.finals d (bits d.rows.length S) h2
    have h5 := h3.arcs_ arcs (by rw [h4]; exact h2) hRe.2 (hd (S, arcs) (by simp))
      (fun x _ U => hnew (S, arcs) (by simp) x.1 U)
    rw [List.foldl_cons]
    have h6 := ih (b := d.addSet b (S, arcs)) h5 hs.2 (fun e he => hR e (by simp [he]))
      (fun e he => hd e (by simp [he])) (by
        rintro e he a U (h7 | ⟨h7, _⟩)
        · exact hnew e (by simp [he]) a U h7
        · have := hs.1 e he
          simp at this; omega)
    have e1 : (fun S' a T => (G S' a T ∨ (S' = S ∧ (a, T) ∈ arcs)) ∨
        ∃ arcs, (S', arcs) ∈ fsa ∧ (a, T) ∈ arcs) =
        fun S' a T => G S' a T ∨ ∃ arcs', (S', arcs') ∈ (S, arcs) :: fsa ∧ (a, T) ∈ arcs' := by
      funext S' a T
      apply propext
      simp only [List.mem_cons, Prod.mk.injEq]
      constructor
      · rintro ((h | ⟨rfl, h⟩) | ⟨x, h⟩)
        · exact .inl h
        · exact .inr ⟨arcs, .inl ⟨rfl, rfl⟩, h⟩
        · exact .inr ⟨x, .inr h.1, h.2⟩
      · rintro (h | ⟨x, ⟨rfl, rfl⟩ | h, h'⟩)
        · exact .inl (.inl h)
        · exact .inl (.inr ⟨rfl, h'⟩)
        · exact .inr ⟨x, h, h'⟩
    have e2 : (fun T => (F T ∨ (T = S ∧ ∃ i ∈ bits d.rows.length S, i ∈ d.ends)) ∨
        ((∃ arcs, (T, arcs) ∈ fsa) ∧ ∃ i ∈ bits d.rows.length T, i ∈ d.ends)) =
        fun T => F T ∨ ((∃ arcs', (T, arcs') ∈ (S, arcs) :: fsa) ∧
          ∃ i ∈ bits d.rows.length T, i ∈ d.ends) := by
      funext T
      apply propext
      simp only [List.mem_cons, Prod.mk.injEq]
      constructor
      · rintro ((h | ⟨rfl, h⟩) | ⟨⟨x, h⟩, h'⟩)
        · exact .inl h
        · exact .inr ⟨⟨arcs, .inl ⟨rfl, rfl⟩⟩, h⟩
        · exact .inr ⟨⟨x, .inr h⟩, h'⟩
      · rintro (h | ⟨⟨x, ⟨rfl, rfl⟩ | h⟩, h'⟩)
        · exact .inl (.inl h)
        · exact .inl (.inr ⟨rfl, h'⟩)
        · exact .inr ⟨⟨x, h⟩, h'⟩
    rw [e1, e2] at h6
    exact h6

/-- What the determinization gives: a state for every set that can be reached. -/
structure Powerset (d e : Dag) (L : List Nat) : Prop where
  nodup : L.Nodup
  length : L.length = e.rows.length
  first : L[0]? = some d.starts
  starts : e.starts = 1
  reached : ∀ S ∈ L, Reached d S
  arcs : ∀ i x, x ∈ e.row i ↔
    ∃ S T, L[i]? = some S ∧ L[x.q]? = some T ∧ (x.a, T) ∈ d.narcs S ∧ x.w = 0
  closed : ∀ S ∈ L, ∀ a T, (a, T) ∈ d.narcs S → T ∈ L
  distinct : ∀ i, (e.row i).Pairwise fun x y => x.a ≠ y.a
  sorted : Sorted e
  ends : ∀ i, i ∈ e.ends ↔ ∃ S, L[i]? = some S ∧ ∃ s, S.testBit s = true ∧ s ∈ d.ends

theorem determinize_spec {d : Dag} (hv : Valid d) :
    ∃ e L, d.determinize = some e ∧ Powerset d e L := by
  obtain ⟨fsa, h1, h2⟩ := explored hv
  have h0 : Building { dag := Dag.newState {} true, mapper := [d.starts] }
      (fun S => ∃ e ∈ fsa, e.1 = S) (fun _ _ _ => False) (fun _ => False) d.starts := by
    refine ⟨by simp, by simp, rfl, rfl, ?_, by simp, ?_, ?_, ?_, by simp, ?_⟩
    · simpa using h2.start
    · intro i x; simp only [newState_row]; simp [Dag.row]
    · intro i; simp only [newState_row]; simp [Dag.row]
    · intro i; simp only [newState_row]; simp [Dag.row]
    · intro i; simp
  have h3 := addSets (d := d) fsa h0 h2.sorted
    (fun e he => ⟨⟨e, he, rfl⟩, fun x hx => h2.closed e he x.1 x.2 hx⟩)
    (fun e he => by
      rw [h2.arcs e he]
      exact (narcs_spec d e.1).sorted.imp fun h => by omega)
    (by simp)
  refine ⟨_, _, by unfold Dag.determinize; rw [h1]; rfl, h3.nodup, h3.length, h3.first, h3.starts,
    ?_, ?_, ?_, h3.distinct, h3.sorted, ?_⟩
  · intro S hS
    obtain ⟨e, he, rfl⟩ := h3.all S hS
    exact h2.reached e he
  · intro i x
    rw [h3.arcs]
    constructor
    · rintro ⟨S, T, g1, g2, (g3 | ⟨arcs, g3, g4⟩), g5⟩
      · exact g3.elim
      · have := h2.arcs _ g3
        simp only at this
        exact ⟨S, T, g1, g2, this ▸ g4, g5⟩
    · rintro ⟨S, T, g1, g2, g3, g5⟩
      obtain ⟨e, he, rfl⟩ := h3.all S (List.mem_of_getElem? g1)
      exact ⟨_, T, g1, g2, .inr ⟨e.2, he, (h2.arcs e he).symm ▸ g3⟩, g5⟩
  · intro S hS a T hT
    obtain ⟨e, he, rfl⟩ := h3.all S hS
    exact (h3.source e.1 a T (.inr ⟨e.2, he, (h2.arcs e he).symm ▸ hT⟩)).2
  · intro i
    rw [h3.ends]
    constructor
    · rintro ⟨S, g1, (g2 | ⟨_, s, g2, g3⟩)⟩
      · exact g2.elim
      · exact ⟨S, g1, s, (mem_bits.1 g2).2, g3⟩
    · rintro ⟨S, g1, s, g2, g3⟩
      obtain ⟨e, he, rfl⟩ := h3.all S (List.mem_of_getElem? g1)
      exact ⟨_, g1, .inr ⟨⟨e.2, he⟩, s, mem_bits.2 ⟨hv.ends s g3, g2⟩, g3⟩⟩

end Verif.Dag
