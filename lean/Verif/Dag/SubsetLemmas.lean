import Verif.Dag.ProductLemmas
import Verif.Dag.Union
import Mathlib.Data.Finset.Sort
import Mathlib.Data.Finset.Card
import Mathlib.Tactic.Ring
import Mathlib.Tactic.Positivity
import Mathlib.Tactic.Linarith

/-! # The subsets and the automata of the rules of limited length -/

namespace Verif.Dag

/-! ## Subsets -/

/-- A subset of `1`, …, `n` with `k` elements, as a sorted list. -/
structure IsSub (k n : Nat) (c : List Int) : Prop where
  length : c.length = k
  sorted : c.Pairwise (· < ·)
  range : ∀ x ∈ c, 1 ≤ x ∧ x ≤ n

/-- The lexicographic order. -/
def Before : List Int → List Int → Prop
  | x :: l, y :: m => x < y ∨ x = y ∧ Before l m
  | _, _ => False

theorem before_trans {a b c : List Int} (h : Before a b) (h' : Before b c) : Before a c := by
  induction a generalizing b c with
  | nil => simp [Before] at h
  | cons x a ih =>
    cases b with
    | nil => simp [Before] at h
    | cons y b =>
      cases c with
      | nil => simp [Before] at h'
      | cons z c =>
        rcases h with h | ⟨rfl, h⟩ <;> rcases h' with h' | ⟨rfl, h'⟩
        · exact .inl (by omega)
        · exact .inl h
        · exact .inl h'
        · exact .inr ⟨rfl, ih h h'⟩

/-- `z`, `z + 1`, … -/
def run (z : Int) : Nat → List Int
  | 0 => []
  | k + 1 => z :: run (z + 1) k

theorem length_run (z : Int) (k : Nat) : (run z k).length = k := by
  induction k generalizing z with
  | zero => rfl
  | succ k ih => simp [run, ih]

theorem mem_run {z x : Int} {k : Nat} : x ∈ run z k ↔ z ≤ x ∧ x < z + k := by
  induction k generalizing z with
  | zero => simp [run]
  | succ k ih =>
    simp only [run, List.mem_cons, ih]
    push_cast
    omega

theorem run_sorted (z : Int) (k : Nat) : (run z k).Pairwise (· < ·) := by
  induction k generalizing z with
  | zero => simp [run]
  | succ k ih =>
    rw [run, List.pairwise_cons]
    exact ⟨fun x hx => by have := (mem_run.1 hx).1; omega, ih _⟩

theorem run_append (z : Int) (i j : Nat) : run z (i + j) = run z i ++ run (z + i) j := by
  induction i generalizing z with
  | zero => simp [run]
  | succ i ih =>
    rw [show i + 1 + j = (i + j) + 1 by omega, run, run, ih]
    simp only [List.cons_append]
    congr 2
    push_cast
    congr 1
    omega

theorem fill_spec (m : Int) (cnt : Nat) (pre old : List Int) (j : Int) (h : old.length = cnt) :
    fill m cnt pre.length j (pre ++ old) = pre ++ run (m + j) cnt := by
  induction cnt generalizing pre old j with
  | zero =>
    rw [List.length_eq_zero_iff] at h
    subst h
    simp [fill, run]
  | succ cnt ih =>
    cases old with
    | nil => simp at h
    | cons y old =>
      unfold fill
      have e : (pre ++ y :: old).set pre.length (m + j) = (pre ++ [m + j]) ++ old := by
        rw [List.set_append_right _ _ (Nat.le_refl _)]
        simp
      rw [e]
      have := ih (pre ++ [m + j]) old (j + 1) (by simpa using h)
      rw [List.length_append, List.length_singleton] at this
      rw [this, run]
      simp [Int.add_assoc]

/-- The least one. -/
theorem run_least (z : Int) (c : List Int) (hs : c.Pairwise (· < ·)) (hz : ∀ x ∈ c, z ≤ x) :
    run z c.length = c ∨ Before (run z c.length) c := by
  induction c generalizing z with
  | nil => exact .inl rfl
  | cons y c ih =>
    rw [List.pairwise_cons] at hs
    simp only [List.length_cons, run, Before]
    have hy := hz y (by simp)
    rcases Int.lt_or_eq_of_le hy with h | h
    · exact .inr (.inl h)
    · subst h
      rcases ih (z + 1) hs.2 (fun x hx => by have := hs.1 x hx; omega) with h | h
      · exact .inl (by rw [h])
      · exact .inr (.inr ⟨rfl, h⟩)

theorem head_bound {n x : Int} {c : List Int} (hs : (x :: c).Pairwise (· < ·))
    (hn : ∀ y ∈ x :: c, y ≤ n) : x + c.length ≤ n := by
  induction c generalizing x with
  | nil => simpa using hn x (by simp)
  | cons y c ih =>
    rw [List.pairwise_cons] at hs
    have h1 := ih hs.2 fun z hz => hn z (by simp [List.mem_cons.1 hz])
    have h2 := hs.1 y (by simp)
    simp only [List.length_cons]
    push_cast
    omega

/-- The greatest one. -/
theorem none_after {n : Int} (a c : List Int) (ha : a.Pairwise (· < ·)) (hc : c.Pairwise (· < ·))
    (hn : ∀ y ∈ c, y ≤ n) (h0 : ∀ x, a.head? = some x → n - c.length + 1 ≤ x) : ¬ Before a c := by
  induction a generalizing c with
  | nil => simp [Before]
  | cons x a ih =>
    cases c with
    | nil => simp [Before]
    | cons y c =>
      have hb := head_bound hc hn
      have hx := h0 x rfl
      simp only [List.length_cons] at hx
      push_cast at hx
      rw [List.pairwise_cons] at ha hc
      rintro (h | ⟨rfl, h⟩)
      · omega
      · refine ih c ha.2 hc.2 (fun y hy => hn y (by simp [hy])) ?_ h
        intro z hz
        have := ha.1 z (List.mem_of_mem_head? hz)
        omega

/-- Nothing lies between a list and the next one. -/
theorem next_least {n : Int} (P : List Int) (y : Int) (h : Nat) (c : List Int)
    (hl : c.length = P.length + 1 + h) (hc : c.Pairwise (· < ·)) (hn : ∀ x ∈ c, x ≤ n)
    (hb : Before (P ++ y :: run (n - h + 1) h) c) :
    P ++ run (y + 1) (h + 1) = c ∨ Before (P ++ run (y + 1) (h + 1)) c := by
  induction P generalizing c with
  | nil =>
    cases c with
    | nil => simp at hl; omega
    | cons z c =>
      have hlen : c.length = h := by simp at hl; omega
      simp only [List.nil_append, Before] at hb ⊢
      have hc' := List.pairwise_cons.1 hc
      rcases hb with hb | ⟨rfl, hb⟩
      · have := run_least (y + 1) (z :: c) hc (by
          intro x hx
          rcases List.mem_cons.1 hx with rfl | hx
          · omega
          · have := hc'.1 x hx; omega)
        rw [List.length_cons, hlen] at this
        exact this
      · exfalso
        refine none_after _ c (run_sorted _ _) hc'.2 (fun x hx => hn x (by simp [hx])) ?_ hb
        intro x hx
        have := (mem_run.1 (List.mem_of_mem_head? hx)).1
        rw [hlen]; exact this
  | cons p P ih =>
    cases c with
    | nil => simp [Before] at hb
    | cons z c =>
      simp only [List.cons_append, Before] at hb ⊢
      rcases hb with hb | ⟨rfl, hb⟩
      · exact .inr (.inl hb)
      · rcases ih c (by simp at hl ⊢; omega) (List.pairwise_cons.1 hc).2
          (fun x hx => hn x (by simp [hx])) hb with h | h
        · exact .inl (by rw [h])
        · exact .inr (.inr ⟨rfl, h⟩)

theorem before_next (P : List Int) (y : Int) (h : Nat) (t : List Int) :
    Before (P ++ y :: t) (P ++ run (y + 1) (h + 1)) := by
  induction P with
  | nil => simp only [List.nil_append, run, Before]; left; omega
  | cons p P ih => exact .inr ⟨rfl, ih⟩

/-- The number that the list is in the base `B`. -/
def val (B : Nat) : List Int → Int
  | [] => 0
  | x :: l => x * (B : Int) ^ l.length + val B l

theorem val_bound (B : Nat) (l : List Int) (h : ∀ x ∈ l, 0 ≤ x ∧ x < B) :
    0 ≤ val B l ∧ val B l < (B : Int) ^ l.length := by
  induction l with
  | nil => simp [val]
  | cons x l ih =>
    obtain ⟨h1, h2⟩ := ih fun y hy => h y (by simp [hy])
    obtain ⟨h3, h4⟩ := h x (by simp)
    have hp : (0 : Int) ≤ (B : Int) ^ l.length := by positivity
    simp only [val, List.length_cons, pow_succ]
    refine ⟨by positivity, ?_⟩
    nlinarith

theorem val_lt (B : Nat) (a c : List Int) (hl : a.length = c.length) (ha : ∀ x ∈ a, 0 ≤ x ∧ x < B)
    (hc : ∀ x ∈ c, 0 ≤ x ∧ x < B) (hb : Before a c) : val B a < val B c := by
  induction a generalizing c with
  | nil => simp [Before] at hb
  | cons x a ih =>
    cases c with
    | nil => simp at hl
    | cons y c =>
      simp only [List.length_cons, Nat.add_right_cancel_iff] at hl
      simp only [val]
      have b1 := val_bound B a fun z hz => ha z (by simp [hz])
      have b2 := val_bound B c fun z hz => hc z (by simp [hz])
      rcases hb with hb | ⟨rfl, hb⟩
      · rw [hl] at b1 ⊢
        nlinarith [b1.2, b2.1, hb]
      · have := ih c hl (fun z hz => ha z (by simp [hz])) (fun z hz => hc z (by simp [hz])) hb
        rw [hl]; omega

/-- What is known between the calls of `nextksb`. -/
def Listed (k n : Nat) (s : Subset) : Prop :=
  ∃ (P : List Int) (h : Nat), s.h = (h : Int) ∧ 1 ≤ h ∧ s.a = P ++ run (s.m + 1) h ∧ P.length + h = k ∧
    P.Pairwise (· < ·) ∧ (∀ x ∈ P, 1 ≤ x ∧ x < s.m) ∧ 0 ≤ s.m ∧ s.m + h ≤ n

theorem Listed.isSub {k n : Nat} {s : Subset} (h : Listed k n s) : IsSub k n s.a := by
  obtain ⟨P, h, h1, h2, h3, h4, h5, h6, h7, h8⟩ := h
  rw [h3]
  refine ⟨by simp [length_run, h4], ?_, ?_⟩
  · rw [List.pairwise_append]
    refine ⟨h5, run_sorted _ _, fun x hx y hy => ?_⟩
    have := (h6 x hx).2
    have := (mem_run.1 hy).1
    omega
  · intro x hx
    rcases List.mem_append.1 hx with hx | hx
    · have := h6 x hx
      omega
    · have := mem_run.1 hx
      omega

theorem nextksb_first {k n : Nat} (hk : 1 ≤ k) (hn : k ≤ n) :
    ∃ s, nextksb {} k n = some (some s) ∧ Listed k n s ∧
      ∀ c, IsSub k n c → s.a = c ∨ Before s.a c := by
  have hlen : (({} : Subset).a.length ≠ k) = True := by
    simp only [List.length_nil, ne_eq, eq_iff_iff, iff_true]; omega
  have hf : fill 0 k 0 1 (List.replicate k 0) = run 1 k := by
    have := fill_spec 0 k [] (List.replicate k 0) 1 (by simp)
    simpa using this
  refine ⟨⟨run 1 k, k, 0⟩, ?_, ?_, ?_⟩
  · unfold nextksb
    rw [if_neg (by omega)]
    simp only [hlen, decide_true, if_true, hf]
    rw [if_neg]
    obtain ⟨k', rfl⟩ : ∃ k', k = k' + 1 := ⟨k - 1, by omega⟩
    simp only [List.replicate_succ, List.head?_cons, Option.some.injEq]
    push_cast
    omega
  · exact ⟨[], k, rfl, hk, by simp, by simp, by simp, by simp, by simp, by simpa using hn⟩
  · intro c hc
    have := run_least 1 c hc.sorted fun x hx => (hc.range x hx).1
    rw [hc.length] at this
    exact this

theorem nextksb_next {k n : Nat} {s : Subset} (h : Listed k n s) :
    (nextksb s k n = some none ∧ ∀ c, IsSub k n c → ¬ Before s.a c) ∨
      ∃ s', nextksb s k n = some (some s') ∧ Listed k n s' ∧ Before s.a s'.a ∧
        ∀ c, IsSub k n c → Before s.a c → s'.a = c ∨ Before s'.a c := by
  have hsub := h.isSub
  obtain ⟨P, h, h1, h2, h3, h4, h5, h6, h7, h8⟩ := h
  have hk : k ≠ 0 := by omega
  have hlen : (s.a.length ≠ k) = False := by simp [hsub.length]
  unfold nextksb
  rw [if_neg hk]
  simp only [hlen, decide_false, Bool.false_eq_true, if_false]
  by_cases c0 : s.a.head? = some ((n : Int) - k + 1)
  · left
    rw [if_pos c0]
    refine ⟨rfl, fun c hc => ?_⟩
    apply none_after s.a c hsub.sorted hc.sorted (n := n) (fun y hy => (hc.range y hy).2)
    intro x hx
    rw [c0] at hx
    cases hx
    rw [hc.length]
  · right
    rw [if_neg c0]
    by_cases c1 : s.m < (n : Int) - s.h
    · -- the last element grows
      simp only [c1, if_true]
      rw [if_pos (by omega)]
      obtain ⟨h', rfl⟩ : ∃ h', h = h' + 1 := ⟨h - 1, by omega⟩
      have ea : s.a = (P ++ run (s.m + 1) h') ++ (s.m + 1 + h') :: [] := by
        rw [h3, run_append]; simp [run]
      have hPl : (P ++ run (s.m + 1) h').length = k - 1 := by simp [length_run]; omega
      have hget : s.a[k - ((0 : Int) + 1).toNat]? = some (s.m + 1 + h') := by
        rw [ea, show k - ((0 : Int) + 1).toNat = (P ++ run (s.m + 1) h').length by rw [hPl]; rfl]
        simp
      rw [hget]
      have hfill : fill (s.m + 1 + h') ((0 : Int) + 1).toNat (k - ((0 : Int) + 1).toNat) 1 s.a =
          (P ++ run (s.m + 1) h') ++ run (s.m + 1 + h' + 1) 1 := by
        have := fill_spec (s.m + 1 + h') 1 (P ++ run (s.m + 1) h') [s.m + 1 + h'] 1 rfl
        rw [hPl] at this
        rw [← this, ← ea]
        rfl
      refine ⟨_, rfl, ?_, ?_, ?_⟩
      · refine ⟨P ++ run (s.m + 1) h', 1, rfl, by omega, hfill, by rw [hPl]; omega, ?_, ?_, ?_, ?_⟩
        · have := hsub.sorted
          rw [ea, List.pairwise_append] at this
          exact this.1
        · intro x hx
          simp only
          rcases List.mem_append.1 hx with hx | hx
          · have := h6 x hx; omega
          · have := mem_run.1 hx; omega
        · simp only; omega
        · simp only; push_cast; rw [h1] at c1; push_cast at c1; omega
      · rw [hfill, ea]
        exact before_next _ _ 0 _
      · intro c hc hb
        rw [hfill]
        refine next_least (n := n) _ _ 0 c (by rw [hPl, hc.length]; omega) hc.sorted
          (fun x hx => (hc.range x hx).2) ?_
        simp only [run]
        rw [← ea]
        exact hb
    · simp only [c1, if_false]
      have hmn : s.m + h = n := by rw [h1] at c1; omega
      have hP : P ≠ [] := by
        rintro rfl
        apply c0
        obtain ⟨h', rfl⟩ : ∃ h', h = h' + 1 := ⟨h - 1, by omega⟩
        rw [h3]
        simp only [List.nil_append, run, List.head?_cons, Option.some.injEq]
        simp at h4
        omega
      obtain ⟨Q, y, rfl⟩ : ∃ Q y, P = Q ++ [y] := ⟨P.dropLast, P.getLast hP, (List.dropLast_append_getLast hP).symm⟩
      have hy := h6 y (by simp)
      have hQ : Q.length + 1 + h = k := by simpa using h4
      have ea : s.a = Q ++ y :: run ((n : Int) - h + 1) h := by
        rw [h3, show (n : Int) - h + 1 = s.m + 1 by omega]; simp
      have htn : (s.h + 1).toNat = h + 1 := by rw [h1]; omega
      rw [if_pos (by rw [h1]; omega), htn, show k - (h + 1) = Q.length by omega]
      have hget : s.a[Q.length]? = some y := by rw [ea]; simp
      rw [hget]
      have hfill : fill y (h + 1) Q.length 1 s.a = Q ++ run (y + 1) (h + 1) := by
        rw [ea]
        exact fill_spec y (h + 1) Q _ 1 (by simp [length_run])
      refine ⟨_, rfl, ?_, ?_, ?_⟩
      · refine ⟨Q, h + 1, by simp [h1], by omega, hfill, by omega, ?_, ?_, ?_, ?_⟩
        · rw [List.pairwise_append] at h5; exact h5.1
        · intro x hx
          rw [List.pairwise_append] at h5
          exact ⟨(h6 x (by simp [hx])).1, h5.2.2 x hx y (by simp)⟩
        · simp only; omega
        · simp only; push_cast; omega
      · simp only
        rw [hfill, ea]
        exact before_next _ _ _ _
      · intro c hc hb
        simp only
        rw [hfill]
        refine next_least (n := n) Q y h c (by rw [hc.length]; omega) hc.sorted
          (fun x hx => (hc.range x hx).2) ?_
        rw [← ea]
        exact hb

/-! ## The automaton of a subset -/

/-- After some rounds of the loop. -/
structure Chain (A : List Int) (i : Nat) (d : Dag) : Prop where
  length : d.rows.length = i + 2
  starts : d.starts = 1
  arcs : ∀ p x, x ∈ d.row p ↔ (p = 0 ∧ x = ⟨1, 1, 0⟩) ∨
    ∃ j, j < i ∧ p = j + 1 ∧ x.q = j + 2 ∧ x.w = 0 ∧ (x.a = 0 ∨ x.a = 1 ∧ ((j : Int) + 1) ∈ A)
  ends : ∀ p, p ∈ d.ends ↔ 2 ≤ p ∧ p < i + 2

theorem Chain.step {A : List Int} {i : Nat} {d : Dag} (h : Chain A i d) :
    (((i : Int) + 1) ∉ A → Chain A (i + 1)
      (((d.newState false).setEnd d.rows.length).newArc (i + 1) d.rows.length 0 0)) ∧
    (((i : Int) + 1) ∈ A → Chain A (i + 1)
      ((((d.newState false).setEnd d.rows.length).newArc (i + 1) d.rows.length 0 0).newArc (i + 1)
        d.rows.length 1 0)) := by
  have hl := h.length
  constructor
  · intro hA
    refine ⟨by simp [hl], ?_, ?_, ?_⟩
    · simpa [Dag.newState] using h.starts
    · rintro p ⟨a, q, w⟩
      rw [mem_newArc]
      simp only [setEnd_row, newState_row, setEnd_rows, newState_length, h.arcs, hl, Arc.mk.injEq]
      constructor
      · rintro ((h1 | ⟨j, g1, g2, g3, g4, g5⟩) | ⟨rfl, _, rfl, rfl, rfl⟩)
        · exact .inl h1
        · exact .inr ⟨j, by omega, g2, g3, g4, g5⟩
        · exact .inr ⟨i, by omega, rfl, rfl, rfl, .inl rfl⟩
      · rintro (h1 | ⟨j, g1, g2, g3, g4, g5⟩)
        · exact .inl (.inl h1)
        · by_cases c : j = i
          · subst c
            rcases g5 with g5 | g5
            · exact .inr ⟨g2, by omega, g5, g3, g4⟩
            · exact absurd g5.2 hA
          · exact .inl (.inr ⟨j, by omega, g2, g3, g4, g5⟩)
    · intro p
      rw [newArc_ends, mem_setEnd, newState_ends, h.ends, hl]
      omega
  · intro hA
    refine ⟨by simp [hl], ?_, ?_, ?_⟩
    · simpa [Dag.newState] using h.starts
    · rintro p ⟨a, q, w⟩
      rw [mem_newArc, mem_newArc]
      simp only [setEnd_row, newState_row, setEnd_rows, newState_length, newArc_length, h.arcs, hl,
        Arc.mk.injEq]
      constructor
      · rintro (((h1 | ⟨j, g1, g2, g3, g4, g5⟩) | ⟨rfl, _, rfl, rfl, rfl⟩) | ⟨rfl, _, rfl, rfl, rfl⟩)
        · exact .inl h1
        · exact .inr ⟨j, by omega, g2, g3, g4, g5⟩
        · exact .inr ⟨i, by omega, rfl, rfl, rfl, .inl rfl⟩
        · exact .inr ⟨i, by omega, rfl, rfl, rfl, .inr ⟨rfl, hA⟩⟩
      · rintro (h1 | ⟨j, g1, g2, g3, g4, g5⟩)
        · exact .inl (.inl (.inl h1))
        · by_cases c : j = i
          · subst c
            rcases g5 with g5 | g5
            · exact .inl (.inr ⟨g2, by omega, g5, g3, g4⟩)
            · exact .inr ⟨g2, by omega, g5.1, g3, g4⟩
          · exact .inl (.inl (.inr ⟨j, by omega, g2, g3, g4, g5⟩))
    · intro p
      rw [newArc_ends, newArc_ends, mem_setEnd, newState_ends, h.ends, hl]
      omega

theorem partialLoop_spec {A : List Int} (n i : Nat) (a : List Int) (d : Dag) (h : Chain A i d)
    (hs : a.Pairwise (· < ·)) (hlo : ∀ x ∈ a, (i : Int) < x)
    (hA : ∀ x : Int, (i : Int) < x → (x ∈ A ↔ x ∈ a)) :
    Chain A (i + n) (partialLoop n i (i + 1) a d) := by
  induction n generalizing i a d with
  | zero => exact h
  | succ n ih =>
    have hp : d.rows.length = i + 1 + 1 := h.length
    unfold partialLoop
    simp only
    cases a with
    | nil =>
      have h1 := h.step.1 (by rw [hA _ (by omega)]; simp)
      have := ih (i + 1) [] _ h1 (by simp) (by simp) (fun x hx => by
        push_cast at hx; exact hA x (by omega))
      rw [← hp] at this
      rw [show i + (n + 1) = i + 1 + n by omega]
      exact this
    | cons v rest =>
      simp only
      rw [List.pairwise_cons] at hs
      by_cases c : v = (i : Int) + 1
      · rw [if_pos c]
        have h1 := h.step.2 (by rw [hA _ (by omega)]; simp [c])
        have := ih (i + 1) rest _ h1 hs.2 (fun x hx => by have := hs.1 x hx; push_cast; omega)
          (fun x hx => by
            push_cast at hx
            rw [hA x (by omega), List.mem_cons]
            constructor
            · rintro (e | e)
              · omega
              · exact e
            · exact .inr)
        rw [← hp] at this
        rw [show i + (n + 1) = i + 1 + n by omega]
        exact this
      · rw [if_neg c]
        have hv := hlo v (by simp)
        have h1 := h.step.1 (by
          rw [hA _ (by omega), List.mem_cons, not_or]
          exact ⟨fun e => c e.symm, fun e => by have := hs.1 _ e; omega⟩)
        have := ih (i + 1) (v :: rest) _ h1 (List.pairwise_cons.2 hs) (fun x hx => by
          push_cast
          rcases List.mem_cons.1 hx with rfl | hx
          · omega
          · have := hs.1 x hx; omega) (fun x hx => by push_cast at hx; exact hA x (by omega))
        rw [← hp] at this
        rw [show i + (n + 1) = i + 1 + n by omega]
        exact this

theorem partial_chain (n : Nat) (a : List Int) (hs : a.Pairwise (· < ·)) (hlo : ∀ x ∈ a, 0 < x) :
    Chain a n (partialDag n a) := by
  have h0 : Chain a 0 (((Dag.newState {} true).newState false).newArc 0 1 1 0) := by
    refine ⟨by simp, by decide, ?_, ?_⟩
    · intro p x
      rw [mem_newArc]
      simp only [newState_row, newState_length]
      simp [Dag.row]
    · intro p
      simp
  have := partialLoop_spec n 0 a _ h0 hs (by simpa using hlo) (fun x _ => Iff.rfl)
  rw [Nat.zero_add] at this
  exact this

/-- A word of the kinds 0 and 1, with 1 at the places in the list only. -/
def Fits (A : List Int) (i : Nat) (v : List Nat) : Prop :=
  ∀ j a, v[j]? = some a → a = 0 ∨ a = 1 ∧ (((i + j : Nat) : Int) + 1) ∈ A

theorem fits_cons {A : List Int} {i a : Nat} {v : List Nat} :
    Fits A i (a :: v) ↔ (a = 0 ∨ a = 1 ∧ ((i : Int) + 1) ∈ A) ∧ Fits A (i + 1) v := by
  unfold Fits
  constructor
  · intro h
    refine ⟨by simpa using h 0 a rfl, fun j b hb => ?_⟩
    have := h (j + 1) b (by simpa using hb)
    rw [show i + (j + 1) = i + 1 + j by omega] at this
    exact this
  · rintro ⟨h1, h2⟩ j b hb
    cases j with
    | zero =>
      simp only [List.getElem?_cons_zero, Option.some.injEq] at hb
      subst hb
      simpa using h1
    | succ j =>
      have := h2 j b (by simpa using hb)
      rw [show i + (j + 1) = i + 1 + j by omega]
      exact this

theorem chain_path {A : List Int} {n : Nat} {d : Dag} (h : Chain A n d) (v : List Nat) (i p : Nat) :
    Path d (i + 1) v p ↔ p = i + 1 + v.length ∧ (v ≠ [] → i + v.length ≤ n) ∧ Fits A i v := by
  induction v generalizing i with
  | nil =>
    rw [path_nil]
    simp [Fits, eq_comm]
  | cons a v ih =>
    rw [path_cons, fits_cons]
    constructor
    · rintro ⟨q, w, h1, h2⟩
      rcases (h.arcs _ _).1 h1 with ⟨h0, _⟩ | ⟨j, g1, g2, g3, g4, g5⟩
      · omega
      · have hj : j = i := by omega
        subst hj
        simp only at g3
        subst g3
        obtain ⟨k1, k2, k3⟩ := (ih (j + 1)).1 h2
        refine ⟨by simp; omega, fun _ => ?_, g5, k3⟩
        by_cases c : v = []
        · subst c; simp; omega
        · have := k2 c
          simp; omega
    · rintro ⟨h1, h2, h3, h4⟩
      have hle := h2 (by simp)
      simp only [List.length_cons] at hle h1
      refine ⟨i + 1 + 1, 0, (h.arcs _ _).2 (.inr ⟨i, by omega, rfl, rfl, rfl, h3⟩), ?_⟩
      exact (ih (i + 1)).2 ⟨by omega, fun _ => by omega, h4⟩

theorem partial_spec (n : Nat) (a : List Int) (hs : a.Pairwise (· < ·)) (hlo : ∀ x ∈ a, 0 < x) :
    Valid (partialDag n a) ∧ ∀ w, Words (partialDag n a) w ↔
      ∃ v, w = 1 :: v ∧ 1 ≤ v.length ∧ v.length ≤ n ∧ Fits a 0 v := by
  have h := partial_chain n a hs hlo
  constructor
  · refine ⟨?_, ?_, ?_⟩
    · intro p x hx
      rw [h.length]
      rcases (h.arcs _ _).1 hx with ⟨_, rfl⟩ | ⟨j, g1, _, g3, _⟩
      · simp
      · omega
    · intro p hp
      rw [h.length]
      exact ((h.ends p).1 hp).2
    · rw [h.starts]
      exact Nat.one_lt_two_pow (by rw [h.length]; omega)
  · intro w
    have hini : ∀ i, Initial (partialDag n a) i ↔ i = 0 := by
      intro i
      unfold Initial
      rw [h.starts, h.length]
      constructor
      · rintro ⟨_, h⟩
        by_contra c
        obtain ⟨k, rfl⟩ := Nat.exists_eq_succ_of_ne_zero c
        simp [Nat.testBit_succ] at h
      · rintro rfl; exact ⟨by omega, by decide⟩
    rw [words_of_initial hini]
    constructor
    · rintro ⟨p, h1, h2⟩
      have he := (h.ends p).1 h2
      cases w with
      | nil => rw [path_nil] at h1; omega
      | cons b v =>
        obtain ⟨q, w, h3, h4⟩ := path_cons.1 h1
        rcases (h.arcs _ _).1 h3 with ⟨_, h5⟩ | ⟨j, _, g2, _⟩
        · cases h5
          obtain ⟨k1, k2, k3⟩ := (chain_path h v 0 p).1 h4
          exact ⟨v, rfl, by omega, by omega, k3⟩
        · omega
    · rintro ⟨v, rfl, h1, h2, h3⟩
      refine ⟨1 + v.length, ?_, (h.ends _).2 (by omega)⟩
      refine .cons (w := 0) (q := 1) ((h.arcs _ _).2 (.inl ⟨rfl, rfl⟩)) ?_
      exact (chain_path h v 0 _).2 ⟨by omega, fun _ => by omega, h3⟩

/-! ## The whole automaton -/

theorem addSubsets_spec {k n : Nat} (fuel : Nat) (s : Subset) (d : Dag) (hv : Valid d)
    (hs : Listed k n s)
    (hf : (((n + 2 : Nat) : Int)) ^ k - val (n + 2) s.a < fuel) :
    ∃ e, addSubsets k n fuel s d = some e ∧ Valid e ∧
      ∀ w, Words e w ↔ Words d w ∨ ∃ c, IsSub k n c ∧ Before s.a c ∧ Words (partialDag n c) w := by
  have rng : ∀ c, IsSub k n c → ∀ x ∈ c, 0 ≤ x ∧ x < ((n + 2 : Nat) : Int) := by
    intro c hc x hx
    have := hc.range x hx
    push_cast; omega
  induction fuel generalizing s d with
  | zero =>
    have := (val_bound (n + 2) s.a (rng _ hs.isSub)).2
    rw [hs.isSub.length] at this
    push_cast at hf this
    omega
  | succ fuel ih =>
    unfold addSubsets
    rcases nextksb_next hs with ⟨h1, h2⟩ | ⟨s', h1, h2, h3, h4⟩
    · rw [h1]
      refine ⟨d, rfl, hv, fun w => ?_⟩
      constructor
      · exact .inl
      · rintro (h | ⟨c, hc, hb, _⟩)
        · exact h
        · exact absurd hb (h2 c hc)
    · rw [h1]
      simp only
      have hpart := partial_spec n s'.a h2.isSub.sorted fun x hx => by
        have := h2.isSub.range x hx; omega
      obtain ⟨g1, _, g3⟩ := ndUnion_spec hv hpart.1
      have hval := val_lt (n + 2) s.a s'.a (by rw [hs.isSub.length, h2.isSub.length])
        (rng _ hs.isSub) (rng _ h2.isSub) h3
      obtain ⟨e, k1, k2, k3⟩ := ih s' _ g1 h2 (by push_cast at hf ⊢; omega)
      refine ⟨e, k1, k2, fun w => ?_⟩
      rw [k3, g3]
      constructor
      · rintro ((h | h) | ⟨c, hc, hb, hw⟩)
        · exact .inl h
        · exact .inr ⟨s'.a, h2.isSub, h3, h⟩
        · refine .inr ⟨c, hc, ?_, hw⟩
          exact before_trans h3 hb
      · rintro (h | ⟨c, hc, hb, hw⟩)
        · exact .inl (.inl h)
        · rcases h4 c hc hb with e | e
          · subst e; exact .inl (.inr hw)
          · exact .inr ⟨c, hc, e, hw⟩

/-- The places of the ones. -/
def ones (v : List Nat) : Nat := (v.filter fun a => a == 1).length

theorem fits_ones {c : List Int} (v : List Nat) (i : Nat) (h : Fits c i v) :
    ∃ S : List Int, S.length = ones v ∧ S.Pairwise (· < ·) ∧ (∀ x ∈ S, (i : Int) < x) ∧ ∀ x ∈ S, x ∈ c := by
  induction v generalizing i with
  | nil => exact ⟨[], rfl, by simp, by simp, by simp⟩
  | cons a v ih =>
    rw [fits_cons] at h
    obtain ⟨S, h1, h2, h3, h4⟩ := ih (i + 1) h.2
    rcases h.1 with rfl | ⟨rfl, hm⟩
    · refine ⟨S, by simpa [ones] using h1, h2, fun x hx => ?_, h4⟩
      have := h3 x hx; push_cast at this; omega
    · refine ⟨((i : Int) + 1) :: S, by simpa [ones] using h1, ?_, ?_, ?_⟩
      · rw [List.pairwise_cons]
        exact ⟨fun x hx => by have := h3 x hx; push_cast at this; exact this, h2⟩
      · intro x hx
        rcases List.mem_cons.1 hx with rfl | hx
        · omega
        · have := h3 x hx; push_cast at this; omega
      · intro x hx
        rcases List.mem_cons.1 hx with rfl | hx
        · exact hm
        · exact h4 x hx

theorem ones_fits (v : List Nat) (i : Nat) (hb : ∀ a ∈ v, a = 0 ∨ a = 1) :
    ∃ S : List Int, S.length = ones v ∧ S.Nodup ∧
      (∀ x ∈ S, (i : Int) < x ∧ x ≤ ((i + v.length : Nat) : Int)) ∧
      ∀ c : List Int, (∀ x ∈ S, x ∈ c) → Fits c i v := by
  induction v generalizing i with
  | nil => exact ⟨[], rfl, by simp, by simp, fun c _ => by simp [Fits]⟩
  | cons a v ih =>
    obtain ⟨S, h1, h2, h3, h4⟩ := ih (i + 1) fun b hb' => hb b (by simp [hb'])
    rcases hb a (by simp) with rfl | rfl
    · refine ⟨S, by simpa [ones] using h1, h2, fun x hx => ?_, fun c hc => ?_⟩
      · have := h3 x hx
        simp only [List.length_cons]
        push_cast at this ⊢
        omega
      · rw [fits_cons]
        exact ⟨.inl rfl, h4 c hc⟩
    · refine ⟨((i : Int) + 1) :: S, by simpa [ones] using h1, ?_, ?_, ?_⟩
      · rw [List.nodup_cons]
        exact ⟨fun hm => by have := (h3 _ hm).1; push_cast at this; omega, h2⟩
      · intro x hx
        simp only [List.length_cons]
        push_cast
        rcases List.mem_cons.1 hx with rfl | hx
        · omega
        · have := h3 x hx
          push_cast at this
          omega
      · intro c hc
        rw [fits_cons]
        exact ⟨.inr ⟨rfl, hc _ (by simp)⟩, h4 c fun x hx => hc x (by simp [hx])⟩

theorem exists_sub {k n : Nat} (S : List Int) (hS : S.Nodup) (hr : ∀ x ∈ S, 1 ≤ x ∧ x ≤ (n : Int))
    (hl : S.length ≤ k) (hk : k ≤ n) : ∃ c, IsSub k n c ∧ ∀ x ∈ S, x ∈ c := by
  let U : Finset Int := (Finset.range n).image fun i : Nat => (i : Int) + 1
  have hU : U.card = n := by
    rw [Finset.card_image_of_injective _ (fun a b h => by simpa using h), Finset.card_range]
  have hsub : S.toFinset ⊆ U := by
    intro x hx
    rw [List.mem_toFinset] at hx
    obtain ⟨h1, h2⟩ := hr x hx
    exact Finset.mem_image.2 ⟨(x - 1).toNat, Finset.mem_range.2 (by omega), by omega⟩
  obtain ⟨T, h1, h2, h3⟩ := Finset.exists_subsuperset_card_eq (n := k) hsub
    (by rw [List.toFinset_card_of_nodup hS]; exact hl) (by rw [hU]; exact hk)
  refine ⟨T.sort (· ≤ ·), ⟨by rw [Finset.length_sort, h3], ?_, ?_⟩, ?_⟩
  · have a1 := Finset.pairwise_sort T (· ≤ ·)
    have a2 := Finset.sort_nodup T (· ≤ ·)
    exact (a1.and a2).imp fun ⟨h, h'⟩ => by omega
  · intro x hx
    rw [Finset.mem_sort] at hx
    obtain ⟨i, hi, rfl⟩ := Finset.mem_image.1 (h2 hx)
    have := Finset.mem_range.1 hi
    omega
  · intro x hx
    rw [Finset.mem_sort]
    exact h1 (List.mem_toFinset.2 hx)

theorem sub_fits {k n : Nat} (hk : k ≤ n) (v : List Nat) (hv : v.length ≤ n) :
    (∃ c, IsSub k n c ∧ Fits c 0 v) ↔ (∀ a ∈ v, a = 0 ∨ a = 1) ∧ ones v ≤ k := by
  constructor
  · rintro ⟨c, hc, hf⟩
    constructor
    · intro a ha
      obtain ⟨j, hj⟩ := List.mem_iff_getElem?.1 ha
      rcases hf j a hj with h | h
      · exact .inl h
      · exact .inr h.1
    · obtain ⟨S, h1, h2, _, h4⟩ := fits_ones v 0 hf
      rw [← h1, ← hc.length]
      exact (List.Nodup.subperm (h2.imp fun h => Int.ne_of_lt h) fun x hx => h4 x hx).length_le
  · rintro ⟨hb, ho⟩
    obtain ⟨S, h1, h2, h3, h4⟩ := ones_fits v 0 hb
    obtain ⟨c, hc, hS⟩ := exists_sub (k := k) (n := n) S h2 (fun x hx => by
      have := h3 x hx
      push_cast at this
      omega) (by omega) hk
    exact ⟨c, hc, h4 c hS⟩

theorem intersector_spec {k n : Nat} (hk : k ≤ n) :
    ∃ e, buildIntersector k n = some e ∧ Valid e ∧ Distinct e ∧ (∀ i, Initial e i ↔ i = 0) ∧
      ∀ w, Words e w ↔ ∃ v, w = 1 :: v ∧ 1 ≤ v.length ∧ v.length ≤ n ∧ (∀ a ∈ v, a = 0 ∨ a = 1) ∧
        ones v ≤ k := by
  have hp0 := partial_spec n [] (by simp) (by simp)
  have hempty : Valid ({} : Dag) := ⟨by simp [Dag.row], by simp, by decide⟩
  have hnw : ∀ w, ¬ Words ({} : Dag) w := by
    rintro w ⟨p, ⟨h, _⟩, _⟩; simp at h
  obtain ⟨g1, _, g3⟩ := ndUnion_spec hempty hp0.1
  have f0 : ∀ v : List Nat, Fits [] 0 v ↔ (∀ a ∈ v, a = 0 ∨ a = 1) ∧ ones v = 0 := by
    intro v
    have : Fits [] 0 v ↔ ∃ c, IsSub 0 v.length c ∧ Fits c 0 v := by
      constructor
      · exact fun h => ⟨[], ⟨rfl, by simp, by simp⟩, h⟩
      · rintro ⟨c, hc, h⟩
        have := hc.length
        rw [List.length_eq_zero_iff] at this
        subst this; exact h
    rw [this, sub_fits (Nat.zero_le _) v (Nat.le_refl _), Nat.le_zero]
  have main : ∃ e, addSubsets k n ((n + 2) ^ k + 2) {} (({} : Dag).ndUnion (partialDag n [])) = some e ∧
      Valid e ∧ ∀ w, Words e w ↔ ∃ v, w = 1 :: v ∧ 1 ≤ v.length ∧ v.length ≤ n ∧
        (∀ a ∈ v, a = 0 ∨ a = 1) ∧ ones v ≤ k := by
    by_cases c : k = 0
    · subst c
      refine ⟨_, by rw [addSubsets, nextksb, if_pos rfl], g1, fun w => ?_⟩
      rw [g3, hp0.2]
      constructor
      · rintro (h | ⟨v, h1, h2, h3, h4⟩)
        · exact absurd h (hnw w)
        · exact ⟨v, h1, h2, h3, ((f0 v).1 h4).1, by rw [((f0 v).1 h4).2]⟩
      · rintro ⟨v, h1, h2, h3, h4, h5⟩
        exact .inr ⟨v, h1, h2, h3, (f0 v).2 ⟨h4, by omega⟩⟩
    · obtain ⟨s, h1, h2, h3⟩ := nextksb_first (k := k) (n := n) (by omega) hk
      have hps := partial_spec n s.a h2.isSub.sorted fun x hx => by
        have := h2.isSub.range x hx; omega
      obtain ⟨k1, _, k3⟩ := ndUnion_spec g1 hps.1
      have hvb := val_bound (n + 2) s.a fun x hx => by
        have := h2.isSub.range x hx; push_cast; omega
      obtain ⟨e, l1, l2, l3⟩ := addSubsets_spec ((n + 2) ^ k + 1) s _ k1 h2 (by
        push_cast at hvb ⊢
        have := hvb.1
        omega)
      refine ⟨e, by rw [addSubsets, h1]; exact l1, l2, fun w => ?_⟩
      rw [l3, k3, g3]
      have all : ∀ w, (Words (partialDag n s.a) w ∨
          ∃ c, IsSub k n c ∧ Before s.a c ∧ Words (partialDag n c) w) ↔
          ∃ c, IsSub k n c ∧ Words (partialDag n c) w := by
        intro w
        constructor
        · rintro (h | ⟨c, h, _, h'⟩)
          · exact ⟨_, h2.isSub, h⟩
          · exact ⟨c, h, h'⟩
        · rintro ⟨c, h, h'⟩
          rcases h3 c h with e | e
          · subst e; exact .inl h'
          · exact .inr ⟨c, h, e, h'⟩
      rw [or_assoc, all, hp0.2]
      have hpc : ∀ c, IsSub k n c → (Words (partialDag n c) w ↔
          ∃ v, w = 1 :: v ∧ 1 ≤ v.length ∧ v.length ≤ n ∧ Fits c 0 v) := fun c hc =>
        (partial_spec n c hc.sorted fun x hx => by have := hc.range x hx; omega).2 w
      constructor
      · rintro ((h | ⟨v, m1, m2, m3, m4⟩) | ⟨c, hc, hw⟩)
        · exact absurd h (hnw w)
        · have := (f0 v).1 m4
          exact ⟨v, m1, m2, m3, this.1, by omega⟩
        · obtain ⟨v, m1, m2, m3, m4⟩ := (hpc c hc).1 hw
          exact ⟨v, m1, m2, m3, (sub_fits hk v m3).1 ⟨c, hc, m4⟩⟩
      · rintro ⟨v, m1, m2, m3, m4, m5⟩
        obtain ⟨c, hc, hf⟩ := (sub_fits hk v m3).2 ⟨m4, m5⟩
        exact .inr ⟨c, hc, (hpc c hc).2 ⟨v, m1, m2, m3, hf⟩⟩
  obtain ⟨e, h1, h2, h3⟩ := main
  obtain ⟨m, k1, k2, k3, k4, k5, k6⟩ := minimized h2
  exact ⟨m, by simp [buildIntersector, h1, k1], k2, k4, k5, fun w => by rw [k6, h3]⟩

theorem ones_kinds (nts : Nat → Bool) (w : List Nat) : ones (kinds nts w) = (w.filter nts).length := by
  unfold ones kinds
  rw [List.filter_map, List.length_map]
  congr 2
  funext a
  cases h : nts a <;> simp [h]

end Verif.Dag
