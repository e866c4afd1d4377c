import Verif.Symal.Spec
import Verif.Server.PropsHandler

/-!
Lemmas for the symmetrization of word alignments.
-/
set_option linter.unusedVariables false
set_option linter.unusedSimpArgs false

namespace Verif.Symal
open Verif Verif.Server Spec

/-! ### Lines -/

theorem fixed_eq (ws : List Str) : fixed (ws.flatMap (· ++ [32])) = [32].intercalate ws ++ [10] := by
  have hne : ∀ (w : Str) (ws : List Str), (w :: ws).flatMap (· ++ [32]) = [32].intercalate (w :: ws) ++ [32] := by
    intro w ws
    induction ws generalizing w with
    | nil => simp [List.intercalate]
    | cons v ws ih =>
      rw [List.flatMap_cons, ih]
      simp [List.intercalate, List.append_assoc]
  cases ws with
  | nil => simp [fixed, List.intercalate]
  | cons w ws =>
    rw [hne]
    unfold fixed
    rw [if_neg (by simp)]
    simp

theorem number_ok (n : Nat) : Number (decimal n) n := by
  obtain ⟨h1, h2, h3⟩ := number_decimal n
  exact ⟨h3, h2, h1⟩

/-- The link of a point. -/
def link (p : Point) : Link := ⟨p.2 - 1, p.1 - 1⟩

/-- The point of a link. -/
def point (l : Link) : Point := (l.target + 1, l.source + 1)

theorem link_point (l : Link) : link (point l) = l := rfl

theorem point_link {p : Point} (h1 : 1 ≤ p.1) (h2 : 1 ≤ p.2) : point (link p) = p := by
  obtain ⟨i, j⟩ := p
  simp only [point, link] at *
  rw [Prod.mk.injEq]
  omega

theorem line_ok (l : List Point) : Line (l.map link) (fixed (l.flatMap (fun k => shown k.1 k.2))) := by
  refine ⟨l.map (fun k => decimal (k.2 - 1) ++ [45] ++ decimal (k.1 - 1)), ?_, ?_⟩
  · rw [List.forall₂_map_left_iff, List.forall₂_map_right_iff, List.forall₂_same]
    intro k _
    exact ⟨_, _, rfl, number_ok _, number_ok _⟩
  · rw [← fixed_eq]
    simp [List.flatMap_map, shown]

theorem flatMap_if {α : Type} (l : List α) (c : α → Prop) [DecidablePred c] (f : α → Point) :
    l.flatMap (fun x => if c x then shown (f x).1 (f x).2 else []) = ((l.filter (fun x => decide (c x))).map f).flatMap (fun k => shown k.1 k.2) := by
  induction l with
  | nil => rfl
  | cons x l ih =>
    rw [List.flatMap_cons, ih, List.filter_cons]
    by_cases h : c x
    · simp [h]
    · simp [h]

theorem mem_upTo {n i : Nat} : i ∈ upTo n ↔ 1 ≤ i ∧ i ≤ n := by
  unfold upTo
  rw [List.mem_map]
  constructor
  · rintro ⟨k, hk, rfl⟩
    rw [List.mem_range] at hk
    omega
  · rintro ⟨h1, h2⟩
    exact ⟨i - 1, List.mem_range.2 (by omega), by omega⟩

theorem nodup_upTo (n : Nat) : (upTo n).Nodup := by
  unfold upTo
  exact List.Pairwise.map _ (fun a b h => by simpa using h) List.nodup_range

theorem upTo_succ (n : Nat) : upTo (n + 1) = upTo n ++ [n + 1] := by
  simp [upTo, List.range_succ]

/-! ### Sets of points -/

theorem less_irrefl (p : Point) : less p p = false := by simp [less]

theorem less_iff {p q : Point} : less p q = true ↔ p.1 < q.1 ∨ (p.1 = q.1 ∧ p.2 < q.2) := by
  simp [less]

theorem less_trans {p q r : Point} (h1 : less p q = true) (h2 : less q r = true) : less p r = true := by
  rw [less_iff] at *; omega

theorem less_total {p q : Point} (h1 : less p q = false) (h2 : less q p = false) : p = q := by
  have h1 : ¬ less p q = true := by simp [h1]
  have h2 : ¬ less q p = true := by simp [h2]
  rw [less_iff] at h1 h2
  obtain ⟨a, b⟩ := p
  obtain ⟨c, d⟩ := q
  rw [Prod.mk.injEq]
  simp only at h1 h2
  omega

theorem mem_insert {p q : Point} {l : List Point} : q ∈ insertPoint p l ↔ q = p ∨ q ∈ l := by
  induction l with
  | nil => simp [insertPoint]
  | cons r l ih =>
    unfold insertPoint
    split
    · simp
    · split
      · rw [List.mem_cons, ih, List.mem_cons]; tauto
      · next h1 h2 =>
        have : p = r := less_total (by simpa using h1) (by simpa using h2)
        subst this
        simp

/-- In the order of the set. -/
def Sorted (l : List Point) : Prop := l.Pairwise (fun p q => less p q = true)

theorem sorted_insert {p : Point} {l : List Point} (h : Sorted l) : Sorted (insertPoint p l) := by
  induction l with
  | nil => exact List.pairwise_singleton _ _
  | cons r l ih =>
    unfold Sorted at h
    rw [List.pairwise_cons] at h
    unfold insertPoint
    split
    · next h1 =>
      refine List.pairwise_cons.2 ⟨?_, List.pairwise_cons.2 h⟩
      intro q hq
      rcases List.mem_cons.1 hq with rfl | hq
      · exact h1
      · exact less_trans h1 (h.1 q hq)
    · split
      · next h1 h2 =>
        refine List.pairwise_cons.2 ⟨?_, ih h.2⟩
        intro q hq
        rcases mem_insert.1 hq with rfl | hq
        · exact h2
        · exact h.1 q hq
      · exact List.pairwise_cons.2 h

theorem Sorted.nodup {l : List Point} (h : Sorted l) : l.Nodup :=
  h.imp (fun {a b} hab => by rintro rfl; rw [less_irrefl] at hab; simp at hab)

theorem head_least {l : List Point} (h : Sorted l) {p : Point} (hp : p ∈ l) : ∃ k, l.head? = some k ∧ (p = k ∨ less k p = true) := by
  cases l with
  | nil => simp at hp
  | cons k l =>
    refine ⟨k, rfl, ?_⟩
    rcases List.mem_cons.1 hp with rfl | hp
    · exact .inl rfl
    · exact .inr ((List.pairwise_cons.1 h).1 p hp)

theorem after_least {k p : Point} {l : List Point} (h : Sorted l) (hp : p ∈ l) (hk : less k p = true) :
    ∃ q, after k l = some q ∧ (p = q ∨ less q p = true) := by
  induction l with
  | nil => simp at hp
  | cons r l ih =>
    obtain ⟨h1, h2⟩ := List.pairwise_cons.1 h
    unfold after
    rw [List.find?_cons]
    split
    · next hr =>
      refine ⟨r, rfl, ?_⟩
      rcases List.mem_cons.1 hp with rfl | hp
      · exact .inl rfl
      · exact .inr (h1 p hp)
    · next hr =>
      rcases List.mem_cons.1 hp with rfl | hp
      · rw [hk] at hr; simp at hr
      · exact ih h2 hp

theorem after_some {k q : Point} {l : List Point} (h : after k l = some q) : q ∈ l ∧ less k q = true :=
  ⟨List.mem_of_find?_eq_some h, by simpa using List.find?_some h⟩

/-! ### The invariant -/

/-- A point of the union, within the sentences. -/
def InUnion (x : Input) (p : Point) : Prop := 1 ≤ p.1 ∧ p.1 ≤ x.n ∧ 1 ≤ p.2 ∧ p.2 ≤ x.m ∧ (x.a p.2 = p.1 ∨ x.b p.1 = p.2)

structure Inv (x : Input) (s : State) : Prop where
  sorted : Sorted s.points
  union : ∀ p ∈ s.points, InUnion x p
  ea : ∀ i, s.ea i = true ↔ ∃ p ∈ s.points, p.1 = i
  fa : ∀ j, s.fa j = true ↔ ∃ p ∈ s.points, p.2 = j
  two : ∀ p ∈ s.points, s.A p.1 p.2 = 2
  inter : ∀ i j, InUnion x (i, j) → x.a j = i → x.b i = j → (i, j) ∈ s.points
  direct : ∀ i j, InUnion x (i, j) → (i, j) ∉ s.points → x.a j = i → s.A i j = -1
  inverse : ∀ i j, InUnion x (i, j) → (i, j) ∉ s.points → x.b i = j → s.A i j = 1

theorem inv_add {x : Input} {s : State} (h : Inv x s) {p : Point} (hp : InUnion x p) : Inv x (add s p) := by
  refine ⟨sorted_insert h.sorted, ?_, ?_, ?_, ?_, ?_, ?_, ?_⟩
  · intro q hq
    rcases mem_insert.1 hq with rfl | hq
    · exact hp
    · exact h.union q hq
  · intro i
    simp only [add, setAt]
    split
    · next hi =>
      simp only [true_iff]
      exact ⟨p, mem_insert.2 (.inl rfl), hi.symm⟩
    · next hi =>
      rw [h.ea]
      constructor
      · rintro ⟨q, hq, rfl⟩; exact ⟨q, mem_insert.2 (.inr hq), rfl⟩
      · rintro ⟨q, hq, rfl⟩
        rcases mem_insert.1 hq with rfl | hq
        · exact absurd rfl hi
        · exact ⟨q, hq, rfl⟩
  · intro i
    simp only [add, setAt]
    split
    · next hi =>
      simp only [true_iff]
      exact ⟨p, mem_insert.2 (.inl rfl), hi.symm⟩
    · next hi =>
      rw [h.fa]
      constructor
      · rintro ⟨q, hq, rfl⟩; exact ⟨q, mem_insert.2 (.inr hq), rfl⟩
      · rintro ⟨q, hq, rfl⟩
        rcases mem_insert.1 hq with rfl | hq
        · exact absurd rfl hi
        · exact ⟨q, hq, rfl⟩
  · intro q hq
    simp only [add, setMatrix]
    split
    · rfl
    · next hne =>
      rcases mem_insert.1 hq with rfl | hq
      · exact absurd ⟨rfl, rfl⟩ hne
      · exact h.two q hq
  · intro i j h1 h2 h3
    exact mem_insert.2 (.inr (h.inter i j h1 h2 h3))
  · intro i j h1 h2 h3
    have h2' : ¬ ((i, j) = p ∨ (i, j) ∈ s.points) := fun hh => h2 (mem_insert.2 hh)
    simp only [not_or] at h2'
    simp only [add, setMatrix]
    rw [if_neg]
    · exact h.direct i j h1 h2'.2 h3
    · rintro ⟨rfl, rfl⟩; exact h2'.1 rfl
  · intro i j h1 h2 h3
    have h2' : ¬ ((i, j) = p ∨ (i, j) ∈ s.points) := fun hh => h2 (mem_insert.2 hh)
    simp only [not_or] at h2'
    simp only [add, setMatrix]
    rw [if_neg]
    · exact h.inverse i j h1 h2'.2 h3
    · rintro ⟨rfl, rfl⟩; exact h2'.1 rfl

/-! ### The beginning -/

theorem fill_ok (x : Input) (hx : Proper x) :
    Inv x (fill x).1 ∧ (∀ p, p ∈ (fill x).1.points ↔ InUnion x p ∧ x.a p.2 = p.1 ∧ x.b p.1 = p.2) ∧ (∀ p, p ∈ (fill x).2 ↔ InUnion x p) := by
  have hD : ∀ t, t ≤ x.m → ∀ q, q = (upTo t).foldl (fillDirect x) (start, []) →
      Sorted q.1.points ∧
      (∀ p : Point, p ∈ q.1.points ↔ 1 ≤ p.2 ∧ p.2 ≤ t ∧ x.a p.2 ≠ 0 ∧ x.a p.2 = p.1 ∧ x.b p.1 = p.2) ∧
      (∀ p : Point, p ∈ q.2 ↔ 1 ≤ p.2 ∧ p.2 ≤ t ∧ x.a p.2 ≠ 0 ∧ x.a p.2 = p.1) ∧
      (∀ i, q.1.ea i = true ↔ ∃ p ∈ q.1.points, p.1 = i) ∧ (∀ j, q.1.fa j = true ↔ ∃ p ∈ q.1.points, p.2 = j) ∧
      (∀ i j, q.1.A i j = if 1 ≤ j ∧ j ≤ t ∧ x.a j ≠ 0 ∧ x.a j = i then (if x.b i = j then 2 else -1) else 0) := by
    intro t
    induction t with
    | zero =>
      rintro _ q rfl
      refine ⟨List.Pairwise.nil, ?_, ?_, ?_, ?_, ?_⟩
      · intro p; simp [upTo, start]; omega
      · intro p; simp [upTo, start]; omega
      · intro i; simp [upTo, start]
      · intro i; simp [upTo, start]
      · intro i j
        simp only [upTo, start, List.range_zero, List.map_nil, List.foldl_nil]
        rw [if_neg (by omega)]
    | succ t ih =>
      rintro ht q rfl
      obtain ⟨h1, h2, h3, h4, h5, h6⟩ := ih (by omega) _ rfl
      rw [upTo_succ, List.foldl_append, List.foldl_cons, List.foldl_nil]
      generalize (upTo t).foldl (fillDirect x) (start, []) = q at *
      unfold fillDirect
      split
      · next ha =>
        dsimp only
        split
        · next hb =>
          refine ⟨sorted_insert h1, ?_, ?_, ?_, ?_, ?_⟩
          · intro p
            rw [mem_insert, h2]
            constructor
            · rintro (rfl | ⟨g1, g2, g3, g4, g5⟩)
              · exact ⟨by simp, Nat.le_refl _, ha, rfl, hb⟩
              · exact ⟨g1, by omega, g3, g4, g5⟩
            · rintro ⟨g1, g2, g3, g4, g5⟩
              rcases Nat.lt_or_ge t p.2 with g | g
              · have : p.2 = t + 1 := by omega
                left
                rw [this] at g4
                exact Prod.ext g4.symm this
              · exact .inr ⟨g1, g, g3, g4, g5⟩
          · intro p
            rw [mem_insert, h3]
            constructor
            · rintro (rfl | ⟨g1, g2, g3, g4⟩)
              · exact ⟨by simp, Nat.le_refl _, ha, rfl⟩
              · exact ⟨g1, by omega, g3, g4⟩
            · rintro ⟨g1, g2, g3, g4⟩
              rcases Nat.lt_or_ge t p.2 with g | g
              · have : p.2 = t + 1 := by omega
                left
                rw [this] at g4
                exact Prod.ext g4.symm this
              · exact .inr ⟨g1, g, g3, g4⟩
          · intro i
            simp only [setAt]
            split
            · next hi => simp only [true_iff]; exact ⟨_, mem_insert.2 (.inl rfl), hi.symm⟩
            · next hi =>
              rw [h4]
              constructor
              · rintro ⟨p, hp, rfl⟩; exact ⟨p, mem_insert.2 (.inr hp), rfl⟩
              · rintro ⟨p, hp, rfl⟩
                rcases mem_insert.1 hp with rfl | hp
                · exact absurd rfl hi
                · exact ⟨p, hp, rfl⟩
          · intro i
            simp only [setAt]
            split
            · next hi => simp only [true_iff]; exact ⟨_, mem_insert.2 (.inl rfl), hi.symm⟩
            · next hi =>
              rw [h5]
              constructor
              · rintro ⟨p, hp, rfl⟩; exact ⟨p, mem_insert.2 (.inr hp), rfl⟩
              · rintro ⟨p, hp, rfl⟩
                rcases mem_insert.1 hp with rfl | hp
                · exact absurd rfl hi
                · exact ⟨p, hp, rfl⟩
          · intro i j
            simp only [setMatrix]
            split
            · next hij =>
              obtain ⟨rfl, rfl⟩ := hij
              rw [if_pos ⟨by omega, Nat.le_refl _, ha, rfl⟩, if_pos hb]
            · next hij =>
              rw [h6]
              by_cases hc : 1 ≤ j ∧ j ≤ t ∧ x.a j ≠ 0 ∧ x.a j = i
              · rw [if_pos hc, if_pos (show 1 ≤ j ∧ j ≤ t + 1 ∧ x.a j ≠ 0 ∧ x.a j = i from ⟨hc.1, by omega, hc.2.2⟩)]
              · rw [if_neg hc, if_neg]
                rintro ⟨g1, g2, g3, g4⟩
                rcases Nat.lt_or_ge t j with g | g
                · have : j = t + 1 := by omega
                  subst this
                  exact hij ⟨g4.symm, rfl⟩
                · exact hc ⟨g1, g, g3, g4⟩
        · next hb =>
          refine ⟨h1, ?_, ?_, h4, h5, ?_⟩
          · intro p
            rw [h2]
            constructor
            · rintro ⟨g1, g2, g3⟩; exact ⟨g1, by omega, g3⟩
            · rintro ⟨g1, g2, g3, g4, g5⟩
              refine ⟨g1, ?_, g3, g4, g5⟩
              rcases Nat.lt_or_ge t p.2 with g | g
              · have : p.2 = t + 1 := by omega
                rw [this] at g4 g5
                rw [g4] at hb
                exact absurd g5 hb
              · exact g
          · intro p
            rw [mem_insert, h3]
            constructor
            · rintro (rfl | ⟨g1, g2, g3, g4⟩)
              · exact ⟨by simp, Nat.le_refl _, ha, rfl⟩
              · exact ⟨g1, by omega, g3, g4⟩
            · rintro ⟨g1, g2, g3, g4⟩
              rcases Nat.lt_or_ge t p.2 with g | g
              · have : p.2 = t + 1 := by omega
                left
                rw [this] at g4
                exact Prod.ext g4.symm this
              · exact .inr ⟨g1, g, g3, g4⟩
          · intro i j
            simp only [setMatrix]
            split
            · next hij =>
              obtain ⟨rfl, rfl⟩ := hij
              rw [if_pos ⟨by omega, Nat.le_refl _, ha, rfl⟩, if_neg hb]
            · next hij =>
              rw [h6]
              by_cases hc : 1 ≤ j ∧ j ≤ t ∧ x.a j ≠ 0 ∧ x.a j = i
              · rw [if_pos hc, if_pos (show 1 ≤ j ∧ j ≤ t + 1 ∧ x.a j ≠ 0 ∧ x.a j = i from ⟨hc.1, by omega, hc.2.2⟩)]
              · rw [if_neg hc, if_neg]
                rintro ⟨g1, g2, g3, g4⟩
                rcases Nat.lt_or_ge t j with g | g
                · have : j = t + 1 := by omega
                  subst this
                  exact hij ⟨g4.symm, rfl⟩
                · exact hc ⟨g1, g, g3, g4⟩
      · next ha =>
        have ha : x.a (t + 1) = 0 := by simpa using ha
        have key : ∀ j, j ≤ t + 1 → x.a j ≠ 0 → j ≤ t := by
          intro j g1 g2
          rcases Nat.lt_or_ge t j with g | g
          · have : j = t + 1 := by omega
            subst this
            exact absurd ha g2
          · exact g
        refine ⟨h1, ?_, ?_, h4, h5, ?_⟩
        · intro p
          rw [h2]
          exact ⟨fun ⟨g1, g2, g3⟩ => ⟨g1, by omega, g3⟩, fun ⟨g1, g2, g3⟩ => ⟨g1, key _ g2 g3.1, g3⟩⟩
        · intro p
          rw [h3]
          exact ⟨fun ⟨g1, g2, g3⟩ => ⟨g1, by omega, g3⟩, fun ⟨g1, g2, g3⟩ => ⟨g1, key _ g2 g3.1, g3⟩⟩
        · intro i j
          rw [h6]
          by_cases hc : 1 ≤ j ∧ j ≤ t ∧ x.a j ≠ 0 ∧ x.a j = i
          · rw [if_pos hc, if_pos (show 1 ≤ j ∧ j ≤ t + 1 ∧ x.a j ≠ 0 ∧ x.a j = i from ⟨hc.1, by omega, hc.2.2⟩)]
          · rw [if_neg hc, if_neg (fun ⟨g1, g2, g3⟩ => hc ⟨g1, key _ g2 g3.1, g3⟩)]
  have hI : ∀ t, t ≤ x.n → ∀ (q0 q : State × List Point), q = (upTo t).foldl (fillInverse x) q0 →
      q.1.points = q0.1.points ∧ q.1.ea = q0.1.ea ∧ q.1.fa = q0.1.fa ∧
      (∀ p : Point, p ∈ q.2 ↔ p ∈ q0.2 ∨ (1 ≤ p.1 ∧ p.1 ≤ t ∧ x.b p.1 ≠ 0 ∧ x.b p.1 = p.2 ∧ x.a p.2 ≠ p.1)) ∧
      (∀ i j, q.1.A i j = if 1 ≤ i ∧ i ≤ t ∧ x.b i ≠ 0 ∧ x.b i = j ∧ x.a j ≠ i then 1 else q0.1.A i j) := by
    intro t
    induction t with
    | zero =>
      rintro _ q0 q rfl
      refine ⟨rfl, rfl, rfl, ?_, ?_⟩
      · intro p; simp [upTo]; omega
      · intro i j
        rw [if_neg (by omega)]
        try rfl
    | succ t ih =>
      rintro ht q0 q rfl
      obtain ⟨h1, h2, h3, h4, h5⟩ := ih (by omega) q0 _ rfl
      rw [upTo_succ, List.foldl_append, List.foldl_cons, List.foldl_nil]
      generalize (upTo t).foldl (fillInverse x) q0 = q at *
      unfold fillInverse
      split
      · next hc =>
        refine ⟨h1, h2, h3, ?_, ?_⟩
        · intro p
          rw [mem_insert, h4]
          constructor
          · rintro (rfl | g | ⟨g1, g2, g3, g4, g5⟩)
            · exact .inr ⟨by simp, Nat.le_refl _, hc.1, rfl, hc.2⟩
            · exact .inl g
            · exact .inr ⟨g1, by omega, g3, g4, g5⟩
          · rintro (g | ⟨g1, g2, g3, g4, g5⟩)
            · exact .inr (.inl g)
            · rcases Nat.lt_or_ge t p.1 with g | g
              · have : p.1 = t + 1 := by omega
                left
                rw [this] at g4
                exact Prod.ext this g4.symm
              · exact .inr (.inr ⟨g1, g, g3, g4, g5⟩)
        · intro i j
          simp only [setMatrix]
          split
          · next hij =>
            obtain ⟨rfl, rfl⟩ := hij
            rw [if_pos ⟨by omega, Nat.le_refl _, hc.1, rfl, hc.2⟩]
          · next hij =>
            rw [h5]
            by_cases hd : 1 ≤ i ∧ i ≤ t ∧ x.b i ≠ 0 ∧ x.b i = j ∧ x.a j ≠ i
            · rw [if_pos hd, if_pos ⟨hd.1, by omega, hd.2.2⟩]
            · rw [if_neg hd, if_neg]
              rintro ⟨g1, g2, g3, g4, g5⟩
              rcases Nat.lt_or_ge t i with g | g
              · have : i = t + 1 := by omega
                subst this
                exact hij ⟨rfl, g4.symm⟩
              · exact hd ⟨g1, g, g3, g4, g5⟩
      · next hc =>
        have key : ∀ i j, i ≤ t + 1 → x.b i ≠ 0 ∧ x.b i = j ∧ x.a j ≠ i → i ≤ t := by
          rintro i j g1 ⟨g2, rfl, g3⟩
          rcases Nat.lt_or_ge t i with g | g
          · have : i = t + 1 := by omega
            subst this
            exact absurd ⟨g2, g3⟩ hc
          · exact g
        refine ⟨h1, h2, h3, ?_, ?_⟩
        · intro p
          rw [h4]
          constructor
          · rintro (g | ⟨g1, g2, g3⟩)
            · exact .inl g
            · exact .inr ⟨g1, by omega, g3⟩
          · rintro (g | ⟨g1, g2, g3⟩)
            · exact .inl g
            · exact .inr ⟨g1, key _ _ g2 g3, g3⟩
        · intro i j
          rw [h5]
          by_cases hd : 1 ≤ i ∧ i ≤ t ∧ x.b i ≠ 0 ∧ x.b i = j ∧ x.a j ≠ i
          · rw [if_pos hd, if_pos ⟨hd.1, by omega, hd.2.2⟩]
          · rw [if_neg hd, if_neg (fun ⟨g1, g2, g3⟩ => hd ⟨g1, key _ _ g2 g3, g3⟩)]
  obtain ⟨d1, d2, d3, d4, d5, d6⟩ := hD x.m (Nat.le_refl _) _ rfl
  obtain ⟨i1, i2, i3, i4, i5⟩ := hI x.n (Nat.le_refl _) ((upTo x.m).foldl (fillDirect x) (start, [])) (fill x) rfl
  generalize (upTo x.m).foldl (fillDirect x) (start, []) = q0 at *
  generalize fill x = q at *
  have hpts : ∀ p : Point, p ∈ q.1.points ↔ InUnion x p ∧ x.a p.2 = p.1 ∧ x.b p.1 = p.2 := by
    intro p
    rw [i1, d2]
    constructor
    · rintro ⟨g1, g2, g3, g4, g5⟩
      have := hx.1 p.2 g1 g2
      exact ⟨⟨by omega, by omega, g1, g2, .inl g4⟩, g4, g5⟩
    · rintro ⟨⟨g1, g2, g3, g4, g5⟩, g6, g7⟩
      exact ⟨g3, g4, by omega, g6, g7⟩
  refine ⟨⟨by rw [i1]; exact d1, fun p hp => ((hpts p).1 hp).1, ?_, ?_, ?_, ?_, ?_, ?_⟩, hpts, ?_⟩
  · rw [i1, i2]; exact d4
  · rw [i1, i3]; exact d5
  · intro p hp
    obtain ⟨⟨g1, g2, g3, g4, g5⟩, g6, g7⟩ := (hpts p).1 hp
    rw [i5, if_neg (fun h => h.2.2.2.2 g6), d6, if_pos ⟨g3, g4, by omega, g6⟩, if_pos g7]
  · intro i j h1 h2 h3
    exact (hpts (i, j)).2 ⟨h1, h2, h3⟩
  · intro i j h1 h2 h3
    obtain ⟨g1, g2, g3, g4, g5⟩ := h1
    simp only at g1 g2 g3 g4 g5
    have hb : x.b i ≠ j := fun hb => h2 ((hpts (i, j)).2 ⟨⟨g1, g2, g3, g4, g5⟩, h3, hb⟩)
    rw [i5, if_neg (fun h => h.2.2.2.2 h3), d6, if_pos ⟨g3, g4, by omega, h3⟩, if_neg hb]
  · intro i j h1 h2 h3
    obtain ⟨g1, g2, g3, g4, g5⟩ := h1
    simp only at g1 g2 g3 g4 g5
    have ha : x.a j ≠ i := fun ha => h2 ((hpts (i, j)).2 ⟨⟨g1, g2, g3, g4, g5⟩, ha, h3⟩)
    rw [i5, if_pos ⟨g1, g2, by omega, h3, ha⟩]
  · intro p
    rw [i4, d3]
    constructor
    · rintro (⟨g1, g2, g3, g4⟩ | ⟨g1, g2, g3, g4, g5⟩)
      · have := hx.1 p.2 g1 g2
        exact ⟨by omega, by omega, g1, g2, .inl g4⟩
      · have := hx.2 p.1 g1 g2
        exact ⟨g1, g2, by omega, by omega, .inr g4⟩
    · rintro ⟨g1, g2, g3, g4, g5⟩
      by_cases ha : x.a p.2 = p.1
      · exact .inl ⟨g3, g4, by omega, ha⟩
      · rcases g5 with g5 | g5
        · exact absurd g5 ha
        · exact .inr ⟨g1, g2, by omega, g5, ha⟩

end Verif.Symal
