import Verif.Dag.Hash
import Verif.Dag.Determinize
import Mathlib.Logic.Relation

/-! # The weights that number the words -/

namespace Verif.Dag

/-- The arcs without their weights. -/
def Dag.skel (d : Dag) (p : Nat) : List (Nat × Nat) := (d.row p).map fun x => (x.a, x.q)

/-- The automata differ in the weights only. -/
structure Same (d e : Dag) : Prop where
  ends : e.ends = d.ends
  starts : e.starts = d.starts
  length : e.rows.length = d.rows.length
  skel : ∀ p, e.skel p = d.skel p

theorem Same.refl (d : Dag) : Same d d := ⟨rfl, rfl, rfl, fun _ => rfl⟩

theorem setWeight_row (d : Dag) (s k w p : Nat) :
    (d.setWeight s k w).row p =
      if p = s then (d.row p).modify k fun x => { x with w := w } else d.row p := by
  unfold Dag.setWeight Dag.row
  simp only [List.getElem?_modify]
  by_cases h : s = p
  · subst h
    simp only [if_true]
    cases d.rows[s]? with
    | none => simp
    | some r => simp
  · simp only [h, Ne.symm h, if_false]
    cases d.rows[p]? <;> simp

theorem map_modify_same (r : List Arc) (k w : Nat) :
    (r.modify k fun x => { x with w := w }).map (fun x => (x.a, x.q)) = r.map fun x => (x.a, x.q) := by
  apply List.ext_getElem?
  intro i
  simp only [List.getElem?_map, List.getElem?_modify]
  cases r[i]? with
  | none => simp
  | some x => by_cases h : k = i <;> simp [h]

theorem Same.setWeight {d e : Dag} (h : Same d e) (s k w : Nat) : Same d (e.setWeight s k w) := by
  refine ⟨h.ends, h.starts, by simpa [Dag.setWeight] using h.length, fun p => ?_⟩
  rw [← h.skel p]
  unfold Dag.skel
  rw [setWeight_row]
  split
  · exact map_modify_same _ _ _
  · rfl

/-- The lists of the words from each state, in order. -/
def IsWords (d : Dag) (W : Nat → List (List Nat)) : Prop :=
  ∀ p, W p = (if p ∈ d.ends then [[]] else []) ++
    (d.skel p).flatMap fun x => (W x.2).map (x.1 :: ·)

/-- The number of words behind the first arcs. -/
def pre (W : Nat → List (List Nat)) (r : List (Nat × Nat)) (k : Nat) : Nat :=
  ((r.take k).map fun x => (W x.2).length).sum

section
variable {d : Dag} {W : Nat → List (List Nat)}

theorem pre_succ {r : List (Nat × Nat)} {k : Nat} {x : Nat × Nat} (h : r[k]? = some x) :
    pre W r (k + 1) = pre W r k + (W x.2).length := by
  unfold pre
  obtain ⟨hk, rfl⟩ := List.getElem?_eq_some_iff.1 h
  rw [List.take_succ_eq_append_getElem hk, List.map_append, List.sum_append]
  simp

theorem pre_mono (r : List (Nat × Nat)) {i j : Nat} (h : i ≤ j) : pre W r i ≤ pre W r j := by
  induction j with
  | zero => rw [Nat.le_zero.1 h]; exact Nat.le_refl _
  | succ j ih =>
    rcases Nat.lt_or_eq_of_le h with c | c
    · refine Nat.le_trans (ih (by omega)) ?_
      cases hx : r[j]? with
      | some x => rw [pre_succ hx]; omega
      | none =>
        rw [List.getElem?_eq_none_iff] at hx
        unfold pre
        rw [List.take_of_length_le hx, List.take_of_length_le (by omega)]
        exact Nat.le_refl _
    · rw [c]; exact Nat.le_refl _

theorem length_flatMap_words (r : List (Nat × Nat)) :
    (r.flatMap fun x => (W x.2).map (x.1 :: ·)).length = pre W r r.length := by
  unfold pre
  rw [List.take_length]
  simp [List.length_flatMap]

theorem length_words (hW : IsWords d W) (p : Nat) :
    (W p).length = pre W (d.skel p) (d.skel p).length + if p ∈ d.ends then 1 else 0 := by
  rw [hW p, List.length_append, length_flatMap_words]
  split <;> simp <;> omega

/-- The weight of the arc is right. -/
def ArcOK (d : Dag) (W : Nat → List (List Nat)) (e : Dag) (p k : Nat) : Prop :=
  (e.row p)[k]?.map Arc.w = some (pre W (d.skel p) k)

/-- One can go from a state to the other. -/
def Reach (d : Dag) : Nat → Nat → Prop :=
  Relation.ReflTransGen fun p q => ∃ a, (a, q) ∈ d.skel p

/-- All weights behind the state are right. -/
def Good (d : Dag) (W : Nat → List (List Nat)) (e : Dag) (p : Nat) : Prop :=
  ∀ q, Reach d p q → ∀ k, k < (d.skel q).length → ArcOK d W e q k

theorem Good.mono {e f : Dag} (h : ∀ p k, ArcOK d W e p k → ArcOK d W f p k) {p : Nat}
    (hg : Good d W e p) : Good d W f p := fun q hq k hk => h q k (hg q hq k hk)

/-- What is known of states of lower rank. -/
def Inv (d : Dag) (W : Nat → List (List Nat)) (rank : Nat → Nat) (R : Nat) (st : Numbering) : Prop :=
  ∀ p, rank p < R → st.2 p = 0 ∨ (st.2 p = (W p).length ∧ Good d W st.1 p)

/-- What a call gives. -/
structure Called (d : Dag) (W : Nat → List (List Nat)) (rank : Nat → Nat) (s : Nat)
    (st st' : Numbering) : Prop where
  same : Same d st'.1
  ok : ∀ p k, ArcOK d W st.1 p k → ArcOK d W st'.1 p k
  good : Good d W st'.1 s
  value : st'.2 s = (W s).length
  frame : ∀ p, rank s ≤ rank p → p ≠ s → st'.2 p = st.2 p
  inv : Inv d W rank (rank s + 1) st'

/-- What holds in the loop. -/
structure Looping (d : Dag) (W : Nat → List (List Nat)) (rank : Nat → Nat) (s k : Nat)
    (st st' : Numbering) : Prop where
  same : Same d st'.1
  ok : ∀ p k, ArcOK d W st.1 p k → ArcOK d W st'.1 p k
  done : ∀ i, i < k → ArcOK d W st'.1 s i
  good : ∀ i x, i < k → (d.skel s)[i]? = some x → Good d W st'.1 x.2
  value : st'.2 s = pre W (d.skel s) k
  frame : ∀ p, rank s ≤ rank p → p ≠ s → st'.2 p = st.2 p
  inv : Inv d W rank (rank s) st'

theorem Looping.step {rank : Nat → Nat}
    (hr : ∀ p x, x ∈ d.skel p → rank x.2 < rank p) {rec : Nat → Numbering → Option Numbering}
    {s k : Nat} {st st1 : Numbering}
    (hrec : ∀ q, rank q < rank s → ∀ st, Same d st.1 → Inv d W rank (rank q + 1) st →
      ∃ st', rec q st = some st' ∧ Called d W rank q st st')
    (hk : k < (d.skel s).length) (h : Looping d W rank s k st st1) :
    ∃ st2, numberArc rec s st1 k = some st2 ∧ Looping d W rank s (k + 1) st st2 := by
  obtain ⟨x, hx⟩ : ∃ x, (st1.1.row s)[k]? = some x := by
    rw [← h.same.skel s] at hk
    simp only [Dag.skel, List.length_map] at hk
    exact ⟨_, List.getElem?_eq_getElem hk⟩
  have hskel : (d.skel s)[k]? = some (x.a, x.q) := by
    rw [← h.same.skel s]
    simp [Dag.skel, hx]
  have hlt : rank x.q < rank s := hr s (x.a, x.q) (List.mem_of_getElem? hskel)
  have okset : ∀ p i, ArcOK d W st1.1 p i → ArcOK d W (st1.1.setWeight s k (st1.2 s)) p i := by
    intro p i hp
    unfold ArcOK at hp ⊢
    rw [setWeight_row]
    split
    next e =>
      subst e
      rw [List.getElem?_modify]
      by_cases c : k = i
      · subst c
        rw [hx]
        simp [h.value]
      · simpa [c] using hp
    next e => exact hp
  have setk : ArcOK d W (st1.1.setWeight s k (st1.2 s)) s k := by
    unfold ArcOK
    rw [setWeight_row, if_pos rfl, List.getElem?_modify, hx]
    simp [h.value]
  obtain ⟨st2, h1, h2⟩ := hrec x.q hlt (st1.1.setWeight s k (st1.2 s), st1.2) (h.same.setWeight _ _ _)
    (by
      intro p hp
      rcases h.inv p (by omega) with h0 | ⟨h0, hg⟩
      · exact .inl h0
      · exact .inr ⟨h0, hg.mono okset⟩)
  have hsq : s ≠ x.q := by rintro e; rw [← e] at hlt; omega
  refine ⟨(st2.1, put st2.2 s (st2.2 s + st2.2 x.q)), by unfold numberArc; rw [hx]; simp only [h1], h2.same, fun p i hp =>
    h2.ok p i (okset p i (h.ok p i hp)), ?_, ?_, ?_, ?_, ?_⟩
  · intro i hi
    rcases Nat.lt_or_eq_of_le (Nat.lt_succ_iff.1 hi) with c | c
    · exact h2.ok s i (okset s i (h.done i c))
    · subst c; exact h2.ok s i setk
  · intro i y hi hy
    rcases Nat.lt_or_eq_of_le (Nat.lt_succ_iff.1 hi) with c | c
    · exact (h.good i y c hy).mono fun p j hp => h2.ok p j (okset p j hp)
    · subst c
      rw [hskel] at hy; cases hy
      exact h2.good
  · simp only [put, if_true]
    rw [h2.frame s (by omega) hsq, h2.value, pre_succ hskel, ← h.value]
  · intro p hp hne
    simp only [put, hne, if_false]
    rw [h2.frame p (by omega) (by rintro rfl; omega)]
    exact h.frame p hp hne
  · intro p hp
    have hne : p ≠ s := by rintro rfl; omega
    simp only [put, hne, if_false]
    rcases Nat.lt_or_ge (rank x.q) (rank p) with c | c
    · rw [h2.frame p (by omega) (by rintro rfl; omega)]
      rcases h.inv p hp with h0 | ⟨h0, hg⟩
      · exact .inl h0
      · exact .inr ⟨h0, hg.mono fun p j hp => h2.ok p j (okset p j hp)⟩
    · exact h2.inv p (by omega)

theorem Looping.steps {rank : Nat → Nat}
    (hr : ∀ p x, x ∈ d.skel p → rank x.2 < rank p) {rec : Nat → Numbering → Option Numbering}
    {s : Nat} {st : Numbering}
    (hrec : ∀ q, rank q < rank s → ∀ st, Same d st.1 → Inv d W rank (rank q + 1) st →
      ∃ st', rec q st = some st' ∧ Called d W rank q st st')
    (n k : Nat) (st1 : Numbering) (hk : k + n = (d.skel s).length) (h : Looping d W rank s k st st1) :
    ∃ st2, numberArcs rec s n k st1 = some st2 ∧ Looping d W rank s (k + n) st st2 := by
  induction n generalizing k st1 with
  | zero => exact ⟨st1, rfl, h⟩
  | succ n ih =>
    obtain ⟨st2, h1, h2⟩ := h.step hr hrec (by omega)
    obtain ⟨st3, h3, h4⟩ := ih (k + 1) st2 (by omega) h2
    refine ⟨st3, by simp [numberArcs, h1, h3], ?_⟩
    rw [show k + (n + 1) = k + 1 + n by omega]
    exact h4

theorem numbers_spec (hW : IsWords d W) {rank : Nat → Nat}
    (hr : ∀ p x, x ∈ d.skel p → rank x.2 < rank p) (fuel s : Nat) (st : Numbering)
    (hf : rank s < fuel) (hs : Same d st.1) (hi : Inv d W rank (rank s + 1) st) :
    ∃ st', numbers fuel s st = some st' ∧ Called d W rank s st st' := by
  induction fuel generalizing s st with
  | zero => omega
  | succ fuel ih =>
    unfold numbers
    by_cases c : st.2 s = 0
    · rw [if_pos c]
      have h0 : Looping d W rank s 0 st st :=
        ⟨hs, fun _ _ h => h, by simp, by simp, by simp [c, pre], fun _ _ _ => rfl,
          fun p hp => hi p (by omega)⟩
      have hlen : (st.1.row s).length = (d.skel s).length := by
        rw [← hs.skel s]; simp [Dag.skel]
      obtain ⟨st2, h1, h2⟩ := h0.steps hr (rec := numbers fuel)
        (fun q hq st hs hi => ih q st (by omega) hs hi) (d.skel s).length 0 st (by simp)
      simp only [Nat.zero_add] at h2
      rw [hlen, h1]
      have good : Good d W st2.1 s := by
        intro q hq k hk
        rw [Reach, Relation.ReflTransGen.cases_head_iff] at hq
        rcases hq with rfl | ⟨r, ⟨a, ha⟩, hq⟩
        · exact h2.done k hk
        · obtain ⟨i, hi⟩ := List.mem_iff_getElem?.1 ha
          exact h2.good i _ (List.getElem?_eq_some_iff.1 hi).1 hi q hq k hk
      have hend : st2.1.isEnd s = true ↔ s ∈ d.ends := by rw [isEnd_iff, h2.same.ends]
      refine ⟨_, rfl, ?_⟩
      have hlw := length_words hW s
      by_cases ce : s ∈ d.ends
      · rw [if_pos (hend.2 ce)]
        rw [if_pos ce] at hlw
        refine ⟨h2.same, h2.ok, good, ?_, ?_, ?_⟩
        · simp only [put, if_true]
          rw [h2.value, hlw]
        · intro p hp hne
          simp only [put, hne, if_false]
          exact h2.frame p hp hne
        · intro p hp
          by_cases cp : p = s
          · subst cp
            right
            simp only [put, if_true]
            exact ⟨by rw [h2.value, hlw], good⟩
          · simp only [put, cp, if_false]
            rcases Nat.lt_or_eq_of_le (Nat.lt_succ_iff.1 hp) with c' | c'
            · exact h2.inv p c'
            · rw [h2.frame p (by omega) cp]
              rcases hi p hp with h0 | ⟨h0, hg⟩
              · exact .inl h0
              · exact .inr ⟨h0, hg.mono h2.ok⟩
      · rw [if_neg (fun h => ce (hend.1 h))]
        rw [if_neg ce] at hlw
        refine ⟨h2.same, h2.ok, good, ?_, h2.frame, ?_⟩
        · rw [h2.value, hlw]; rfl
        · intro p hp
          by_cases cp : p = s
          · subst cp
            exact .inr ⟨by rw [h2.value, hlw]; rfl, good⟩
          · rcases Nat.lt_or_eq_of_le (Nat.lt_succ_iff.1 hp) with c' | c'
            · exact h2.inv p c'
            · rw [h2.frame p (by omega) cp]
              rcases hi p hp with h0 | ⟨h0, hg⟩
              · exact .inl h0
              · exact .inr ⟨h0, hg.mono h2.ok⟩
    · rw [if_neg c]
      rcases hi s (by omega) with h0 | ⟨h0, hg⟩
      · exact absurd h0 c
      · exact ⟨st, rfl, hs, fun _ _ h => h, hg, h0, fun _ _ _ => rfl, hi⟩

/-! ## The words -/

theorem mem_skel {p a q : Nat} : (a, q) ∈ d.skel p ↔ ∃ w, (⟨a, q, w⟩ : Arc) ∈ d.row p := by
  simp only [Dag.skel, List.mem_map, Prod.mk.injEq]
  constructor
  · rintro ⟨⟨a', q', w⟩, h, rfl, rfl⟩; exact ⟨w, h⟩
  · rintro ⟨w, h⟩; exact ⟨_, h, rfl, rfl⟩

theorem mem_words_nil (hW : IsWords d W) (p : Nat) : [] ∈ W p ↔ p ∈ d.ends := by
  rw [hW p]
  simp only [List.mem_append, List.mem_flatMap, List.mem_map]
  constructor
  · rintro (h | ⟨x, _, v, _, h⟩)
    · split at h
      next c => exact c
      next => simp at h
    · cases h
  · intro h
    rw [if_pos h]; simp

theorem mem_words_cons (hW : IsWords d W) (p a : Nat) (v : List Nat) :
    a :: v ∈ W p ↔ ∃ q, (a, q) ∈ d.skel p ∧ v ∈ W q := by
  rw [hW p]
  simp only [List.mem_append, List.mem_flatMap, List.mem_map]
  constructor
  · rintro (h | ⟨x, h1, v', h2, h⟩)
    · split at h <;> simp at h
    · cases h; exact ⟨x.2, h1, h2⟩
  · rintro ⟨q, h1, h2⟩
    exact .inr ⟨(a, q), h1, v, h2, rfl⟩

theorem mem_words (hW : IsWords d W) (p : Nat) (w : List Nat) : w ∈ W p ↔ Accepts d p w := by
  induction w generalizing p with
  | nil =>
    rw [mem_words_nil hW]
    constructor
    · exact fun h => ⟨p, .nil p, h⟩
    · rintro ⟨q, h, h'⟩
      rw [path_nil] at h; subst h; exact h'
  | cons a v ih =>
    rw [mem_words_cons hW]
    constructor
    · rintro ⟨q, h1, h2⟩
      obtain ⟨w, h1⟩ := mem_skel.1 h1
      obtain ⟨f, h3, h4⟩ := (ih q).1 h2
      exact ⟨f, .cons h1 h3, h4⟩
    · rintro ⟨f, h1, h2⟩
      obtain ⟨q, w, h3, h4⟩ := path_cons.1 h1
      exact ⟨q, mem_skel.2 ⟨w, h3⟩, (ih q).2 ⟨f, h4, h2⟩⟩

/-- The arcs of each state have different symbols and are sorted. -/
def Strict (d : Dag) : Prop := ∀ p, (d.row p).Pairwise fun x y => x.a < y.a

theorem Strict.skel (h : Strict d) (p : Nat) : (d.skel p).Pairwise fun x y => x.1 < y.1 := by
  unfold Dag.skel
  rw [List.pairwise_map]
  exact h p

theorem words_sorted (hW : IsWords d W) (hs : Strict d) {rank : Nat → Nat}
    (hr : ∀ p x, x ∈ d.skel p → rank x.2 < rank p) (p : Nat) : (W p).Pairwise (· < ·) := by
  induction hn : rank p using Nat.strongRecOn generalizing p with
  | ind n ih =>
    rw [hW p, List.pairwise_append]
    refine ⟨by split <;> simp, ?_, ?_⟩
    · have hsk := hs.skel p
      have hq : ∀ x ∈ d.skel p, (W x.2).Pairwise (· < ·) := by
        intro x hx
        exact ih (rank x.2) (by have := hr p x hx; omega) x.2 rfl
      generalize d.skel p = r at hsk hq
      induction r with
      | nil => simp
      | cons x r ihr =>
        rw [List.pairwise_cons] at hsk
        rw [List.flatMap_cons, List.pairwise_append]
        refine ⟨?_, ihr hsk.2 fun y hy => hq y (by simp [hy]), ?_⟩
        · rw [List.pairwise_map]
          refine (hq x (by simp)).imp fun h => ?_
          rw [List.cons_lt_cons_iff]
          exact .inr ⟨rfl, h⟩
        · intro u hu v hv
          obtain ⟨u', _, rfl⟩ := List.mem_map.1 hu
          obtain ⟨y, hy, hv⟩ := List.mem_flatMap.1 hv
          obtain ⟨v', _, rfl⟩ := List.mem_map.1 hv
          rw [List.cons_lt_cons_iff]
          exact .inl (hsk.1 y hy)
    · intro u hu v hv
      split at hu
      · rw [List.mem_singleton] at hu; subst hu
        obtain ⟨y, hy, hv⟩ := List.mem_flatMap.1 hv
        obtain ⟨v', _, rfl⟩ := List.mem_map.1 hv
        exact List.nil_lt_cons _ _
      · simp at hu

/-- The place of a word among the words from a state. -/
def place (W : Nat → List (List Nat)) (p : Nat) (w : List Nat) : Nat :=
  ((W p).filter fun v => decide (v ≤ w)).length

theorem place_flat (r : List (Nat × Nat)) (hs : r.Pairwise fun x y => x.1 < y.1) {i a q : Nat}
    (hi : r[i]? = some (a, q)) (v : List Nat) :
    ((r.flatMap fun x => (W x.2).map (x.1 :: ·)).filter fun u => decide (u ≤ a :: v)).length =
      pre W r i + place W q v := by
  induction r generalizing i with
  | nil => simp at hi
  | cons x r ih =>
    rw [List.pairwise_cons] at hs
    rw [List.flatMap_cons, List.filter_append, List.length_append]
    cases i with
    | zero =>
      simp only [List.getElem?_cons_zero, Option.some.injEq] at hi
      subst hi
      have e : ((r.flatMap fun x => (W x.2).map (x.1 :: ·)).filter fun u => decide (u ≤ a :: v)) = [] := by
        rw [List.filter_eq_nil_iff]
        intro u hu
        obtain ⟨y, hy, hu⟩ := List.mem_flatMap.1 hu
        obtain ⟨u', _, rfl⟩ := List.mem_map.1 hu
        have := hs.1 y hy
        simp only at this
        rw [decide_eq_true_eq, List.cons_le_cons_iff]
        omega
      rw [e]
      simp only [pre, List.take_zero, List.map_nil, List.sum_nil, List.length_nil, Nat.add_zero,
        Nat.zero_add, place, List.filter_map, List.length_map]
      congr 2
      funext u
      simp [List.cons_le_cons_iff]
    | succ i =>
      simp only [List.getElem?_cons_succ] at hi
      rw [ih hs.2 hi]
      have hlt : x.1 < a := hs.1 (a, q) (List.mem_of_getElem? hi)
      have e : (((W x.2).map (x.1 :: ·)).filter fun u => decide (u ≤ a :: v)) =
          (W x.2).map (x.1 :: ·) := by
        rw [List.filter_eq_self]
        intro u hu
        obtain ⟨u', _, rfl⟩ := List.mem_map.1 hu
        rw [decide_eq_true_eq, List.cons_le_cons_iff]
        exact .inl hlt
      rw [e]
      simp only [pre, List.take_succ_cons, List.map_cons, List.sum_cons, List.length_map]
      omega

theorem place_cons (hW : IsWords d W) (hs : Strict d) {p i a q : Nat}
    (hi : (d.skel p)[i]? = some (a, q)) (v : List Nat) :
    place W p (a :: v) = (if p ∈ d.ends then 1 else 0) + (pre W (d.skel p) i + place W q v) := by
  unfold place
  rw [hW p, List.filter_append, List.length_append, place_flat _ (hs.skel p) hi]
  congr 1
  split <;> simp [List.nil_le]

theorem place_nil (hW : IsWords d W) (p : Nat) :
    place W p [] = if p ∈ d.ends then 1 else 0 := by
  unfold place
  rw [hW p, List.filter_append, List.length_append]
  have e : (((d.skel p).flatMap fun x => (W x.2).map (x.1 :: ·)).filter fun u => decide (u ≤ [])) = [] := by
    rw [List.filter_eq_nil_iff]
    intro u hu
    obtain ⟨y, hy, hu⟩ := List.mem_flatMap.1 hu
    obtain ⟨u', _, rfl⟩ := List.mem_map.1 hu
    simp
  rw [e]
  split <;> simp

end

/-! ## The hash -/

section
variable {d e : Dag} {W : Nat → List (List Nat)}

theorem Same.strict (h : Same d e) (hs : Strict d) : Strict e := by
  intro p
  have := hs.skel p
  rw [← h.skel p] at this
  unfold Dag.skel at this
  rw [List.pairwise_map] at this
  exact this

theorem Good.step {p q a : Nat} (h : Good d W e p) (ha : (a, q) ∈ d.skel p) : Good d W e q :=
  fun r hr => h r (Relation.ReflTransGen.head ⟨a, ha⟩ hr)

theorem Good.weight (hse : Same d e) {p i : Nat} (h : Good d W e p) {x : Arc}
    (hx : (e.row p)[i]? = some x) :
    (d.skel p)[i]? = some (x.a, x.q) ∧ x.w = pre W (d.skel p) i := by
  have h1 : (d.skel p)[i]? = some (x.a, x.q) := by
    rw [← hse.skel p]; simp [Dag.skel, hx]
  refine ⟨h1, ?_⟩
  have := h p .refl i (List.getElem?_eq_some_iff.1 h1).1
  unfold ArcOK at this
  rw [hx] at this
  simpa using this

theorem hashFrom_spec (hW : IsWords d W) (hs : Strict d) (hse : Same d e) {p : Nat}
    (h : Good d W e p) (index n : Nat) (w : List Nat) :
    e.hashFrom p index w = some n ↔
      w ∈ W p ∧ n + (if p ∈ d.ends then 1 else 0) = index + place W p w := by
  induction w generalizing p index with
  | nil =>
    rw [mem_words_nil hW, place_nil hW]
    unfold Dag.hashFrom
    have he : e.isEnd p = true ↔ p ∈ d.ends := by rw [isEnd_iff, hse.ends]
    by_cases c : p ∈ d.ends
    · rw [if_pos (he.2 c)]
      simp only [c, if_true, Option.some.injEq, true_and]
      omega
    · rw [if_neg fun h => c (he.1 h)]
      simp [c]
  | cons a v ih =>
    have hse' := hse.strict hs
    unfold Dag.hashFrom
    cases hx : search (e.row p) a with
    | none =>
      simp only [reduceCtorEq, false_iff, not_and]
      intro hm
      obtain ⟨q, hq, _⟩ := (mem_words_cons hW p a v).1 hm
      rw [← hse.skel p] at hq
      obtain ⟨u, hu⟩ := mem_skel.1 hq
      exact absurd rfl (search_none ((hse' p).imp fun h => Nat.le_of_lt h) hx _ hu)
    | some x =>
      obtain ⟨hm, ha⟩ := search_some hx
      obtain ⟨i, hi⟩ := List.mem_iff_getElem?.1 hm
      obtain ⟨h1, h2⟩ := h.weight hse hi
      rw [ha] at h1
      simp only
      rw [ih (h.step (List.mem_of_getElem? h1)), place_cons hW hs h1, mem_words_cons hW, h2]
      have he : e.isEnd x.q = true ↔ x.q ∈ d.ends := by rw [isEnd_iff, hse.ends]
      have mem : (∃ q, (a, q) ∈ d.skel p ∧ v ∈ W q) ↔ v ∈ W x.q := by
        constructor
        · rintro ⟨q, hq, hv⟩
          rwa [← key_unique (hs.skel p) hq (List.mem_of_getElem? h1)]
        · exact fun hv => ⟨x.q, List.mem_of_getElem? h1, hv⟩
      rw [mem]
      by_cases c : x.q ∈ d.ends
      · rw [if_pos (he.2 c)]
        simp only [c, if_true]
        constructor <;> rintro ⟨h3, h4⟩ <;> exact ⟨h3, by omega⟩
      · rw [if_neg fun h => c (he.1 h)]
        simp only [c, if_false]
        constructor <;> rintro ⟨h3, h4⟩ <;> exact ⟨h3, by omega⟩

/-! ## Searching by weights -/

theorem linsearchNum_spec (row : List Arc) (v : Nat) (hm : row.Pairwise fun x y => x.w ≤ y.w) {i : Nat}
    {x : Arc} (hi : row[i]? = some x) (hx : x.w < v)
    (hn : i + 1 = row.length ∨ ∃ y, row[i + 1]? = some y ∧ v ≤ y.w) :
    linsearchNum v row = some x := by
  fun_induction linsearchNum v row generalizing i with
  | case1 => simp at hi
  | case2 y h =>
    cases i with
    | zero => simpa using hi
    | succ i => simp at hi
  | case3 y h =>
    cases i with
    | zero => simp at hi; subst hi; omega
    | succ i => simp at hi
  | case4 y z l h =>
    cases i with
    | zero => simpa using hi
    | succ i =>
      simp only [List.getElem?_cons_succ] at hi
      have hxm := List.mem_of_getElem? hi
      rw [List.pairwise_cons] at hm
      rcases List.mem_cons.1 hxm with rfl | hxm
      · omega
      · have := (List.pairwise_cons.1 hm.2).1 x hxm
        omega
  | case5 y z l h ih =>
    cases i with
    | zero =>
      simp only [List.getElem?_cons_zero, Option.some.injEq] at hi
      subst hi
      rcases hn with hn | ⟨y', h1, h2⟩
      · simp at hn
      · simp at h1
        subst h1
        exact absurd ⟨hx, h2⟩ h
    | succ i =>
      simp only [List.getElem?_cons_succ] at hi
      refine ih (List.pairwise_cons.1 hm).2 hi ?_
      rcases hn with hn | ⟨y', h1, h2⟩
      · left; simp at hn ⊢; omega
      · right; exact ⟨y', by simpa using h1, h2⟩

theorem binsearchNum_spec (row : List Arc) (v : Nat) (hm : row.Pairwise fun x y => x.w ≤ y.w) {i : Nat}
    {x : Arc} (hi : row[i]? = some x) (hx : x.w < v)
    (hn : i + 1 = row.length ∨ ∃ y, row[i + 1]? = some y ∧ v ≤ y.w) (fuel lo n : Nat) (hf : n < fuel)
    (h1 : lo ≤ i) (h2 : i < lo + n) (h3 : lo + n ≤ row.length) :
    binsearchNum row v fuel lo n = some x := by
  have srt : ∀ (i j : Nat) (x y : Arc), i < j → row[i]? = some x → row[j]? = some y → x.w ≤ y.w := by
    intro i j x y hij hi hj
    obtain ⟨hi', rfl⟩ := List.getElem?_eq_some_iff.1 hi
    obtain ⟨hj', rfl⟩ := List.getElem?_eq_some_iff.1 hj
    exact List.pairwise_iff_getElem.1 hm i j hi' hj' hij
  fun_induction binsearchNum row v fuel lo n with
  | case1 => omega
  | case2 => omega
  | case3 fuel lo n hn' m hm' =>
    rw [List.getElem?_eq_none_iff] at hm'
    omega
  | case4 fuel lo n hn' m y hy hc =>
    -- found at `m`
    rcases Nat.lt_trichotomy m i with c | c | c
    · exfalso
      rcases hc.2 with h | h
      · have := (List.getElem?_eq_some_iff.1 hi).1; omega
      · have hlt : m + 1 < row.length := by have := (List.getElem?_eq_some_iff.1 hi).1; omega
        rw [List.getElem?_eq_getElem hlt] at h
        simp only [Option.map_some, Option.getD_some] at h
        rcases Nat.lt_or_eq_of_le (show m + 1 ≤ i by omega) with c' | c'
        · have := srt (m + 1) i _ x c' (List.getElem?_eq_getElem hlt) hi
          omega
        · subst c'
          rw [List.getElem?_eq_getElem hlt] at hi
          cases hi
          omega
    · rw [← c] at hi; rw [hy] at hi; exact hi
    · exfalso
      rcases hn with h | ⟨z, hz, hv⟩
      · have := (List.getElem?_eq_some_iff.1 hy).1; omega
      · rcases Nat.lt_or_eq_of_le (show i + 1 ≤ m by omega) with c' | c'
        · have := srt (i + 1) m z y c' hz hy
          omega
        · rw [c', hy] at hz; cases hz; omega
  | case5 fuel lo n hn' m y hy hc hlt ih =>
    apply ih (by omega)
    · by_contra c
      rcases Nat.lt_or_eq_of_le (show i ≤ m by omega) with c' | c'
      · rcases hn with h | ⟨z, hz, hv⟩
        · have := (List.getElem?_eq_some_iff.1 hy).1; omega
        · rcases Nat.lt_or_eq_of_le (show i + 1 ≤ m by omega) with c2 | c2
          · have := srt (i + 1) m z y c2 hz hy
            omega
          · rw [c2, hy] at hz; cases hz; omega
      · apply hc
        refine ⟨hlt, ?_⟩
        rw [← c']
        rcases hn with h | ⟨z, hz, hv⟩
        · exact .inl h
        · right; rw [hz]; simpa using hv
    · omega
    · omega
  | case6 fuel lo n hn' m y hy hc hlt ih =>
    apply ih (by omega) h1
    · by_contra c
      have : m ≤ i := by omega
      rcases Nat.lt_or_eq_of_le this with c' | c'
      · have := srt m i y x c' hy hi; omega
      · rw [← c', hy] at hi; cases hi; omega
    · omega

theorem searchNum_spec (row : List Arc) (v : Nat) (hm : row.Pairwise fun x y => x.w ≤ y.w) {i : Nat}
    {x : Arc} (hi : row[i]? = some x) (hx : x.w < v)
    (hn : i + 1 = row.length ∨ ∃ y, row[i + 1]? = some y ∧ v ≤ y.w) :
    searchNum row v = some x := by
  have hlt := (List.getElem?_eq_some_iff.1 hi).1
  unfold searchNum
  split
  · exact binsearchNum_spec row v hm hi hx hn _ _ _ (by omega) (by omega) (by omega) (by omega)
  · rw [if_pos (by omega)]
    exact linsearchNum_spec row v hm hi hx hn

theorem Good.mono_row (hse : Same d e) {p : Nat} (h : Good d W e p) :
    (e.row p).Pairwise fun x y => x.w ≤ y.w := by
  rw [List.pairwise_iff_getElem]
  intro i j hi hj hij
  rw [(h.weight hse (List.getElem?_eq_getElem hi)).2, (h.weight hse (List.getElem?_eq_getElem hj)).2]
  exact pre_mono _ (by omega)

theorem place_pos (hW : IsWords d W) {p : Nat} {w : List Nat} (h : w ∈ W p) : 1 ≤ place W p w := by
  unfold place
  apply List.length_pos_of_mem (a := w)
  simp [h, List.le_refl]

theorem place_le (p : Nat) (w : List Nat) : place W p w ≤ (W p).length := List.length_filter_le _ _

theorem unhashFrom_spec (hW : IsWords d W) (hs : Strict d) (hse : Same d e) {rank : Nat → Nat}
    (hr : ∀ p x, x ∈ d.skel p → rank x.2 < rank p) {p : Nat} (h : Good d W e p) (fuel : Nat)
    (hf : rank p < fuel) (w acc : List Nat) (hw : w ∈ W p) :
    e.unhashFrom fuel p (place W p w - if p ∈ d.ends then 1 else 0) acc = some (acc ++ w) := by
  induction w generalizing p fuel acc with
  | nil =>
    rw [place_nil hW, Nat.sub_self]
    unfold Dag.unhashFrom
    simp
  | cons a v ih =>
    obtain ⟨q, hq, hv⟩ := (mem_words_cons hW p a v).1 hw
    obtain ⟨i, hi⟩ := List.mem_iff_getElem?.1 hq
    rw [place_cons hW hs hi, Nat.add_sub_cancel_left]
    have h1 := place_pos hW hv
    have h2 := place_le (W := W) q v
    have hi' := hi
    rw [← hse.skel p, Dag.skel, List.getElem?_map, Option.map_eq_some_iff] at hi'
    obtain ⟨x, hx, hxe⟩ := hi'
    cases hxe
    obtain ⟨_, hxw⟩ := h.weight hse hx
    have found : searchNum (e.row p) (pre W (d.skel p) i + place W x.q v) = some x := by
      refine searchNum_spec _ _ (h.mono_row hse) hx (by omega) ?_
      by_cases c : i + 1 = (e.row p).length
      · exact .inl c
      · have hlt : i + 1 < (e.row p).length := by
          have := (List.getElem?_eq_some_iff.1 hx).1; omega
        refine .inr ⟨_, List.getElem?_eq_getElem hlt, ?_⟩
        rw [(h.weight hse (List.getElem?_eq_getElem hlt)).2, pre_succ hi]
        simp only; omega
    have hrk := hr p _ hq
    simp only at hrk
    obtain ⟨k, hk⟩ : ∃ k, pre W (d.skel p) i + place W x.q v = k + 1 := ⟨_, (Nat.sub_add_cancel (by omega)).symm⟩
    cases fuel with
    | zero => omega
    | succ fuel =>
      rw [hk]
      unfold Dag.unhashFrom
      rw [hk] at found
      simp only [found]
      have he : (if e.isEnd x.q then 1 else 0) = if x.q ∈ d.ends then 1 else 0 := by
        simp only [isEnd_iff, hse.ends]
      have hsub : k + 1 - x.w = place W x.q v := by omega
      have := ih (h.step hq) fuel (by omega) (acc ++ [x.a]) hv
      rw [he, hsub, this]
      simp

theorem unhashFrom_beyond (hW : IsWords d W) (hse : Same d e) {rank : Nat → Nat}
    (hr : ∀ p x, x ∈ d.skel p → rank x.2 < rank p) (fuel : Nat) {p : Nat} (h : Good d W e p)
    (hf : rank p < fuel) (index : Nat) (acc : List Nat)
    (hi : (W p).length < index + if p ∈ d.ends then 1 else 0) :
    e.unhashFrom fuel p index acc = some [] ∨ index = 0 := by
  induction fuel generalizing p index acc with
  | zero => omega
  | succ fuel ih =>
    cases index with
    | zero => exact .inr rfl
    | succ index =>
      left
      have hl := length_words hW p
      unfold Dag.unhashFrom
      have hlen : (d.skel p).length = (e.row p).length := by
        rw [← hse.skel p]; simp [Dag.skel]
      by_cases c : (e.row p).length = 0
      · have : searchNum (e.row p) (index + 1) = none := by
          unfold searchNum
          rw [if_neg (by omega), if_neg (by omega)]
        rw [this]
      · have hlt : (e.row p).length - 1 < (e.row p).length := by omega
        have hx := List.getElem?_eq_getElem hlt
        obtain ⟨h1, h2⟩ := h.weight hse hx
        have h3 := pre_succ (W := W) h1
        rw [show (e.row p).length - 1 + 1 = (d.skel p).length by omega] at h3
        generalize hxe : (e.row p)[(e.row p).length - 1] = x at h1 h2 h3 hx
        simp only at h3
        have found : searchNum (e.row p) (index + 1) = some x := by
          refine searchNum_spec _ _ (h.mono_row hse) hx ?_ (.inl (by omega))
          rw [h2]
          split at hi <;> rename_i c1 <;> simp only [c1, if_true, if_false] at hl <;> omega
        rw [found]
        have hm := List.mem_of_getElem? h1
        have hrk := hr p _ hm
        simp only at hrk
        have he : (if e.isEnd x.q then 1 else 0) = if x.q ∈ d.ends then 1 else 0 := by
          simp only [isEnd_iff, hse.ends]
        simp only [he]
        have hq := length_words hW x.q
        have key : (W x.q).length < index + 1 - x.w := by
          rw [h2]
          split at hi <;> rename_i c1 <;> simp only [c1, if_true, if_false] at hl <;> omega
        have hW1 : x.q ∈ d.ends → 1 ≤ (W x.q).length := by
          intro hc; rw [hq, if_pos hc]; omega
        have := ih (h.step hm) (by omega) (index + 1 - x.w - if x.q ∈ d.ends then 1 else 0)
          (acc ++ [x.a]) (by split <;> rename_i c2 <;> [have := hW1 c2; skip] <;> omega)
        rcases this with h5 | h5
        · exact h5
        · exfalso
          split at h5
          next c2 => have := hW1 c2; omega
          next c2 => omega

end

end Verif.Dag
