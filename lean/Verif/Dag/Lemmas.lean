import Verif.Dag.Spec
import Mathlib.Tactic.ByContra
import Mathlib.Data.List.Pairwise

/-! # Elementary facts on automata -/

namespace Verif.Dag

theorem insertArc_perm (x : Arc) (l : List Arc) : (insertArc x l).Perm (x :: l) := by
  fun_induction insertArc x l with
  | case1 => exact .refl _
  | case2 => exact .refl _
  | case3 y l h ih => exact (ih.cons y).trans (.swap x y l)

@[simp] theorem mem_insertArc {x y : Arc} {l : List Arc} : y ∈ insertArc x l ↔ y = x ∨ y ∈ l := by
  rw [(insertArc_perm x l).mem_iff]; simp

theorem insertArc_sorted (x : Arc) (l : List Arc) (h : l.Pairwise fun x y => x.a ≤ y.a) :
    (insertArc x l).Pairwise fun x y => x.a ≤ y.a := by
  fun_induction insertArc x l with
  | case1 => simp
  | case2 y l hy =>
    rw [List.pairwise_cons]
    refine ⟨fun z hz => ?_, h⟩
    rw [List.pairwise_cons] at h
    rcases List.mem_cons.1 hz with rfl | hz
    · omega
    · have := h.1 z hz; omega
  | case3 y l hy ih =>
    rw [List.pairwise_cons] at h ⊢
    refine ⟨fun z hz => ?_, ih h.2⟩
    rcases mem_insertArc.1 hz with rfl | hz
    · omega
    · exact h.1 z hz

theorem row_of_ge {d : Dag} {p : Nat} (h : d.rows.length ≤ p) : d.row p = [] := by
  simp [Dag.row, List.getElem?_eq_none h]

theorem lt_of_mem_row {d : Dag} {p : Nat} {x : Arc} (h : x ∈ d.row p) : p < d.rows.length := by
  by_contra c
  rw [row_of_ge (by omega)] at h
  simp at h

theorem contains_iff {l : List Nat} {p : Nat} : l.contains p = true ↔ p ∈ l := by simp

theorem isEnd_iff {d : Dag} {p : Nat} : d.isEnd p = true ↔ p ∈ d.ends := by simp [Dag.isEnd]

/-! ## The basic changes -/

@[simp] theorem newArc_length (d : Dag) (s t a w : Nat) :
    (d.newArc s t a w).rows.length = d.rows.length := by simp [Dag.newArc]

@[simp] theorem newArc_ends (d : Dag) (s t a w : Nat) : (d.newArc s t a w).ends = d.ends := rfl

@[simp] theorem newArc_starts (d : Dag) (s t a w : Nat) : (d.newArc s t a w).starts = d.starts := rfl

theorem newArc_row (d : Dag) (s t a w p : Nat) (hs : s < d.rows.length) :
    (d.newArc s t a w).row p = if p = s then insertArc ⟨a, t, w⟩ (d.row s) else d.row p := by
  unfold Dag.newArc
  simp only [Dag.row, List.getElem?_set]
  by_cases h : s = p
  · subst h
    simp [hs]
  · simp [h, Ne.symm h]

theorem newArc_out (d : Dag) (s t a w : Nat) (hs : d.rows.length ≤ s) : d.newArc s t a w = d := by
  unfold Dag.newArc
  rw [List.set_eq_of_length_le hs]

theorem mem_newArc {d : Dag} {s t a w p : Nat} {x : Arc} :
    x ∈ (d.newArc s t a w).row p ↔ x ∈ d.row p ∨ (p = s ∧ s < d.rows.length ∧ x = ⟨a, t, w⟩) := by
  by_cases hs : s < d.rows.length
  · rw [newArc_row d s t a w p hs]
    by_cases h : p = s
    · subst h; simp [hs, or_comm]
    · simp [h]
  · rw [newArc_out d s t a w (by omega)]
    simp [hs]

theorem newArc_sorted {d : Dag} (h : Sorted d) (s t a w : Nat) : Sorted (d.newArc s t a w) := by
  intro p
  by_cases hs : s < d.rows.length
  · rw [newArc_row d s t a w p hs]
    split
    · exact insertArc_sorted _ _ (h s)
    · exact h p
  · rw [newArc_out d s t a w (by omega)]; exact h p

@[simp] theorem newState_length (d : Dag) (b : Bool) :
    (d.newState b).rows.length = d.rows.length + 1 := by
  cases b <;> simp [Dag.newState, Dag.setStart]

@[simp] theorem newState_ends (d : Dag) (b : Bool) : (d.newState b).ends = d.ends := by
  cases b <;> simp [Dag.newState, Dag.setStart]

theorem newState_starts (d : Dag) (b : Bool) (p : Nat) :
    (d.newState b).starts.testBit p = (d.starts.testBit p || (b && decide (p = d.rows.length))) := by
  cases b
  · simp [Dag.newState]
  · simp [Dag.newState, Dag.setStart, Nat.testBit_or, Nat.testBit_two_pow, eq_comm]

@[simp] theorem newState_row (d : Dag) (b : Bool) (p : Nat) : (d.newState b).row p = d.row p := by
  have : (d.newState b).rows = d.rows ++ [[]] := by cases b <;> rfl
  unfold Dag.row
  rw [this]
  rcases Nat.lt_trichotomy p d.rows.length with h | h | h
  · rw [List.getElem?_append_left h]
  · subst h; simp
  · rw [List.getElem?_eq_none (by simp; omega), List.getElem?_eq_none (by omega)]

@[simp] theorem setStart_row (d : Dag) (p q : Nat) : (d.setStart p).row q = d.row q := rfl
@[simp] theorem setStart_rows (d : Dag) (p : Nat) : (d.setStart p).rows = d.rows := rfl
@[simp] theorem setStart_ends (d : Dag) (p : Nat) : (d.setStart p).ends = d.ends := rfl

theorem setStart_starts (d : Dag) (p q : Nat) :
    (d.setStart p).starts.testBit q = (d.starts.testBit q || decide (q = p)) := by
  simp [Dag.setStart, Nat.testBit_or, Nat.testBit_two_pow, eq_comm]

@[simp] theorem setEnd_row (d : Dag) (p q : Nat) : (d.setEnd p).row q = d.row q := by
  unfold Dag.setEnd; split <;> rfl
@[simp] theorem setEnd_rows (d : Dag) (p : Nat) : (d.setEnd p).rows = d.rows := by
  unfold Dag.setEnd; split <;> rfl
@[simp] theorem setEnd_starts (d : Dag) (p : Nat) : (d.setEnd p).starts = d.starts := by
  unfold Dag.setEnd; split <;> rfl

theorem mem_setEnd {d : Dag} {p q : Nat} : q ∈ (d.setEnd p).ends ↔ q ∈ d.ends ∨ q = p := by
  unfold Dag.setEnd
  split
  next h => constructor
            · exact .inl
            · rintro (h' | rfl)
              · exact h'
              · exact isEnd_iff.1 h
  next h => simp [or_comm]

/-! ## Searching -/

theorem linsearch_some {v : Nat} {l : List Arc} {x : Arc} (h : linsearch v l = some x) :
    x ∈ l ∧ x.a = v := by
  fun_induction linsearch v l with
  | case1 => simp at h
  | case2 y l => simp at h; subst h; simp_all
  | case3 y l _ ih => have := ih h; simp [this]

theorem linsearch_none {v : Nat} {l : List Arc} (h : linsearch v l = none) : ∀ x ∈ l, x.a ≠ v := by
  fun_induction linsearch v l with
  | case1 => simp
  | case2 => simp at h
  | case3 y l hy ih =>
    intro x hx
    rcases List.mem_cons.1 hx with rfl | hx
    · exact hy
    · exact ih h x hx

theorem binsearch_some {row : List Arc} {v fuel lo n : Nat} {x : Arc}
    (h : binsearch row v fuel lo n = some x) : x ∈ row ∧ x.a = v := by
  fun_induction binsearch row v fuel lo n with
  | case1 => simp at h
  | case2 => simp at h
  | case3 => simp at h
  | case4 _ _ _ _ _ _ _ _ ih => exact ih h
  | case5 _ _ _ _ _ _ _ _ _ ih => exact ih h
  | case6 fuel lo n _ m y hy h1 h2 =>
    simp at h; subst h
    exact ⟨List.mem_of_getElem? hy, by omega⟩

theorem binsearch_none {row : List Arc} {v fuel lo n : Nat}
    (hs : row.Pairwise fun x y => x.a ≤ y.a) (hf : n < fuel) (hl : lo + n ≤ row.length)
    (h : binsearch row v fuel lo n = none) :
    ∀ i x, lo ≤ i → i < lo + n → row[i]? = some x → x.a ≠ v := by
  have srt : ∀ (i j : Nat) (x y : Arc), i < j → row[i]? = some x → row[j]? = some y → x.a ≤ y.a := by
    intro i j x y hij hi hj
    obtain ⟨hi', rfl⟩ := List.getElem?_eq_some_iff.1 hi
    obtain ⟨hj', rfl⟩ := List.getElem?_eq_some_iff.1 hj
    exact List.pairwise_iff_getElem.1 hs i j hi' hj' hij
  fun_induction binsearch row v fuel lo n with
  | case1 => omega
  | case2 => intro i x h1 h2; omega
  | case3 fuel lo n hn m hm =>
    rw [List.getElem?_eq_none_iff] at hm
    omega
  | case4 fuel lo n hn m y hy hlt ih =>
    intro i x h1 h2 hi
    by_cases c : m + 1 ≤ i
    · exact ih (by omega) (by omega) h i x c (by omega) hi
    · rcases Nat.lt_or_eq_of_le (show i ≤ m by omega) with c | c
      · have := srt i m x y c hi hy; omega
      · rw [c, hy] at hi; cases hi; omega
  | case5 fuel lo n hn m y hy h0 hlt ih =>
    intro i x h1 h2 hi
    by_cases c : i < m
    · exact ih (by omega) (by omega) h i x h1 (by omega) hi
    · rcases Nat.lt_or_eq_of_le (show m ≤ i by omega) with c | c
      · have := srt m i y x c hy hi; omega
      · rw [← c, hy] at hi; cases hi; omega
  | case6 => simp at h

theorem search_some {row : List Arc} {v : Nat} {x : Arc} (h : search row v = some x) :
    x ∈ row ∧ x.a = v := by
  unfold search at h
  split at h
  · exact binsearch_some h
  · split at h
    · exact linsearch_some h
    · simp at h

theorem search_none {row : List Arc} {v : Nat} (hs : row.Pairwise fun x y => x.a ≤ y.a)
    (h : search row v = none) : ∀ x ∈ row, x.a ≠ v := by
  unfold search at h
  split at h
  · intro x hx
    obtain ⟨i, hi, rfl⟩ := List.mem_iff_getElem.1 hx
    exact binsearch_none hs (by omega) (by omega) h i _ (by omega) (by omega)
      (List.getElem?_eq_getElem hi)
  · split at h
    · exact linsearch_none h
    · intro x hx
      have := List.length_pos_of_mem hx
      omega

theorem unique_arc {row : List Arc} (h : row.Pairwise fun x y => x.a ≠ y.a) {x y : Arc}
    (hx : x ∈ row) (hy : y ∈ row) (e : x.a = y.a) : x = y := by
  by_contra c
  haveI : Std.Symm (fun x y : Arc => x.a ≠ y.a) := ⟨fun _ _ => Ne.symm⟩
  exact h.forall hx hy c e

theorem delta_some {d : Dag} {q a p : Nat} (h : d.delta q a = some p) :
    ∃ w, (⟨a, p, w⟩ : Arc) ∈ d.row q := by
  unfold Dag.delta at h
  split at h
  · simp at h
  · rw [Option.map_eq_some_iff] at h
    obtain ⟨x, hx, rfl⟩ := h
    obtain ⟨h1, rfl⟩ := search_some hx
    exact ⟨x.w, h1⟩

theorem delta_of_mem {d : Dag} {q a p w : Nat} (hs : Sorted d)
    (hd : (d.row q).Pairwise fun x y => x.a ≠ y.a) (h : (⟨a, p, w⟩ : Arc) ∈ d.row q) :
    d.delta q a = some p := by
  unfold Dag.delta
  have := lt_of_mem_row h
  rw [if_neg (by rw [List.isEmpty_iff]; intro c; simp [c] at this)]
  cases hx : search (d.row q) a with
  | none => exact absurd rfl (search_none (hs q) hx _ h)
  | some x =>
    obtain ⟨h1, h2⟩ := search_some hx
    rw [unique_arc hd h1 h h2]
    rfl

theorem walk_some {d : Dag} {q p : Nat} {w : List Nat} (h : d.walk q w = some p) : Path d q w p := by
  induction w generalizing q with
  | nil => simp [Dag.walk] at h; subst h; exact .nil _
  | cons a w ih =>
    simp only [Dag.walk, Option.bind_eq_some_iff] at h
    obtain ⟨r, h1, h2⟩ := h
    obtain ⟨u, hu⟩ := delta_some h1
    exact .cons hu (ih h2)

theorem walk_of_path {d : Dag} {q p : Nat} {w : List Nat} (hs : Sorted d)
    (hd : ∀ p, (d.row p).Pairwise fun x y => x.a ≠ y.a) (h : Path d q w p) :
    d.walk q w = some p := by
  induction h with
  | nil => rfl
  | cons h _ ih => simp [Dag.walk, delta_of_mem hs (hd _) h, ih]

/-! ## Ways -/

theorem Path.append {d : Dag} {p q r : Nat} {u v : List Nat} (h : Path d p u q) (h' : Path d q v r) :
    Path d p (u ++ v) r := by
  induction h with
  | nil => exact h'
  | cons h _ ih => exact .cons h (ih h')

theorem Path.split {d : Dag} {p r : Nat} {u v : List Nat} (h : Path d p (u ++ v) r) :
    ∃ q, Path d p u q ∧ Path d q v r := by
  induction u generalizing p with
  | nil => exact ⟨p, .nil p, h⟩
  | cons a u ih =>
    cases h with
    | cons h t =>
      obtain ⟨q, h1, h2⟩ := ih t
      exact ⟨q, .cons h h1, h2⟩

theorem path_nil {d : Dag} {p q : Nat} : Path d p [] q ↔ p = q := by
  constructor
  · intro h; cases h; rfl
  · rintro rfl; exact .nil _

theorem path_cons {d : Dag} {p r a : Nat} {u : List Nat} :
    Path d p (a :: u) r ↔ ∃ q w, (⟨a, q, w⟩ : Arc) ∈ d.row p ∧ Path d q u r := by
  constructor
  · intro h; cases h with | cons h t => exact ⟨_, _, h, t⟩
  · rintro ⟨q, w, h, t⟩; exact .cons h t

theorem path_snoc {d : Dag} {p r a : Nat} {u : List Nat} :
    Path d p (u ++ [a]) r ↔ ∃ q w, Path d p u q ∧ (⟨a, r, w⟩ : Arc) ∈ d.row q := by
  constructor
  · intro h
    obtain ⟨q, h1, h2⟩ := h.split
    rw [path_cons] at h2
    obtain ⟨q', w, h2, h3⟩ := h2
    rw [path_nil] at h3; subst h3
    exact ⟨q, w, h1, h2⟩
  · rintro ⟨q, w, h1, h2⟩
    exact h1.append (.cons h2 (.nil _))

theorem path_unique {d : Dag} (hd : ∀ p, (d.row p).Pairwise fun x y => x.a ≠ y.a) {p q r : Nat}
    {w : List Nat} (h : Path d p w q) (h' : Path d p w r) : q = r := by
  induction h with
  | nil => exact path_nil.1 h'
  | cons h _ ih =>
    obtain ⟨q', w', h1, h2⟩ := path_cons.1 h'
    have := unique_arc (hd _) h h1 rfl
    simp only [Arc.mk.injEq] at this
    rw [this.2.1] at ih
    exact ih h2

theorem Path.lt {d : Dag} (hv : Valid d) {p q : Nat} {w : List Nat} (h : Path d p w q)
    (hp : p < d.rows.length) : q < d.rows.length := by
  induction h with
  | nil => exact hp
  | cons h _ ih => exact ih (hv.arcs _ _ h)

/-! ## Reversing -/

theorem reverseStates_aux (d : Dag) (n : Nat) :
    let nd := (List.range n).foldl (fun nd i =>
      let nd1 := nd.newState false
      let nd2 := if d.isEnd i then nd1.setStart i else nd1
      if d.starts.testBit i then nd2.setEnd i else nd2) ({} : Dag)
    nd.rows.length = n ∧ (∀ p, nd.row p = []) ∧ (∀ p, p ∈ nd.ends ↔ p < n ∧ d.starts.testBit p) ∧
      (∀ p, nd.starts.testBit p = true ↔ p < n ∧ p ∈ d.ends) := by
  induction n with
  | zero => simp [Dag.row]
  | succ n ih =>
    simp only [List.range_succ, List.foldl_append, List.foldl_cons, List.foldl_nil] at ih ⊢
    generalize List.foldl _ ({} : Dag) (List.range n) = nd at ih
    obtain ⟨h1, h2, h3, h4⟩ := ih
    refine ⟨?_, ?_, ?_, ?_⟩
    · split <;> split <;> simp [h1]
    · intro p
      split <;> split <;> simp [h2]
    · intro p
      have key : ∀ e : Dag, (p ∈ (if d.isEnd n then e.setStart n else e).ends) ↔ p ∈ e.ends := by
        intro e; split <;> simp
      split
      next h =>
        rw [mem_setEnd, key, newState_ends, h3]
        constructor
        · rintro (⟨h5, h6⟩ | rfl)
          · exact ⟨by omega, h6⟩
          · exact ⟨by omega, h⟩
        · rintro ⟨h5, h6⟩
          rcases Nat.lt_or_eq_of_le (Nat.lt_succ_iff.1 h5) with h5 | h5
          · exact .inl ⟨h5, h6⟩
          · exact .inr h5
      next h =>
        rw [key, newState_ends, h3]
        constructor
        · rintro ⟨h5, h6⟩; exact ⟨by omega, h6⟩
        · rintro ⟨h5, h6⟩
          rcases Nat.lt_or_eq_of_le (Nat.lt_succ_iff.1 h5) with h5 | h5
          · exact ⟨h5, h6⟩
          · subst h5; exact absurd h6 h
    · intro p
      have key : ∀ e : Dag, (if d.starts.testBit n then e.setEnd n else e).starts = e.starts := by
        intro e; split <;> simp
      rw [key]
      split
      next h =>
        rw [setStart_starts, newState_starts]
        simp only [Bool.false_and, Bool.or_false, Bool.or_eq_true, decide_eq_true_eq, h4]
        rw [isEnd_iff] at h
        constructor
        · rintro (⟨h5, h6⟩ | rfl)
          · exact ⟨by omega, h6⟩
          · exact ⟨by omega, h⟩
        · rintro ⟨h5, h6⟩
          rcases Nat.lt_or_eq_of_le (Nat.lt_succ_iff.1 h5) with h5 | h5
          · exact .inl ⟨h5, h6⟩
          · exact .inr h5
      next h =>
        rw [newState_starts]
        simp only [Bool.false_and, Bool.or_false, h4]
        rw [isEnd_iff] at h
        constructor
        · rintro ⟨h5, h6⟩; exact ⟨by omega, h6⟩
        · rintro ⟨h5, h6⟩
          rcases Nat.lt_or_eq_of_le (Nat.lt_succ_iff.1 h5) with h5 | h5
          · exact ⟨h5, h6⟩
          · subst h5; exact absurd h6 h

theorem reverseArcs (l : List Arc) (i : Nat) (nd : Dag) :
    let r := l.foldl (fun nd x => nd.newArc x.q i x.a x.w) nd
    r.rows.length = nd.rows.length ∧ r.ends = nd.ends ∧ r.starts = nd.starts ∧
      (Sorted nd → Sorted r) ∧
      ∀ p x, x ∈ r.row p ↔ x ∈ nd.row p ∨
        (p < nd.rows.length ∧ x.q = i ∧ (⟨x.a, p, x.w⟩ : Arc) ∈ l) := by
  induction l generalizing nd with
  | nil => simp
  | cons y l ih =>
    obtain ⟨h1, h2, h3, h4, h5⟩ := ih (nd.newArc y.q i y.a y.w)
    simp only [List.foldl_cons]
    refine ⟨by simpa using h1, by simpa using h2, by simpa using h3,
      fun hs => h4 (newArc_sorted hs _ _ _ _), ?_⟩
    intro p x
    rw [h5, mem_newArc, newArc_length, List.mem_cons]
    obtain ⟨xa, xq, xw⟩ := x
    obtain ⟨ya, yq, yw⟩ := y
    simp only [Arc.mk.injEq]
    constructor
    · rintro ((h | ⟨rfl, h, rfl, rfl, rfl⟩) | ⟨h, rfl, h'⟩)
      · exact .inl h
      · exact .inr ⟨h, rfl, .inl ⟨rfl, rfl, rfl⟩⟩
      · exact .inr ⟨h, rfl, .inr h'⟩
    · rintro (h | ⟨h, rfl, ⟨rfl, rfl, rfl⟩ | h'⟩)
      · exact .inl (.inl h)
      · exact .inl (.inr ⟨rfl, h, rfl, rfl, rfl⟩)
      · exact .inr ⟨h, rfl, h'⟩

theorem reverse_aux (d nd : Dag) (n : Nat) :
    let r := (List.range n).foldl (fun nd i =>
      (d.row i).foldl (fun nd x => nd.newArc x.q i x.a x.w) nd) nd
    r.rows.length = nd.rows.length ∧ r.ends = nd.ends ∧ r.starts = nd.starts ∧
      (Sorted nd → Sorted r) ∧
      ∀ p x, x ∈ r.row p ↔ x ∈ nd.row p ∨
        (p < nd.rows.length ∧ x.q < n ∧ (⟨x.a, p, x.w⟩ : Arc) ∈ d.row x.q) := by
  induction n with
  | zero => simp
  | succ n ih =>
    simp only [List.range_succ, List.foldl_append, List.foldl_cons, List.foldl_nil] at ih ⊢
    generalize List.foldl _ nd (List.range n) = r at ih
    obtain ⟨h1, h2, h3, h4, h5⟩ := ih
    obtain ⟨g1, g2, g3, g4, g5⟩ := reverseArcs (d.row n) n r
    refine ⟨g1.trans h1, g2.trans h2, g3.trans h3, g4 ∘ h4, ?_⟩
    intro p x
    rw [g5, h5, h1]
    constructor
    · rintro ((h | ⟨h, h', h''⟩) | ⟨h, h', h''⟩)
      · exact .inl h
      · exact .inr ⟨h, by omega, h''⟩
      · exact .inr ⟨h, by omega, h'.symm ▸ h''⟩
    · rintro (h | ⟨h, h', h''⟩)
      · exact .inl (.inl h)
      · rcases Nat.lt_or_eq_of_le (Nat.lt_succ_iff.1 h') with h5 | h5
        · exact .inl (.inr ⟨h, h5, h''⟩)
        · exact .inr ⟨h, h5, h5 ▸ h''⟩

theorem reverse_spec (d : Dag) :
    d.reverse.rows.length = d.rows.length ∧ Sorted d.reverse ∧
      (∀ p, p ∈ d.reverse.ends ↔ Initial d p) ∧
      (∀ p, d.reverse.starts.testBit p = true ↔ p < d.rows.length ∧ p ∈ d.ends) ∧
      ∀ p x, x ∈ d.reverse.row p ↔
        p < d.rows.length ∧ (⟨x.a, p, x.w⟩ : Arc) ∈ d.row x.q := by
  obtain ⟨h1, h2, h3, h4⟩ := reverseStates_aux d d.rows.length
  obtain ⟨g1, g2, g3, g4, g5⟩ := reverse_aux d d.reverseStates d.rows.length
  change d.reverseStates.rows.length = _ at h1
  refine ⟨g1.trans h1, g4 ?_, ?_, ?_, ?_⟩
  · intro p
    change (d.reverseStates.row p).Pairwise _
    rw [show d.reverseStates.row p = [] from h2 p]
    simp
  · intro p
    rw [show d.reverse.ends = d.reverseStates.ends from g2]
    exact h3 p
  · intro p
    rw [show d.reverse.starts = d.reverseStates.starts from g3]
    exact h4 p
  · intro p x
    have e : d.reverseStates.row p = [] := h2 p
    have := g5 p x
    rw [e, h1] at this
    rw [show x ∈ d.reverse.row p ↔ _ from this]
    constructor
    · rintro (h | ⟨h, _, h'⟩)
      · simp at h
      · exact ⟨h, h'⟩
    · rintro ⟨h, h'⟩
      exact .inr ⟨h, lt_of_mem_row h', h'⟩

end Verif.Dag
