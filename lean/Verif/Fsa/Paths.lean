import Verif.Fsa.Traverse

/-!
Paths, epsilon closure, `in`, and the languages of the wrapped automata.
-/
set_option linter.unusedVariables false
set_option linter.unusedSimpArgs false

namespace Verif.Fsa
open Verif Verif.Fsa.Spec

/-! ### Paths -/

theorem path_append {a : Fsa} {l1 l2 : List Sym} {p q : Nat} :
    Path a p (l1 ++ l2) q ↔ ∃ r, Path a p l1 r ∧ Path a r l2 q := by
  induction l1 generalizing p with
  | nil =>
    constructor
    · intro h; exact ⟨p, .nil, h⟩
    · rintro ⟨r, h1, h2⟩; cases h1; exact h2
  | cons x l1 ih =>
    constructor
    · intro h
      cases h with
      | cons ha h =>
        obtain ⟨r, h1, h2⟩ := ih.1 h
        exact ⟨r, .cons ha h1, h2⟩
    · rintro ⟨r, h1, h2⟩
      cases h1 with
      | cons ha h1 => exact .cons ha (ih.2 ⟨r, h1, h2⟩)

theorem path_one {a : Fsa} {x : Sym} {p q : Nat} : Path a p [x] q ↔ (x, q) ∈ a.arcs p := by
  constructor
  · intro h
    cases h with
    | cons ha h => cases h; exact ha
  · intro h; exact .cons h .nil

theorem path_nil {a : Fsa} {p q : Nat} : Path a p [] q ↔ p = q := by
  constructor
  · intro h; cases h; rfl
  · rintro rfl; exact .nil

theorem path_cons {a : Fsa} {x : Sym} {l : List Sym} {p q : Nat} :
    Path a p (x :: l) q ↔ ∃ r, (x, r) ∈ a.arcs p ∧ Path a r l q := by
  constructor
  · intro h
    cases h with
    | cons ha h => exact ⟨_, ha, h⟩
  · rintro ⟨r, ha, h⟩; exact .cons ha h

/-- Paths of epsilon transitions. -/
def EpsPath (a : Fsa) (p q : Nat) : Prop := ∃ n, Path a p (List.replicate n EPS) q

theorem EpsPath.refl {a : Fsa} (p : Nat) : EpsPath a p p := ⟨0, .nil⟩

theorem EpsPath.cons {a : Fsa} {p q r : Nat} (h : (EPS, q) ∈ a.arcs p) (h' : EpsPath a q r) : EpsPath a p r := by
  obtain ⟨n, hn⟩ := h'
  exact ⟨n + 1, .cons h hn⟩

theorem EpsPath.trans {a : Fsa} {p q r : Nat} (h : EpsPath a p q) (h' : EpsPath a q r) : EpsPath a p r := by
  obtain ⟨n, hn⟩ := h
  obtain ⟨m, hm⟩ := h'
  exact ⟨n + m, by rw [List.replicate_add]; exact path_append.2 ⟨q, hn, hm⟩⟩

theorem EpsPath.snoc {a : Fsa} {p q r : Nat} (h : EpsPath a p q) (h' : (EPS, r) ∈ a.arcs q) : EpsPath a p r :=
  h.trans (.cons h' (.refl r))

/-! ### The epsilon closure -/

/-- What a round of the closure loop does. -/
theorem closureStep_fold (l : List (Sym × Nat)) : ∀ (c q : List Nat),
    c.Nodup → (∀ x ∈ q, x ∈ c) →
    let cq := l.foldl closureStep (c, q)
    cq.1.Nodup ∧ (∀ x ∈ c, x ∈ cq.1) ∧ (∀ x ∈ cq.2, x ∈ cq.1) ∧
      (∀ x, (EPS, x) ∈ l → x ∈ cq.1) ∧ (∀ x ∈ cq.1, x ∈ c ∨ (EPS, x) ∈ l) ∧
      (∀ x ∈ cq.1, x ∈ c ∨ x ∈ cq.2) ∧ (∀ x ∈ q, x ∈ cq.2) ∧
      cq.2.length + c.length = cq.1.length + q.length := by
  induction l with
  | nil =>
    intro c q hc hq
    refine ⟨hc, fun _ h => h, hq, by simp, fun _ h => Or.inl h, fun _ h => Or.inl h, fun _ h => h, ?_⟩
    simp only [List.foldl_nil]; omega
  | cons a l ih =>
    intro c q hc hq
    obtain ⟨x, u⟩ := a
    rw [List.foldl_cons]
    by_cases h : x = EPS ∧ ¬ u ∈ c
    · have hst : closureStep (c, q) (x, u) = (insertSet natLt u c, u :: q) := by
        unfold closureStep; rw [if_pos h]
      rw [hst]
      have hnd : (insertSet natLt u c).Nodup ∧ (insertSet natLt u c).length = c.length + 1 := by
        clear hst ih hq
        induction c with
        | nil => simp [insertSet]
        | cons y c ih =>
          rw [List.nodup_cons] at hc
          simp only [List.mem_cons, not_or] at h
          unfold insertSet
          split
          · refine ⟨List.nodup_cons.2 ⟨?_, List.nodup_cons.2 hc⟩, by simp⟩
            simp only [List.mem_cons, not_or]; exact h.2
          · split
            · obtain ⟨i1, i2⟩ := ih hc.2 ⟨h.1, h.2.2⟩
              refine ⟨List.nodup_cons.2 ⟨?_, i1⟩, by simp [i2]⟩
              rw [mem_insertSet natLt_order]
              rintro (e | hy)
              · exact h.2.1 e.symm
              · exact hc.1 hy
            · rename_i h1 h2
              exact absurd (natLt_order.tri u y (by simpa using h1) (by simpa using h2)) h.2.1
      obtain ⟨i1, i2, i3, i4, i5, i6, i7, i8⟩ := ih (insertSet natLt u c) (u :: q) hnd.1 (by
        intro y hy
        rw [mem_insertSet natLt_order]
        simp only [List.mem_cons] at hy
        rcases hy with rfl | hy
        · exact Or.inl rfl
        · exact Or.inr (hq y hy))
      refine ⟨i1, ?_, i3, ?_, ?_, ?_, ?_, ?_⟩
      · intro y hy; exact i2 y ((mem_insertSet natLt_order).2 (Or.inr hy))
      · intro y hy
        simp only [List.mem_cons, Prod.mk.injEq] at hy
        rcases hy with ⟨_, rfl⟩ | hy
        · exact i2 y ((mem_insertSet natLt_order).2 (Or.inl rfl))
        · exact i4 y hy
      · intro y hy
        rcases i5 y hy with hy | hy
        · rw [mem_insertSet natLt_order] at hy
          rcases hy with rfl | hy
          · exact Or.inr (by rw [h.1]; simp)
          · exact Or.inl hy
        · exact Or.inr (List.mem_cons_of_mem _ hy)
      · intro y hy
        rcases i6 y hy with hy | hy
        · rw [mem_insertSet natLt_order] at hy
          rcases hy with rfl | hy
          · exact Or.inr (i7 y (List.mem_cons_self ..))
          · exact Or.inl hy
        · exact Or.inr hy
      · intro y hy; exact i7 y (List.mem_cons_of_mem _ hy)
      · have h8 := i8
        rw [hnd.2, List.length_cons] at h8
        omega
    · have hst : closureStep (c, q) (x, u) = (c, q) := by
        unfold closureStep; rw [if_neg h]
      rw [hst]
      obtain ⟨i1, i2, i3, i4, i5, i6, i7, i8⟩ := ih c q hc hq
      refine ⟨i1, i2, i3, ?_, ?_, i6, i7, i8⟩
      · intro y hy
        simp only [List.mem_cons, Prod.mk.injEq] at hy
        rcases hy with ⟨e, rfl⟩ | hy
        · apply i2
          by_contra hc'
          exact h ⟨e.symm, hc'⟩
        · exact i4 y hy
      · intro y hy
        rcases i5 y hy with hy | hy
        · exact Or.inl hy
        · exact Or.inr (List.mem_cons_of_mem _ hy)

theorem closureLoop_spec {a : Fsa} (ha : Wf a) (p : Nat) : ∀ (fuel k : Nat) (c q : List Nat),
    c.Nodup → (∀ x ∈ q, x ∈ c) → p ∈ c → (∀ x ∈ c, EpsPath a p x) →
    (∀ x ∈ c, x ∉ q → ∀ y, (EPS, y) ∈ a.arcs x → y ∈ c) → c.length = q.length + k →
    a.size + 1 < fuel + k →
    ∃ c', a.closureLoop fuel (c, q) = some c' ∧ ∀ x, x ∈ c' ↔ EpsPath a p x := by
  have hlen : ∀ c : List Nat, c.Nodup → (∀ x ∈ c, EpsPath a p x) → c.length ≤ a.size + 1 := by
    intro c hc hr
    have : c.Subperm (p :: List.range a.size) := by
      apply List.subperm_of_subset hc
      intro x hx
      obtain ⟨n, hn⟩ := hr x hx
      cases n with
      | zero => cases hn; simp
      | succ n =>
        rw [List.replicate_succ] at hn
        cases hn with
        | cons hac hn =>
          have := Path.lt ha hn (ha.dest _ _ _ hac)
          simp [this]
    have := this.length_le
    simpa using this
  intro fuel
  induction fuel with
  | zero =>
    intro k c q hc hq hp hr hcl hl hf
    have := hlen c hc hr
    omega
  | succ fuel ih =>
    intro k c q hc hq hp hr hcl hl hf
    cases q with
    | nil =>
      refine ⟨c, rfl, ?_⟩
      intro x
      refine ⟨hr x, ?_⟩
      rintro ⟨n, hn⟩
      have : ∀ n p', p' ∈ c → Path a p' (List.replicate n EPS) x → x ∈ c := by
        intro n
        induction n with
        | zero => intro p' hp' h; cases h; exact hp'
        | succ n ih2 =>
          intro p' hp' h
          rw [List.replicate_succ] at h
          cases h with
          | cons hac h => exact ih2 _ (hcl p' hp' (by simp) _ hac) h
      exact this n p hp hn
    | cons s q =>
      show ∃ c', a.closureLoop fuel ((a.arcs s).foldl closureStep (c, q)) = some c' ∧ _
      obtain ⟨i1, i2, i3, i4, i5, i6, i7, i8⟩ := closureStep_fold (a.arcs s) c q hc
        (fun x hx => hq x (List.mem_cons_of_mem _ hx))
      generalize (a.arcs s).foldl closureStep (c, q) = cq at *
      obtain ⟨c', q'⟩ := cq
      have hs := hq s (List.mem_cons_self ..)
      refine ih (k + 1) c' q' i1 i3 (i2 p hp) ?_ ?_ ?_ (by omega)
      · intro x hx
        rcases i5 x hx with hx | hx
        · exact hr x hx
        · exact (hr s hs).snoc hx
      · intro x hx hxq y hy
        by_cases hxs : x = s
        · subst hxs; exact i4 y hy
        · rcases i6 x hx with hxc | hxq'
          · refine i2 y (hcl x hxc ?_ y hy)
            simp only [List.mem_cons, not_or]
            exact ⟨hxs, fun h => hxq (i7 x h)⟩
          · exact absurd hxq' hxq
      · simp only [List.length_cons] at hl
        simp only at i8
        omega

/-- The closure is the set of states reachable by epsilon transitions. -/
theorem mem_epsClosure {a : Fsa} (ha : Wf a) (p q : Nat) : q ∈ a.epsClosure p ↔ EpsPath a p q := by
  obtain ⟨c, hc, hm⟩ := closureLoop_spec ha p (a.size + 2) 0 [p] [p] (by simp) (by simp) (by simp)
    (by intro x hx; simp at hx; subst hx; exact .refl _) (by intro x hx hx'; exact absurd hx hx') (by simp)
    (by omega)
  unfold Fsa.epsClosure
  rw [hc]
  exact hm q

/-! ### `in` -/

theorem arcLt_zero {arc : Sym × Nat} {x : Sym} : arcLt natLt arc (x, 0) = symLt arc.1 x := by
  simp [arcLt, natLt]

theorem find_takeWhile {x : Sym} : ∀ (l : List (Sym × Nat)),
    l.Pairwise (fun a b => arcLt natLt b a = false) →
    (checkFound x (l.dropWhile (fun arc => arcLt natLt arc (x, 0)))).takeWhile (fun arc => decide (arc.1 = x)) =
      l.filter (fun arc => decide (arc.1 = x)) := by
  intro l
  induction l with
  | nil => intro _; rfl
  | cons a l ih =>
    intro h
    rw [List.pairwise_cons] at h
    rw [List.dropWhile_cons, arcLt_zero]
    by_cases hlt : symLt a.1 x = true
    · rw [if_pos hlt, ih h.2, List.filter_cons, if_neg]
      simp only [decide_eq_true_eq]
      intro e; rw [e, symLt_order.irrefl] at hlt; simp at hlt
    · rw [if_neg hlt]
      have hlt' : symLt a.1 x = false := by simpa using hlt
      rw [checkFound]
      by_cases e : x = a.1
      · rw [if_pos e, List.takeWhile_cons, if_pos (by simp [e]), List.filter_cons, if_pos (by simp [e]), ← ih h.2]
        congr 1
        -- the rest is not smaller
        cases l with
        | nil => rfl
        | cons b l =>
          have hb := h.1 b (List.mem_cons_self ..)
          have hbx : symLt b.1 x = false := by
            cases hbx : symLt b.1 x with
            | false => rfl
            | true => rw [e] at hbx; simp [arcLt, hbx] at hb
          rw [List.dropWhile_cons, arcLt_zero, if_neg (by simp [hbx])]
          rw [checkFound]
          by_cases e' : x = b.1
          · rw [if_pos e']
          · rw [if_neg e', List.takeWhile_cons, if_neg (by simp [Ne.symm e'])]; rfl
      · rw [if_neg e]
        symm
        rw [List.takeWhile_nil, List.filter_eq_nil_iff]
        intro b hb
        simp only [decide_eq_true_eq]
        have hax : symLt x a.1 = true := by
          cases hxa : symLt x a.1 with
          | true => rfl
          | false => exact absurd (symLt_order.tri _ _ hxa hlt') e
        simp only [List.mem_cons] at hb
        rcases hb with rfl | hb
        · exact fun e' => e e'.symm
        · intro e'
          have := h.1 b hb
          simp [arcLt, e', hax] at this

theorem mem_deltaPrime {a : Fsa} (ha : Wf a) (p : Nat) (x : Sym) (q : Nat) :
    q ∈ a.deltaPrime p x ↔ (x, q) ∈ a.arcs p := by
  unfold Fsa.deltaPrime
  split
  · rename_i h
    rw [arcs_out (by omega)]; simp
  · rw [mem_insertAll natLt_order]
    have := find_takeWhile (x := x) (a.arcs p) (ha.arcsSorted p)
    unfold Fsa.find
    rw [this]
    simp only [List.mem_map, List.mem_filter, decide_eq_true_eq, List.not_mem_nil, or_false]
    constructor
    · rintro ⟨⟨y, r⟩, ⟨h1, rfl⟩, rfl⟩; exact h1
    · intro h; exact ⟨(x, q), ⟨h, rfl⟩, rfl⟩

theorem mem_delta {a : Fsa} (ha : Wf a) (ps : List Nat) (x : Sym) (q : Nat) :
    q ∈ a.delta ps x ↔ ∃ p ∈ ps, (x, q) ∈ a.arcs p := by
  unfold Fsa.delta
  have : ∀ (ps d : List Nat), q ∈ ps.foldl (fun d p => insertAll natLt (a.deltaPrime p x) d) d ↔
      (∃ p ∈ ps, (x, q) ∈ a.arcs p) ∨ q ∈ d := by
    intro ps
    induction ps with
    | nil => simp
    | cons p ps ih =>
      intro d
      rw [List.foldl_cons, ih, mem_insertAll natLt_order, mem_deltaPrime ha]
      simp only [List.mem_cons, exists_eq_or_imp]
      generalize (∃ p ∈ ps, (x, q) ∈ a.arcs p) = X
      tauto
  rw [this]; simp

theorem inLoop_iff {a : Fsa} (ha : Wf a) (w : List Sym) : ∀ (cur : List Nat),
    a.inLoop cur w = true ↔ ∃ p ∈ cur, ∃ q ∈ a.ends, Path a p w q := by
  induction w with
  | nil =>
    intro cur
    simp only [Fsa.inLoop, List.any_eq_true, Fsa.isEnd, decide_eq_true_eq, path_nil]
    constructor
    · rintro ⟨p, hp, he⟩; exact ⟨p, hp, p, he, rfl⟩
    · rintro ⟨p, hp, q, hq, rfl⟩; exact ⟨p, hp, hq⟩
  | cons x w ih =>
    intro cur
    unfold Fsa.inLoop
    dsimp only
    split
    · rename_i h
      simp only [Bool.false_eq_true, false_iff]
      rintro ⟨p, hp, q, hq, hpath⟩
      rw [path_cons] at hpath
      obtain ⟨r, hr, _⟩ := hpath
      have := (mem_delta ha cur x r).2 ⟨p, hp, hr⟩
      rw [h] at this; simp at this
    · rw [ih]
      simp only [mem_delta ha, path_cons]
      constructor
      · rintro ⟨r, ⟨p, hp, hr⟩, q, hq, h⟩; exact ⟨p, hp, q, hq, r, hr, h⟩
      · rintro ⟨p, hp, q, hq, r, hr, h⟩; exact ⟨r, ⟨p, hp, hr⟩, q, hq, h⟩

/-! ### The wrapped automata -/

theorem mem_copier {a : Fsa} {p : Nat} {arc : Sym × Nat} : arc ∈ (copier a).arcs p ↔ arc ∈ a.arcs p := by
  show arc ∈ insertAll _ _ _ ↔ _
  rw [mem_insertAll (arcLt_order natLt_order)]; simp

theorem copier_path {a : Fsa} {l : List Sym} {p q : Nat} : WPath (copier a) p l q ↔ Path a p l q := by
  constructor
  · intro h
    induction h with
    | nil => exact .nil
    | cons ha _ ih => exact .cons (mem_copier.1 ha) ih
  · intro h
    induction h with
    | nil => exact .nil
    | cons ha _ ih => exact .cons (mem_copier.2 ha) ih

theorem copier_reach_lt {a : Fsa} (ha : Wf a) {p : Nat} (h : Reach (copier a) p) : p < a.size := by
  induction h with
  | start hs => exact ha.start _ hs
  | step _ hac _ => exact ha.dest _ _ _ (mem_copier.1 hac)

theorem copier_raw {a : Fsa} {l : List Sym} : WRaw (copier a) l ↔ Raw a l := by
  unfold WRaw Raw
  constructor
  · rintro ⟨p, hp, q, hq, h⟩
    exact ⟨p, hp, q, by simpa [copier, Fsa.isEnd] using hq, copier_path.1 h⟩
  · rintro ⟨p, hp, q, hq, h⟩
    exact ⟨p, hp, q, by simpa [copier, Fsa.isEnd] using hq, copier_path.2 h⟩

theorem nodup_of_lt {l : List Nat} (h : l.Pairwise (· < ·)) : l.Nodup :=
  h.imp (fun hab => Nat.ne_of_lt hab)

theorem copy_spec {a f0 : Fsa} (ha : Wf a) (h0 : Wf f0) :
    ∃ f N, traverse (a.size + 1) (copier a) f0 = some f ∧ Copied (copier a) f0 f N :=
  traverse_spec (U := List.range a.size) h0 (nodup_of_lt ha.startsSorted)
    (fun s hs => List.mem_range.2 (copier_reach_lt ha hs)) (by simp)

theorem mem_reverser {a : Fsa} {p : Nat} {x : Sym} {q : Nat} :
    (x, q) ∈ (reverser a).arcs p ↔ (x, p) ∈ a.arcs q := by
  show (x, q) ∈ insertAll _ _ _ ↔ _
  rw [mem_insertAll (arcLt_order natLt_order)]
  simp only [List.mem_flatMap, List.mem_range, List.mem_map, List.mem_filter, decide_eq_true_eq,
    List.not_mem_nil, or_false]
  constructor
  · rintro ⟨r, hr, ⟨y, d⟩, ⟨h1, rfl⟩, e⟩
    simp only [Prod.mk.injEq] at e
    obtain ⟨rfl, rfl⟩ := e
    exact h1
  · intro h
    refine ⟨q, ?_, (x, p), ⟨h, rfl⟩, rfl⟩
    by_contra hq
    rw [arcs_out (by omega)] at h; simp at h

theorem reverser_path {a : Fsa} {l : List Sym} : ∀ {p q : Nat},
    WPath (reverser a) p l q ↔ Path a q l.reverse p := by
  induction l with
  | nil =>
    intro p q
    rw [List.reverse_nil, path_nil]
    constructor
    · intro h; cases h; rfl
    · rintro rfl; exact .nil
  | cons x l ih =>
    intro p q
    rw [List.reverse_cons, path_append]
    constructor
    · intro h
      cases h with
      | cons ha h => exact ⟨_, ih.1 h, path_one.2 (mem_reverser.1 ha)⟩
    · rintro ⟨r, h1, h2⟩
      exact .cons (mem_reverser.2 (path_one.1 h2)) (ih.2 h1)

theorem reverser_reach_lt {a : Fsa} (ha : Wf a) {p : Nat} (h : Reach (reverser a) p) : p < a.size := by
  induction h with
  | start hs => exact ha.end_ _ hs
  | step _ hac _ =>
    have := mem_reverser.1 hac
    by_contra hq
    rw [arcs_out (by omega)] at this; simp at this

theorem reverser_raw {a : Fsa} {l : List Sym} : WRaw (reverser a) l ↔ Raw a l.reverse := by
  unfold WRaw Raw
  constructor
  · rintro ⟨p, hp, q, hq, h⟩
    exact ⟨q, by simpa [reverser, Fsa.isStart] using hq, p, hp, reverser_path.1 h⟩
  · rintro ⟨p, hp, q, hq, h⟩
    exact ⟨q, hq, p, by simpa [reverser, Fsa.isStart] using hp, reverser_path.2 h⟩

theorem reverse_spec {a : Fsa} (ha : Wf a) :
    ∃ f N, reverse a = some f ∧ Copied (reverser a) .empty f N :=
  traverse_spec (U := List.range a.size) wf_empty (nodup_of_lt ha.endsSorted)
    (fun s hs => List.mem_range.2 (reverser_reach_lt ha hs)) (by simp)

/-! ### Epsilon removal -/

theorem mem_epsRemover {a : Fsa} (ha : Wf a) {p : Nat} {x : Sym} {q : Nat} :
    (x, q) ∈ (epsRemover a).arcs p ↔ x ≠ EPS ∧ ∃ r, EpsPath a p r ∧ (x, q) ∈ a.arcs r := by
  show (x, q) ∈ insertAll _ _ _ ↔ _
  rw [mem_insertAll (arcLt_order natLt_order)]
  simp only [List.mem_flatMap, List.mem_filter, decide_eq_true_eq, List.not_mem_nil, or_false,
    mem_epsClosure ha]
  constructor
  · rintro ⟨r, hr, h1, h2⟩; exact ⟨h2, r, hr, h1⟩
  · rintro ⟨h2, r, hr, h1⟩; exact ⟨r, hr, h1, h2⟩

theorem epsRemover_final {a : Fsa} (ha : Wf a) {p : Nat} :
    (epsRemover a).final p = true ↔ ∃ q ∈ a.ends, EpsPath a p q := by
  show (a.epsClosure p).any a.isEnd = true ↔ _
  simp only [List.any_eq_true, mem_epsClosure ha, Fsa.isEnd, decide_eq_true_eq]
  constructor
  · rintro ⟨q, h1, h2⟩; exact ⟨q, h2, h1⟩
  · rintro ⟨q, h1, h2⟩; exact ⟨q, h2, h1⟩

theorem epsRemover_reach_lt {a : Fsa} (ha : Wf a) {p : Nat} (h : Reach (epsRemover a) p) : p < a.size := by
  induction h with
  | start hs => exact ha.start _ hs
  | step _ hac _ =>
    obtain ⟨_, r, _, h⟩ := (mem_epsRemover ha).1 hac
    exact ha.dest _ _ _ h

/-- The labels without epsilon. -/
abbrev noEps (l : List Sym) : List Sym := l.filter (fun x => decide (x ≠ EPS))

theorem noEps_replicate (n : Nat) : noEps (List.replicate n EPS) = [] := by
  rw [List.filter_eq_nil_iff]
  intro x hx
  rw [(List.mem_replicate.1 hx).2]; simp

theorem epsRemover_complete {a : Fsa} (ha : Wf a) {l : List Sym} : ∀ {p q : Nat}, Path a p l q → q ∈ a.ends →
    ∃ u, WPath (epsRemover a) p (noEps l) u ∧ (epsRemover a).final u = true := by
  induction l with
  | nil =>
    intro p q h hq
    cases h
    exact ⟨p, .nil, (epsRemover_final ha).2 ⟨p, hq, .refl p⟩⟩
  | cons x l ih =>
    intro p q h hq
    cases h with
    | cons hac h =>
      rename_i r
      obtain ⟨u, hu, hf⟩ := ih h hq
      by_cases hx : x = EPS
      · subst hx
        have he : noEps (EPS :: l) = noEps l := by simp [noEps]
        rw [he]
        generalize noEps l = l' at hu
        cases hu with
        | nil =>
          obtain ⟨e, he, hp⟩ := (epsRemover_final ha).1 hf
          exact ⟨p, .nil, (epsRemover_final ha).2 ⟨e, he, hp.cons hac⟩⟩
        | cons hu1 hu2 =>
          obtain ⟨hy, s, hs, hs2⟩ := (mem_epsRemover ha).1 hu1
          exact ⟨u, .cons ((mem_epsRemover ha).2 ⟨hy, s, hs.cons hac, hs2⟩) hu2, hf⟩
      · have he : noEps (x :: l) = x :: noEps l := by simp [noEps, hx]
        rw [he]
        exact ⟨u, .cons ((mem_epsRemover ha).2 ⟨hx, p, .refl p, hac⟩) hu, hf⟩

theorem epsRemover_sound {a : Fsa} (ha : Wf a) {l : List Sym} {p u : Nat}
    (h : WPath (epsRemover a) p l u) (hf : (epsRemover a).final u = true) :
    EPS ∉ l ∧ ∃ r q, q ∈ a.ends ∧ Path a p r q ∧ noEps r = l := by
  induction h with
  | nil =>
    obtain ⟨e, he, n, hp⟩ := (epsRemover_final ha).1 hf
    exact ⟨by simp, _, e, he, hp, noEps_replicate n⟩
  | cons hac _ ih =>
    obtain ⟨i1, r, q, hq, hp, e⟩ := ih hf
    obtain ⟨hx, s, ⟨n, hn⟩, hs⟩ := (mem_epsRemover ha).1 hac
    refine ⟨?_, List.replicate n EPS ++ (_ :: r), q, hq, path_append.2 ⟨s, hn, .cons hs hp⟩, ?_⟩
    · simp only [List.mem_cons, not_or]; exact ⟨Ne.symm hx, i1⟩
    · have h1 := noEps_replicate n
      unfold noEps at *
      rw [List.filter_append, h1, List.filter_cons, if_pos (by simp [hx]), e]; rfl

theorem epsRemover_raw {a : Fsa} (ha : Wf a) {l : List Sym} :
    WRaw (epsRemover a) l ↔ EPS ∉ l ∧ Lang a l := by
  constructor
  · rintro ⟨p, hp, u, hf, h⟩
    obtain ⟨h1, r, q, hq, hpath, e⟩ := epsRemover_sound ha h hf
    exact ⟨h1, r, ⟨p, hp, q, hq, hpath⟩, e⟩
  · rintro ⟨_, r, ⟨p, hp, q, hq, hpath⟩, e⟩
    obtain ⟨u, hu, hf⟩ := epsRemover_complete ha hpath hq
    subst e
    exact ⟨p, hp, u, hf, hu⟩

theorem epsRemove_spec {a : Fsa} (ha : Wf a) :
    ∃ f N, epsRemove a = some f ∧ Copied (epsRemover a) .empty f N :=
  traverse_spec (U := List.range a.size) wf_empty (nodup_of_lt ha.startsSorted)
    (fun s hs => List.mem_range.2 (epsRemover_reach_lt ha hs)) (by simp)

/-! ### Determinization -/

/-- What `arcsMap` is like: distinct symbols in order, each with the non-empty set of the targets seen
so far. -/
structure MapOk (l : List (Sym × Nat)) (m : List (Sym × List Nat)) : Prop where
  sorted : m.Pairwise (fun a b => symLt a.1 b.1 = true)
  sets : ∀ x d, (x, d) ∈ m → d.Pairwise (· < ·) ∧ d ≠ [] ∧ ∀ q, q ∈ d ↔ (x, q) ∈ l
  all : ∀ x q, (x, q) ∈ l → ∃ d, (x, d) ∈ m

theorem mapInsert_keys (arc : Sym × Nat) : ∀ (m : List (Sym × List Nat)) (y : Sym),
    (∃ d, (y, d) ∈ mapInsert arc m) ↔ y = arc.1 ∨ ∃ d, (y, d) ∈ m := by
  intro m
  induction m with
  | nil => intro y; simp [mapInsert]
  | cons p m ih =>
    obtain ⟨x, d⟩ := p
    intro y
    unfold mapInsert
    split
    · simp only [List.mem_cons, Prod.mk.injEq]
      constructor
      · rintro ⟨e, (⟨rfl, _⟩ | h | h)⟩
        · exact Or.inl rfl
        · exact Or.inr ⟨e, Or.inl h⟩
        · exact Or.inr ⟨e, Or.inr h⟩
      · rintro (rfl | ⟨e, h⟩)
        · exact ⟨_, Or.inl ⟨rfl, rfl⟩⟩
        · exact ⟨e, Or.inr h⟩
    · split
      · simp only [List.mem_cons, Prod.mk.injEq]
        have := ih y
        constructor
        · rintro ⟨e, (h | h)⟩
          · exact Or.inr ⟨e, Or.inl h⟩
          · rcases this.1 ⟨e, h⟩ with h | ⟨e', h⟩
            · exact Or.inl h
            · exact Or.inr ⟨e', Or.inr h⟩
        · rintro (h | ⟨e, (h | h)⟩)
          · obtain ⟨e, he⟩ := this.2 (Or.inl h); exact ⟨e, Or.inr he⟩
          · exact ⟨e, Or.inl h⟩
          · obtain ⟨e', he⟩ := this.2 (Or.inr ⟨e, h⟩); exact ⟨e', Or.inr he⟩
      · rename_i h1 h2
        have e0 := symLt_order.tri arc.1 x (by simpa using h1) (by simpa using h2)
        simp only [List.mem_cons, Prod.mk.injEq]
        constructor
        · rintro ⟨e, (⟨rfl, _⟩ | h)⟩
          · exact Or.inl e0.symm
          · exact Or.inr ⟨e, Or.inr h⟩
        · rintro (rfl | ⟨e, (⟨rfl, _⟩ | h)⟩)
          · exact ⟨_, Or.inl ⟨e0, rfl⟩⟩
          · exact ⟨_, Or.inl ⟨rfl, rfl⟩⟩
          · exact ⟨e, Or.inr h⟩

theorem mapInsert_sorted (arc : Sym × Nat) : ∀ (m : List (Sym × List Nat)),
    m.Pairwise (fun a b => symLt a.1 b.1 = true) →
    (mapInsert arc m).Pairwise (fun a b => symLt a.1 b.1 = true) := by
  intro m
  induction m with
  | nil => intro _; simp [mapInsert]
  | cons p m ih =>
    obtain ⟨x, d⟩ := p
    intro h
    rw [List.pairwise_cons] at h
    unfold mapInsert
    split
    · rename_i h1
      rw [List.pairwise_cons, List.pairwise_cons]
      refine ⟨?_, h⟩
      intro b hb
      simp only [List.mem_cons] at hb
      rcases hb with rfl | hb
      · exact h1
      · exact symLt_order.trans _ _ _ h1 (h.1 b hb)
    · split
      · rename_i h2
        rw [List.pairwise_cons]
        refine ⟨?_, ih h.2⟩
        rintro ⟨y, e⟩ hb
        rcases (mapInsert_keys arc m y).1 ⟨e, hb⟩ with rfl | ⟨e', he'⟩
        · exact h2
        · exact h.1 (y, e') he'
      · rw [List.pairwise_cons]; exact h

theorem mapInsert_mem (arc : Sym × Nat) : ∀ (m : List (Sym × List Nat)),
    m.Pairwise (fun a b => symLt a.1 b.1 = true) → ∀ (y : Sym) (d : List Nat), (y, d) ∈ mapInsert arc m →
    (y ≠ arc.1 ∧ (y, d) ∈ m) ∨
    (y = arc.1 ∧ ((d = [arc.2] ∧ ∀ d', (y, d') ∉ m) ∨ ∃ d', (y, d') ∈ m ∧ d = insertSet natLt arc.2 d')) := by
  intro m
  induction m with
  | nil =>
    intro _ y d h
    simp only [mapInsert, List.mem_singleton, Prod.mk.injEq] at h
    exact Or.inr ⟨h.1, Or.inl ⟨h.2, by simp⟩⟩
  | cons p m ih =>
    obtain ⟨x, e⟩ := p
    intro h y d hm
    rw [List.pairwise_cons] at h
    unfold mapInsert at hm
    split at hm
    · rename_i h1
      simp only [List.mem_cons, Prod.mk.injEq] at hm
      have hgt : ∀ b ∈ (x, e) :: m, symLt arc.1 b.1 = true := by
        intro b hb
        simp only [List.mem_cons] at hb
        rcases hb with rfl | hb
        · exact h1
        · exact symLt_order.trans _ _ _ h1 (h.1 b hb)
      rcases hm with ⟨rfl, rfl⟩ | hm
      · refine Or.inr ⟨rfl, Or.inl ⟨rfl, ?_⟩⟩
        intro d' hd'
        have := hgt _ hd'
        simp [symLt_order.irrefl] at this
      · left
        have hm' : (y, d) ∈ (x, e) :: m := by simpa using hm
        refine ⟨?_, hm'⟩
        rintro rfl
        have := hgt _ hm'
        simp [symLt_order.irrefl] at this
    · split at hm
      · rename_i h1 h2
        simp only [List.mem_cons, Prod.mk.injEq] at hm
        rcases hm with ⟨rfl, rfl⟩ | hm
        · left
          refine ⟨?_, List.mem_cons_self ..⟩
          rintro rfl; rw [symLt_order.irrefl] at h2; simp at h2
        · rcases ih h.2 y d hm with ⟨i1, i2⟩ | ⟨i1, (⟨i2, i3⟩ | ⟨d', i2, i3⟩)⟩
          · exact Or.inl ⟨i1, List.mem_cons_of_mem _ i2⟩
          · refine Or.inr ⟨i1, Or.inl ⟨i2, ?_⟩⟩
            intro d' hd'
            simp only [List.mem_cons, Prod.mk.injEq] at hd'
            rcases hd' with ⟨e1, _⟩ | hd'
            · rw [← e1, i1, symLt_order.irrefl] at h2; simp at h2
            · exact i3 d' hd'
          · exact Or.inr ⟨i1, Or.inr ⟨d', List.mem_cons_of_mem _ i2, i3⟩⟩
      · rename_i h1 h2
        have e0 := symLt_order.tri arc.1 x (by simpa using h1) (by simpa using h2)
        simp only [List.mem_cons, Prod.mk.injEq] at hm
        rcases hm with ⟨rfl, rfl⟩ | hm
        · exact Or.inr ⟨e0.symm, Or.inr ⟨e, List.mem_cons_self .., rfl⟩⟩
        · left
          refine ⟨?_, List.mem_cons_of_mem _ hm⟩
          rintro rfl
          have := h.1 _ hm
          rw [← e0] at this
          simp [symLt_order.irrefl] at this

theorem mapInsert_ok {l : List (Sym × Nat)} {m : List (Sym × List Nat)} (h : MapOk l m) (arc : Sym × Nat) :
    MapOk (l ++ [arc]) (mapInsert arc m) := by
  refine ⟨mapInsert_sorted arc m h.sorted, ?_, ?_⟩
  · intro x d hd
    rcases mapInsert_mem arc m h.sorted x d hd with ⟨h1, h2⟩ | ⟨h1, (⟨rfl, h3⟩ | ⟨d', h2, rfl⟩)⟩
    · obtain ⟨s1, s2, s3⟩ := h.sets x d h2
      refine ⟨s1, s2, ?_⟩
      intro q
      rw [s3, List.mem_append, List.mem_singleton]
      constructor
      · exact Or.inl
      · rintro (h | h)
        · exact h
        · exact absurd (congrArg Prod.fst h) h1
    · refine ⟨by simp, by simp, ?_⟩
      intro q
      rw [List.mem_append, List.mem_singleton, List.mem_singleton]
      constructor
      · rintro rfl; right; rw [h1]
      · rintro (h' | h')
        · obtain ⟨d', hd'⟩ := h.all x q h'
          exact absurd hd' (h3 d')
        · exact congrArg Prod.snd h'
    · obtain ⟨s1, s2, s3⟩ := h.sets x d' h2
      refine ⟨nat_sorted_iff.1 (sorted_insertSet natLt_order (nat_sorted_iff.2 s1)), ?_, ?_⟩
      · intro e
        have : arc.2 ∈ insertSet natLt arc.2 d' := (mem_insertSet natLt_order).2 (Or.inl rfl)
        rw [e] at this; simp at this
      · intro q
        rw [mem_insertSet natLt_order, s3, List.mem_append, List.mem_singleton]
        constructor
        · rintro (rfl | h')
          · right; rw [h1]
          · exact Or.inl h'
        · rintro (h' | h')
          · exact Or.inr h'
          · exact Or.inl (congrArg Prod.snd h')
  · intro x q hx
    rw [List.mem_append, List.mem_singleton] at hx
    apply (mapInsert_keys arc m x).2
    rcases hx with hx | hx
    · exact Or.inr (h.all x q hx)
    · exact Or.inl (congrArg Prod.fst hx)

theorem mapFold_ok (l : List (Sym × Nat)) : MapOk l (l.foldl (fun m arc => mapInsert arc m) []) := by
  have : ∀ (l l0 : List (Sym × Nat)) (m : List (Sym × List Nat)), MapOk l0 m →
      MapOk (l0 ++ l) (l.foldl (fun m arc => mapInsert arc m) m) := by
    intro l
    induction l with
    | nil => intro l0 m h; simpa using h
    | cons a l ih =>
      intro l0 m h
      have := ih (l0 ++ [a]) (mapInsert a m) (mapInsert_ok h a)
      simpa using this
  have := this l [] [] ⟨by simp, by simp, by simp⟩
  simpa using this

theorem mem_determinizer {a : Fsa} {P : List Nat} {x : Sym} {Q : List Nat} :
    (x, Q) ∈ (determinizer a).arcs P ↔
      (x, Q) ∈ (P.flatMap a.arcs).foldl (fun m arc => mapInsert arc m) [] := by
  show (x, Q) ∈ insertAll _ _ _ ↔ _
  rw [mem_insertAll (arcLt_order (listLt_order natLt_order))]; simp

theorem det_arc {a : Fsa} {P : List Nat} {x : Sym} {Q : List Nat} (h : (x, Q) ∈ (determinizer a).arcs P) :
    Q.Pairwise (· < ·) ∧ Q ≠ [] ∧ ∀ q, q ∈ Q ↔ ∃ p ∈ P, (x, q) ∈ a.arcs p := by
  obtain ⟨h1, h2, h3⟩ := (mapFold_ok (P.flatMap a.arcs)).sets x Q (mem_determinizer.1 h)
  refine ⟨h1, h2, ?_⟩
  intro q
  rw [h3, List.mem_flatMap]

theorem det_arc_exists {a : Fsa} {P : List Nat} {x : Sym} {p q : Nat} (hp : p ∈ P) (h : (x, q) ∈ a.arcs p) :
    ∃ Q, (x, Q) ∈ (determinizer a).arcs P := by
  obtain ⟨d, hd⟩ := (mapFold_ok (P.flatMap a.arcs)).all x q (List.mem_flatMap.2 ⟨p, hp, h⟩)
  exact ⟨d, mem_determinizer.2 hd⟩

theorem sorted_ext {l m : List Nat} (hl : l.Pairwise (· < ·)) (hm : m.Pairwise (· < ·))
    (h : ∀ x, x ∈ l ↔ x ∈ m) : l = m := by
  have hp : l.Perm m := (List.perm_ext_iff_of_nodup (nodup_of_lt hl) (nodup_of_lt hm)).2 h
  exact List.Perm.eq_of_pairwise (fun a b _ _ h1 h2 => by omega) hl hm hp

theorem det_arc_unique {a : Fsa} {P : List Nat} {x : Sym} {Q Q' : List Nat}
    (h : (x, Q) ∈ (determinizer a).arcs P) (h' : (x, Q') ∈ (determinizer a).arcs P) : Q = Q' := by
  obtain ⟨h1, _, h3⟩ := det_arc h
  obtain ⟨h1', _, h3'⟩ := det_arc h'
  exact sorted_ext h1 h1' (fun q => by rw [h3, h3'])

theorem det_path {a : Fsa} {l : List Sym} {P Q : List Nat} (h : WPath (determinizer a) P l Q) :
    ∀ q, q ∈ Q ↔ ∃ p ∈ P, Path a p l q := by
  induction h with
  | nil => intro q; simp [path_nil]
  | cons hac _ ih =>
    intro q
    obtain ⟨_, _, h3⟩ := det_arc hac
    rw [ih]
    simp only [path_cons, h3]
    constructor
    · rintro ⟨r, ⟨p, hp, hr⟩, h⟩; exact ⟨p, hp, r, hr, h⟩
    · rintro ⟨p, hp, r, hr, h⟩; exact ⟨r, ⟨p, hp, hr⟩, h⟩

theorem det_path_exists {a : Fsa} {l : List Sym} : ∀ {P : List Nat} {p q : Nat}, p ∈ P → Path a p l q →
    ∃ Q, WPath (determinizer a) P l Q := by
  induction l with
  | nil => intro P p q _ _; exact ⟨P, .nil⟩
  | cons x l ih =>
    intro P p q hp h
    cases h with
    | cons hac h =>
      obtain ⟨Q, hQ⟩ := det_arc_exists hp hac
      obtain ⟨R, hR⟩ := ih (((det_arc hQ).2.2 _).2 ⟨p, hp, hac⟩) h
      exact ⟨R, .cons hQ hR⟩

theorem determinizer_raw {a : Fsa} {l : List Sym} : WRaw (determinizer a) l ↔ Raw a l := by
  have hfin : ∀ Q, (determinizer a).final Q = true ↔ ∃ q ∈ Q, q ∈ a.ends := by
    intro Q
    show Q.any a.isEnd = true ↔ _
    simp [Fsa.isEnd]
  constructor
  · rintro ⟨P, hP, Q, hf, h⟩
    have hP' : P = a.starts := by simpa [determinizer] using hP
    subst hP'
    obtain ⟨q, hq, he⟩ := (hfin Q).1 hf
    obtain ⟨p, hp, hpath⟩ := (det_path h q).1 hq
    exact ⟨p, hp, q, he, hpath⟩
  · rintro ⟨p, hp, q, hq, h⟩
    obtain ⟨Q, hQ⟩ := det_path_exists hp h
    exact ⟨a.starts, by simp [determinizer], Q, (hfin Q).2 ⟨q, (det_path hQ q).2 ⟨p, hp, h⟩, hq⟩, hQ⟩

theorem det_reach {a : Fsa} (ha : Wf a) {P : List Nat} (h : Reach (determinizer a) P) :
    P.Pairwise (· < ·) ∧ ∀ p ∈ P, p < a.size := by
  induction h with
  | start hs =>
    rename_i S
    have : S = a.starts := by simpa [determinizer] using hs
    subst this
    exact ⟨ha.startsSorted, ha.start⟩
  | step _ hac _ =>
    obtain ⟨h1, _, h3⟩ := det_arc hac
    refine ⟨h1, ?_⟩
    intro q hq
    obtain ⟨p, _, h⟩ := (h3 q).1 hq
    exact ha.dest _ _ _ h

theorem sublist_range {n : Nat} {P : List Nat} (h1 : P.Pairwise (· < ·)) (h2 : ∀ p ∈ P, p < n) :
    P ∈ (List.range n).sublists := by
  rw [List.mem_sublists]
  have : P = (List.range n).filter (fun x => decide (x ∈ P)) := by
    apply sorted_ext h1
    · exact List.pairwise_lt_range.filter _
    · intro x
      simp only [List.mem_filter, List.mem_range, decide_eq_true_eq]
      exact ⟨fun h => ⟨h2 x h, h⟩, fun h => h.2⟩
  rw [this]
  exact List.filter_sublist

theorem determinize_spec {a : Fsa} (ha : Wf a) :
    ∃ f N, determinize a = some f ∧ Copied (determinizer a) .empty f N := by
  refine traverse_spec (U := (List.range a.size).sublists) wf_empty (by simp [determinizer]) ?_ ?_
  · intro P hP
    obtain ⟨h1, h2⟩ := det_reach ha hP
    exact sublist_range h1 h2
  · rw [List.length_sublists, List.length_range]; omega

/-- The arcs of a state of the determinized automaton have different symbols. -/
theorem determinizer_distinct {a : Fsa} (P : List Nat) :
    ((determinizer a).arcs P).Pairwise (fun x y => x.1 ≠ y.1) := by
  have hs : ((determinizer a).arcs P).Pairwise (fun x y => arcLt (listLt natLt) x y = true) :=
    sorted_insertAll (arcLt_order (listLt_order natLt_order)) List.Pairwise.nil
  refine List.Pairwise.imp_of_mem ?_ hs
  intro x y hx hy hlt e
  obtain ⟨x1, Q⟩ := x
  obtain ⟨y1, Q'⟩ := y
  simp only at e
  subst e
  have := det_arc_unique hx hy
  subst this
  rw [(arcLt_order (listLt_order natLt_order)).irrefl] at hlt
  simp at hlt

end Verif.Fsa
