import Verif.Fsa.Pack

/-!
C38: the packed automaton behaves like one with an arc set per state (`BinSpec` in `Pack.lean`).
-/
set_option linter.unusedVariables false
set_option linter.unusedSimpArgs false

namespace Verif.Fsa
open BinSpec

/-! ### The representation -/

/-- The arcs in order. -/
def SortedArcs (l : List (Sym × Nat)) : Prop := l.Pairwise (fun x y => arcLt natLt y x = false)

/-- A packed state and a state. -/
def Same (s t : Bool × List (Sym × Nat)) : Prop := s.1 = t.1 ∧ s.2.Perm t.2 ∧ SortedArcs s.2

/-- The packed automaton represents `A`. -/
def Rep (b : Bin) (A : Abs) : Prop :=
  ∃ B : Abs, List.Forall₂ Same B A ∧ Pack b B

theorem same_count {B A : Abs} (h : List.Forall₂ Same B A) : arcCount B = arcCount A := by
  induction h with
  | nil => rfl
  | cons h _ ih =>
    simp only [arcCount, List.map_cons, List.sum_cons] at *
    rw [h.2.1.length_eq, ih]

/-! ### The operations -/

theorem same_modify {B A : Abs} (h : List.Forall₂ Same B A) (p : Nat) {f g : Bool × List (Sym × Nat) → Bool × List (Sym × Nat)}
    (hfg : ∀ s t, Same s t → Same (f s) (g t)) : List.Forall₂ Same (B.modify p f) (A.modify p g) := by
  induction h generalizing p with
  | nil => simp
  | cons h1 h2 ih =>
    cases p with
    | zero => simp only [List.modify_zero_cons]; exact .cons (hfg _ _ h1) h2
    | succ p => simp only [List.modify_succ_cons]; exact .cons h1 (ih p)

theorem rep_addState {b : Bin} {A : Abs} (h : Rep b A) : Rep b.addState.2 (apply A .addState) := by
  obtain ⟨B, h1, h2⟩ := h
  exact ⟨_, List.rel_append h1 (.cons ⟨rfl, List.Perm.refl _, List.Pairwise.nil⟩ .nil), pack_addState h2⟩

theorem rep_addArc {b : Bin} {A : Abs} (h : Rep b A) {p : Nat} {arc : Sym × Nat} (hc : arcCount A + 1 < 2 ^ 31) :
    ∃ b', b.addArc p arc = some b' ∧ Rep b' (apply A (.addArc p arc)) := by
  obtain ⟨B, h1, h2⟩ := h
  obtain ⟨b', e, h3⟩ := pack_addArc h2 (p := p) (arc := arc) (by rw [same_count h1]; exact hc)
  refine ⟨b', e, _, ?_, h3⟩
  refine same_modify h1 p ?_
  intro s t hst
  exact ⟨hst.1, (perm_insertSorted _ _).trans (List.Perm.cons _ hst.2.1),
    sorted_insertSorted (arcLt_order natLt_order) hst.2.2⟩

theorem same_dropLast {B A : Abs} (h : List.Forall₂ Same B A) : List.Forall₂ Same B.dropLast A.dropLast := by
  induction h with
  | nil => exact .nil
  | cons h1 h2 ih =>
    cases h2 with
    | nil => exact .nil
    | cons h3 h4 => exact .cons h1 ih

theorem rep_apply {b : Bin} {A : Abs} (h : Rep b A) {o : BinOp} (ho : Ok A o) :
    ∃ b', b.apply o = some b' ∧ Rep b' (apply A o) := by
  cases o with
  | addState => exact ⟨_, rfl, rep_addState h⟩
  | addArc p arc => exact rep_addArc h ho
  | setEnd p =>
    obtain ⟨B, h1, h2⟩ := h
    obtain ⟨b', e, h3⟩ := pack_setEnd h2 (p := p) (by rw [h1.length_eq]; exact ho)
    exact ⟨b', e, _, same_modify h1 p (f := fun s => (true, s.2)) (fun s t hst => ⟨rfl, hst.2⟩), h3⟩
  | unsetEnd p =>
    obtain ⟨B, h1, h2⟩ := h
    obtain ⟨b', e, h3⟩ := pack_unsetEnd h2 (p := p) (by rw [h1.length_eq]; exact ho)
    exact ⟨b', e, _, same_modify h1 p (f := fun s => (false, s.2)) (fun s t hst => ⟨rfl, hst.2⟩), h3⟩
  | deleteLastState =>
    obtain ⟨B, h1, h2⟩ := h
    obtain ⟨b', e, h3⟩ := pack_delete h2 (by rintro rfl; cases h1; exact ho rfl)
    exact ⟨b', e, _, same_dropLast h1, h3⟩

theorem rep_run {A A' : Abs} {os : List BinOp} (hr : Run A os A') : ∀ {b : Bin}, Rep b A →
    ∃ b', b.applyAll os = some b' ∧ Rep b' A' := by
  induction hr with
  | nil => intro b h; exact ⟨b, rfl, h⟩
  | cons ho _ ih =>
    intro b h
    obtain ⟨b1, e1, h1⟩ := rep_apply h ho
    obtain ⟨b2, e2, h2⟩ := ih h1
    exact ⟨b2, by simp only [Bin.applyAll, e1, e2], h2⟩

theorem rep_empty : Rep .empty [] := ⟨[], .nil, pack_empty⟩

/-! ### The queries -/

theorem rep_size {b : Bin} {A : Abs} (h : Rep b A) : b.size = A.length := by
  obtain ⟨B, h1, h2⟩ := h
  rw [pack_size h2, h1.length_eq]

theorem same_get {B A : Abs} (h : List.Forall₂ Same B A) : ∀ (p : Nat),
    (B[p]?).map (·.1) = (A[p]?).map (·.1) ∧ SortedArcs ((B[p]?.map (·.2)).getD []) ∧
      ((B[p]?.map (·.2)).getD []).Perm ((A[p]?.map (·.2)).getD []) := by
  induction h with
  | nil => intro p; simp [SortedArcs]
  | cons h1 h2 ih =>
    intro p
    cases p with
    | zero => simpa using ⟨h1.1, h1.2.2, h1.2.1⟩
    | succ p => simpa using ih p

theorem rep_isEnd {b : Bin} {A : Abs} (h : Rep b A) (p : Nat) : b.isEnd p = (A[p]?).map (·.1) := by
  obtain ⟨B, h1, h2⟩ := h
  rw [pack_isEnd h2, (same_get h1 p).1]

theorem rep_getArcs {b : Bin} {A : Abs} (h : Rep b A) (hA : A ≠ []) (p : Nat) :
    ∃ l, b.getArcs p = some l ∧ SortedArcs l ∧ l.Perm ((A[p]?.map (·.2)).getD []) := by
  obtain ⟨B, h1, h2⟩ := h
  exact ⟨_, pack_getArcs h2 (by rintro rfl; cases h1; exact hA rfl) p, (same_get h1 p).2⟩

/-- What `find` finds in a sorted list. -/
theorem found_spec (x : Sym) (l : List (Sym × Nat)) (hl : SortedArcs l) :
    match (checkFound x (l.dropWhile (fun arc => arcLt natLt arc (x, 0)))).head? with
    | none => ∀ q, (x, q) ∉ l
    | some arc => arc.1 = x ∧ arc ∈ l ∧ ∀ q, (x, q) ∈ l → arc.2 ≤ q := by
  induction l with
  | nil => simp [checkFound]
  | cons a l ih =>
    unfold SortedArcs at hl
    rw [List.pairwise_cons] at hl
    rw [List.dropWhile_cons, arcLt_zero]
    by_cases hlt : symLt a.1 x = true
    · have hne : a.1 ≠ x := by
        intro e; rw [e, symLt_order.irrefl] at hlt; simp at hlt
      rw [if_pos hlt]
      have := ih hl.2
      split at this
      · rename_i h
        intro q hq
        simp only [List.mem_cons] at hq
        rcases hq with rfl | hq
        · exact hne rfl
        · exact this q hq
      · rename_i arc h
        refine ⟨this.1, List.mem_cons_of_mem _ this.2.1, ?_⟩
        intro q hq
        simp only [List.mem_cons] at hq
        rcases hq with rfl | hq
        · exact absurd rfl hne
        · exact this.2.2 q hq
    · rw [if_neg hlt]
      have hlt' : symLt a.1 x = false := by simpa using hlt
      rw [checkFound]
      by_cases e : x = a.1
      · rw [if_pos e]
        refine ⟨e.symm, List.mem_cons_self .., ?_⟩
        intro q hq
        simp only [List.mem_cons] at hq
        rcases hq with rfl | hq
        · exact Nat.le_refl _
        · have := hl.1 _ hq
          simp only [arcLt, e, Bool.or_eq_false_iff, Bool.and_eq_false_iff, decide_eq_false_iff_not, not_true,
            false_or, natLt] at this
          omega
      · rw [if_neg e]
        have hax : symLt x a.1 = true := by
          cases hxa : symLt x a.1 with
          | true => rfl
          | false => exact absurd (symLt_order.tri _ _ hxa hlt') e
        intro q hq
        simp only [List.mem_cons] at hq
        rcases hq with rfl | hq
        · exact e rfl
        · have := hl.1 _ hq
          simp [arcLt, hax] at this

theorem rep_delta {b : Bin} {A : Abs} (h : Rep b A) (hA : A ≠ []) (p : Nat) (x : Sym) :
    ∃ r, b.delta p x = some r ∧
      match r with
      | none => ∀ q, (x, q) ∉ ((A[p]?.map (·.2)).getD [])
      | some q => (x, q) ∈ ((A[p]?.map (·.2)).getD []) ∧ ∀ q', (x, q') ∈ ((A[p]?.map (·.2)).getD []) → q ≤ q' := by
  unfold Bin.delta
  by_cases hp : b.size < p
  · rw [if_pos hp]
    refine ⟨none, rfl, ?_⟩
    rw [rep_size h] at hp
    rw [List.getElem?_eq_none (by omega)]
    simp
  · rw [if_neg hp]
    obtain ⟨l, hl, hs, hperm⟩ := rep_getArcs h hA p
    unfold Bin.find
    rw [hl, Option.map_some, Option.map_some]
    refine ⟨_, rfl, ?_⟩
    have := found_spec x l hs
    cases hf : (checkFound x (l.dropWhile (fun arc => arcLt natLt arc (x, 0)))).head? with
    | none =>
      rw [hf] at this
      intro q; rw [← hperm.mem_iff]; exact this q
    | some arc =>
      rw [hf] at this
      obtain ⟨y, q⟩ := arc
      obtain ⟨rfl, h1, h2⟩ := this
      simp only [Option.map_some]
      refine ⟨hperm.mem_iff.1 h1, ?_⟩
      intro q' hq'
      exact h2 q' (hperm.mem_iff.2 hq')

/-! ### The theorems -/

/-- **C38** (state queries): after any sequence of operations the packed automaton answers the number of
states and the end states like the automaton with one arc set per state.  Nothing undefined happens. -/
theorem C38_states {os : List BinOp} {A : Abs} (hr : Run [] os A) :
    ∃ b, Bin.empty.applyAll os = some b ∧ b.size = A.length ∧ (∀ p, b.isEnd p = (A[p]?).map (·.1)) ∧
      (∀ p, p ∈ b.ends ↔ (A[p]?).map (·.1) = some true) := by
  obtain ⟨b, hb, h⟩ := rep_run hr rep_empty
  refine ⟨b, hb, rep_size h, rep_isEnd h, ?_⟩
  intro p
  unfold Bin.ends
  rw [List.mem_filter, List.mem_range, rep_isEnd h, rep_size h]
  cases hAp : A[p]? with
  | none => simp
  | some s =>
    have : p < A.length := by
      by_contra hn; rw [List.getElem?_eq_none (by omega)] at hAp; simp at hAp
    simp [this]

/-- **C38** (arcs): unless the automaton has no states, the arcs of each state are answered, in order.
(Missing: the automaton without states, see `C38_empty_false`.) -/
theorem C38_arcs_partial {os : List BinOp} {A : Abs} (hr : Run [] os A) (hA : A ≠ []) (p : Nat) :
    ∃ b l, Bin.empty.applyAll os = some b ∧ b.getArcs p = some l ∧ SortedArcs l ∧
      l.Perm ((A[p]?.map (·.2)).getD []) := by
  obtain ⟨b, hb, h⟩ := rep_run hr rep_empty
  obtain ⟨l, h1, h2⟩ := rep_getArcs h hA p
  exact ⟨b, l, hb, h1, h2⟩

/-- The automaton without states: asking for arcs is undefined (`m_states.size()-1` wraps around). -/
theorem C38_empty_false : Run [] [] [] ∧ Bin.empty.applyAll [] = some .empty ∧ Bin.empty.getArcs 0 = none ∧
    Bin.empty.accepts [97] = none :=
  ⟨.nil, rfl, by decide +kernel, by decide +kernel⟩

/-- When there are 2^31 arcs, a state that is added is an end state from the start: the position runs into
the flag. -/
theorem C38_full_false (b : Bin) (h : b.arcs.length = 2 ^ 31) : b.addState.2.isEnd b.size = some true := by
  unfold Bin.isEnd Bin.addState Bin.size
  simp only [h, List.getElem?_concat_length, Option.map_some]
  decide +kernel

/-- **C38** (transitions): a transition finds the arc with the symbol and the least target, if there is an
arc with the symbol. -/
theorem C38_delta_partial {os : List BinOp} {A : Abs} (hr : Run [] os A) (hA : A ≠ []) (p : Nat) (x : Sym) :
    ∃ b r, Bin.empty.applyAll os = some b ∧ b.delta p x = some r ∧
      match r with
      | none => ∀ q, (x, q) ∉ ((A[p]?.map (·.2)).getD [])
      | some q => (x, q) ∈ ((A[p]?.map (·.2)).getD []) ∧ ∀ q', (x, q') ∈ ((A[p]?.map (·.2)).getD []) → q ≤ q' := by
  obtain ⟨b, hb, h⟩ := rep_run hr rep_empty
  obtain ⟨r, h1, h2⟩ := rep_delta h hA p x
  exact ⟨b, r, hb, h1, h2⟩

theorem absPath_cons {A : Abs} {p : Nat} {x : Sym} {w : List Sym} {r : Nat} :
    BinSpec.Path A p (x :: w) r ↔ ∃ q, (x, q) ∈ ((A[p]?.map (·.2)).getD []) ∧ BinSpec.Path A q w r := by
  constructor
  · intro h
    cases h with
    | cons h1 h2 h3 => exact ⟨_, by rw [h1]; exact h2, h3⟩
  · rintro ⟨q, h1, h2⟩
    cases hA : A[p]? with
    | none => rw [hA] at h1; simp at h1
    | some s => rw [hA] at h1; exact .cons hA h1 h2

theorem rep_in {b : Bin} {A : Abs} (h : Rep b A) (hA : A ≠ []) (hd : BinSpec.Deterministic A) (hc : Closed A)
    (w : List Sym) : ∀ (p : Nat), p < A.length →
    ∃ r, b.inLoop p w = some r ∧ (r = true ↔ ∃ q, BinSpec.Path A p w q ∧ (A[q]?).map (·.1) = some true) := by
  induction w with
  | nil =>
    intro p hp
    refine ⟨A[p].1, ?_, ?_⟩
    · show b.isEnd p = _
      rw [rep_isEnd h, List.getElem?_eq_getElem hp]; rfl
    · constructor
      · intro hr
        exact ⟨p, .nil, by rw [List.getElem?_eq_getElem hp]; simp [hr]⟩
      · rintro ⟨q, hq, he⟩
        cases hq
        rw [List.getElem?_eq_getElem hp] at he
        simpa using he
  | cons x w ih =>
    intro p hp
    obtain ⟨r, h1, h2⟩ := rep_delta h hA p x
    unfold Bin.inLoop
    rw [h1]
    cases r with
    | none =>
      refine ⟨false, rfl, ?_⟩
      simp only [Bool.false_eq_true, false_iff]
      rintro ⟨q, hq, _⟩
      obtain ⟨q', hq', _⟩ := absPath_cons.1 hq
      exact h2 q' hq'
    | some q =>
      have hq : q < A.length := by
        cases hAp : A[p]? with
        | none => rw [hAp] at h2; simp at h2
        | some s => rw [hAp] at h2; exact hc p s hAp x q h2.1
      obtain ⟨r, i1, i2⟩ := ih q hq
      refine ⟨r, i1, ?_⟩
      rw [i2]
      constructor
      · rintro ⟨e, h3, h4⟩; exact ⟨e, absPath_cons.2 ⟨q, h2.1, h3⟩, h4⟩
      · rintro ⟨e, h3, h4⟩
        obtain ⟨q', h5, h6⟩ := absPath_cons.1 h3
        have : q' = q := by
          cases hAp : A[p]? with
          | none => rw [hAp] at h2; simp at h2
          | some s =>
            rw [hAp] at h2 h5
            by_contra hne
            have hpw := hd p s hAp
            have hin1 : (x, q') ∈ s.2 := h5
            have hin2 : (x, q) ∈ s.2 := h2.1
            clear h2 h5 hAp
            revert hin1 hin2
            generalize s.2 = l at hpw
            induction l with
            | nil => intro h; simp at h
            | cons y l ihl =>
              rw [List.pairwise_cons] at hpw
              intro a1 a2
              simp only [List.mem_cons] at a1 a2
              rcases a1 with rfl | a1 <;> rcases a2 with a2 | a2
              · simp at a2; exact hne a2.symm
              · exact hpw.1 _ a2 rfl
              · rw [← a2] at hpw; exact hpw.1 _ a1 rfl
              · exact ihl hpw.2 a1 a2
        subst this
        exact ⟨e, h6, h4⟩

/-- **C38** (membership): if no state has two arcs with the same symbol and all arcs lead to states, `in`
tells whether the word leads from state 0 to an end state. -/
theorem C38_in_partial {os : List BinOp} {A : Abs} (hr : Run [] os A) (hA : A ≠ []) (hd : BinSpec.Deterministic A)
    (hc : Closed A) (w : List Sym) :
    ∃ b r, Bin.empty.applyAll os = some b ∧ b.accepts w = some r ∧
      (r = true ↔ ∃ q, BinSpec.Path A 0 w q ∧ (A[q]?).map (·.1) = some true) := by
  obtain ⟨b, hb, h⟩ := rep_run hr rep_empty
  obtain ⟨r, h1, h2⟩ := rep_in h hA hd hc w 0 (List.length_pos_iff.2 hA)
  exact ⟨b, r, hb, h1, h2⟩

theorem rep_closure {b : Bin} {A : Abs} (h : Rep b A) (hA : A ≠ []) (hc : Closed A) (p : Nat) :
    ∃ c, b.epsClosure p = some c ∧ ∀ q, q ∈ c ↔ ∃ n, BinSpec.Path A p (List.replicate n EPS) q := by
  -- the automaton as a list of arc lists
  have hget : ∀ p, ∃ l, b.getArcs p = some l ∧ SortedArcs l ∧ l.Perm ((A[p]?.map (·.2)).getD []) :=
    rep_getArcs h hA
  let arcsOf : Nat → List (Sym × Nat) := fun p => (b.getArcs p).getD []
  have harcs : ∀ p, b.getArcs p = some (arcsOf p) := by
    intro p; obtain ⟨l, hl, _⟩ := hget p; simp [arcsOf, hl]
  let f : Fsa := ⟨(List.range A.length).map arcsOf, [], []⟩
  have hfa : ∀ p, f.arcs p = arcsOf p := by
    intro p
    show ((List.range A.length).map arcsOf).getD p [] = _
    rw [List.getD_eq_getElem?_getD, List.getElem?_map]
    by_cases hp : p < A.length
    · simp [hp]
    · rw [List.getElem?_eq_none (by simp; omega)]
      obtain ⟨l, hl, _, hperm⟩ := hget p
      rw [List.getElem?_eq_none (by omega)] at hperm
      simp only [Option.map_none, Option.getD_none] at hperm ⊢
      simp only [arcsOf, hl, Option.getD_some]
      exact hperm.eq_nil.symm
  have hmem : ∀ p a, a ∈ f.arcs p ↔ a ∈ ((A[p]?.map (·.2)).getD []) := by
    intro p a
    rw [hfa]
    obtain ⟨l, hl, _, hperm⟩ := hget p
    simp only [arcsOf, hl, Option.getD_some]
    exact hperm.mem_iff
  have hsize : f.size = A.length := by simp [f, Fsa.size]
  have hwf : Spec.Wf f := by
    refine ⟨?_, by simp [f], by simp [f], ?_, by simp [f], by simp [f]⟩
    · intro p x q hq
      rw [hmem] at hq
      rw [hsize]
      cases hAp : A[p]? with
      | none => rw [hAp] at hq; simp at hq
      | some s => rw [hAp] at hq; exact hc p s hAp x q hq
    · intro p
      rw [hfa]
      obtain ⟨l, hl, hs, _⟩ := hget p
      simp only [arcsOf, hl, Option.getD_some]
      exact hs
  have hloop : ∀ n c q, b.closureLoop n (c, q) = f.closureLoop n (c, q) := by
    intro n
    induction n with
    | zero => intro c q; rfl
    | succ n ih =>
      intro c q
      cases q with
      | nil => rfl
      | cons s q =>
        show (match b.getArcs s with | none => none | some l => b.closureLoop n (l.foldl closureStep (c, q))) =
          f.closureLoop n ((f.arcs s).foldl closureStep (c, q))
        rw [harcs, hfa]
        exact ih _ _
  have hpath : ∀ n p q, Spec.Path f p (List.replicate n EPS) q ↔ BinSpec.Path A p (List.replicate n EPS) q := by
    intro n
    induction n with
    | zero =>
      intro p q
      constructor <;> (intro h; cases h; exact .nil)
    | succ n ih =>
      intro p q
      rw [List.replicate_succ, absPath_cons, path_cons]
      simp only [hmem, ih]
  obtain ⟨c, hc', hm⟩ := closureLoop_spec hwf p (f.size + 2) 0 [p] [p] (by simp) (by simp) (by simp)
    (by intro x hx; simp at hx; subst hx; exact .refl _) (by intro x hx hx'; exact absurd hx hx') (by simp)
    (by omega)
  refine ⟨c, ?_, ?_⟩
  · unfold Bin.epsClosure
    rw [rep_size h, hloop, ← hsize]; exact hc'
  · intro q
    rw [hm]
    unfold EpsPath
    simp only [hpath]

/-- **C38** (epsilon closure): if all arcs lead to states, the closure is the set of the states reachable
by epsilon transitions. -/
theorem C38_closure_partial {os : List BinOp} {A : Abs} (hr : Run [] os A) (hA : A ≠ []) (hc : Closed A) (p : Nat) :
    ∃ b c, Bin.empty.applyAll os = some b ∧ b.epsClosure p = some c ∧
      ∀ q, q ∈ c ↔ ∃ n, BinSpec.Path A p (List.replicate n EPS) q := by
  obtain ⟨b, hb, h⟩ := rep_run hr rep_empty
  obtain ⟨c, h1, h2⟩ := rep_closure h hA hc p
  exact ⟨b, c, hb, h1, h2⟩

/-- A sequence of operations: arcs added to an earlier state, a final flag set and cleared, a state
deleted. -/
example : Run [] [.addState, .addState, .addState, .setEnd 1, .addArc 1 (98, 0), .addArc 0 (99, 1), .addArc 0 (97, 1),
    .addState, .addArc 3 (97, 0), .setEnd 3, .unsetEnd 2, .deleteLastState]
    [(false, [(97, 1), (99, 1)]), (true, [(98, 0)]), (false, [])] := by
  refine .cons trivial (.cons trivial (.cons trivial (.cons (show 1 < _ by decide) (.cons ?_ (.cons ?_ (.cons ?_
    (.cons trivial (.cons ?_ (.cons (show 3 < _ by decide) (.cons (show 2 < _ by decide) (.cons ?_ ?_)))))))))))
  all_goals first | exact BinSpec.Run.nil | (show _ < _; decide) | (show _ ≠ _; decide)

end Verif.Fsa
