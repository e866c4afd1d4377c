import Verif.Lattice.WalkSpec
import Verif.Lattice.PropsMasks
import Verif.Lattice.PropsPaths
import Mathlib.Data.List.Perm.Subperm

/-! Lemmas on the iterators over vertices and edges. -/
set_option linter.unusedVariables false
set_option linter.unusedSimpArgs false

namespace Verif.Lattice
open Verif Verif.Tags Verif.Tags.Spec Verif.Lattice.Spec

/-! ### The vertices of the graph -/

/-- `vertices_` holds the vertices of the graph, once each. -/
def VertsOk (s : State) : Prop :=
  s.verts.Nodup ∧ ∀ v, v ∈ s.verts ↔ (LooseVertex s v ∨ ∃ k, k < s.edges.length ∧ ((s.entry k).src = v ∨ (s.entry k).tgt = v))

theorem VertsOk.congr {s s' : State} (h : VertsOk s) (h1 : s'.verts = s.verts) (h2 : s'.nLoose = s.nLoose)
    (h3 : s'.edges = s.edges) : VertsOk s' := by
  unfold VertsOk LooseVertex State.entry at *
  rw [h1, h2, h3]
  exact h

theorem mem_insertVertex {vs : List Vertex} {v w : Vertex} : w ∈ insertVertex vs v ↔ w ∈ vs ∨ w = v := by
  unfold insertVertex
  split
  · rename_i h
    constructor
    · exact Or.inl
    · rintro (h' | rfl)
      · exact h'
      · exact h
  · simp

theorem nodup_insertVertex {vs : List Vertex} {v : Vertex} (h : vs.Nodup) : (insertVertex vs v).Nodup := by
  unfold insertVertex
  split
  · exact h
  · rename_i hv
    rw [List.nodup_append]
    refine ⟨h, by simp, ?_⟩
    intro a ha b hb hab
    simp only [List.mem_singleton] at hb
    subst hab; subst hb
    exact hv ha

theorem verts_micro {s s' : State} (hi : Inv s) (h : VertsOk s) (hm : Micro s s') : VertsOk s' := by
  cases hm with
  | append t => exact h.congr rfl rfl rfl
  | manager m _ => exact h.congr rfl rfl rfl
  | register mask _ => exact h.congr (by simp) (by simp) (by simp)
  | visible i => exact h.congr rfl rfl rfl
  | bump u v => exact h.congr rfl rfl rfl
  | clear i => exact h.congr rfl rfl rfl
  | addImplicit a _ _ => exact h.congr rfl rfl rfl
  | loose =>
    obtain ⟨h1, h2⟩ := h
    have hnew : -((s.nLoose : Int) + 1) ∉ s.verts := by
      rw [h2]
      rintro (⟨_, hl⟩ | ⟨k, hk, hkv⟩)
      · omega
      · have hs := (hi.entries k hk).src
        have ht := (hi.entries k hk).tgt
        simp only [State.validVertex, Bool.and_eq_true, decide_eq_true_eq] at hs ht
        omega
    refine ⟨?_, ?_⟩
    · simp only [addLooseVertex]
      rw [List.nodup_append]
      refine ⟨h1, by simp, ?_⟩
      intro a ha b hb hab
      simp only [List.mem_singleton] at hb
      subst hab; subst hb
      exact hnew ha
    · intro v
      simp only [addLooseVertex, List.mem_append, List.mem_singleton, h2, LooseVertex, State.entry]
      push_cast
      constructor
      · rintro ((⟨a, b⟩ | hk) | rfl)
        · left; omega
        · exact Or.inr hk
        · left; omega
      · rintro (⟨a, b⟩ | hk)
        · by_cases hv : -(s.nLoose : Int) ≤ v
          · exact Or.inl (Or.inl ⟨a, hv⟩)
          · right; omega
        · exact Or.inl (Or.inr hk)
  | addExplicit a hc =>
    obtain ⟨h1, h2⟩ := h
    refine ⟨nodup_insertVertex (nodup_insertVertex h1), ?_⟩
    intro v
    simp only [addExplicit, mem_insertVertex, h2]
    have hent : ∀ k, (addExplicit s a).2.entry k = (s.edges ++ [(⟨a.src, a.tgt, a.item, a.tags, a.score,
          [⟨a.tags, a.seq, a.score, a.ruleId, a.treeChoice⟩]⟩ : Entry)]).getD k default := fun k => rfl
    simp only [addExplicit] at hent
    simp only [hent, LooseVertex, List.length_append, List.length_singleton]
    constructor
    · rintro ((( h | ⟨k, hk, hkv⟩) | rfl) | rfl)
      · exact Or.inl h
      · exact Or.inr ⟨k, by omega, by rw [entry_append_lt hk]; exact hkv⟩
      · exact Or.inr ⟨s.edges.length, by omega, by rw [entry_append_eq]; simp⟩
      · exact Or.inr ⟨s.edges.length, by omega, by rw [entry_append_eq]; simp⟩
    · rintro (h | ⟨k, hk, hkv⟩)
      · exact Or.inl (Or.inl (Or.inl h))
      · by_cases hk' : k < s.edges.length
        · rw [entry_append_lt hk'] at hkv
          exact Or.inl (Or.inl (Or.inr ⟨k, hk', hkv⟩))
        · have : k = s.edges.length := by omega
          subst this
          rw [entry_append_eq] at hkv
          rcases hkv with rfl | rfl
          · exact Or.inl (Or.inr rfl)
          · exact Or.inr rfl
  | merge k a hk ho =>
    obtain ⟨h1, h2⟩ := h
    have hg := grow_micro (Micro.merge s k a hk ho)
    have hlen : (mergeInto s k a).edges.length = s.edges.length := by simp [mergeInto]
    refine ⟨h1, ?_⟩
    intro v
    have : (mergeInto s k a).verts = s.verts := rfl
    rw [this, h2, hlen]
    have hloose : LooseVertex (mergeInto s k a) v ↔ LooseVertex s v := Iff.rfl
    rw [hloose]
    constructor
    · rintro (h | ⟨j, hj, hv⟩)
      · exact Or.inl h
      · exact Or.inr ⟨j, hj, by rw [hg.src j hj, hg.tgt j hj]; exact hv⟩
    · rintro (h | ⟨j, hj, hv⟩)
      · exact Or.inl h
      · exact Or.inr ⟨j, hj, by rw [hg.src j hj, hg.tgt j hj] at hv; exact hv⟩

theorem verts_micros {s s' : State} (hi : Inv s) (h : VertsOk s) (hm : Micros s s') : VertsOk s' := by
  induction hm with
  | refl => exact h
  | step h1 h2 ih => exact verts_micro (inv_micros hi h1) ih h2

theorem verts_initial : VertsOk initial := by
  refine ⟨by simp [initial], ?_⟩
  intro v
  simp [initial, LooseVertex]
  try omega

theorem reachable_verts {s : State} (h : Lattice.Spec.Reachable s) : VertsOk s :=
  verts_micros inv_initial verts_initial (run_micros inv_initial h)

theorem mem_verts {s : State} (h : VertsOk s) (v : Vertex) : v ∈ s.verts ↔ GraphVertex s v := by
  rw [h.2]
  unfold GraphVertex
  constructor
  · rintro (h | ⟨k, hk, hv⟩)
    · exact Or.inl h
    · exact Or.inr ⟨.expl k, present_expl.2 hk, trivial, hv⟩
  · rintro (h | ⟨e, he, hx, hv⟩)
    · exact Or.inl h
    · cases e with
      | impl i => exact absurd hx (by simp [Explicit])
      | expl k => exact Or.inr ⟨k, present_expl.1 he, hv⟩

/-! ### Positions of the text -/

/-- The positions between the characters, from `n` on. -/
def positions (n : Nat) : List Nat → List Nat
  | [] => [n]
  | c :: cs => n :: positions (n + (Utf8.Spec.encode c).length) cs

theorem positions_ge {n : Nat} {cs : List Nat} : ∀ m ∈ positions n cs, n ≤ m := by
  induction cs generalizing n with
  | nil => intro m hm; simp [positions] at hm; omega
  | cons c cs ih =>
    intro m hm
    simp only [positions, List.mem_cons] at hm
    rcases hm with rfl | hm
    · exact le_refl _
    · have := ih m hm
      omega

theorem positions_sorted (n : Nat) (cs : List Nat) : (positions n cs).Pairwise (· < ·) := by
  induction cs generalizing n with
  | nil => simp [positions]
  | cons c cs ih =>
    rw [positions, List.pairwise_cons]
    refine ⟨?_, ih _⟩
    intro m hm
    have := positions_ge m hm
    have := encode_length_pos c
    omega

theorem encodeAll_cons' (c : Nat) (cs : List Nat) :
    Utf8.Spec.encodeAll (c :: cs) = Utf8.Spec.encode c ++ Utf8.Spec.encodeAll cs := by
  simp [Utf8.Spec.encodeAll]

/-- Well-formed beginnings of a well-formed text end between characters. -/
theorem prefix_split {cs : List Nat} (hc : ∀ c ∈ cs, Utf8.Spec.Scalar c) {m : Nat} (hm : m ≤ (Utf8.Spec.encodeAll cs).length) :
    Utf8.Spec.WellFormed ((Utf8.Spec.encodeAll cs).take m) ↔ m ∈ positions 0 cs := by
  have shift : ∀ (k : Nat) (cs : List Nat) (n : Nat), m + k ∈ positions (n + k) cs ↔ m ∈ positions n cs := by
    intro k cs
    induction cs with
    | nil => intro n; simp [positions]
    | cons c cs ih =>
      intro n
      simp only [positions, List.mem_cons]
      rw [show n + k + (Utf8.Spec.encode c).length = n + (Utf8.Spec.encode c).length + k by omega, ih]
      constructor
      · rintro (h | h)
        · left; omega
        · exact Or.inr h
      · rintro (h | h)
        · left; omega
        · exact Or.inr h
  clear shift
  have gen : ∀ (cs : List Nat), (∀ c ∈ cs, Utf8.Spec.Scalar c) → ∀ (m n : Nat), m ≤ (Utf8.Spec.encodeAll cs).length →
      (Utf8.Spec.WellFormed ((Utf8.Spec.encodeAll cs).take m) ↔ n + m ∈ positions n cs) := by
    intro cs
    induction cs with
    | nil =>
      intro _ m n hm
      have : m = 0 := by simpa [Utf8.Spec.encodeAll] using hm
      subst this
      simp only [positions, Utf8.Spec.encodeAll, List.flatMap_nil, List.take_nil, Nat.add_zero, List.mem_singleton, iff_true]
      exact ⟨[], by simp, rfl⟩
    | cons c cs ih =>
      intro hc m n hm
      rw [encodeAll_cons'] at hm ⊢
      have hpos := encode_length_pos c
      have hcs : ∀ x ∈ cs, Utf8.Spec.Scalar x := fun x hx => hc x (List.mem_cons_of_mem _ hx)
      rw [List.length_append] at hm
      simp only [positions, List.mem_cons]
      by_cases h0 : m = 0
      · subst h0
        simp only [List.take_zero, Nat.add_zero, true_or, iff_true]
        exact ⟨[], by simp, rfl⟩
      · by_cases hle : (Utf8.Spec.encode c).length ≤ m
        · have hsplit : (Utf8.Spec.encode c ++ Utf8.Spec.encodeAll cs).take m =
              Utf8.Spec.encode c ++ (Utf8.Spec.encodeAll cs).take (m - (Utf8.Spec.encode c).length) := by
            rw [List.take_append, List.take_of_length_le hle]
          rw [hsplit]
          have key := ih hcs (m - (Utf8.Spec.encode c).length) (n + (Utf8.Spec.encode c).length) (by omega)
          rw [show n + (Utf8.Spec.encode c).length + (m - (Utf8.Spec.encode c).length) = n + m by omega] at key
          constructor
          · rintro ⟨ds, hds, he⟩
            right
            rw [← key]
            cases ds with
            | nil =>
              simp [Utf8.Spec.encodeAll] at he
              exact absurd he.1 (Utf8.encode_ne_nil c)
            | cons d ds =>
              rw [encodeAll_cons'] at he
              have h1 : Utf8.validateNext (Utf8.Spec.encode c ++ (Utf8.Spec.encodeAll cs).take (m - (Utf8.Spec.encode c).length)) =
                  .ok (c, (Utf8.Spec.encodeAll cs).take (m - (Utf8.Spec.encode c).length)) :=
                (Utf8.validateNext_iff _ _ _).2 ⟨hc c (by simp), rfl⟩
              have h2 : Utf8.validateNext (Utf8.Spec.encode c ++ (Utf8.Spec.encodeAll cs).take (m - (Utf8.Spec.encode c).length)) =
                  .ok (d, Utf8.Spec.encodeAll ds) :=
                (Utf8.validateNext_iff _ _ _).2 ⟨hds d (by simp), he⟩
              rw [h1] at h2
              simp only [Except.ok.injEq, Prod.mk.injEq] at h2
              rw [h2.2]
              exact ⟨ds, fun x hx => hds x (List.mem_cons_of_mem _ hx), rfl⟩
          · rintro (h | h)
            · omega
            · obtain ⟨ds, hds, he⟩ := key.2 h
              refine ⟨c :: ds, ?_, by rw [encodeAll_cons', ← he]⟩
              intro x hx
              rcases List.mem_cons.1 hx with rfl | hx
              · exact hc _ (by simp)
              · exact hds x hx
        · have hlt : m < (Utf8.Spec.encode c).length := by omega
          constructor
          · rintro ⟨ds, hds, he⟩
            exfalso
            cases ds with
            | nil =>
              have := congrArg List.length he
              simp only [Utf8.Spec.encodeAll, List.flatMap_nil, List.length_nil, List.length_take, List.length_append] at this
              omega
            | cons d ds =>
              have h1 : Utf8.validateNext (Utf8.Spec.encode c ++ Utf8.Spec.encodeAll cs) = .ok (c, Utf8.Spec.encodeAll cs) :=
                (Utf8.validateNext_iff _ _ _).2 ⟨hc c (by simp), rfl⟩
              have h2 : Utf8.validateNext (Utf8.Spec.encode c ++ Utf8.Spec.encodeAll cs) =
                  .ok (d, Utf8.Spec.encodeAll ds ++ (Utf8.Spec.encode c ++ Utf8.Spec.encodeAll cs).drop m) := by
                refine (Utf8.validateNext_iff _ _ _).2 ⟨hds d (by simp), ?_⟩
                rw [← List.append_assoc, ← encodeAll_cons' d ds, ← he, List.take_append_drop]
              rw [h1] at h2
              simp only [Except.ok.injEq, Prod.mk.injEq] at h2
              have h3 := congrArg List.length he
              rw [encodeAll_cons', ← h2.1] at h3
              simp only [List.length_take, List.length_append] at h3
              omega
          · rintro (h | h)
            · omega
            · have := positions_ge _ h
              omega
  have := gen cs hc m 0 hm
  rwa [Nat.zero_add] at this

theorem positions_le {n : Nat} {cs : List Nat} : ∀ m ∈ positions n cs, m ≤ n + (Utf8.Spec.encodeAll cs).length := by
  induction cs generalizing n with
  | nil => intro m hm; simp [positions] at hm; omega
  | cons c cs ih =>
    intro m hm
    rw [encodeAll_cons', List.length_append]
    simp only [positions, List.mem_cons] at hm
    rcases hm with rfl | hm
    · omega
    · have := ih m hm
      omega

theorem mem_positions_iff {s : State} {cs : List Nat} (hc : ∀ c ∈ cs, Utf8.Spec.Scalar c) (ht : s.text = Utf8.Spec.encodeAll cs)
    (v : Vertex) : Position s v ↔ ∃ m ∈ positions 0 cs, (m : Int) = v := by
  unfold Position
  constructor
  · rintro ⟨h1, h2, h3⟩
    refine ⟨v.toNat, ?_, by omega⟩
    rw [ht] at h2 h3
    exact (prefix_split hc (by omega)).1 h3
  · rintro ⟨m, hm, rfl⟩
    have := positions_le m hm
    rw [ht]
    refine ⟨by omega, by omega, ?_⟩
    exact (prefix_split hc (by simpa using this)).2 (by simpa using hm)

/-! ### Skipping -/

/-- What `skipped` answers. -/
def skipB (s : State) (skip : Bool) (v : Nat) : Bool := match skipped s skip v with
  | .ok b => b
  | .error _ => false

theorem used_verts {s : State} (hv : VertsOk s) {v : Vertex} : v ∈ s.verts ∧ 0 ≤ v → Used s v := by
  rintro ⟨h, h0⟩
  rcases (mem_verts hv v).1 h with ⟨h1, _⟩ | ⟨e, he, _, h⟩
  · omega
  · exact ⟨e, he, h⟩

theorem encodeAll_append' (as bs : List Nat) :
    Utf8.Spec.encodeAll (as ++ bs) = Utf8.Spec.encodeAll as ++ Utf8.Spec.encodeAll bs := by
  simp [Utf8.Spec.encodeAll]

theorem encodeAll_prefix {as bs : List Nat} {x : Str} (ha : ∀ c ∈ as, Utf8.Spec.Scalar c) (hb : ∀ c ∈ bs, Utf8.Spec.Scalar c)
    (h : Utf8.Spec.encodeAll as ++ x = Utf8.Spec.encodeAll bs) : ∃ r, bs = as ++ r ∧ x = Utf8.Spec.encodeAll r := by
  induction as generalizing bs with
  | nil => exact ⟨bs, rfl, by simpa [Utf8.Spec.encodeAll] using h⟩
  | cons a as ih =>
    cases bs with
    | nil =>
      rw [encodeAll_cons'] at h
      have := congrArg List.length h
      have h2 := encode_length_pos a
      simp only [List.length_append, Utf8.Spec.encodeAll, List.flatMap_nil, List.length_nil] at this
      omega
    | cons b bs =>
      rw [encodeAll_cons', encodeAll_cons', List.append_assoc] at h
      have h1 : Utf8.validateNext (Utf8.Spec.encode a ++ (Utf8.Spec.encodeAll as ++ x)) = .ok (a, Utf8.Spec.encodeAll as ++ x) :=
        (Utf8.validateNext_iff _ _ _).2 ⟨ha a (by simp), rfl⟩
      have h2 : Utf8.validateNext (Utf8.Spec.encode a ++ (Utf8.Spec.encodeAll as ++ x)) = .ok (b, Utf8.Spec.encodeAll bs) :=
        (Utf8.validateNext_iff _ _ _).2 ⟨hb b (by simp), h⟩
      rw [h1] at h2
      simp only [Except.ok.injEq, Prod.mk.injEq] at h2
      obtain ⟨rfl, h2⟩ := h2
      obtain ⟨r, hr, hx⟩ := ih (fun c hc => ha c (by simp [hc])) (fun c hc => hb c (by simp [hc])) h2
      exact ⟨r, by rw [hr]; rfl, hx⟩

theorem skipped_aligned {s : State} (hv : VertsOk s) (ha : Aligned s) (skip : Bool) {v : Nat} (h : Position s v) :
    skipped s skip v = .ok (skipB s skip v) ∧ (skipB s skip v = false ↔ (skip = true → Used s v)) := by
  obtain ⟨h1, h2, h3⟩ := h
  have key : ∃ b, skipped s skip v = .ok b ∧ (b = false ↔ (skip = true → Used s v)) := by
    unfold skipped
    by_cases hc : (skip && !decide ((v : Vertex) ∈ s.verts) && !bitAt s.implicit v) = true
    · rw [if_pos hc]
      simp only [Bool.and_eq_true, Bool.not_eq_true', decide_eq_false_iff_not] at hc
      obtain ⟨⟨hs, hn⟩, hb⟩ := hc
      have hused : Used s v ↔ ∃ i, bitAt s.implicit i = true ∧ ((i + s.symLen i : Nat) : Int) = v := by
        constructor
        · rintro ⟨e, he, h⟩
          cases e with
          | expl k =>
            exfalso
            exact hn ((mem_verts hv _).2 (Or.inr ⟨.expl k, he, trivial, h⟩))
          | impl i =>
            have hi := present_impl.1 he
            rcases h with h | h
            · simp only [State.src] at h
              have : i = v := by omega
              rw [this, hb] at hi
              cases hi
            · exact ⟨i, hi, by simpa [State.tgt] using h⟩
        · rintro ⟨i, hi, h⟩
          exact ⟨.impl i, present_impl.2 hi, Or.inr (by simpa [State.tgt] using h)⟩
      by_cases h0 : v = 0
      · rw [if_pos h0]
        refine ⟨true, rfl, ?_⟩
        simp only [Bool.true_eq_false, false_iff, not_forall]
        refine ⟨hs, ?_⟩
        rw [hused]
        rintro ⟨i, _, h⟩
        have := symLen_pos s i
        omega
      · rw [if_neg h0]
        obtain ⟨pre, c, post, hpre, hcs, ht, hvl, hpr⟩ := prior_boundary (s := s) (v := v) (by omega) (by omega) (by simpa using h3)
        rw [hpr]
        refine ⟨_, rfl, ?_⟩
        have hsl := symLen_encode hcs ht
        simp only [Bool.not_eq_false']
        constructor
        · intro hb' _
          exact hused.2 ⟨pre.length, hb', by rw [hsl]; omega⟩
        · intro hu
          obtain ⟨i, hi, h⟩ := hused.1 (hu hs)
          have hal := (ha _ (present_impl.2 hi)).1
          rcases hal with hal | hal
          · simp only [State.src] at hal; omega
          · simp only [State.src, Int.toNat_natCast] at hal
            obtain ⟨as, has, hea⟩ := hal
            obtain ⟨ps, hps, hep⟩ := hpre
            have hiv : i < v := by have := symLen_pos s i; omega
            have htv : s.text.take v = pre ++ Utf8.Spec.encode c := by
              rw [ht, hvl, ← List.length_append, List.take_left]
            have hsp : Utf8.Spec.encodeAll as ++ (s.text.take v).drop i = Utf8.Spec.encodeAll (ps ++ [c]) := by
              rw [encodeAll_append', ← hep, ← hea]
              have : (s.text.take v).take i = s.text.take i := by rw [List.take_take, Nat.min_eq_left (by omega)]
              rw [← this, List.take_append_drop, htv]
              simp [Utf8.Spec.encodeAll]
            obtain ⟨r, hr, hx⟩ := encodeAll_prefix has (by
              intro x hx
              rcases List.mem_append.1 hx with h | h
              · exact hps x h
              · rw [List.mem_singleton.1 h]; exact hcs) hsp
            cases r with
            | nil =>
              exfalso
              have := congrArg List.length hx
              simp only [Utf8.Spec.encodeAll, List.flatMap_nil, List.length_nil, List.length_drop, List.length_take] at this
              omega
            | cons d r =>
              have hd : Utf8.Spec.Scalar d := by
                have : d ∈ ps ++ [c] := by rw [hr]; simp
                rcases List.mem_append.1 this with h | h
                · exact hps d h
                · rw [List.mem_singleton.1 h]; exact hcs
              have htx : s.text = s.text.take i ++ Utf8.Spec.encode d ++ (Utf8.Spec.encodeAll r ++ s.text.drop v) := by
                rw [encodeAll_cons'] at hx
                rw [List.append_assoc, ← List.append_assoc (Utf8.Spec.encode d), ← hx]
                have : (s.text.take v).take i = s.text.take i := by rw [List.take_take, Nat.min_eq_left (by omega)]
                rw [← this, ← List.append_assoc, List.take_append_drop, List.take_append_drop]
              have hsd := symLen_encode hd htx
              have hil : (s.text.take i).length = i := by rw [List.length_take]; omega
              rw [hil] at hsd
              have hlen := congrArg List.length hx
              rw [encodeAll_cons', List.length_append, List.length_drop, List.length_take] at hlen
              have hr0 : r = [] := by
                cases r with
                | nil => rfl
                | cons a r =>
                  have := encode_length_pos a
                  rw [encodeAll_cons', List.length_append] at hlen
                  omega
              subst hr0
              have := List.append_inj' hr (by simp)
              have hcd : c = d := by simpa using this.2
              have : i = pre.length := by rw [hcd] at hvl; omega
              rw [← this]
              exact hi
    · rw [if_neg hc]
      refine ⟨false, rfl, ?_⟩
      simp only [true_iff]
      intro hs
      simp only [hs, Bool.true_and, Bool.and_eq_true, Bool.not_eq_true', decide_eq_false_iff_not, not_and, Bool.not_eq_false] at hc
      by_cases hn : (v : Vertex) ∈ s.verts
      · exact used_verts hv ⟨hn, by omega⟩
      · exact ⟨.impl v, present_impl.2 (hc hn), Or.inl rfl⟩
  obtain ⟨b, hb, hb'⟩ := key
  have : skipB s skip v = b := by unfold skipB; rw [hb]
  rw [this]
  exact ⟨hb, hb'⟩

theorem skipped_position {s : State} {skip : Bool} (hva : skip = true → VertsOk s ∧ Aligned s) {v : Nat} (h : Position s v) :
    skipped s skip v = .ok (skipB s skip v) ∧ (skipB s skip v = false ↔ (skip = true → Used s v)) := by
  cases skip with
  | false => simp [skipped, skipB]
  | true => exact skipped_aligned (hva rfl).1 (hva rfl).2 true h

/-! ### Walking over the text -/

/-- The iterator yields the vertices. -/
inductive Yields (s : State) : VIter → List Vertex → Prop
  | done {it it'} : it.hasNext s = .ok (false, it') → Yields s it []
  | next {it it1 it2 v l} : it.hasNext s = .ok (true, it1) → it1.next s = .ok (v, it2) → Yields s it2 l → Yields s it (v :: l)

theorem yields_all {s : State} {it : VIter} {l : List Vertex} (h : Yields s it l) {n : Nat} (hn : l.length < n) :
    it.all s n = some (.ok l) := by
  induction h generalizing n with
  | done h =>
    cases n with
    | zero => simp at hn
    | succ n => simp [VIter.all, h]
  | next h1 h2 _ ih =>
    cases n with
    | zero => simp at hn
    | succ n =>
      simp only [List.length_cons] at hn
      simp [VIter.all, h1, h2, ih (n := n) (by omega), Except.map]

theorem nextReal_gt (s : State) (v : Nat) : v < nextReal s v := by
  unfold nextReal
  have := symLen_pos s v
  split <;> omega

theorem seek_fuel (s : State) (skip : Bool) (n m v : Nat) (hn : s.text.length + 1 ≤ n + v) (hm : s.text.length + 1 ≤ m + v) :
    seekVertex s skip n v = seekVertex s skip m v := by
  induction n generalizing m v with
  | zero =>
    cases m with
    | zero => rfl
    | succ m =>
      simp only [seekVertex]
      rw [if_neg (by omega)]
  | succ n ih =>
    cases m with
    | zero =>
      simp only [seekVertex]
      rw [if_neg (by omega)]
    | succ m =>
      simp only [seekVertex]
      have := nextReal_gt s v
      split
      · split
        · rfl
        · exact ih _ _ (by omega) (by omega)
        · rfl
      · rfl

theorem walk_step {s : State} {skip : Bool} {v : Nat} (hlen : v ≤ s.text.length)
    (hself : skipped s skip v = .ok (skipB s skip v)) {l : List Vertex} (hl : Yields s ⟨nextReal s v, none, skip⟩ l) :
    Yields s ⟨v, none, skip⟩ (if skipB s skip v then l else (v : Vertex) :: l) := by
  cases hb : skipB s skip v with
  | true =>
    rw [hb] at hself
    have hh : VIter.hasNext s ⟨v, none, skip⟩ = VIter.hasNext s ⟨nextReal s v, none, skip⟩ := by
      have hsk : seekVertex s skip (s.text.length + 1) v = seekVertex s skip (s.text.length + 1) (nextReal s v) := by
        rw [seekVertex, if_pos hlen, hself]
        have := nextReal_gt s v
        exact seek_fuel s skip _ _ _ (by omega) (by omega)
      simp only [VIter.hasNext, hsk]
    simp only [if_true]
    cases hl with
    | done h => exact .done (hh.trans h)
    | next h1 h2 h3 => exact .next (hh.trans h1) h2 h3
  | false =>
    rw [hb] at hself
    have hsk : seekVertex s skip (s.text.length + 1) v = .ok v := by
      rw [seekVertex, if_pos hlen, hself]
    simp only [Bool.false_eq_true, if_false]
    refine .next (it1 := ⟨v, none, skip⟩) (it2 := ⟨nextReal s v, none, skip⟩) ?_ ?_ hl
    · simp only [VIter.hasNext, hsk]
      simp [hlen]
    · simp only [VIter.next, VIter.nextText, hsk]
      rw [if_pos hlen]

theorem walk_text {s : State} {skip : Bool} (cs : List Nat) (hc : ∀ c ∈ cs, Utf8.Spec.Scalar c) (pre : Str)
    (ht : s.text = pre ++ Utf8.Spec.encodeAll cs)
    (hs : ∀ v ∈ positions pre.length cs, skipped s skip v = .ok (skipB s skip v)) :
    Yields s ⟨pre.length, none, skip⟩ (((positions pre.length cs).filter (fun v => !skipB s skip v)).map (fun (v : Nat) => (v : Vertex))) := by
  induction cs generalizing pre with
  | nil =>
    have hnr : nextReal s pre.length = pre.length + 1 := by
      unfold nextReal
      rw [if_neg (by rw [ht]; simp [Utf8.Spec.encodeAll])]
    have hlen : s.text.length = pre.length := by rw [ht]; simp [Utf8.Spec.encodeAll]
    have hd : Yields s ⟨nextReal s pre.length, none, skip⟩ [] := by
      rw [hnr]
      refine .done (it' := ⟨pre.length + 1, none, skip⟩) ?_
      simp only [VIter.hasNext, seekVertex]
      rw [if_neg (by omega)]
      simp [hlen]
    have := walk_step (by omega) (hs _ (by simp [positions])) hd
    simp only [positions, List.filter_cons, List.filter_nil]
    cases hb : skipB s skip pre.length <;> simpa [hb] using this
  | cons c cs ih =>
    have hcc := hc c (by simp)
    have ht' : s.text = (pre ++ Utf8.Spec.encode c) ++ Utf8.Spec.encodeAll cs := by
      rw [ht, encodeAll_cons', List.append_assoc]
    have hsl := symLen_encode hcc ht'
    have hpos := encode_length_pos c
    have hnr : nextReal s pre.length = (pre ++ Utf8.Spec.encode c).length := by
      unfold nextReal
      rw [if_pos (by rw [ht']; simp; omega), hsl, List.length_append]
    have hsub : ∀ v ∈ positions (pre ++ Utf8.Spec.encode c).length cs, skipped s skip v = .ok (skipB s skip v) := by
      intro v hv
      apply hs
      rw [List.length_append] at hv
      simp [positions, hv]
    have hrest := ih (fun x hx => hc x (by simp [hx])) (pre ++ Utf8.Spec.encode c) ht' hsub
    rw [← hnr] at hrest
    have := walk_step (by rw [ht]; simp) (hs _ (by simp [positions])) hrest
    simp only [positions, List.filter_cons]
    rw [hnr, List.length_append] at this
    cases hb : skipB s skip pre.length <;> simpa [hb] using this

/-- The positions that the constructor adds. -/
theorem missing_text {s : State} {skip : Bool} (cs : List Nat) (hc : ∀ c ∈ cs, Utf8.Spec.Scalar c) (pre : Str)
    (ht : s.text = pre ++ Utf8.Spec.encodeAll cs)
    (hs : ∀ v ∈ positions pre.length cs, skipped s skip v = .ok (skipB s skip v)) (n : Nat) (hn : s.text.length < n + pre.length) :
    missing s skip n pre.length = .ok ((positions pre.length cs).filter
      (fun v => !decide ((v : Vertex) ∈ s.verts) && (decide (v = s.text.length) || !skipB s skip v))) := by
  induction cs generalizing pre n with
  | nil =>
    have hlen : s.text.length = pre.length := by rw [ht]; simp [Utf8.Spec.encodeAll]
    cases n with
    | zero => omega
    | succ n =>
      rw [missing, if_neg (by omega)]
      by_cases h : (pre.length : Vertex) ∈ s.verts <;> simp [positions, h, hlen]
  | cons c cs ih =>
    have hcc := hc c (by simp)
    have ht' : s.text = (pre ++ Utf8.Spec.encode c) ++ Utf8.Spec.encodeAll cs := by
      rw [ht, encodeAll_cons', List.append_assoc]
    have hsl := symLen_encode hcc ht'
    have hpos := encode_length_pos c
    have hlt : pre.length < s.text.length := by rw [ht']; simp; omega
    have hsub : ∀ v ∈ positions (pre ++ Utf8.Spec.encode c).length cs, skipped s skip v = .ok (skipB s skip v) := by
      intro v hv
      apply hs
      rw [List.length_append] at hv
      simp [positions, hv]
    cases n with
    | zero => omega
    | succ n =>
      have hrest := ih (fun x hx => hc x (by simp [hx])) (pre ++ Utf8.Spec.encode c) ht' hsub n (by rw [List.length_append]; omega)
      rw [missing, if_pos hlt, hsl, ← List.length_append, hrest, hs _ (by simp [positions])]
      have hne : pre.length ≠ s.text.length := by omega
      simp only [positions, List.filter_cons, List.length_append]
      by_cases h : (pre.length : Vertex) ∈ s.verts
      · simp [h]
      · cases hb : skipB s skip pre.length <;> simp [h, hb, hne, Except.map]

/-! ### The place of a vertex -/

theorem foldl_max (f : Nat → Int) (l : List Nat) (m : Int) :
    (l.foldl (fun m k => if f k > m then f k else m) m = m ∨ ∃ k ∈ l, l.foldl (fun m k => if f k > m then f k else m) m = f k) ∧
    m ≤ l.foldl (fun m k => if f k > m then f k else m) m ∧
    ∀ k ∈ l, f k ≤ l.foldl (fun m k => if f k > m then f k else m) m := by
  induction l generalizing m with
  | nil => simp
  | cons a l ih =>
    simp only [List.foldl_cons]
    obtain ⟨h1, h2, h3⟩ := ih (if f a > m then f a else m)
    refine ⟨?_, ?_, ?_⟩
    · rcases h1 with h1 | ⟨k, hk, h1⟩
      · rw [h1]
        split
        · exact Or.inr ⟨a, by simp, rfl⟩
        · exact Or.inl rfl
      · exact Or.inr ⟨k, by simp [hk], h1⟩
    · refine le_trans ?_ h2
      split <;> omega
    · intro k hk
      rcases List.mem_cons.1 hk with rfl | hk
      · refine le_trans ?_ h2
        split <;> omega
      · exact h3 k hk

theorem before_idx {l : List Vertex} (hn : l.Nodup) {a b : Vertex} (h : Before l a b) : l.idxOf a < l.idxOf b := by
  induction l with
  | nil => cases h
  | cons x l ih =>
    rw [List.nodup_cons] at hn
    unfold Before at h
    cases h with
    | cons _ h =>
      have ha : a ∈ l := h.subset (by simp)
      have hb : b ∈ l := h.subset (by simp)
      have hxa : x ≠ a := by rintro rfl; exact hn.1 ha
      have hxb : x ≠ b := by rintro rfl; exact hn.1 hb
      rw [List.idxOf_cons, List.idxOf_cons, beq_false_of_ne hxa, beq_false_of_ne hxb]
      simp only [Bool.cond_false, Bool.false_eq_true, if_false]
      have := ih hn.2 h
      omega
    | cons_cons _ h =>
      have hb : b ∈ l := h.subset (by simp)
      have hxb : a ≠ b := by rintro rfl; exact hn.1 hb
      rw [List.idxOf_cons_self, List.idxOf_cons, beq_false_of_ne hxb]
      simp

theorem leads_loose {s : State} {v : Vertex} (hv : v < 0) (q : Vertex) : LeadsTo s q v ↔
    ∃ k ∈ s.graphIn v, (0 ≤ (s.entry k).src ∧ q = (s.entry k).src) ∨ ((s.entry k).src < 0 ∧ LeadsTo s q (s.entry k).src) := by
  constructor
  · intro h
    cases h with
    | @edge e he h0 =>
      cases e with
      | impl i => simp only [State.tgt] at hv; omega
      | expl k => exact ⟨k, mem_graphIn.2 ⟨present_expl.1 he, rfl⟩, Or.inl ⟨h0, rfl⟩⟩
    | @step _ e h h0 he =>
      cases e with
      | impl i => simp only [State.tgt] at hv; omega
      | expl k => exact ⟨k, mem_graphIn.2 ⟨present_expl.1 he, rfl⟩, Or.inr ⟨h0, h⟩⟩
  · rintro ⟨k, hk, h⟩
    obtain ⟨hk', rfl⟩ := mem_graphIn.1 hk
    rcases h with ⟨h0, rfl⟩ | ⟨h0, h⟩
    · exact LeadsTo.edge (e := .expl k) (present_expl.2 hk') h0
    · exact LeadsTo.step (e := .expl k) h h0 (present_expl.2 hk')

theorem leads_nonneg {s : State} {q v : Vertex} (h : LeadsTo s q v) : 0 ≤ q := by
  induction h with
  | edge _ h => exact h
  | step _ _ _ ih => exact ih

theorem place_ge {s : State} {v : Vertex} {p : Int} (h : Place s v p) : -1 ≤ p := by
  unfold Place at h
  split at h
  · omega
  · rcases h with ⟨h, _⟩ | ⟨h, _⟩
    · have := leads_nonneg h; omega
    · omega

theorem place_spec {s : State} {order : List Vertex} (ht : Topological s order) (n : Nat) (v : Vertex)
    (hn : order.idxOf v < n) : Place s v (place s n v) := by
  induction n generalizing v with
  | zero => omega
  | succ n ih =>
    unfold Place place
    by_cases h0 : 0 ≤ v
    · simp [h0]
    · rw [if_neg h0, if_neg h0]
      have hv : v < 0 := by omega
      have hsrc : ∀ k ∈ s.graphIn v, Place s (s.entry k).src (place s n (s.entry k).src) := by
        intro k hk
        obtain ⟨hk', rfl⟩ := mem_graphIn.1 hk
        apply ih
        have := before_idx ht.nodup (ht.forward (.expl k) (present_expl.2 hk') trivial)
        simp only [State.src, State.tgt] at this
        omega
      obtain ⟨h1, h2, h3⟩ := foldl_max (fun k => place s n (s.entry k).src) (s.graphIn v) (-1)
      generalize (s.graphIn v).foldl (fun m k => if place s n (s.entry k).src > m then place s n (s.entry k).src else m) (-1) = r at h1 h2 h3 ⊢
      have hub : ∀ q, LeadsTo s q v → q ≤ r := by
        intro q hq
        obtain ⟨k, hk, h⟩ := (leads_loose hv q).1 hq
        have hp := hsrc k hk
        have hle := h3 k hk
        unfold Place at hp
        rcases h with ⟨hs, rfl⟩ | ⟨hs, h⟩
        · rw [if_pos hs] at hp
          omega
        · rw [if_neg (by omega)] at hp
          rcases hp with ⟨_, hp⟩ | ⟨_, hp⟩
          · have := hp q h; omega
          · exact absurd h (hp q)
      rcases h1 with h1 | ⟨k, hk, h1⟩
      · right
        refine ⟨h1, ?_⟩
        intro q hq
        have := hub q hq
        have := leads_nonneg hq
        omega
      · have hp := hsrc k hk
        by_cases hr : r = -1
        · right
          refine ⟨hr, ?_⟩
          intro q hq
          have := hub q hq
          have := leads_nonneg hq
          omega
        · left
          refine ⟨?_, hub⟩
          unfold Place at hp
          rw [← h1] at hp
          by_cases hs : 0 ≤ (s.entry k).src
          · rw [if_pos hs] at hp
            exact (leads_loose hv r).2 ⟨k, hk, Or.inl ⟨hs, hp⟩⟩
          · rw [if_neg hs] at hp
            rcases hp with ⟨hp, _⟩ | ⟨hp, _⟩
            · exact (leads_loose hv r).2 ⟨k, hk, Or.inr ⟨by omega, hp⟩⟩
            · exact absurd hp hr

/-! ### The whole walk -/

theorem place_text (s : State) (n : Nat) (v : Vertex) (h : 0 ≤ v) : place s n v = v := by
  cases n <;> simp [place, h]

theorem yields_rest (s : State) (vd : Nat) (skip : Bool) (l : List Vertex) : Yields s ⟨vd, some l, skip⟩ l := by
  induction l with
  | nil => exact .done (it' := ⟨vd, some [], skip⟩) (by simp [VIter.hasNext])
  | cons v l ih => exact .next (it1 := ⟨vd, some (v :: l), skip⟩) (by simp [VIter.hasNext]) (by simp [VIter.next]) ih

theorem cast_pairwise {l : List Nat} (h : l.Pairwise (· < ·)) : (l.map (fun (v : Nat) => (v : Vertex))).Pairwise (· < ·) := by
  rw [List.pairwise_map]
  exact h.imp (by intro a b hab; omega)

theorem order_length {s : State} (hv : VertsOk s) {order : List Vertex} (ht : Topological s order) :
    order.length = s.verts.length := by
  have : order.Perm s.verts := (List.perm_ext_iff_of_nodup ht.nodup hv.1).2 (by intro v; rw [ht.mem, mem_verts hv])
  exact this.length_eq

theorem before_of_lt {l : List Vertex} {f : Vertex → Int} (hs : l.Pairwise (fun a b => f a ≤ f b)) {a b : Vertex}
    (ha : a ∈ l) (hb : b ∈ l) (h : f a < f b) : Before l a b := by
  unfold Before
  induction l with
  | nil => cases ha
  | cons x l ih =>
    rw [List.pairwise_cons] at hs
    rcases List.mem_cons.1 ha with rfl | ha'
    · rcases List.mem_cons.1 hb with rfl | hb'
      · omega
      · exact (List.singleton_sublist.2 hb').cons_cons _
    · rcases List.mem_cons.1 hb with rfl | hb'
      · have := hs.1 a ha'
        omega
      · exact (ih hs.2 ha' hb').cons _

theorem text_walk {s : State} {skip : Bool} (hva : skip = true → VertsOk s ∧ Aligned s) (hw : Utf8.Spec.WellFormed s.text)
    (hl : s.nLoose = 0) (order : List Vertex) : ∃ it l, VIter.start s order skip = .ok it ∧ Yields s it l ∧ l.length ≤ s.text.length + 1 ∧
    l.Pairwise (· < ·) ∧ ∀ v, v ∈ l ↔ Position s v ∧ (skip = true → Used s v) := by
  obtain ⟨cs, hc, ht⟩ := hw
  have hpos := mem_positions_iff hc ht
  have hsk : ∀ v ∈ positions 0 cs, skipped s skip v = .ok (skipB s skip v) ∧ (skipB s skip v = false ↔ (skip = true → Used s v)) :=
    fun v hvm => skipped_position hva ((hpos v).2 ⟨v, hvm, rfl⟩)
  refine ⟨⟨0, none, skip⟩, ((positions 0 cs).filter (fun v => !skipB s skip v)).map (fun (v : Nat) => (v : Vertex)), ?_, ?_, ?_, ?_, ?_⟩
  · simp [VIter.start, hl]
  · exact walk_text cs hc [] (by simpa using ht) (fun v hvm => (hsk v hvm).1)
  · rw [List.length_map]
    refine le_trans (List.length_filter_le _ _) ?_
    have : (positions 0 cs).length ≤ (List.range (s.text.length + 1)).length := by
      refine List.Subperm.length_le ?_
      refine List.subperm_of_subset (List.Pairwise.imp (by intro a b h; omega) (positions_sorted 0 cs)) ?_
      intro m hm
      have := positions_le m hm
      rw [List.mem_range, ht]
      omega
    simpa using this
  · exact cast_pairwise ((positions_sorted 0 cs).filter _)
  · intro v
    simp only [List.mem_map, List.mem_filter, Bool.not_eq_true']
    rw [hpos]
    constructor
    · rintro ⟨m, ⟨hm, hb⟩, rfl⟩
      exact ⟨⟨m, hm, rfl⟩, (hsk m hm).2.1 hb⟩
    · rintro ⟨⟨m, hm, rfl⟩, hu⟩
      exact ⟨m, ⟨hm, (hsk m hm).2.2 hu⟩, rfl⟩

theorem loose_walk {s : State} (hv : VertsOk s) {skip : Bool} (ha : skip = true → Aligned s) (hw : Utf8.Spec.WellFormed s.text)
    (hl : s.nLoose ≠ 0) {order : List Vertex} (hto : Topological s order) :
    ∃ l, VIter.start s order skip = .ok ⟨0, some l, skip⟩ ∧ l.Nodup ∧
      (∀ v, v ∈ l ↔ GraphVertex s v ∨ (Position s v ∧ (v = s.text.length ∨ (skip = true → Used s v)))) ∧
      l.Pairwise (fun a b => place s s.verts.length a ≤ place s s.verts.length b) ∧
      (∀ a b, Before order a b → place s s.verts.length a ≤ place s s.verts.length b → Before l a b) := by
  obtain ⟨cs, hc, ht⟩ := hw
  have hpos := mem_positions_iff hc ht
  have hsk : ∀ v ∈ positions 0 cs, skipped s skip v = .ok (skipB s skip v) ∧ (skipB s skip v = false ↔ (skip = true → Used s v)) :=
    fun v hvm => skipped_position (fun h => ⟨hv, ha h⟩) ((hpos v).2 ⟨v, hvm, rfl⟩)
  have hmiss := missing_text cs hc [] (by simpa using ht) (fun v hvm => (hsk v hvm).1) (s.text.length + 1) (by simp)
  simp only [List.length_nil] at hmiss
  set miss := (positions 0 cs).filter
      (fun (v : Nat) => !decide ((v : Vertex) ∈ s.verts) && (decide (v = s.text.length) || !skipB s skip v)) with hmd
  set f := place s s.verts.length with hf
  have hcont : order.map (fun v => (v, f v)) ++ miss.map (fun (vd : Nat) => ((vd : Vertex), (vd : Int))) =
      (order ++ miss.map (fun (v : Nat) => (v : Vertex))).map (fun v => (v, f v)) := by
    rw [List.map_append, List.map_map]
    congr 1
    apply List.map_congr_left
    intro v _
    simp only [Function.comp_apply, hf]
    rw [place_text _ _ _ (by omega)]
  set all := order ++ miss.map (fun (v : Nat) => (v : Vertex)) with hall
  have hsort : ((all.map (fun v => (v, f v))).mergeSort (fun a b => decide (a.2 ≤ b.2))).map (·.1) =
      all.mergeSort (fun a b => decide (f a ≤ f b)) := by
    rw [← List.map_mergeSort (r := fun a b => decide (f a ≤ f b)) (by intros; rfl), List.map_map]
    simp [Function.comp_def]
  have hmemmiss : ∀ v : Vertex, v ∈ miss.map (fun (v : Nat) => (v : Vertex)) ↔
      Position s v ∧ v ∉ s.verts ∧ (v = s.text.length ∨ (skip = true → Used s v)) := by
    intro v
    simp only [List.mem_map, hmd, List.mem_filter, Bool.and_eq_true, Bool.or_eq_true, Bool.not_eq_true',
      decide_eq_true_eq, decide_eq_false_iff_not]
    rw [hpos]
    constructor
    · rintro ⟨m, ⟨hm, hn, hb⟩, rfl⟩
      refine ⟨⟨m, hm, rfl⟩, hn, ?_⟩
      rcases hb with hb | hb
      · left; omega
      · exact Or.inr ((hsk m hm).2.1 hb)
    · rintro ⟨⟨m, hm, rfl⟩, hn, hu⟩
      refine ⟨m, ⟨hm, hn, ?_⟩, rfl⟩
      rcases hu with hu | hu
      · left; omega
      · exact Or.inr ((hsk m hm).2.2 hu)
  have hperm := List.mergeSort_perm all (fun a b => decide (f a ≤ f b))
  have hnd : all.Nodup := by
    rw [hall, List.nodup_append]
    refine ⟨hto.nodup, ?_, ?_⟩
    · exact List.Pairwise.imp (by intro a b h; omega) (cast_pairwise ((positions_sorted 0 cs).filter _))
    · intro a h1 b h2 hab
      subst hab
      exact ((hmemmiss a).1 h2).2.1 ((mem_verts hv a).2 ((hto.mem a).1 h1))
  refine ⟨all.mergeSort (fun a b => decide (f a ≤ f b)), ?_, ?_, ?_, ?_, ?_⟩
  · unfold VIter.start
    rw [if_neg hl, hmiss]
    simp only [← hf]
    rw [hcont, hsort]
  · exact hperm.symm.nodup hnd
  · intro v
    rw [hperm.mem_iff, hall, List.mem_append, hto.mem, hmemmiss, ← mem_verts hv]
    constructor
    · rintro (h | ⟨h1, _, h2⟩)
      · exact Or.inl h
      · exact Or.inr ⟨h1, h2⟩
    · rintro (h | ⟨h1, h2⟩)
      · exact Or.inl h
      · by_cases h : v ∈ s.verts
        · exact Or.inl h
        · exact Or.inr ⟨h1, h, h2⟩
  · have := List.pairwise_mergeSort (le := fun a b => decide (f a ≤ f b))
      (by intro a b c h1 h2; simp only [decide_eq_true_eq] at *; omega)
      (by intro a b; simp only [Bool.or_eq_true, decide_eq_true_eq]; omega) all
    exact this.imp (by intro a b h; simpa using h)
  · intro a b hab hle
    apply List.sublist_mergeSort (le := fun a b => decide (f a ≤ f b))
      (by intro a b c h1 h2; simp only [decide_eq_true_eq] at *; omega)
      (by intro a b; simp only [Bool.or_eq_true, decide_eq_true_eq]; omega)
    · simp [hle]
    · exact hab.trans (List.sublist_append_left _ _)

/-! ### Edges -/

theorem seekVertex_queried (s : State) (mask : Mask) (skip : Bool) (n v : Nat) :
    seekVertex (queried s mask) skip n v = seekVertex s skip n v := by
  unfold queried
  split
  · rfl
  · induction n generalizing v with
    | zero => rfl
    | succ n ih => simp only [seekVertex, ih, skipped, nextReal, State.priorVertex, State.symLen, register_text, register_verts, register_implicit]

theorem hasNext_queried (s : State) (mask : Mask) (it : VIter) : it.hasNext (queried s mask) = it.hasNext s := by
  have ht : (queried s mask).text = s.text := by unfold queried; split <;> simp
  simp only [VIter.hasNext, seekVertex_queried, ht]

theorem next_queried (s : State) (mask : Mask) (it : VIter) : it.next (queried s mask) = it.next s := by
  have ht : (queried s mask).text = s.text := by unfold queried; split <;> simp
  have hs : (queried s mask).symLen = s.symLen := by funext i; simp [State.symLen, ht]
  simp only [VIter.next, VIter.nextText, seekVertex_queried, nextReal, ht, hs]

theorem yields_queried {s : State} {mask : Mask} {it : VIter} {l : List Vertex} (h : Yields s it l) :
    Yields (queried s mask) it l := by
  induction h with
  | done h => exact .done ((hasNext_queried ..).trans h)
  | next h1 h2 _ ih => exact .next ((hasNext_queried ..).trans h1) ((next_queried ..).trans h2) ih

theorem seek_edges {q : State} {b : Bool} {mask : Mask} {f : Vertex → List Edge} {vi : VIter} {vs : List Vertex}
    (hy : Yields q vi vs) (hf : ∀ vi es, ∀ v ∈ vs, SIter.edgesAt q ⟨vi, es, b, mask⟩ v = (.ok (f v), q)) {n : Nat}
    (hn : vs.length < n) (es0 : List Edge) :
    (vs.flatMap f = [] ∧ ∃ it', SIter.seek n q ⟨vi, es0, b, mask⟩ = some (.ok (false, it'), q)) ∨
    ∃ e es vs1 vi', vs.flatMap f = e :: es ++ vs1.flatMap f ∧ SIter.seek n q ⟨vi, es0, b, mask⟩ = some (.ok (true, ⟨vi', e :: es, b, mask⟩), q) ∧
      Yields q vi' vs1 ∧ vs1 ⊆ vs ∧ vs1.length ≤ vs.length := by
  induction hy generalizing n es0 with
  | @done it it' h =>
    left
    cases n with
    | zero => simp at hn
    | succ n => exact ⟨rfl, ⟨it', es0, b, mask⟩, by simp only [SIter.seek, h]⟩
  | @next it it1 it2 v l h1 h2 hy ih =>
    cases n with
    | zero => simp at hn
    | succ n =>
      simp only [List.length_cons] at hn
      have hv := hf it es0 v (by simp)
      cases hfv : f v with
      | cons e es =>
        right
        refine ⟨e, es, l, it2, by simp [hfv], ?_, hy, by simp, by simp⟩
        simp only [SIter.seek, h1, h2, hv, hfv]
      | nil =>
        have hs : SIter.seek (n + 1) q ⟨it, es0, b, mask⟩ = SIter.seek n q ⟨it2, [], b, mask⟩ := by
          simp only [SIter.seek, h1, h2, hv, hfv]
        rw [hs]
        rcases ih (fun vi es v hv => hf vi es v (by simp [hv])) (n := n) (by omega) [] with ⟨h, hit⟩ | ⟨e, es, vs1, vi', h3, h4, h5, h6, h7⟩
        · exact Or.inl ⟨by simp [hfv, h], hit⟩
        · exact Or.inr ⟨e, es, vs1, vi', by simpa [hfv] using h3, h4, h5, fun x hx => by simp [h6 hx], by simp; omega⟩

theorem all_edges {q : State} {b : Bool} {mask : Mask} {f : Vertex → List Edge} {fuel : Nat} (n : Nat) {vi : VIter} {vs : List Vertex}
    (es : List Edge)
    (hy : Yields q vi vs) (hf : ∀ vi es, ∀ v ∈ vs, SIter.edgesAt q ⟨vi, es, b, mask⟩ v = (.ok (f v), q))
    (hn : (es ++ vs.flatMap f).length < n) (hfuel : vs.length < fuel) :
    SIter.all fuel n q ⟨vi, es, b, mask⟩ = some (.ok (es ++ vs.flatMap f), q) := by
  induction n generalizing vi vs es with
  | zero => omega
  | succ n ih =>
    cases es with
    | cons e es =>
      simp only [SIter.all, SIter.hasNext, SIter.next]
      rw [ih es hy hf (by simp only [List.cons_append, List.length_cons] at hn; omega) hfuel]
      rfl
    | nil =>
      simp only [SIter.all, SIter.hasNext, List.nil_append]
      rcases seek_edges hy hf hfuel [] with ⟨h, it', hit⟩ | ⟨e, es, vs1, vi', h3, h4, h5, h6, h7⟩
      · rw [hit, h]
      · rw [h4]
        simp only [SIter.next]
        rw [ih es h5 (fun vi es v hv => hf vi es v (h6 hv)) (by
          rw [List.nil_append, h3] at hn
          simp only [List.cons_append, List.length_cons] at hn
          omega) (by omega), h3]
        rfl

theorem start_edges {s : State} {b : Bool} {mask : Mask} {f : Vertex → List Edge} {fuel : Nat} {n : Nat} {vi : VIter} {vs : List Vertex}
    {order : List Vertex} (hst : VIter.start s order true = .ok vi) (hy : Yields s vi vs)
    (hf0 : ∀ vi, (SIter.edgesAt s ⟨vi, [], b, mask⟩ 0).2 = queried s mask ∧ ∃ l, (SIter.edgesAt s ⟨vi, [], b, mask⟩ 0).1 = .ok l ∧ (vs = [] → l = []))
    (hf : ∀ vi es, ∀ v ∈ vs, SIter.edgesAt (queried s mask) ⟨vi, es, b, mask⟩ v = (.ok (f v), queried s mask))
    (hn : (vs.flatMap f).length < n) (hfuel : vs.length < fuel) :
    ∃ it, SIter.start s order b mask = (.ok it, queried s mask) ∧
      SIter.all fuel n (queried s mask) it = some (.ok (vs.flatMap f), queried s mask) := by
  obtain ⟨h1, l, h2, h3⟩ := hf0 vi
  have h0 : SIter.edgesAt s ⟨vi, [], b, mask⟩ 0 = (.ok l, queried s mask) := by rw [← h2, ← h1]
  have hq := yields_queried (mask := mask) hy
  unfold SIter.start
  rw [hst]
  simp only [h0]
  cases hq with
  | @done _ it' h =>
    rw [h]
    refine ⟨_, rfl, ?_⟩
    have hl := h3 rfl
    subst hl
    have hidem : it'.hasNext (queried s mask) = .ok (false, it') := by
      rw [hasNext_queried] at h ⊢
      unfold VIter.hasNext at h ⊢
      split at h
      · rename_i l hl
        simp only [Except.ok.injEq, Prod.mk.injEq] at h
        obtain ⟨h4, rfl⟩ := h
        rw [hl]
        simp [h4]
      · rename_i hl
        split at h
        · cases h
        · rename_i vd hvd
          simp only [Except.ok.injEq, Prod.mk.injEq, decide_eq_false_iff_not] at h
          obtain ⟨h4, rfl⟩ := h
          simp only [hl]
          have : seekVertex s vi.skip (s.text.length + 1) vd = .ok vd := by
            rw [seekVertex, if_neg h4]
          simp only [this]
          simp [h4]
    have := all_edges (b := b) (mask := mask) (f := f) (fuel := fuel) n [] (.done hidem) (by simp) (by simpa using hn) hfuel
    simpa using this
  | @next _ it1 it2 v l' h4 h5 hy' =>
    rw [h4]
    simp only [h5, hf vi [] v (by simp)]
    refine ⟨_, rfl, ?_⟩
    have := all_edges (b := b) (mask := mask) (f := f) (fuel := fuel) n (f v) hy' (fun vi es w hw => hf vi es w (by simp [hw]))
      (by simpa using hn) (by simp at hfuel; omega)
    simpa using this

theorem inEdges_snd {s : State} {v : Vertex} {mask : Mask} {l : List Edge} (h : (inEdges s v mask).1 = .ok l) :
    (inEdges s v mask).2 = queried s mask := by
  unfold inEdges queried at *
  split
  · rfl
  · rename_i hm
    rw [if_neg hm] at h
    dsimp only at h ⊢
    split <;> rfl

theorem edgesAt_out (s : State) (vi : VIter) (es : List Edge) (mask : Mask) (v : Vertex) :
    SIter.edgesAt s ⟨vi, es, false, mask⟩ v = (.ok (outEdges s v mask).1, queried s mask) := by
  simp only [SIter.edgesAt, Bool.false_eq_true, if_false, ← outEdges_snd s v mask]

theorem inEdges_ok {s : State} (hi : Inv s) (mask : Mask) {v : Vertex} (h1 : s.validVertex v = true) (h2 : Boundary s v) :
    ∃ l, (inEdges s v mask).1 = .ok l := by
  rw [inEdges_fst hi]
  obtain ⟨l, hl⟩ := implicitIn_ok h1 h2
  split
  · unfold State.allInEdges
    rw [hl]
    exact ⟨_, rfl⟩
  · rw [hl]
    exact ⟨_, rfl⟩

theorem indexFor_nodup {s : State} (hi : Inv s) (mask : Mask) : (s.indexFor mask).Nodup := by
  have hm : ∀ m, (s.matching m).Nodup := fun m => List.nodup_range.sublist List.filter_sublist
  unfold State.indexFor
  split
  · rename_i mi h
    exact ((hi.masks mi (List.mem_of_find?_eq_some h)).2.2).nodup (hm _)
  · exact hm _

theorem explicit_nodup {l : List Nat} (h : l.Nodup) : (l.map Edge.expl).Nodup :=
  List.Pairwise.map Edge.expl (by intro a b h h'; exact h (by simpa using h')) h

theorem outEdges_nodup {s : State} (hi : Inv s) (v : Vertex) (mask : Mask) : (outEdges s v mask).1.Nodup := by
  rw [outEdges_fst]
  split
  · exact allOut_nodup s v
  · rw [List.nodup_append]
    refine ⟨?_, explicit_nodup ((indexFor_nodup hi mask).sublist List.filter_sublist), ?_⟩
    · unfold State.implicitOut
      split <;> [split; skip] <;> simp
    · intro a ha b hb hab
      subst hab
      simp only [List.mem_map] at hb
      obtain ⟨k, _, rfl⟩ := hb
      unfold State.implicitOut at ha
      split at ha <;> [split at ha; skip] <;> simp at ha

theorem implicitIn_list {s : State} {v : Vertex} {l : List Edge} (h : s.implicitIn v = .ok l) :
    l = [] ∨ ∃ p, l = [.impl p] ∧ bitAt s.implicit p = true := by
  unfold State.implicitIn at h
  split at h
  · left; simpa using h.symm
  · split at h
    · rename_i p _
      simp only [Except.ok.injEq] at h
      subst h
      split
      · rename_i hb; exact Or.inr ⟨p, rfl, hb⟩
      · exact Or.inl rfl
    · left; simpa using h.symm
    · cases h

theorem inEdges_nodup {s : State} (hi : Inv s) {v : Vertex} {mask : Mask} {l : List Edge}
    (h : (inEdges s v mask).1 = .ok l) : l.Nodup := by
  have gen : ∀ (l1 : List Edge) (ks : List Nat), s.implicitIn v = .ok l1 → ks.Nodup → ∀ c : Bool,
      ((if c = true then l1 else []) ++ ks.map Edge.expl).Nodup := by
    intro l1 ks h1 hk c
    rw [List.nodup_append]
    rcases implicitIn_list h1 with rfl | ⟨p, rfl, _⟩
    · refine ⟨by split <;> simp, explicit_nodup hk, ?_⟩
      intro a ha
      split at ha <;> simp at ha
    · refine ⟨by split <;> simp, explicit_nodup hk, ?_⟩
      intro a ha b hb hab
      subst hab
      simp only [List.mem_map] at hb
      obtain ⟨k, _, rfl⟩ := hb
      split at ha <;> simp at ha
  rw [inEdges_fst hi] at h
  split at h
  · unfold State.allInEdges at h
    split at h
    · cases h
    · rename_i l1 h1
      simp only [Except.ok.injEq] at h
      subst h
      exact gen l1 _ h1 (List.nodup_range.sublist List.filter_sublist) true
  · split at h
    · cases h
    · rename_i l1 h1
      simp only [Except.ok.injEq] at h
      subst h
      exact gen l1 _ h1 ((indexFor_nodup hi mask).sublist List.filter_sublist) _

theorem mem_allIn {s : State} (h : Lattice.Spec.Reachable s) (ha : Aligned s) {v : Vertex} {l : List Edge} (hb : Boundary s v)
    (hv : s.validVertex v = true) (hl : s.allInEdges v = .ok l) (e : Edge) : e ∈ l ↔ Present s e ∧ s.tgt e = v := by
  have key : ∀ u, Boundary s u → ((e ∈ s.allOutEdges u ∧ s.tgt e = v) ↔ (e ∈ l ∧ s.src e = u)) := by
    intro u hu
    obtain ⟨l', h1, h2⟩ := C06_agree_partial h hu hb hv
    rw [hl] at h1
    simp only [Except.ok.injEq] at h1
    subst h1
    exact h2 e
  constructor
  · intro he
    have hp : Present s e := by
      unfold State.allInEdges at hl
      split at hl
      · cases hl
      · rename_i l1 h1
        simp only [Except.ok.injEq] at hl
        subst hl
        rcases List.mem_append.1 he with he | he
        · rcases implicitIn_list h1 with rfl | ⟨p, rfl, hb⟩
          · cases he
          · rw [List.mem_singleton.1 he]; exact present_impl.2 hb
        · simp only [List.mem_map, mem_graphIn] at he
          obtain ⟨k, ⟨hk, _⟩, rfl⟩ := he
          exact present_expl.2 hk
    exact ⟨hp, ((key _ (ha e hp).1).2 ⟨he, rfl⟩).2⟩
  · rintro ⟨hp, ht⟩
    exact ((key _ (ha e hp).1).1 ⟨mem_allOut_iff.2 ⟨hp, rfl⟩, ht⟩).1

theorem ends_valid {s : State} (hi : Inv s) {e : Edge} (he : Present s e) :
    s.validVertex (s.src e) = true ∧ s.validVertex (s.tgt e) = true := by
  cases e with
  | expl k =>
    have hk := hi.entries k (present_expl.1 he)
    exact ⟨hk.src, hk.tgt⟩
  | impl i =>
    have := hi.implicitOk i (present_impl.1 he)
    have := symLen_pos s i
    have h1 : s.src (.impl i) = (i : Int) := rfl
    have h2 : s.tgt (.impl i) = ((i + s.symLen i : Nat) : Int) := rfl
    rw [h1, h2]
    simp only [State.validVertex, Bool.and_eq_true, decide_eq_true_eq]
    refine ⟨⟨?_, ?_⟩, ?_, ?_⟩ <;> omega

theorem used_position {s : State} (hi : Inv s) (ha : Aligned s) {v : Vertex} (hu : Used s v) :
    Boundary s v ∧ s.validVertex v = true ∧ (0 ≤ v → Position s v) := by
  obtain ⟨e, he, h⟩ := hu
  have hb : Boundary s v := by
    rcases h with rfl | rfl
    · exact (ha e he).1
    · exact (ha e he).2
  have hv : s.validVertex v = true := by
    rcases h with rfl | rfl
    · exact (ends_valid hi he).1
    · exact (ends_valid hi he).2
  refine ⟨hb, hv, ?_⟩
  intro h0
  simp only [State.validVertex, Bool.and_eq_true, decide_eq_true_eq] at hv
  refine ⟨h0, hv.2, ?_⟩
  rcases hb with hb | hb
  · omega
  · exact hb

end Verif.Lattice
