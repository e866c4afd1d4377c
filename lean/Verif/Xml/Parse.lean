import Verif.Xml.Connect

set_option linter.unusedVariables false
set_option linter.unusedSimpArgs false

namespace Verif.Xml
open Verif Verif.Server

theorem splitDown_spec (idx : List (Nat × Inner)) (s covered : Nat) (points : List Nat) (first : Nat) : ∀ mid : Nat,
    (∃ m, covered < m ∧ m ≤ mid ∧ hasNode idx (s + covered) (s + m - 1) = true) →
    ∃ m, covered < m ∧ m ≤ mid ∧ hasNode idx (s + covered) (s + m - 1) = true ∧
      (∀ m', m < m' → m' ≤ mid → ¬hasNode idx (s + covered) (s + m' - 1) = true) ∧
      splitDown idx s mid (covered, points, first) = (m, points ++ [s + m], 0) := by
  intro mid
  induction mid with
  | zero => rintro ⟨m, h1, h2, _⟩; omega
  | succ mid ih =>
    rintro ⟨m, h1, h2, h3⟩
    rw [splitDown, if_pos (by omega)]
    by_cases hh : hasNode idx (s + covered) (s + (mid + 1) - 1) = true
    · rw [if_pos hh]
      refine ⟨mid + 1, by omega, le_refl _, hh, fun m' h4 h5 => by omega, ?_⟩
      cases mid with
      | zero => rw [splitDown]
      | succ k => rw [splitDown, if_neg (by omega)]
    · rw [if_neg hh]
      have hm : m ≤ mid := by
        rcases Nat.lt_or_ge mid m with h | h
        · have : m = mid + 1 := by omega
          subst this
          exact absurd h3 hh
        · exact h
      obtain ⟨k, a1, a2, a3, a4, a5⟩ := ih ⟨m, h1, hm, h3⟩
      refine ⟨k, a1, by omega, a3, ?_, a5⟩
      intro m' h4 h5
      by_cases he : m' = mid + 1
      · subst he; exact hh
      · exact a4 m' h4 (by omega)

/-- The relation between neighbouring split points. -/
def Longest (nodes : List Node) (a b p q : Nat) : Prop :=
  p < q ∧ q ≤ b ∧ (p, q) ≠ (a, b) ∧ Spanned nodes p q ∧ ∀ r, q < r → r ≤ b → (p, r) ≠ (a, b) → ¬Spanned nodes p r

theorem spanned_iff (nodes : List Node) {p q : Nat} (h : p < q) :
    hasNode (index nodes) p (q - 1) = true ↔ Spanned nodes p q := by
  rw [hasNode_nodes, Spanned]
  constructor
  · rintro ⟨x, hx, h1, h2⟩; exact ⟨x, hx, h1, by omega⟩
  · rintro ⟨x, hx, h1, h2⟩; exact ⟨x, hx, h1, by omega⟩

theorem splitLoop_spec {n : Nat} {nodes : List Node} (hw : OfWords n nodes) (s len : Nat) (h2 : 2 ≤ len) (hn : s + len ≤ n) :
    ∀ (fuel covered : Nat) (points : List Nat) (first : Nat), covered ≤ len → len - covered < fuel →
      ((first = 1 ∧ covered = 0) ∨ (first = 0 ∧ 0 < covered)) →
      points.head? = some s → points.getLast? = some (s + covered) → points.IsChain (Longest nodes s (s + len)) →
      ∃ pts, splitLoop (index nodes) s len fuel (covered, points, first) = some pts ∧ Splits nodes s (s + len) pts := by
  intro fuel
  induction fuel with
  | zero => intro covered points first _ h; omega
  | succ fuel ih =>
    intro covered points first hc hf hcase hhead hlast hchain
    rw [splitLoop]
    by_cases hlt : covered < len
    · rw [if_pos hlt]
      obtain ⟨x, hx, hx1, hx2⟩ := hw.2 (s + covered) (by omega)
      have hex : ∃ m, covered < m ∧ m ≤ len - first ∧ hasNode (index nodes) (s + covered) (s + m - 1) = true := by
        refine ⟨covered + 1, by omega, by omega, ?_⟩
        rw [hasNode_nodes]
        exact ⟨x, hx, hx1, by omega⟩
      obtain ⟨m, a1, a2, a3, a4, a5⟩ := splitDown_spec (index nodes) s covered points first (len - first) hex
      rw [a5]
      refine ih m (points ++ [s + m]) 0 (by omega) (by omega) (Or.inr ⟨rfl, by omega⟩) ?_ (by simp) ?_
      · cases points with
        | nil => simp at hhead
        | cons y ys => simpa using hhead
      · rw [List.isChain_append]
        refine ⟨hchain, by simp, ?_⟩
        intro y hy z hz
        rw [hlast] at hy
        simp only [Option.mem_def, Option.some.injEq, List.head?_cons] at hy hz
        subst hy
        subst hz
        refine ⟨by omega, by omega, ?_, (spanned_iff nodes (by omega)).1 a3, ?_⟩
        · simp only [ne_eq, Prod.mk.injEq]; omega
        · intro r hr1 hr2 hr3 hsp
          simp only [ne_eq, Prod.mk.injEq] at hr3
          have := a4 (r - s) (by omega) (by omega)
          rw [show s + (r - s) - 1 = r - 1 by omega] at this
          exact this ((spanned_iff nodes (by omega)).2 hsp)
    · rw [if_neg hlt]
      have : covered = len := by omega
      subst this
      exact ⟨points, rfl, hhead, hlast, hchain⟩

theorem splitLoop_start {n : Nat} {nodes : List Node} (hw : OfWords n nodes) (s len fuel : Nat) (h2 : 2 ≤ len)
    (hn : s + len ≤ n) (hf : n < fuel) :
    ∃ pts, splitLoop (index nodes) s len fuel (0, [s], 1) = some pts ∧ Splits nodes s (s + len) pts :=
  splitLoop_spec hw s len h2 hn fuel 0 [s] 1 (by omega) (by omega) (Or.inl ⟨rfl, rfl⟩) rfl (by simp) (by simp)

theorem mapM_forall {α β : Type} {f : α → Option β} {P : α → β → Prop} : ∀ {l : List α},
    (∀ a ∈ l, ∃ b, f a = some b ∧ P a b) → ∃ bs, l.mapM f = some bs ∧ List.Forall₂ P l bs := by
  intro l
  induction l with
  | nil => intro _; exact ⟨[], by simp, .nil⟩
  | cons a l ih =>
    intro h
    obtain ⟨b, hb, hp⟩ := h a (by simp)
    obtain ⟨bs, hbs, hps⟩ := ih (fun x hx => h x (List.mem_cons_of_mem _ hx))
    exact ⟨b :: bs, by simp [List.mapM_cons, hb, hbs], .cons hp hps⟩

theorem mem_spans (size s len : Nat) : (s, len) ∈ spans size ↔ 2 ≤ len ∧ s + len ≤ size := by
  simp only [spans, List.mem_flatMap, List.mem_map, List.mem_range, Prod.mk.injEq]
  constructor
  · rintro ⟨l, hl, s', hs, rfl, rfl⟩
    rw [List.mem_iff_getElem?] at hl
    obtain ⟨i, hi⟩ := hl
    rw [List.getElem?_drop] at hi
    have h1 := List.getElem?_eq_some_iff.1 hi
    obtain ⟨h1, h2⟩ := h1
    simp at h1 h2
    omega
  · rintro ⟨h1, h2⟩
    refine ⟨len, ?_, s, by omega, rfl, rfl⟩
    rw [List.mem_iff_getElem?]
    refine ⟨len - 2, ?_⟩
    rw [List.getElem?_drop, List.getElem?_range (by omega)]
    congr 1
    omega

theorem spans_sorted (size : Nat) : (spans size).Pairwise (fun x y => x.2 < y.2 ∨ (x.2 = y.2 ∧ x.1 < y.1)) := by
  rw [spans, List.pairwise_flatMap]
  constructor
  · intro len _
    rw [List.pairwise_map]
    exact List.pairwise_lt_range.imp (fun h => Or.inr ⟨rfl, h⟩)
  · refine (List.Pairwise.sublist (List.drop_sublist _ _) List.pairwise_lt_range).imp ?_
    intro a b hab x hx y hy
    simp only [List.mem_map] at hx hy
    obtain ⟨_, _, rfl⟩ := hx
    obtain ⟨_, _, rfl⟩ := hy
    exact Or.inl hab

theorem parse_spec {n : Nat} {nodes : List Node} (hw : OfWords n nodes) (fuel : Nat) (hf : n < fuel) :
    ∃ ps rs, parse fuel nodes = some rs ∧ ps.Pairwise SpanBefore ∧
      (∀ a b, (a, b) ∈ ps ↔ Spanned nodes a b ∧ a + 2 ≤ b) ∧
      List.Forall₂ (fun ab pts => Splits nodes ab.1 ab.2 pts) ps rs := by
  have hlen := index_length hw
  obtain ⟨rs, h1, h2⟩ := mapM_forall (f := fun p => splitLoop (index nodes) p.1 p.2 fuel (0, [p.1], 1))
    (P := fun p pts => Splits nodes p.1 (p.1 + p.2) pts)
    (l := (spans (index nodes).length).filter (fun p => hasNode (index nodes) p.1 (p.1 + p.2 - 1))) (by
      rintro ⟨s, len⟩ hp
      rw [List.mem_filter, mem_spans, hlen] at hp
      exact splitLoop_start hw s len fuel hp.1.1 hp.1.2 hf)
  refine ⟨((spans (index nodes).length).filter (fun p => hasNode (index nodes) p.1 (p.1 + p.2 - 1))).map
    (fun p => (p.1, p.1 + p.2)), rs, h1, ?_, ?_, ?_⟩
  · rw [List.pairwise_map]
    refine ((spans_sorted _).sublist List.filter_sublist).imp ?_
    intro x y h
    unfold SpanBefore
    simp only
    omega
  · intro a b
    simp only [List.mem_map, List.mem_filter, Prod.mk.injEq, Prod.exists]
    constructor
    · rintro ⟨s, len, ⟨hm, hh⟩, rfl, rfl⟩
      rw [mem_spans, hlen] at hm
      exact ⟨(spanned_iff nodes (by omega)).1 hh, by omega⟩
    · rintro ⟨hs, hab⟩
      refine ⟨a, b - a, ⟨?_, ?_⟩, rfl, by omega⟩
      · rw [mem_spans, hlen]
        obtain ⟨x, hx, e1, e2⟩ := hs
        have := hw.1 x hx
        omega
      · rw [show a + (b - a) - 1 = b - 1 by omega]
        exact (spanned_iff nodes (by omega)).2 hs
  · rw [List.forall₂_map_left_iff]
    exact h2

/-- There is only one way to split. -/
theorem splits_unique {nodes : List Node} {a b : Nat} {l l' : List Nat} (h : Splits nodes a b l) (h' : Splits nodes a b l') :
    l = l' := by
  have key : ∀ (l l' : List Nat), l.head? = l'.head? → l ≠ [] → l.getLast? = some b → l'.getLast? = some b →
      l.IsChain (Longest nodes a b) → l'.IsChain (Longest nodes a b) → l = l' := by
    intro l
    induction l with
    | nil => intro l' _ hne; exact absurd rfl hne
    | cons x l ih =>
      intro l' hh _ hl hl' hc hc'
      cases l' with
      | nil => simp at hh
      | cons y l' =>
        simp only [List.head?_cons, Option.some.injEq] at hh
        subst hh
        cases l with
        | nil =>
          simp at hl
          subst hl
          cases l' with
          | nil => rfl
          | cons z l' =>
            obtain ⟨h1, h2, _⟩ := (List.isChain_cons_cons.1 hc').1
            omega
        | cons z l =>
          obtain ⟨⟨a1, a2, a3, a4, a5⟩, hc2⟩ := List.isChain_cons_cons.1 hc
          cases l' with
          | nil =>
            simp at hl'
            subst hl'
            omega
          | cons w l' =>
            obtain ⟨⟨b1, b2, b3, b4, b5⟩, hc2'⟩ := List.isChain_cons_cons.1 hc'
            have hzw : z = w := by
              rcases Nat.lt_trichotomy z w with h | h | h
              · exact absurd b4 (a5 w h b2 b3)
              · exact h
              · exact absurd a4 (b5 z h a2 a3)
            subst hzw
            rw [List.getLast?_cons_cons] at hl hl'
            rw [ih (z :: l') rfl (by simp) hl hl' hc2 hc2']
  refine key l l' (by rw [h.1, h'.1]) ?_ h.2.1 h'.2.1 h.2.2 h'.2.2
  rintro rfl
  have := h.1
  simp at this

/-! ### Trees -/

theorem covered_width : ∀ f : Forest, f.Covered → f ≠ .nil → 0 < f.width := by
  intro f
  induction f with
  | nil => intro _ h; exact absurd rfl h
  | word r _ => intro h; exact absurd h (by simp [Forest.Covered])
  | node l i r ih1 ih2 =>
    intro h _
    simp only [Forest.Covered] at h
    rcases h.1 with rfl | ⟨h1, h2⟩
    · simp only [Forest.width]; omega
    · have := ih1 h2 h1
      simp only [Forest.width]; omega

theorem covered_inside {i : Forest} (h : i = .word .nil ∨ (i ≠ .nil ∧ i.Covered)) : 0 < i.width := by
  rcases h with rfl | ⟨h1, h2⟩
  · simp [Forest.width]
  · exact covered_width i h2 h1

theorem covered_regular : ∀ f : Forest, f.Covered → f.Regular := by
  intro f
  induction f with
  | nil => intro _; trivial
  | word r _ => intro h; exact absurd h (by simp [Forest.Covered])
  | node l i r ih1 ih2 =>
    intro h
    simp only [Forest.Covered] at h
    simp only [Forest.Regular]
    refine ⟨covered_inside h.1, ?_, ?_, ih2 h.2⟩
    · rcases h.1 with rfl | ⟨h1, h2⟩
      · simp [Forest.size]
      · cases i with
        | word r => exact absurd h2 (by simp [Forest.Covered])
        | nil => trivial
        | node => trivial
    · rcases h.1 with rfl | ⟨h1, h2⟩
      · simp [Forest.Regular]
      · exact ih1 h2

theorem nodes_bounds : ∀ (f : Forest) (p : Nat), f.Regular → ∀ x ∈ f.nodes p,
    p ≤ x.first ∧ x.first ≤ x.last ∧ x.last < p + f.width := by
  intro f
  induction f with
  | nil => intro p _ x hx; simp [Forest.nodes] at hx
  | word r ih =>
    intro p h x hx
    have := ih (p + 1) h x hx
    simp only [Forest.width]
    omega
  | node l i r ih1 ih2 =>
    intro p h x hx
    simp only [Forest.Regular] at h
    obtain ⟨h1, _, h3, h4⟩ := h
    simp only [Forest.width]
    rw [Forest.nodes] at hx
    rcases List.mem_append.1 hx with hx | hx
    · have := ih1 p h3 x hx; omega
    · rcases List.mem_cons.1 hx with rfl | hx
      · simp only; omega
      · have := ih2 _ h4 x hx; omega

theorem covered_words : ∀ (f : Forest) (p : Nat), f.Covered → ∀ k, p ≤ k → k < p + f.width →
    ∃ x ∈ f.nodes p, x.first = k ∧ x.last = k := by
  intro f
  induction f with
  | nil => intro p _ k h1 h2; simp [Forest.width] at h2; omega
  | word r _ => intro p h; exact absurd h (by simp [Forest.Covered])
  | node l i r ih1 ih2 =>
    intro p h k h1 h2
    simp only [Forest.Covered] at h
    simp only [Forest.width] at h2
    rw [Forest.nodes]
    by_cases hk : k < p + i.width
    · rcases h.1 with rfl | ⟨h3, h4⟩
      · simp only [Forest.width] at hk ⊢
        refine ⟨⟨p, p + 0 + 1 - 1, l⟩, ?_, ?_, ?_⟩
        · simp [Forest.nodes]
        · simp only; omega
        · simp only; omega
      · obtain ⟨x, hx, e⟩ := ih1 p h4 k h1 hk
        exact ⟨x, by simp [hx], e⟩
    · obtain ⟨x, hx, e⟩ := ih2 (p + i.width) h.2 k (by omega) (by omega)
      exact ⟨x, by simp [hx], e⟩

theorem covered_ofWords (f : Forest) (h : f.Covered) : OfWords f.width (f.nodes 0) := by
  refine ⟨?_, ?_⟩
  · intro x hx
    have := nodes_bounds f 0 (covered_regular f h) x hx
    omega
  · intro k hk
    exact covered_words f 0 h k (by omega) (by omega)

theorem At.trans {f p l i q l' j q'} (h : At f p l i q) (h' : At i q l' j q') : At f p l' j q' := by
  induction h with
  | here => exact .inside h'
  | word _ ih => exact .word (ih h')
  | inside _ ih => exact .inside (ih h')
  | rest _ ih => exact .rest (ih h')

theorem At.covered {f p l i q} (h : At f p l i q) : f.Covered → i = .word .nil ∨ (i ≠ .nil ∧ i.Covered) := by
  induction h with
  | here => intro h; exact h.1
  | word _ ih => intro h; exact absurd h (by simp [Forest.Covered])
  | inside hat ih =>
    intro h
    rcases h.1 with rfl | ⟨_, h2⟩
    · cases hat with
      | word hh => cases hh
    · exact ih h2
  | rest _ ih => intro h; exact ih h.2

/-- The nodes lie inside of a node, around it or beside it. -/
theorem At.nodes {f p l i q} (h : At f p l i q) : f.Regular →
    p ≤ q ∧ q + i.width ≤ p + f.width ∧ (⟨q, q + i.width - 1, l⟩ ∈ f.nodes p ∧ ∀ x ∈ i.nodes q, x ∈ f.nodes p) ∧
    ∀ x ∈ f.nodes p, x ∈ i.nodes q ∨ (x.first ≤ q ∧ q + i.width ≤ x.last + 1) ∨ x.last + 1 ≤ q ∨ q + i.width ≤ x.first := by
  induction h with
  | @here l i r p =>
    intro h
    simp only [Forest.Regular] at h
    obtain ⟨h1, _, h3, h4⟩ := h
    simp only [Forest.width, Forest.nodes]
    refine ⟨le_refl _, by omega, ⟨by simp, fun x hx => by simp [hx]⟩, ?_⟩
    intro x hx
    rcases List.mem_append.1 hx with hx | hx
    · exact Or.inl hx
    · rcases List.mem_cons.1 hx with rfl | hx
      · right; left; simp only; omega
      · have := nodes_bounds r _ h4 x hx
        right; right; right; omega
  | @word r p l j q hat ih =>
    intro h
    obtain ⟨a1, a2, a3, a4⟩ := ih h
    simp only [Forest.width, Forest.nodes]
    exact ⟨by omega, by omega, a3, a4⟩
  | @inside l i r p l' j q hat ih =>
    intro h
    simp only [Forest.Regular] at h
    obtain ⟨h1, _, h3, h4⟩ := h
    obtain ⟨a1, a2, a3, a4⟩ := ih h3
    simp only [Forest.width, Forest.nodes]
    refine ⟨by omega, by omega, ⟨by simp [a3.1], fun x hx => by simp [a3.2 x hx]⟩, ?_⟩
    intro x hx
    rcases List.mem_append.1 hx with hx | hx
    · exact a4 x hx
    · rcases List.mem_cons.1 hx with rfl | hx
      · right; left; simp only; omega
      · have := nodes_bounds r _ h4 x hx
        right; right; right; omega
  | @rest l i r p l' j q hat ih =>
    intro h
    simp only [Forest.Regular] at h
    obtain ⟨h1, _, h3, h4⟩ := h
    obtain ⟨a1, a2, a3, a4⟩ := ih h4
    simp only [Forest.width, Forest.nodes]
    refine ⟨by omega, by omega, ⟨by simp [a3.1], fun x hx => by simp [a3.2 x hx]⟩, ?_⟩
    intro x hx
    rcases List.mem_append.1 hx with hx | hx
    · have := nodes_bounds i _ h3 x hx
      right; right; left; omega
    · rcases List.mem_cons.1 hx with rfl | hx
      · right; right; left; simp only; omega
      · exact a4 x hx

theorem bounds_last : ∀ (f : Forest) (p : Nat), (f.bounds p).getLast? = some (p + f.width) := by
  intro f
  induction f with
  | nil => intro p; simp [Forest.bounds, Forest.width]
  | word r ih =>
    intro p
    rw [Forest.bounds, List.getLast?_cons, ih]
    simp [Forest.width]; omega
  | node l i r ih1 ih2 =>
    intro p
    rw [Forest.bounds, List.getLast?_cons, ih2]
    simp [Forest.width]; omega

theorem bounds_head (f : Forest) (p : Nat) : (f.bounds p).head? = some p := by
  cases f <;> simp [Forest.bounds]

/-- The split points of what is left of a node. -/
theorem bounds_chain {nodes : List Node} {a b : Nat} : ∀ (r : Forest) (p : Nat), r.Covered → p + r.width = b → a ≤ p →
    (∀ x ∈ r.nodes p, x ∈ nodes) →
    (∀ x ∈ nodes, p ≤ x.first → x.first < b → x.last + 1 ≤ b → (x.first, x.last + 1) ≠ (a, b) → x ∈ r.nodes p) →
    (p = a → 2 ≤ r.items) → (r.bounds p).IsChain (Longest nodes a b) := by
  intro r
  induction r with
  | nil => intro p _ _ _ _ _ _; simp [Forest.bounds]
  | word r _ => intro p h; exact absurd h (by simp [Forest.Covered])
  | node l i r ih1 ih2 =>
    intro p hcov hb hap hsub hin hitems
    simp only [Forest.Covered] at hcov
    have hiw := covered_inside hcov.1
    have hreg := covered_regular (.node l i r) hcov
    simp only [Forest.Regular] at hreg
    simp only [Forest.width] at hb
    have hchain := ih2 (p + i.width) hcov.2 (by omega) (by omega)
      (fun x hx => hsub x (by simp [Forest.nodes, hx]))
      (by
        intro x hx h1 h2 h3 h4
        have := hin x hx (by omega) h2 h3 h4
        rw [Forest.nodes] at this
        rcases List.mem_append.1 this with h5 | h5
        · have := nodes_bounds i p hreg.2.2.1 x h5; omega
        · rcases List.mem_cons.1 h5 with rfl | h5
          · simp only at h1; omega
          · exact h5)
      (by intro h; omega)
    rw [Forest.bounds]
    have hne : r.bounds (p + i.width) ≠ [] := by cases r <;> simp [Forest.bounds]
    cases hbd : r.bounds (p + i.width) with
    | nil => exact absurd hbd hne
    | cons y ys =>
      have hy : y = p + i.width := by
        have := bounds_head r (p + i.width)
        rw [hbd] at this
        simpa using this
      subst hy
      rw [List.isChain_cons_cons, ← hbd]
      refine ⟨⟨by omega, by omega, ?_, ?_, ?_⟩, hchain⟩
      · simp only [ne_eq, Prod.mk.injEq]
        rintro ⟨h1, h2⟩
        have := hitems h1
        simp only [Forest.items] at this
        have hr : r ≠ .nil := by rintro rfl; simp [Forest.items] at this
        have := covered_width r hcov.2 hr
        omega
      · exact ⟨⟨p, p + i.width - 1, l⟩, hsub _ (by simp [Forest.nodes]), rfl, by simp only; omega⟩
      · rintro e h1 h2 h3 ⟨x, hx, e1, e2⟩
        have := hin x hx (by omega) (by omega) (by omega) (by rw [e1, e2]; exact h3)
        rw [Forest.nodes] at this
        rcases List.mem_append.1 this with h5 | h5
        · have := nodes_bounds i p hreg.2.2.1 x h5; omega
        · rcases List.mem_cons.1 h5 with rfl | h5
          · simp only at e2; omega
          · have := nodes_bounds r _ hreg.2.2.2 x h5; omega

theorem splits_bounds {f : Forest} {l : Str} {i : Forest} {q : Nat} (hf : f.Covered) (hat : At f 0 l i q) (hi : 2 ≤ i.items) :
    Splits (f.nodes 0) q (q + i.width) (i.bounds q) := by
  have hreg := covered_regular f hf
  have hcov : i.Covered := by
    rcases hat.covered hf with rfl | ⟨_, h⟩
    · simp [Forest.items] at hi
    · exact h
  obtain ⟨_, _, ⟨_, hsub⟩, hcl⟩ := hat.nodes hreg
  refine ⟨bounds_head _ _, bounds_last _ _, ?_⟩
  refine bounds_chain i q hcov rfl (le_refl _) hsub ?_ (fun _ => hi)
  intro x hx h1 h2 h3 h4
  have hb := nodes_bounds f 0 hreg x hx
  rcases hcl x hx with h | h | h | h
  · exact h
  · exfalso
    apply h4
    simp only [Prod.mk.injEq]
    omega
  · omega
  · omega

/-- The lowest node over some words. -/
theorem lowest {f : Forest} {p : Nat} : ∀ (i : Forest) (l : Str) (q : Nat), f.Covered → At f p l i q → 2 ≤ i.width →
    ∃ l' j, At f p l' j q ∧ j.width = i.width ∧ 2 ≤ j.items := by
  intro i
  induction i with
  | nil => intro l q _ _ h; simp [Forest.width] at h
  | word r _ =>
    intro l q hf hat hw
    rcases hat.covered hf with h | ⟨_, h⟩
    · cases h; simp [Forest.width] at hw
    · exact absurd h (by simp [Forest.Covered])
  | node l1 i1 r1 ih _ =>
    intro l q hf hat hw
    by_cases hr : r1 = .nil
    · subst hr
      obtain ⟨l', j, h1, h2, h3⟩ := ih l1 q hf (hat.trans .here) (by simpa [Forest.width] using hw)
      exact ⟨l', j, h1, by simpa [Forest.width] using h2, h3⟩
    · refine ⟨l, _, hat, rfl, ?_⟩
      cases r1 with
      | nil => exact absurd rfl hr
      | word r => simp [Forest.items]
      | node a b c => simp [Forest.items]

theorem node_at : ∀ (f : Forest) (p : Nat), f.Regular → ∀ x ∈ f.nodes p, ∃ i, At f p x.label i x.first ∧ x.last + 1 = x.first + i.width := by
  intro f
  induction f with
  | nil => intro p _ x hx; simp [Forest.nodes] at hx
  | word r ih =>
    intro p h x hx
    obtain ⟨i, h1, h2⟩ := ih (p + 1) h x hx
    exact ⟨i, .word h1, h2⟩
  | node l i r ih1 ih2 =>
    intro p h x hx
    simp only [Forest.Regular] at h
    rw [Forest.nodes] at hx
    rcases List.mem_append.1 hx with hx | hx
    · obtain ⟨j, h1, h2⟩ := ih1 p h.2.2.1 x hx
      exact ⟨j, .inside h1, h2⟩
    · rcases List.mem_cons.1 hx with rfl | hx
      · exact ⟨i, .here, by simp only; omega⟩
      · obtain ⟨j, h1, h2⟩ := ih2 _ h.2.2.2 x hx
        exact ⟨j, .rest h1, h2⟩

theorem parse_tree {f : Forest} (hf : f.Covered) (fuel : Nat) (hfuel : f.width < fuel) :
    ∃ ps rs, parse fuel (f.nodes 0) = some rs ∧ ps.Pairwise SpanBefore ∧
      (∀ a b, (a, b) ∈ ps ↔ Spanned (f.nodes 0) a b ∧ a + 2 ≤ b) ∧
      List.Forall₂ (fun ab pts => ∃ l i, At f 0 l i ab.1 ∧ ab.1 + i.width = ab.2 ∧ 2 ≤ i.items ∧ pts = i.bounds ab.1) ps rs := by
  obtain ⟨ps, rs, h1, h2, h3, h4⟩ := parse_spec (covered_ofWords f hf) fuel hfuel
  refine ⟨ps, rs, h1, h2, h3, ?_⟩
  rw [List.forall₂_iff_get] at h4 ⊢
  refine ⟨h4.1, ?_⟩
  intro k hk1 hk2
  have hs := h4.2 k hk1 hk2
  have hm : ps.get ⟨k, hk1⟩ ∈ ps := List.get_mem _ _
  generalize ps.get ⟨k, hk1⟩ = ab at hs hm ⊢
  generalize rs.get ⟨k, hk2⟩ = pts at hs ⊢
  obtain ⟨a, b⟩ := ab
  obtain ⟨⟨x, hx, e1, e2⟩, hab⟩ := (h3 a b).1 hm
  obtain ⟨i, hat, hw⟩ := node_at f 0 (covered_regular f hf) x hx
  obtain ⟨l', j, hat', hw', hi⟩ := lowest i x.label x.first hf hat (by omega)
  rw [e1] at hat'
  refine ⟨l', j, hat', by simp only; omega, hi, ?_⟩
  have := splits_bounds hf hat' hi
  simp only at hs
  have hb : a + j.width = b := by omega
  rw [hb] at this
  exact splits_unique hs this

end Verif.Xml
