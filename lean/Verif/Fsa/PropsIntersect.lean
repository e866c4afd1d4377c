import Verif.Fsa.PropsOps
import Mathlib.Data.List.ProdSigma

/-!
C37: intersection of automata.
-/
set_option linter.unusedVariables false
set_option linter.unusedSimpArgs false

namespace Verif.Fsa
open Verif Verif.Fsa.Spec

theorem mem_crossArcs {any : Bool} {x y : Sym × Nat} {z : Sym} {u : Nat × Nat} :
    (z, u) ∈ crossArcs any x y ↔ u = (x.2, y.2) ∧ ((x.1 = y.1 ∧ z = x.1) ∨
      (any = true ∧ ((x.1 = ANY ∧ z = y.1) ∨ (y.1 = ANY ∧ z = x.1)))) := by
  obtain ⟨x1, x2⟩ := x
  obtain ⟨y1, y2⟩ := y
  unfold crossArcs
  by_cases h1 : x1 = y1 <;> by_cases h2 : any = true <;> by_cases h3 : x1 = ANY <;> by_cases h4 : y1 = ANY <;>
    simp_all <;> tauto

theorem mem_intersector {a b : Fsa} {any : Bool} (ha : Wf a) (hb : Wf b) {p u : Nat × Nat} {z : Sym} :
    (z, u) ∈ (intersector a b any).arcs p ↔ ∃ p1 p2 x y, EpsPath a p.1 p1 ∧ EpsPath b p.2 p2 ∧
      (x, u.1) ∈ a.arcs p1 ∧ (y, u.2) ∈ b.arcs p2 ∧ ((x = y ∧ z = x) ∨
      (any = true ∧ ((x = ANY ∧ z = y) ∨ (y = ANY ∧ z = x)))) := by
  show (z, u) ∈ insertAll _ _ _ ↔ _
  rw [mem_insertAll (arcLt_order (pairLt_order natLt_order natLt_order))]
  simp only [List.mem_flatMap, mem_epsClosure ha, mem_epsClosure hb, List.not_mem_nil, or_false, mem_crossArcs]
  constructor
  · rintro ⟨p1, h1, p2, h2, ⟨x, d⟩, h3, ⟨y, e⟩, h4, rfl, h5⟩
    exact ⟨p1, p2, x, y, h1, h2, h3, h4, h5⟩
  · rintro ⟨p1, p2, x, y, h1, h2, h3, h4, h5⟩
    exact ⟨p1, h1, p2, h2, (x, u.1), h3, (y, u.2), h4, rfl, h5⟩

theorem mem_intersector_starts {a b : Fsa} {any : Bool} {p : Nat × Nat} :
    p ∈ (intersector a b any).starts ↔ p.1 ∈ a.starts ∧ p.2 ∈ a.starts := by
  show p ∈ insertAll _ _ _ ↔ _
  rw [mem_insertAll (pairLt_order natLt_order natLt_order)]
  simp only [List.mem_flatMap, List.mem_map, List.not_mem_nil, or_false]
  constructor
  · rintro ⟨x, hx, y, hy, rfl⟩; exact ⟨hx, hy⟩
  · rintro ⟨hx, hy⟩; exact ⟨_, hx, _, hy, rfl⟩

theorem intersector_reach {a b : Fsa} {any : Bool} (ha : Wf a) (hb : Wf b) {p : Nat × Nat}
    (h : Reach (intersector a b any) p) : p.1 < a.size ∧ p.2 < a.size + b.size := by
  induction h with
  | start hs =>
    rw [mem_intersector_starts] at hs
    have h1 := ha.start _ hs.1
    have h2 := ha.start _ hs.2
    exact ⟨h1, by omega⟩
  | step _ hac _ =>
    obtain ⟨p1, p2, x, y, _, _, h1, h2, _⟩ := (mem_intersector ha hb).1 hac
    have h3 := ha.dest _ _ _ h1
    have h4 := hb.dest _ _ _ h2
    exact ⟨h3, by omega⟩

theorem intersect_spec {a b : Fsa} (ha : Wf a) (hb : Wf b) (any : Bool) :
    ∃ f N, intersect a b any = some f ∧ Copied (intersector a b any) .empty f N := by
  refine traverse_spec (U := (List.range a.size) ×ˢ (List.range (a.size + b.size))) wf_empty ?_ ?_ ?_
  · exact sorted_nodup (pairLt_order natLt_order natLt_order)
      (sorted_insertAll (pairLt_order natLt_order natLt_order) List.Pairwise.nil)
  · intro p hp
    obtain ⟨h1, h2⟩ := intersector_reach ha hb hp
    obtain ⟨p1, p2⟩ := p
    exact List.mem_product.2 ⟨List.mem_range.2 h1, List.mem_range.2 h2⟩
  · rw [List.length_product, List.length_range, List.length_range]; omega

/-! ### Soundness -/

theorem noEps_self_of {x : Sym} (l : List Sym) (h : x ≠ EPS) : noEps (x :: l) = x :: noEps l := by
  simp [noEps, h]

theorem inter_sound {a b : Fsa} {any : Bool} (ha : Wf a) (hb : Wf b)
    (hab : any = true → NotBoth a ANY b EPS) (hba : any = true → NotBoth a EPS b ANY)
    {p q : Nat × Nat} {l : List Sym} (h : WPath (intersector a b any) p l q) :
    ∃ r1 r2, Path a p.1 r1 q.1 ∧ Path b p.2 r2 q.2 ∧
      List.Forall₂ (StandsFor any) (noEps r1) (noEps l) ∧ List.Forall₂ (StandsFor any) (noEps r2) (noEps l) := by
  induction h with
  | nil => exact ⟨[], [], .nil, .nil, .nil, .nil⟩
  | cons hac _ ih =>
    rename_i p z u l q _
    obtain ⟨r1, r2, h1, h2, h3, h4⟩ := ih
    obtain ⟨p1, p2, x, y, ⟨n, hn⟩, ⟨m, hm⟩, hx, hy, hz⟩ := (mem_intersector ha hb).1 hac
    refine ⟨List.replicate n EPS ++ x :: r1, List.replicate m EPS ++ y :: r2,
      path_append.2 ⟨p1, hn, .cons hx h1⟩, path_append.2 ⟨p2, hm, .cons hy h2⟩, ?_, ?_⟩
    · rw [noEps_append, noEps_replicate, List.nil_append]
      by_cases hxe : x = EPS
      · have hze : z = EPS := by
          rcases hz with ⟨_, h⟩ | ⟨hany, (⟨h, _⟩ | ⟨h, _⟩)⟩
          · rw [h]; exact hxe
          · rw [hxe] at h; exact absurd h (by decide)
          · subst hxe h; exact (hba hany _ _ _ _ hx hy).elim
        rw [hxe, hze, noEps_eps, noEps_eps]; exact h3
      · have hze : z ≠ EPS := by
          intro e
          rcases hz with ⟨_, h⟩ | ⟨hany, (⟨h, h'⟩ | ⟨_, h'⟩)⟩
          · exact hxe (h ▸ e)
          · rw [e] at h'; subst h h'; exact hab hany _ _ _ _ hx hy
          · exact hxe (h' ▸ e)
        rw [noEps_self_of _ hxe, noEps_self_of _ hze]
        refine .cons ?_ h3
        rcases hz with ⟨_, h⟩ | ⟨hany, (⟨h, h'⟩ | ⟨_, h'⟩)⟩
        · exact Or.inl h.symm
        · exact Or.inr ⟨hany, h⟩
        · exact Or.inl h'.symm
    · rw [noEps_append, noEps_replicate, List.nil_append]
      by_cases hye : y = EPS
      · have hze : z = EPS := by
          rcases hz with ⟨h', h⟩ | ⟨hany, (⟨h, _⟩ | ⟨h, _⟩)⟩
          · rw [h, h']; exact hye
          · subst hye h; exact (hab hany _ _ _ _ hx hy).elim
          · rw [hye] at h; exact absurd h (by decide)
        rw [hye, hze, noEps_eps, noEps_eps]; exact h4
      · have hze : z ≠ EPS := by
          intro e
          rcases hz with ⟨h', h⟩ | ⟨hany, (⟨h, h'⟩ | ⟨h, h'⟩)⟩
          · exact hye (by rw [← h', ← h]; exact e)
          · exact hye (h' ▸ e)
          · rw [e] at h'; subst h h'; exact hba hany _ _ _ _ hx hy
        rw [noEps_self_of _ hye, noEps_self_of _ hze]
        refine .cons ?_ h4
        rcases hz with ⟨h', h⟩ | ⟨hany, (⟨h, h'⟩ | ⟨h, h'⟩)⟩
        · exact Or.inl (by rw [h, h'])
        · exact Or.inl h'.symm
        · exact Or.inr ⟨hany, h⟩

/-! ### Completeness -/

theorem endsClosed_path {a : Fsa} (hc : EndsClosed a) {p q : Nat} {l : List Sym} (h : Path a p l q) :
    noEps l = [] → q ∈ a.ends → p ∈ a.ends := by
  induction h with
  | nil => intro _ h; exact h
  | cons hac _ ih =>
    rename_i p x r l q _
    intro h1 h2
    by_cases hx : x = EPS
    · subst hx
      rw [noEps_eps] at h1
      exact hc _ _ hac (ih h1 h2)
    · rw [noEps_self_of _ hx] at h1; simp at h1

theorem path_split {a : Fsa} {p q : Nat} {l : List Sym} (h : Path a p l q) : ∀ {x : Sym} {w : List Sym},
    noEps l = x :: w → ∃ r s l', EpsPath a p r ∧ (x, s) ∈ a.arcs r ∧ Path a s l' q ∧ noEps l' = w := by
  induction h with
  | nil => intro x w h; simp [noEps] at h
  | cons hac hp ih =>
    rename_i p y r l q
    intro x w h
    by_cases hy : y = EPS
    · subst hy
      rw [noEps_eps] at h
      obtain ⟨r', s, l', h1, h2, h3, h4⟩ := ih h
      exact ⟨r', s, l', h1.cons hac, h2, h3, h4⟩
    · rw [noEps_self_of _ hy] at h
      simp only [List.cons.injEq] at h
      obtain ⟨rfl, h⟩ := h
      exact ⟨p, r, l, .refl p, hac, hp, h⟩

theorem noEps_head {l : List Sym} {x : Sym} {w : List Sym} (h : noEps l = x :: w) : x ≠ EPS := by
  have : x ∈ noEps l := by rw [h]; simp
  simpa [noEps] using (List.mem_filter.1 this).2

theorem inter_complete {a b : Fsa} {any : Bool} (ha : Wf a) (hb : Wf b) (hca : EndsClosed a) (hcb : EndsClosed b)
    {w : List Sym} : ∀ {p1 p2 e1 e2 : Nat} {r1 r2 : List Sym}, Path a p1 r1 e1 → Path b p2 r2 e2 →
    e1 ∈ a.ends → e2 ∈ b.ends → List.Forall₂ (StandsFor any) (noEps r1) w →
    List.Forall₂ (StandsFor any) (noEps r2) w →
    ∃ l u, WPath (intersector a b any) (p1, p2) l u ∧ (intersector a b any).final u = true ∧
      noEps l = l ∧ List.Forall₂ (StandsFor any) l w := by
  induction w with
  | nil =>
    intro p1 p2 e1 e2 r1 r2 h1 h2 he1 he2 m1 m2
    rw [List.forall₂_nil_right_iff] at m1 m2
    refine ⟨[], (p1, p2), .nil, ?_, rfl, .nil⟩
    show (a.isEnd p1 && b.isEnd p2) = true
    simp only [Fsa.isEnd, Bool.and_eq_true, decide_eq_true_eq]
    exact ⟨endsClosed_path hca h1 m1 he1, endsClosed_path hcb h2 m2 he2⟩
  | cons c w ih =>
    intro p1 p2 e1 e2 r1 r2 h1 h2 he1 he2 m1 m2
    rw [List.forall₂_cons_right_iff] at m1 m2
    obtain ⟨x, t1, hx, mt1, e1'⟩ := m1
    obtain ⟨y, t2, hy, mt2, e2'⟩ := m2
    obtain ⟨q1, s1, l1, i1, i2, i3, i4⟩ := path_split h1 e1'
    obtain ⟨q2, s2, l2, j1, j2, j3, j4⟩ := path_split h2 e2'
    obtain ⟨l, u, k1, k2, k3, k4⟩ := ih i3 j3 he1 he2 (by rw [i4]; exact mt1) (by rw [j4]; exact mt2)
    have hxe := noEps_head e1'
    have hye := noEps_head e2'
    have hz : ∃ z, z ≠ EPS ∧ StandsFor any z c ∧ ((x = y ∧ z = x) ∨
        (any = true ∧ ((x = ANY ∧ z = y) ∨ (y = ANY ∧ z = x)))) := by
      rcases hx with hx | ⟨hany, hx⟩
      · rcases hy with hy | ⟨hany, hy⟩
        · exact ⟨x, hxe, Or.inl hx, Or.inl ⟨by rw [hx, hy], rfl⟩⟩
        · exact ⟨x, hxe, Or.inl hx, Or.inr ⟨hany, Or.inr ⟨hy, rfl⟩⟩⟩
      · exact ⟨y, hye, hy, Or.inr ⟨hany, Or.inl ⟨hx, rfl⟩⟩⟩
    obtain ⟨z, hz1, hz2, hz3⟩ := hz
    refine ⟨z :: l, u, .cons (u := (s1, s2)) ((mem_intersector ha hb).2 ⟨q1, q2, x, y, i1, j1, i2, j2, hz3⟩) k1,
      k2, ?_, .cons hz2 k4⟩
    rw [noEps_self_of _ hz1, k3]

theorem standsFor_trans {any : Bool} {x y z : Sym} (h : StandsFor any x y) (h' : StandsFor any y z) :
    StandsFor any x z := by
  rcases h with rfl | h
  · exact h'
  · exact Or.inr h

theorem forall₂_trans {any : Bool} : ∀ {l m n : List Sym}, List.Forall₂ (StandsFor any) l m →
    List.Forall₂ (StandsFor any) m n → List.Forall₂ (StandsFor any) l n := by
  intro l m n h
  induction h generalizing n with
  | nil => intro h'; exact h'
  | cons hxy _ ih =>
    intro h'
    cases h' with
    | cons hyz h' => exact .cons (standsFor_trans hxy hyz) (ih h')

theorem anyLang_false {a : Fsa} {w : List Sym} : AnyLang false a w ↔ Lang a w := by
  have : ∀ l m : List Sym, List.Forall₂ (StandsFor false) l m ↔ l = m := by
    intro l m
    constructor
    · intro h
      induction h with
      | nil => rfl
      | cons h _ ih =>
        rcases h with rfl | h
        · rw [ih]
        · simp at h
    · rintro rfl
      exact List.forall₂_same.2 (fun x _ => Or.inl rfl)
  unfold AnyLang
  simp only [this, exists_eq_right]

/-- **C37** (soundness): if the start states of the first automaton are start states of the second
(see `C37_starts_false`), and with `ANY` allowed no automaton has the symbol `ANY` while the other has
epsilon transitions (see `C37_any_false`), a word accepted by the intersection is accepted by both. -/
theorem C37_sound_partial {a b : Fsa} (ha : Wf a) (hb : Wf b) (any : Bool) (hs : ∀ p ∈ a.starts, p ∈ b.starts)
    (hab : any = true → NotBoth a ANY b EPS) (hba : any = true → NotBoth a EPS b ANY) :
    ∃ c, intersect a b any = some c ∧ Wf c ∧ ∀ w, AnyLang any c w → AnyLang any a w ∧ AnyLang any b w := by
  obtain ⟨c, N, hc, h⟩ := intersect_spec ha hb any
  refine ⟨c, hc, h.wf, ?_⟩
  rintro w ⟨_, ⟨l, hl, rfl⟩, hm⟩
  rw [h.raw_empty] at hl
  obtain ⟨s, hs', u, hf, hp⟩ := hl
  rw [mem_intersector_starts] at hs'
  obtain ⟨r1, r2, h1, h2, h3, h4⟩ := inter_sound ha hb hab hba hp
  have hf' : u.1 ∈ a.ends ∧ u.2 ∈ b.ends := by
    have : (a.isEnd u.1 && b.isEnd u.2) = true := hf
    simpa [Fsa.isEnd] using this
  exact ⟨⟨noEps r1, ⟨r1, ⟨s.1, hs'.1, u.1, hf'.1, h1⟩, rfl⟩, forall₂_trans h3 hm⟩,
    ⟨noEps r2, ⟨r2, ⟨s.2, hs _ hs'.2, u.2, hf'.2, h2⟩, rfl⟩, forall₂_trans h4 hm⟩⟩

/-- **C37** (exactness): if in addition the start states are the same and the end states of both automata
are closed under epsilon transitions (see `C37_ends_false`), the intersection accepts exactly the words
accepted by both. -/
theorem C37_exact_partial {a b : Fsa} (ha : Wf a) (hb : Wf b) (any : Bool) (hs : a.starts = b.starts)
    (hca : EndsClosed a) (hcb : EndsClosed b)
    (hab : any = true → NotBoth a ANY b EPS) (hba : any = true → NotBoth a EPS b ANY) :
    ∃ c, intersect a b any = some c ∧ Wf c ∧ ∀ w, AnyLang any c w ↔ AnyLang any a w ∧ AnyLang any b w := by
  obtain ⟨c, hc, hwf, hsound⟩ := C37_sound_partial ha hb any (fun p hp => hs ▸ hp) hab hba
  refine ⟨c, hc, hwf, fun w => ⟨hsound w, ?_⟩⟩
  rintro ⟨⟨_, ⟨r1, ⟨p1, hp1, e1, he1, h1⟩, rfl⟩, m1⟩, ⟨_, ⟨r2, ⟨p2, hp2, e2, he2, h2⟩, rfl⟩, m2⟩⟩
  obtain ⟨c', N, hc', h⟩ := intersect_spec ha hb any
  rw [hc] at hc'
  simp only [Option.some.injEq] at hc'
  subst hc'
  obtain ⟨l, u, k1, k2, k3, k4⟩ := inter_complete ha hb hca hcb h1 h2 he1 he2 m1 m2
  refine ⟨l, ⟨l, (h.raw_empty l).2 ⟨(p1, p2), ?_, u, k2, k1⟩, k3⟩, k4⟩
  rw [mem_intersector_starts]
  exact ⟨hp1, by rw [hs]; exact hp2⟩

/-- **C37** (exactness) without `ANY`: the usual intersection. -/
theorem C37_plain_partial {a b : Fsa} (ha : Wf a) (hb : Wf b) (hs : a.starts = b.starts)
    (hca : EndsClosed a) (hcb : EndsClosed b) :
    ∃ c, intersect a b false = some c ∧ Wf c ∧ ∀ w, Lang c w ↔ Lang a w ∧ Lang b w := by
  obtain ⟨c, hc, hwf, h⟩ := C37_exact_partial ha hb false hs hca hcb (by simp) (by simp)
  refine ⟨c, hc, hwf, fun w => ?_⟩
  have := h w
  simpa only [anyLang_false] using this

theorem epsFree_endsClosed {a : Fsa} (h : EpsFree a) : EndsClosed a := fun p q hp _ => absurd rfl (h p EPS q hp)

/-- **C37** for the automata made by `minimize` or `determinize`, whose start state is state 0: no
further conditions are needed. -/
theorem C37_deterministic_partial {a b a' b' : Fsa} (ha : Wf a) (hb : Wf b) (hma : minimize a = some a')
    (hmb : minimize b = some b') :
    ∃ c, intersect a' b' false = some c ∧ ∀ w, Lang c w ↔ Lang a w ∧ Lang b w := by
  have hzero : ∀ {a a' : Fsa}, Wf a → minimize a = some a' → a'.starts = [0] := by
    intro a a' ha h
    obtain ⟨a1, e1, w1, _⟩ := C35_epsRemove ha
    obtain ⟨a2, e2, w2, _⟩ := C35_reverse w1
    obtain ⟨a3, e3, w3, _⟩ := C35_determinize w2
    obtain ⟨a4, e4, w4, _⟩ := C35_reverse w3
    have h' : determinize a4 = some a' := by simpa [minimize, e1, e2, e3, e4] using h
    -- the first state made is the start state
    have hstep : ∀ (n : Nat) (w : Wrapper (List Nat)) (t : Trav (List Nat)) (f : Fsa),
        travLoop w n t = some f → f.starts = t.fsa.starts := by
      have harc : ∀ (s : List Nat) (l : List (Sym × List Nat)) (t : Trav (List Nat)),
          (l.foldl (travArc s) t).fsa.starts = t.fsa.starts := by
        intro s l
        induction l with
        | nil => intro t; rfl
        | cons x l ih =>
          intro t
          rw [List.foldl_cons, ih]
          simp only [travArc, travNew]
          split <;> simp [Fsa.addArc, Fsa.addState]
      intro n
      induction n with
      | zero => intro w t f h; simp [travLoop] at h
      | succ n ih =>
        intro w t f h
        unfold travLoop at h
        split at h
        · simp only [Option.some.injEq] at h; rw [h]
        · rw [ih _ _ _ h]
          simp only [travState, harc]
          simp only [travNew]
          split <;> split <;> simp [Fsa.setEnd, Fsa.addState]
    have := hstep _ _ _ _ h'
    rw [this]
    simp [determinizer, travStart, Fsa.addState, Fsa.empty, Fsa.size, insertSet]
  obtain ⟨x, ex, wx, dx, fx, lx, _⟩ := C35_minimize ha
  obtain ⟨y, ey, wy, dy, fy, ly, _⟩ := C35_minimize hb
  rw [hma] at ex
  rw [hmb] at ey
  simp only [Option.some.injEq] at ex ey
  subst ex ey
  obtain ⟨c, hc, _, h⟩ := C37_plain_partial wx wy (by rw [hzero ha hma, hzero hb hmb])
    (epsFree_endsClosed fx) (epsFree_endsClosed fy)
  exact ⟨c, hc, fun w => by rw [h, lx, ly]⟩

/-! ### What is wrong -/

/-- An automaton for `a` whose start state is not state 0. -/
def wordAShifted : Fsa := ⟨[[], [(97, 2)], []], [1], [2]⟩

theorem wordAShifted_built : Built wordAShifted := by
  have h1 := Built.addState false Built.empty
  have h2 := Built.addState true h1
  have h3 := Built.addState false h2
  have h4 := Built.addArc (p := 1) (x := 97) (q := 2) h3 (by decide) (by decide)
  have h5 := Built.setEnd (p := 2) h4 (by decide)
  have e : ∀ b, Built b → b = wordAShifted → Built wordAShifted := fun b hb e => e ▸ hb
  exact e _ h5 (by decide +kernel)

/-- **C37** is false when the start states differ: `startFn` takes the start states of the first
automaton for both.  Two automata for the word `a`, whose intersection accepts nothing. -/
theorem C37_starts_false :
    ¬ ∀ a b : Fsa, Wf a → Wf b → ∀ c, intersect a b false = some c → ∀ w, Lang a w ∧ Lang b w → Lang c w := by
  intro h
  have e : intersect wordA wordAShifted false = some ⟨[[]], [0], []⟩ := by decide +kernel
  obtain ⟨r, ⟨p, _, q, hq, _⟩, _⟩ := h wordA wordAShifted wordA_wf (built_wf wordAShifted_built) _ e [97]
    ⟨⟨[97], (wordA_raw _).2 rfl, by decide⟩,
     ⟨[97], ⟨1, by decide, 2, by decide, path_one.2 (by decide)⟩, by decide⟩⟩
  simp at hq

/-- An automaton for the empty word, with an epsilon transition. -/
def epsOne : Fsa := ⟨[[(255, 1)], []], [0], [1]⟩
/-- An automaton for the empty word, without. -/
def nilOne : Fsa := ⟨[[]], [0], [0]⟩

theorem epsOne_wf : Wf epsOne := by
  have h1 := Built.addState true Built.empty
  have h2 := Built.addState false h1
  have h4 := Built.addArc (p := 0) (x := 255) (q := 1) h2 (by decide) (by decide)
  have h5 := Built.setEnd (p := 1) h4 (by decide)
  have e : ∀ b, Built b → b = epsOne → Wf epsOne := fun b hb e => e ▸ built_wf hb
  exact e _ h5 (by decide +kernel)

theorem nilOne_wf : Wf nilOne := by
  have h1 := Built.addState true Built.empty
  have h5 := Built.setEnd (p := 0) h1 (by decide)
  have e : ∀ b, Built b → b = nilOne → Wf nilOne := fun b hb e => e ▸ built_wf hb
  exact e _ h5 (by decide +kernel)

/-- **C37** is false when an end state is reached by an epsilon transition, because `finalFn` does not
look at the epsilon closure: both automata accept the empty word, the intersection does not. -/
theorem C37_ends_false :
    ¬ ∀ a b : Fsa, Wf a → Wf b → a.starts = b.starts → ∀ c, intersect a b false = some c →
      ∀ w, Lang a w ∧ Lang b w → Lang c w := by
  intro h
  have e : intersect epsOne nilOne false = some ⟨[[]], [0], []⟩ := by decide +kernel
  obtain ⟨r, ⟨p, _, q, hq, _⟩, _⟩ := h epsOne nilOne epsOne_wf nilOne_wf rfl _ e []
    ⟨⟨[255], ⟨0, by decide, 1, by decide, path_one.2 (by decide)⟩, by decide⟩,
     ⟨[], ⟨0, by decide, 0, by decide, .nil⟩, rfl⟩⟩
  simp at hq

/-- An automaton for all words of one symbol. -/
def anyOne : Fsa := ⟨[[(254, 1)], []], [0], [1]⟩

theorem anyOne_wf : Wf anyOne := by
  have h1 := Built.addState true Built.empty
  have h2 := Built.addState false h1
  have h4 := Built.addArc (p := 0) (x := 254) (q := 1) h2 (by decide) (by decide)
  have h5 := Built.setEnd (p := 1) h4 (by decide)
  have e : ∀ b, Built b → b = anyOne → Wf anyOne := fun b hb e => e ▸ built_wf hb
  exact e _ h5 (by decide +kernel)

/-- **C37** is false with `ANY` against epsilon: the intersection of an automaton for the words of one
symbol and an automaton for the empty word accepts the empty word. -/
theorem C37_any_false :
    ¬ ∀ a b : Fsa, Wf a → Wf b → a.starts = b.starts → ∀ c, intersect a b true = some c →
      ∀ w, AnyLang true c w → AnyLang true a w ∧ AnyLang true b w := by
  intro h
  have e : intersect anyOne epsOne true = some ⟨[[(255, 1)], []], [0], [1]⟩ := by decide +kernel
  obtain ⟨⟨r, ⟨r0, ⟨p, hp, q, hq, hpath⟩, e1⟩, hr⟩, _⟩ := h anyOne epsOne anyOne_wf epsOne_wf rfl _ e []
    ⟨[], ⟨[255], ⟨0, by decide, 1, by decide, path_one.2 (by decide)⟩, by decide⟩, .nil⟩
  rw [List.forall₂_nil_right_iff] at hr
  subst hr
  have hp0 : p = 0 := by simpa [anyOne] using hp
  have hq1 : q = 1 := by simpa [anyOne] using hq
  subst hp0 hq1
  cases hpath with
  | cons hac _ =>
    have : anyOne.arcs 0 = [(254, 1)] := by decide
    rw [this] at hac
    simp only [List.mem_singleton, Prod.mk.injEq] at hac
    rw [hac.1] at e1
    simp [EPS] at e1

/-- Conditions as in the theorems. -/
example : Wf wordA ∧ wordA.starts = anyOne.starts ∧ EndsClosed wordA ∧ EndsClosed anyOne ∧
    NotBoth wordA ANY anyOne EPS ∧ NotBoth wordA EPS anyOne ANY ∧ AnyLang true anyOne [97] := by
  have h1 : EpsFree wordA := by
    intro p x q h
    have : ∀ p, wordA.arcs p = if p = 0 then [(97, 1)] else [] := by
      intro p
      match p with
      | 0 => decide +kernel
      | 1 => decide +kernel
      | n + 2 => rw [arcs_out (by simp [wordA, ofWord, ofWordLoop, Fsa.addState, Fsa.addArc, Fsa.setEnd, Fsa.empty, Fsa.size])]; rfl
    rw [this] at h
    split at h
    · simp only [List.mem_singleton, Prod.mk.injEq] at h; rw [h.1]; decide
    · simp at h
  have h2 : EpsFree anyOne := by
    intro p x q h
    match p, h with
    | 0, h => simp [anyOne, Fsa.arcs] at h; rw [h.1]; decide
    | 1, h => simp [anyOne, Fsa.arcs] at h
    | n + 2, h => simp [anyOne, Fsa.arcs] at h
  refine ⟨wordA_wf, by decide +kernel, epsFree_endsClosed h1, epsFree_endsClosed h2,
    fun p q p' q' _ h => h2 _ _ _ h rfl, fun p q p' q' h _ => h1 _ _ _ h rfl, [254], ⟨[254], ?_, by decide⟩, ?_⟩
  · exact ⟨0, by decide, 1, by decide, path_one.2 (by decide)⟩
  · exact .cons (Or.inr ⟨rfl, rfl⟩) .nil

end Verif.Fsa
