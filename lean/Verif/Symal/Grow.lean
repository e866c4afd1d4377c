import Verif.Symal.Lemmas

/-!
The growing of an alignment, and the final steps.
-/
set_option linter.unusedVariables false
set_option linter.unusedSimpArgs false

namespace Verif.Symal
open Verif Verif.Server Spec

/-- The links that are there. -/
def links (s : State) (l : Link) : Prop := point l ∈ s.points

theorem point_inj {k l : Link} (h : point k = point l) : k = l := by
  have := congrArg link h
  rwa [link_point, link_point] at this

theorem links_add (s : State) (l : Link) : links (add s (point l)) = fun k => links s k ∨ k = l := by
  funext k
  apply propext
  unfold links
  rw [show (add s (point l)).points = insertPoint (point l) s.points from rfl, mem_insert]
  constructor
  · rintro (h | h)
    · exact .inr (point_inj h)
    · exact .inl h
  · rintro (h | h)
    · exact .inr h
    · exact .inl (by rw [h])

theorem covers_target {x : Input} {s : State} (h : Inv x s) (i : Nat) : CoversTarget (links s) i ↔ s.ea (i + 1) = true := by
  rw [h.ea]
  constructor
  · rintro ⟨l, hl, rfl⟩; exact ⟨_, hl, rfl⟩
  · rintro ⟨p, hp, hi⟩
    have hu := h.union p hp
    refine ⟨link p, ?_, by simp only [link]; omega⟩
    unfold links
    rwa [point_link hu.1 hu.2.2.1]

theorem covers_source {x : Input} {s : State} (h : Inv x s) (i : Nat) : CoversSource (links s) i ↔ s.fa (i + 1) = true := by
  rw [h.fa]
  constructor
  · rintro ⟨l, hl, rfl⟩; exact ⟨_, hl, rfl⟩
  · rintro ⟨p, hp, hi⟩
    have hu := h.union p hp
    refine ⟨link p, ?_, by simp only [link]; omega⟩
    unfold links
    rwa [point_link hu.1 hu.2.2.1]

theorem new_iff {x : Input} {s : State} (h : Inv x s) (l : Link) : New (links s) l ↔ (s.ea (point l).1 && s.fa (point l).2) = false := by
  unfold New
  rw [covers_target h, covers_source h]
  simp only [point, Bool.and_eq_false_iff, Bool.not_eq_true]
  tauto

theorem fresh_iff {x : Input} {s : State} (h : Inv x s) (l : Link) : Fresh (links s) l ↔ s.ea (point l).1 = false ∧ s.fa (point l).2 = false := by
  unfold Fresh
  rw [covers_target h, covers_source h]
  simp only [point, Bool.not_eq_true]
  tauto

theorem union_iff {x : Input} (hx : Proper x) (l : Link) : Direct x l ∨ Inverse x l ↔ InUnion x (point l) := by
  unfold Direct Inverse InUnion point
  simp only
  constructor
  · rintro (⟨h1, h2⟩ | ⟨h1, h2⟩)
    · have := hx.1 (l.source + 1) (by omega) (by omega)
      exact ⟨by omega, by omega, by omega, by omega, .inl h2⟩
    · have := hx.2 (l.target + 1) (by omega) (by omega)
      exact ⟨by omega, by omega, by omega, by omega, .inr h2⟩
  · rintro ⟨h1, h2, h3, h4, h5 | h5⟩
    · exact .inl ⟨by omega, h5⟩
    · exact .inr ⟨by omega, h5⟩

/-- The point at an offset. -/
def At (k : Point) (o : Int × Int) (p : Point) : Prop := (p.1 : Int) = k.1 + o.1 ∧ (p.2 : Int) = k.2 + o.2

theorem adjacent_iff (d : Bool) (k l : Link) : Adjacent d k l ↔ ∃ o ∈ neighbors d, At (point k) o (point l) := by
  obtain ⟨ks, kt⟩ := k
  obtain ⟨ls, lt⟩ := l
  unfold Adjacent At point neighbors Spec.dist
  simp only [ne_eq, Link.mk.injEq, not_and]
  constructor
  · rintro ⟨h1, h2, h3, h4⟩
    refine ⟨((lt : Int) - kt, (ls : Int) - ks), ?_, by dsimp only; omega, by dsimp only; omega⟩
    cases d with
    | false =>
      have h4 := h4 rfl
      simp only [Bool.false_eq_true, if_false, List.append_nil, List.mem_cons, Prod.mk.injEq, List.not_mem_nil, or_false]
      omega
    | true =>
      simp only [if_true, List.cons_append, List.nil_append, List.mem_cons, Prod.mk.injEq, List.not_mem_nil, or_false]
      omega
  · rintro ⟨⟨o1, o2⟩, ho, h1, h2⟩
    dsimp only at h1 h2
    cases d with
    | false =>
      simp only [Bool.false_eq_true, if_false, List.append_nil, List.mem_cons, Prod.mk.injEq, List.not_mem_nil, or_false] at ho
      refine ⟨by omega, by omega, by omega, by omega⟩
    | true =>
      simp only [if_true, List.cons_append, List.nil_append, List.mem_cons, Prod.mk.injEq, List.not_mem_nil, or_false] at ho
      refine ⟨by omega, by omega, by omega, by simp⟩

/-- The number of words without links. -/
def uncovered (x : Input) (s : State) : Nat := (upTo x.n).countP (fun i => !s.ea i) + (upTo x.m).countP (fun j => !s.fa j)

theorem count_le (f : Nat → Bool) (i : Nat) (l : List Nat) : l.countP (fun j => !setAt f i j) ≤ l.countP (fun j => !f j) := by
  apply List.countP_mono_left
  intro j _ h
  simp only [setAt] at h
  split at h
  · simp at h
  · exact h

theorem count_lt {f : Nat → Bool} {i : Nat} {l : List Nat} (hi : i ∈ l) (hf : f i = false) :
    l.countP (fun j => !setAt f i j) < l.countP (fun j => !f j) := by
  induction l with
  | nil => simp at hi
  | cons j l ih =>
    rw [List.countP_cons, List.countP_cons]
    by_cases hj : j = i
    · subst hj
      have := count_le f j l
      rw [if_neg (by simp [setAt]), if_pos (by simp [hf])]
      omega
    · have hi : i ∈ l := by
        rcases List.mem_cons.1 hi with h | h
        · exact absurd h.symm hj
        · exact h
      have := ih hi
      have e : setAt f i j = f j := by simp [setAt, hj]
      rw [e]
      omega

theorem uncovered_add {x : Input} {s : State} {p : Point} (hp : InUnion x p) (hn : (s.ea p.1 && s.fa p.2) = false) :
    uncovered x (add s p) < uncovered x s := by
  obtain ⟨h1, h2, h3, h4, _⟩ := hp
  unfold uncovered
  simp only [add]
  rw [Bool.and_eq_false_iff] at hn
  have a1 := count_le s.ea p.1 (upTo x.n)
  have a2 := count_le s.fa p.2 (upTo x.m)
  rcases hn with hn | hn
  · have := count_lt (mem_upTo.2 ⟨h1, h2⟩) hn
    omega
  · have := count_lt (mem_upTo.2 ⟨h3, h4⟩) hn
    omega

/-- There is nothing to add at an offset. -/
def Blocked (x : Input) (s : State) (k : Point) (o : Int × Int) : Prop :=
  ∀ l, At k o (point l) → InUnion x (point l) → (s.ea (point l).1 && s.fa (point l).2) = true

/-- What the loops do: links are added, and if there are some, the flag is set. -/
structure Went (x : Input) (d : Bool) (q r : State × Bool) : Prop where
  inv : Inv x r.1
  keep : ∀ p ∈ q.1.points, p ∈ r.1.points
  chain : Chain (Grow x d) (links q.1) (links r.1)
  flag : r = q ∨ (r.2 = true ∧ uncovered x r.1 < uncovered x q.1)

theorem Chain.trans {ok : (Link → Prop) → Link → Prop} {S T U : Link → Prop} (h1 : Chain ok S T) (h2 : Chain ok T U) : Chain ok S U := by
  induction h2 with
  | refl => exact h1
  | step _ h ih => exact .step ih h

theorem Went.refl {x : Input} {d : Bool} {q : State × Bool} (h : Inv x q.1) : Went x d q q := ⟨h, fun _ h => h, .refl, .inl rfl⟩

theorem Went.trans {x : Input} {d : Bool} {q r t : State × Bool} (h1 : Went x d q r) (h2 : Went x d r t) : Went x d q t := by
  refine ⟨h2.inv, fun p hp => h2.keep p (h1.keep p hp), Chain.trans h1.chain h2.chain, ?_⟩
  rcases h2.flag with h | h
  · rw [h]; exact h1.flag
  · rcases h1.flag with g | g
    · rw [g] at h; exact .inr h
    · exact .inr ⟨h.1, by omega⟩

theorem Went.quiet {x : Input} {d : Bool} {q r : State × Bool} (h : Went x d q r) (hr : r.2 = false) : r = q := by
  rcases h.flag with g | g
  · exact g
  · rw [hr] at g; simp at g

theorem try_ok {x : Input} (hx : Proper x) {d : Bool} {q : State × Bool} (h : Inv x q.1) {k : Point} (hk : k ∈ q.1.points) {o : Int × Int} (ho : o ∈ neighbors d) :
    Went x d q (tryNeighbor x k q o) ∧ ((tryNeighbor x k q o).2 = false → Blocked x q.1 k o) := by
  unfold tryNeighbor
  dsimp only
  split
  · next hr =>
    obtain ⟨r1, r2, r3, r4⟩ := hr
    split
    · next hu =>
      have hun : InUnion x (((k.1 : Int) + o.1).toNat, ((k.2 : Int) + o.2).toNat) := by
        refine ⟨by dsimp only; omega, by dsimp only; omega, by dsimp only; omega, by dsimp only; omega, hu.symm⟩
      have hpl : point (link (((k.1 : Int) + o.1).toNat, ((k.2 : Int) + o.2).toNat)) = (((k.1 : Int) + o.1).toNat, ((k.2 : Int) + o.2).toNat) :=
        point_link hun.1 hun.2.2.1
      generalize hp1 : ((k.1 : Int) + o.1).toNat = p1 at *
      generalize hp2 : ((k.2 : Int) + o.2).toNat = p2 at *
      have hat : At k o (p1, p2) := ⟨by dsimp only; omega, by dsimp only; omega⟩
      split
      · next hc =>
        refine ⟨⟨inv_add h hun, fun p hp => mem_insert.2 (.inr hp), ?_, .inr ⟨rfl, uncovered_add hun hc⟩⟩, by simp⟩
        dsimp only
        rw [← hpl, links_add]
        refine .step .refl ⟨(union_iff hx _).2 (by rw [hpl]; exact hun), ⟨link k, ?_, ?_⟩, ?_⟩
        · unfold links
          rw [point_link (h.union k hk).1 (h.union k hk).2.2.1]
          exact hk
        · rw [adjacent_iff]
          refine ⟨o, ho, ?_⟩
          rw [hpl, point_link (h.union k hk).1 (h.union k hk).2.2.1]
          exact hat
        · rw [new_iff h, hpl]
          exact hc
      · next hc =>
        refine ⟨.refl h, fun _ l hl hl2 => ?_⟩
        have : point l = (p1, p2) := by
          obtain ⟨a1, a2⟩ := hat
          obtain ⟨b1, b2⟩ := hl
          exact Prod.ext (by omega) (by omega)
        rw [this]
        simpa using hc
    · next hu =>
      refine ⟨.refl h, fun _ l hl hl2 => ?_⟩
      exfalso
      apply hu
      obtain ⟨b1, b2⟩ := hl
      have e1 : ((k.1 : Int) + o.1).toNat = (point l).1 := by omega
      have e2 : ((k.2 : Int) + o.2).toNat = (point l).2 := by omega
      rw [e1, e2]
      exact hl2.2.2.2.2.symm
  · next hr =>
    refine ⟨.refl h, fun _ l hl hl2 => ?_⟩
    exfalso
    apply hr
    obtain ⟨b1, b2⟩ := hl
    obtain ⟨c1, c2, c3, c4, _⟩ := hl2
    omega

theorem visit_ok {x : Input} (hx : Proper x) {d : Bool} {k : Point} (ns : List (Int × Int)) : ∀ {q : State × Bool}, Inv x q.1 → k ∈ q.1.points →
    (∀ o ∈ ns, o ∈ neighbors d) →
    Went x d q (ns.foldl (tryNeighbor x k) q) ∧ ((ns.foldl (tryNeighbor x k) q).2 = false → ∀ o ∈ ns, Blocked x q.1 k o) := by
  induction ns with
  | nil => intro q h _ _; exact ⟨.refl h, by simp⟩
  | cons o ns ih =>
    intro q h hk hns
    obtain ⟨h1, h2⟩ := try_ok hx h hk (hns o (by simp))
    rw [List.foldl_cons]
    obtain ⟨h3, h4⟩ := ih (q := tryNeighbor x k q o) h1.inv (h1.keep k hk) (fun o ho => hns o (by simp [ho]))
    refine ⟨h1.trans h3, fun hr o' ho' => ?_⟩
    have e1 := h3.quiet hr
    rw [e1] at hr
    have e2 := h1.quiet hr
    rcases List.mem_cons.1 ho' with rfl | ho'
    · exact h2 hr
    · have := h4 (by rw [e1]; exact hr) o' ho'
      rwa [e2] at this

/-- How many points there are from a point on. -/
def rest (x : Input) (k : Point) : Nat := (x.n - k.1) * (x.m + 1) + (x.m - k.2) + 1

theorem rest_lt {x : Input} {k p : Point} (h : less k p = true) (h1 : p.1 ≤ x.n) (h2 : p.2 ≤ x.m) : rest x p < rest x k := by
  rw [less_iff] at h
  unfold rest
  rcases h with h | ⟨h, h'⟩
  · have : (x.n - p.1 + 1) * (x.m + 1) ≤ (x.n - k.1) * (x.m + 1) := Nat.mul_le_mul_right _ (by omega)
    rw [Nat.add_mul] at this
    omega
  · rw [h]
    omega

theorem scan_ok {x : Input} (hx : Proper x) {d : Bool} : ∀ (f : Nat) {q : State × Bool} {k? : Option Point}, Inv x q.1 → (∀ k, k? = some k → k ∈ q.1.points ∧ rest x k ≤ f) →
    ∃ r, scan x (neighbors d) f q k? = some r ∧ Went x d q r ∧
      (r.2 = false → ∀ p ∈ q.1.points, (∃ k, k? = some k ∧ (p = k ∨ less k p = true)) → ∀ o ∈ neighbors d, Blocked x q.1 p o) := by
  intro f
  induction f with
  | zero =>
    intro q k? h hk
    cases k? with
    | none => exact ⟨q, rfl, .refl h, by rintro _ p _ ⟨k, h, _⟩; simp at h⟩
    | some k =>
      have := (hk k rfl).2
      unfold rest at this
      omega
  | succ f ih =>
    intro q k? h hk
    cases k? with
    | none => exact ⟨q, rfl, .refl h, by rintro _ p _ ⟨k, h, _⟩; simp at h⟩
    | some k =>
      obtain ⟨hk1, hk2⟩ := hk k rfl
      obtain ⟨h1, h2⟩ := visit_ok hx (d := d) (neighbors d) h hk1 (fun o ho => ho)
      rw [scan]
      generalize (neighbors d).foldl (tryNeighbor x k) q = q1 at *
      obtain ⟨r, h3, h4, h5⟩ := ih (q := q1) (k? := after k q1.1.points) h1.inv (by
        intro k' hk'
        obtain ⟨g1, g2⟩ := after_some hk'
        obtain ⟨u1, u2, u3, u4, _⟩ := h1.inv.union k' g1
        have := rest_lt g2 u2 u4
        exact ⟨g1, by omega⟩)
      refine ⟨r, h3, h1.trans h4, ?_⟩
      intro hr p hp hpk o ho
      have e1 := h4.quiet hr
      have hr1 : q1.2 = false := by rw [← e1]; exact hr
      have e2 := h1.quiet hr1
      obtain ⟨k', hk', hpk⟩ := hpk
      cases hk'
      rcases hpk with rfl | hpk
      · exact h2 hr1 o ho
      · have := h5 hr p (h1.keep p hp) (by
          obtain ⟨k2, g1, g2⟩ := after_least h1.inv.sorted (h1.keep p hp) hpk
          exact ⟨k2, g1, g2⟩) o ho
        rwa [e2] at this

theorem grow_ok {x : Input} (hx : Proper x) {d : Bool} : ∀ (f : Nat) {s : State}, Inv x s → uncovered x s + (x.n + 1) * (x.m + 1) + 2 ≤ f →
    ∃ s', grow x (neighbors d) f s = some s' ∧ Inv x s' ∧ Saturated (Grow x d) (links s) (links s') := by
  intro f
  induction f with
  | zero => intro s _ h; omega
  | succ f ih =>
    intro s h hf
    obtain ⟨r, h1, h2, h3⟩ := scan_ok hx (d := d) f (q := (s, false)) (k? := s.points.head?) h (by
      intro k hk
      refine ⟨List.mem_of_head? hk, ?_⟩
      unfold rest
      have : (x.n - k.1) * (x.m + 1) ≤ x.n * (x.m + 1) := Nat.mul_le_mul_right _ (by omega)
      rw [Nat.add_mul] at hf
      omega)
    rw [grow, h1]
    obtain ⟨s1, added⟩ := r
    dsimp only
    cases added with
    | true =>
      rw [if_pos rfl]
      rcases h2.flag with g | g
      · simp at g
      · obtain ⟨s', g1, g2, g3, g4⟩ := ih (s := s1) h2.inv (by have := g.2; dsimp only at this; omega)
        exact ⟨s', g1, g2, Chain.trans h2.chain g3, g4⟩
    | false =>
      rw [if_neg (by simp)]
      have e := h2.quiet rfl
      simp only [Prod.mk.injEq, and_true] at e
      subst e
      refine ⟨s1, rfl, h, .refl, ?_⟩
      rintro l ⟨hu, ⟨k, hk, hadj⟩, hn⟩
      rw [adjacent_iff] at hadj
      obtain ⟨o, ho, hat⟩ := hadj
      rw [new_iff h] at hn
      have hkm : point k ∈ s1.points := hk
      have := h3 rfl (point k) hkm (head_least h.sorted hkm) o ho l hat ((union_iff hx l).1 hu)
      dsimp only at this
      rw [hn] at this
      simp at this

/-! ### The final steps -/

/-- The links of a kind. -/
def Kind (x : Input) (kind : Int) : Link → Prop := if kind = 1 then Inverse x else Direct x

theorem final_ok {x : Input} (hx : Proper x) {both : Bool} {kind : Int} (hkind : kind = 1 ∨ kind = -1) (u : List Point) : ∀ {s : State}, Inv x s → (∀ p ∈ u, InUnion x p) →
    Inv x (u.foldl (tryFinal both kind) s) ∧ Chain (Final (Kind x kind) both) (links s) (links (u.foldl (tryFinal both kind) s)) ∧
      (∀ p ∈ s.points, p ∈ (u.foldl (tryFinal both kind) s).points) ∧
      (∀ l, point l ∈ u → ¬ Final (Kind x kind) both (links (u.foldl (tryFinal both kind) s)) l) := by
  induction u with
  | nil => intro s h _; exact ⟨h, .refl, fun _ h => h, by simp⟩
  | cons p u ih =>
    intro s h hu
    have hup := hu p (by simp)
    have hpl := point_link hup.1 hup.2.2.1
    rw [List.foldl_cons]
    -- one step
    have hkindp : s.A p.1 p.2 = kind → Kind x kind (link p) ∧ p ∉ s.points := by
      intro hA
      have hnot : p ∉ s.points := by
        intro hp
        have := h.two p hp
        rcases hkind with rfl | rfl <;> omega
      refine ⟨?_, hnot⟩
      have hup' := hup
      obtain ⟨c1, c2, c3, c4, c5⟩ := hup'
      rcases hkind with rfl | rfl
      · unfold Kind
        rw [if_pos rfl]
        rcases c5 with c5 | c5
        · have := h.direct p.1 p.2 hup hnot c5
          omega
        · exact ⟨by simp only [link]; omega, by simp only [link]; rw [Nat.sub_add_cancel c1, Nat.sub_add_cancel c3]; exact c5⟩
      · unfold Kind
        rw [if_neg (by decide)]
        rcases c5 with c5 | c5
        · exact ⟨by simp only [link]; omega, by simp only [link]; rw [Nat.sub_add_cancel c1, Nat.sub_add_cancel c3]; exact c5⟩
        · have := h.inverse p.1 p.2 hup hnot c5
          omega
    have hkindq : Kind x kind (link p) → p ∉ s.points → s.A p.1 p.2 = kind := by
      intro hk hnot
      have hup' := hup
      obtain ⟨c1, c2, c3, c4, c5⟩ := hup'
      rcases hkind with rfl | rfl
      · unfold Kind at hk
        rw [if_pos rfl] at hk
        have := hk.2
        simp only [link] at this
        rw [Nat.sub_add_cancel c1, Nat.sub_add_cancel c3] at this
        exact h.inverse p.1 p.2 hup hnot this
      · unfold Kind at hk
        rw [if_neg (by decide)] at hk
        have := hk.2
        simp only [link] at this
        rw [Nat.sub_add_cancel c1, Nat.sub_add_cancel c3] at this
        exact h.direct p.1 p.2 hup hnot this
    have step : Inv x (tryFinal both kind s p) ∧ Chain (Final (Kind x kind) both) (links s) (links (tryFinal both kind s p)) ∧
        (∀ p' ∈ s.points, p' ∈ (tryFinal both kind s p).points) ∧
        (∀ T : State, Inv x T → (∀ p' ∈ (tryFinal both kind s p).points, p' ∈ T.points) → ¬ Final (Kind x kind) both (links T) (link p)) := by
      have hdone : ∀ {s1 : State}, ((∃ p' ∈ s1.points, p'.1 = p.1) ∧ (∃ p' ∈ s1.points, p'.2 = p.2) ∨ (both = true ∧ ((∃ p' ∈ s1.points, p'.1 = p.1) ∨ (∃ p' ∈ s1.points, p'.2 = p.2)))) →
          ∀ T : State, Inv x T → (∀ p' ∈ s1.points, p' ∈ T.points) → ¬ Final (Kind x kind) both (links T) (link p) := by
        rintro s1 hc T hT hsub ⟨_, hF⟩
        have toT1 : (∃ p' ∈ s1.points, p'.1 = p.1) → T.ea p.1 = true := fun ⟨p', g1, g2⟩ => (hT.ea _).2 ⟨p', hsub p' g1, g2⟩
        have toT2 : (∃ p' ∈ s1.points, p'.2 = p.2) → T.fa p.2 = true := fun ⟨p', g1, g2⟩ => (hT.fa _).2 ⟨p', hsub p' g1, g2⟩
        cases both with
        | true =>
          rw [if_pos rfl, fresh_iff hT, hpl] at hF
          rcases hc with ⟨g, _⟩ | ⟨_, g | g⟩
          · rw [toT1 g] at hF; simp at hF
          · rw [toT1 g] at hF; simp at hF
          · rw [toT2 g] at hF; simp at hF
        | false =>
          rw [if_neg (by simp), new_iff hT, hpl] at hF
          rcases hc with ⟨g1, g2⟩ | ⟨g, _⟩
          · rw [toT1 g1, toT2 g2] at hF; simp at hF
          · simp at g
      unfold tryFinal
      split
      · next hA =>
        obtain ⟨k1, k2⟩ := hkindp hA
        split
        · next hc =>
          refine ⟨inv_add h hup, ?_, fun p' hp' => mem_insert.2 (.inr hp'), ?_⟩
          · conv => rhs; rw [← hpl]
            rw [links_add]
            refine .step .refl ⟨k1, ?_⟩
            cases both with
            | true =>
              rw [if_pos rfl, fresh_iff h, hpl]
              simpa using hc
            | false =>
              rw [if_neg (by simp), new_iff h, hpl]
              simpa using hc
          · exact hdone (s1 := add s p) (.inl ⟨⟨p, mem_insert.2 (.inl rfl), rfl⟩, ⟨p, mem_insert.2 (.inl rfl), rfl⟩⟩)
        · next hc =>
          refine ⟨h, .refl, fun _ h => h, ?_⟩
          apply hdone
          simp only [← h.ea, ← h.fa]
          cases both with
          | true =>
            right
            refine ⟨rfl, ?_⟩
            simp only [true_and, not_or, not_and, Bool.not_eq_false] at hc
            cases he : s.ea p.1 with
            | true => exact .inl rfl
            | false => exact .inr (hc.1 he)
          | false =>
            left
            simpa using hc
      · next hA =>
        refine ⟨h, .refl, fun _ h => h, ?_⟩
        by_cases hps : p ∈ s.points
        · exact hdone (.inl ⟨⟨p, hps, rfl⟩, ⟨p, hps, rfl⟩⟩)
        · rintro T hT hsub ⟨hk, _⟩
          exact hA (hkindq hk hps)
    obtain ⟨a1, a2, a3, a4⟩ := step
    obtain ⟨b1, b2, b3, b4⟩ := ih a1 (fun p hp => hu p (by simp [hp]))
    refine ⟨b1, Chain.trans a2 b2, fun p hp => b3 p (a3 p hp), ?_⟩
    intro l hl
    rcases List.mem_cons.1 hl with hl | hl
    · have : l = link p := by rw [← hl, link_point]
      rw [this]
      exact a4 _ b1 b3
    · exact b4 l hl

theorem finals_ok {x : Input} (hx : Proper x) {both : Bool} {u : List Point} {s : State} (h : Inv x s) (hu : ∀ p, p ∈ u ↔ InUnion x p) :
    Inv x (finals both u s) ∧ ∃ U, Saturated (Final (Inverse x) both) (links s) U ∧ Saturated (Final (Direct x) both) U (links (finals both u s)) := by
  obtain ⟨a1, a2, a3, a4⟩ := final_ok hx (both := both) (kind := 1) (.inl rfl) u h (fun p hp => (hu p).1 hp)
  obtain ⟨b1, b2, b3, b4⟩ := final_ok hx (both := both) (kind := -1) (.inr rfl) u a1 (fun p hp => (hu p).1 hp)
  refine ⟨b1, _, ⟨a2, ?_⟩, ⟨b2, ?_⟩⟩
  · intro l hl
    exact a4 l ((hu _).2 ((union_iff hx l).1 (.inr hl.1))) hl
  · intro l hl
    exact b4 l ((hu _).2 ((union_iff hx l).1 (.inl hl.1))) hl

end Verif.Symal
