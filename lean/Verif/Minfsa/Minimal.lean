import Verif.Minfsa.Final
import Mathlib.Data.List.Nodup
import Mathlib.Data.List.Perm.Subperm

/-! # The words of the lines and the number of states -/

namespace Verif.Minfsa

theorem Whole.accepts {ls : List Line} {ws : List (List Nat)} {reg : Reg} {root : Node} {n : Nat}
    (h : Whole ls ws reg root n) {q : Nat} (hq : Known reg q) (w : List Nat) :
    Accepts ls q w ↔ Acc reg q w := by
  have hne : ∀ q, Known reg q → q ≠ 0 := by
    rintro q ⟨e, h1, rfl⟩
    have := h.inv.apart root (by simp) e h1
    rw [h.id] at this
    exact this
  constructor
  · intro ha
    induction ha with
    | stop hf =>
      obtain ⟨r, hr⟩ := (h.finals _).1 hf
      exact .nil hr
    | step hx _ ih =>
      rcases (h.arcs _ _ _).1 hx with ⟨b, r, k1, k2⟩ | ⟨k1, _⟩
      · exact .cons k1 k2 (ih (h.inv.ok.closed _ k1 _ k2))
      · exact absurd k1 (hne _ hq)
  · intro ha
    induction ha with
    | nil hr => exact .stop ((h.finals _).2 ⟨_, hr⟩)
    | cons k1 k2 _ ih =>
      exact .step ((h.arcs _ _ _).2 (.inl ⟨_, _, k1, k2⟩)) (ih (h.inv.ok.closed _ k1 _ k2))

theorem Whole.zero {ls : List Line} {ws : List (List Nat)} {reg : Reg} {root : Node} {n : Nat}
    (h : Whole ls ws reg root n) {g : Sig} : (g, 0) ∉ reg := by
  intro hg
  exact h.inv.apart' (by simp) hg h.id.symm

theorem Whole.hasWords {ls : List Line} {ws : List (List Nat)} {reg : Reg} {root : Node} {n : Nat}
    (h : Whole ls ws reg root n) : HasWords ls 0 ws := by
  intro w
  rw [← h.words]
  unfold Own
  constructor
  · intro ha
    cases ha with
    | stop hf =>
      obtain ⟨r, hr⟩ := (h.finals _).1 hf
      exact absurd hr h.zero
    | step hx hw =>
      rcases (h.arcs _ _ _).1 hx with ⟨b, r, k1, _⟩ | ⟨_, k2⟩
      · exact absurd k1 h.zero
      · exact .inr ⟨_, _, _, rfl, k2, (h.accepts (h.inv.known root (by simp) _ k2) _).1 hw⟩
  · rintro (⟨_, k⟩ | ⟨a, t, v, rfl, k1, k2⟩)
    · rw [h.fin] at k; simp at k
    · exact .step ((h.arcs _ _ _).2 (.inr ⟨rfl, k1⟩))
        ((h.accepts (h.inv.known root (by simp) _ k1) _).2 k2)

theorem row_unique {r : Row} (hs : r.Pairwise fun x y => x.1 < y.1) {a t t' : Nat} (h1 : (a, t) ∈ r)
    (h2 : (a, t') ∈ r) : t = t' := by
  have e1 := (lookup_iff hs a t).2 h1
  have e2 := (lookup_iff hs a t').2 h2
  rw [e1] at e2
  simpa using e2

theorem Whole.deterministic {ls : List Line} {ws : List (List Nat)} {reg : Reg} {root : Node} {n : Nat}
    (h : Whole ls ws reg root n) : Deterministic ls := by
  intro p a q q' h1 h2
  rcases (h.arcs _ _ _).1 h1 with ⟨b, r, k1, k2⟩ | ⟨k1, k2⟩ <;>
    rcases (h.arcs _ _ _).1 h2 with ⟨b', r', k3, k4⟩ | ⟨k3, k4⟩
  · have := h.inv.ok.ids _ k1 _ k3 rfl
    simp only [Prod.mk.injEq] at this
    rw [← this.1.2] at k4
    exact row_unique (h.inv.ok.rows _ k1) k2 k4
  · subst k3
    exact absurd k1 h.zero
  · subst k1
    exact absurd k3 h.zero
  · exact row_unique (h.inv.sorted root (by simp)) k2 k4

theorem Whole.isState {ls : List Line} {ws : List (List Nat)} {reg : Reg} {root : Node} {n : Nat}
    (h : Whole ls ws reg root n) (p : Nat) : IsState 0 ls p ↔ p = 0 ∨ Known reg p := by
  constructor
  · rintro (h0 | ⟨q, a, hx⟩ | ⟨q, a, hx⟩ | hf)
    · exact .inl h0
    · rcases (h.arcs _ _ _).1 hx with ⟨b, r, k1, _⟩ | ⟨k1, _⟩
      · exact .inr ⟨_, k1, rfl⟩
      · exact .inl k1
    · rcases (h.arcs _ _ _).1 hx with ⟨b, r, k1, k2⟩ | ⟨_, k2⟩
      · exact .inr (h.inv.ok.closed _ k1 _ k2)
      · exact .inr (h.inv.known root (by simp) _ k2)
    · obtain ⟨r, hr⟩ := (h.finals _).1 hf
      exact .inr ⟨_, hr, rfl⟩
  · rintro (h0 | ⟨⟨⟨b, r⟩, q⟩, k1, k2⟩)
    · exact .inl h0
    · simp only at k2
      subst k2
      rcases h.inv.ok.useful _ k1 with hb | hb
      · simp only at hb
        subst hb
        exact .inr (.inr (.inr ((h.finals _).2 ⟨r, k1⟩)))
      · cases r with
        | nil => simp at hb
        | cons d r => exact .inr (.inl ⟨d.2, d.1, (h.arcs _ _ _).2 (.inl ⟨b, _, k1, by simp⟩)⟩)

theorem Whole.numbered {ls : List Line} {ws : List (List Nat)} {reg : Reg} {root : Node} {n : Nat}
    (h : Whole ls ws reg root n) (p : Nat) : IsState 0 ls p ↔ p < n := by
  rw [h.isState]
  have hmem : ∀ q, q ∈ 0 :: reg.map Prod.snd ↔ q = 0 ∨ Known reg q := by
    intro q
    rw [List.mem_cons, List.mem_map]
    rfl
  rw [← hmem]
  have hnd : (0 :: reg.map Prod.snd).Nodup := by
    rw [List.nodup_cons]
    refine ⟨?_, h.inv.nodup⟩
    intro h0
    obtain ⟨⟨g, q⟩, k1, k2⟩ := List.mem_map.1 h0
    simp only at k2
    subst k2
    exact h.zero k1
  have hlen : (0 :: reg.map Prod.snd).length = n := by
    have := h.inv.count
    simp only [List.length_cons, List.length_nil, List.length_map] at this ⊢
    omega
  have hlt : ∀ q ∈ 0 :: reg.map Prod.snd, q < n := by
    intro q hq
    rcases List.mem_cons.1 hq with rfl | hq
    · have := h.inv.idlt root (by simp)
      omega
    · obtain ⟨e, k1, rfl⟩ := List.mem_map.1 hq
      exact h.inv.below e k1
  have hsub : List.Subperm (0 :: reg.map Prod.snd) (List.range n) :=
    List.Nodup.subperm hnd fun q hq => List.mem_range.2 (hlt q hq)
  have hperm := hsub.perm_of_length_le (by rw [List.length_range, hlen]; exact Nat.le_refl _)
  rw [hperm.mem_iff, List.mem_range]

theorem Leads.snoc {ls : List Line} {p q r a : Nat} {w : List Nat} (h : Leads ls p w q)
    (hx : .arc q r a ∈ ls) : Leads ls p (w ++ [a]) r := by
  induction h with
  | stay q => exact .step hx (.stay _)
  | step h _ ih => exact .step h (ih hx)

theorem Whole.reached {ls : List Line} {ws : List (List Nat)} {reg : Reg} {root : Node} {n : Nat}
    (h : Whole ls ws reg root n) {p : Nat} (hp : Known reg p) :
    ∃ a w, Leads ls 0 (a :: w) p := by
  obtain ⟨e, k1, rfl⟩ := hp
  have hpos : root.id < e.2 := by
    have := h.inv.apart root (by simp) e k1
    rw [h.id] at this ⊢
    omega
  obtain ⟨y, m1, d, m2, m3⟩ := h.inv.i2 [] root [] rfl e k1 hpos
  simp only [List.mem_singleton] at m1
  subst m1
  have : ∀ q s, Reach reg q s → ∃ w, Leads ls q w s := by
    intro q s hr
    induction hr with
    | refl q => exact ⟨[], .stay q⟩
    | @step q s e d he1 he2 hd _ ih =>
      obtain ⟨w, hw⟩ := ih
      refine ⟨d.1 :: w, .step ((h.arcs _ _ _).2 (.inl ⟨e.1.1, e.1.2, ?_, hd⟩)) hw⟩
      rw [← he2]
      exact he1
  obtain ⟨w, hw⟩ := this _ _ m3
  exact ⟨d.1, w, .step ((h.arcs _ _ _).2 (.inr ⟨rfl, m2⟩)) hw⟩

theorem Leads.accepts {ls : List Line} {p q : Nat} {v w : List Nat} (h : Leads ls p v q)
    (ha : Accepts ls q w) : Accepts ls p (v ++ w) := by
  induction h with
  | stay q => exact ha
  | step h _ ih => exact .step h (ih ha)

theorem Accepts.split {ls : List Line} {p : Nat} (v : List Nat) {w : List Nat}
    (h : Accepts ls p (v ++ w)) : ∃ q, Leads ls p v q ∧ Accepts ls q w := by
  induction v generalizing p with
  | nil => exact ⟨p, .stay p, h⟩
  | cons a v ih =>
    rw [List.cons_append] at h
    cases h with
    | step hx hw =>
      obtain ⟨q, k1, k2⟩ := ih hw
      exact ⟨q, .step hx k1, k2⟩

theorem Leads.unique {ls : List Line} (hd : Deterministic ls) {p q q' : Nat} {v : List Nat}
    (h : Leads ls p v q) (h' : Leads ls p v q') : q = q' := by
  induction h with
  | stay q => cases h'; rfl
  | step h _ ih =>
    cases h' with
    | step h2 k2 =>
      rw [hd _ _ _ _ h2 h] at k2
      exact ih k2

theorem exists_longest (ws : List (List Nat)) (h : ws ≠ []) :
    ∃ w ∈ ws, ∀ v ∈ ws, v.length ≤ w.length := by
  induction ws with
  | nil => simp at h
  | cons w ws ih =>
    by_cases hws : ws = []
    · subst hws
      exact ⟨w, by simp, by simp⟩
    · obtain ⟨u, h1, h2⟩ := ih hws
      by_cases hl : u.length ≤ w.length
      · refine ⟨w, by simp, fun v hv => ?_⟩
        rcases List.mem_cons.1 hv with rfl | hv
        · exact Nat.le_refl _
        · have := h2 v hv; omega
      · refine ⟨u, by simp [h1], fun v hv => ?_⟩
        rcases List.mem_cons.1 hv with rfl | hv
        · omega
        · exact h2 v hv

/-- Different states have different words. -/
theorem Whole.distinct {ls : List Line} {ws : List (List Nat)} {reg : Reg} {root : Node} {n : Nat}
    (h : Whole ls ws reg root n) (hne : ws ≠ []) {p q : Nat} (hp : IsState 0 ls p) (hq : IsState 0 ls q)
    (heq : ∀ w, Accepts ls p w ↔ Accepts ls q w) : p = q := by
  have key : ∀ q, Known reg q → (∀ w, Accepts ls 0 w ↔ Accepts ls q w) → False := by
    intro q hq heq
    obtain ⟨a, v, hv⟩ := h.reached hq
    obtain ⟨w, k1, k2⟩ := exists_longest ws hne
    have h1 := (heq w).1 ((h.hasWords w).2 k1)
    have h2 := k2 _ ((h.hasWords _).1 (hv.accepts h1))
    simp at h2
    omega
  rcases (h.isState p).1 hp with rfl | hp <;> rcases (h.isState q).1 hq with rfl | hq
  · rfl
  · exact (key q hq heq).elim
  · exact (key p hp fun w => (heq w).symm).elim
  · obtain ⟨e, k1, k2⟩ := hp
    obtain ⟨e', k3, k4⟩ := hq
    have := Minfsa.distinct h.inv.ok e e' k1 k3 fun w => by
      rw [k2, k4, ← h.accepts ⟨e, k1, k2⟩, ← h.accepts ⟨e', k3, k4⟩]
      exact heq w
    rw [← k2, ← k4, this]

theorem Whole.live {ls : List Line} {ws : List (List Nat)} {reg : Reg} {root : Node} {n : Nat}
    (h : Whole ls ws reg root n) (hne : ws ≠ []) {p : Nat} (hp : IsState 0 ls p) :
    ∃ w, Accepts ls p w := by
  rcases (h.isState p).1 hp with rfl | hp
  · obtain ⟨w, k1, _⟩ := exists_longest ws hne
    exact ⟨w, (h.hasWords w).2 k1⟩
  · obtain ⟨rank, hrank⟩ := h.inv.ok.rank
    have : ∀ m, ∀ e ∈ reg, rank e.2 ≤ m → ∃ w, Acc reg e.2 w := by
      intro m
      induction m with
      | zero =>
        rintro ⟨⟨b, r⟩, q⟩ he hm
        rcases h.inv.ok.useful _ he with hb | hb
        · simp only at hb; subst hb; exact ⟨[], .nil he⟩
        · cases r with
          | nil => simp at hb
          | cons d r =>
            have := hrank _ he d (by simp)
            simp only at this hm; omega
      | succ m ih =>
        rintro ⟨⟨b, r⟩, q⟩ he hm
        rcases h.inv.ok.useful _ he with hb | hb
        · simp only at hb; subst hb; exact ⟨[], .nil he⟩
        · cases r with
          | nil => simp at hb
          | cons d r =>
            have hlt := hrank _ he d (by simp)
            obtain ⟨e2, h1, h2⟩ := h.inv.ok.closed _ he d (by simp)
            obtain ⟨w, hw⟩ := ih e2 h1 (by rw [h2]; simp only at hlt hm; omega)
            rw [h2] at hw
            exact ⟨d.1 :: w, .cons he (by simp) hw⟩
    obtain ⟨e, k1, k2⟩ := hp
    obtain ⟨w, hw⟩ := this _ e k1 (Nat.le_refl _)
    rw [k2] at hw
    exact ⟨w, (h.accepts ⟨e, k1, k2⟩ w).2 hw⟩

theorem Leads.isState {ls : List Line} {s p q : Nat} {v : List Nat} (h : Leads ls p v q)
    (hp : IsState s ls p) : IsState s ls q := by
  induction h with
  | stay q => exact hp
  | step h _ ih => exact ih (.inr (.inr (.inl ⟨_, _, h⟩)))

theorem Whole.leads {ls : List Line} {ws : List (List Nat)} {reg : Reg} {root : Node} {n : Nat}
    (h : Whole ls ws reg root n) {p : Nat} (hp : IsState 0 ls p) : ∃ w, Leads ls 0 w p := by
  rcases (h.isState p).1 hp with rfl | hp
  · exact ⟨[], .stay 0⟩
  · obtain ⟨a, w, hw⟩ := h.reached hp
    exact ⟨a :: w, hw⟩

/-- No other automaton has fewer states. -/
theorem Whole.minimal {ls : List Line} {ws : List (List Nat)} {reg : Reg} {root : Node} {n : Nat}
    (h : Whole ls ws reg root n) (hne : ws ≠ []) {ls' : List Line} {s : Nat} (hd : Deterministic ls')
    (hw : HasWords ls' s ws) {other : List Nat} (ho : ∀ p, IsState s ls' p → p ∈ other) :
    n ≤ other.length := by
  have pick : ∀ p, ∃ t, p < n → t ∈ other ∧ ∀ w, Accepts ls' t w ↔ Accepts ls p w := by
    intro p
    by_cases hp : p < n
    · have hst := (h.numbered p).2 hp
      obtain ⟨v, hv⟩ := h.leads hst
      obtain ⟨u, hu⟩ := h.live hne hst
      obtain ⟨t, k1, _⟩ := Accepts.split v ((hw _).2 ((h.hasWords _).1 (hv.accepts hu)))
      refine ⟨t, fun _ => ⟨ho t (k1.isState (.inl rfl)), fun w => ?_⟩⟩
      constructor
      · intro ha
        obtain ⟨q, m1, m2⟩ := Accepts.split v ((h.hasWords _).2 ((hw _).1 (k1.accepts ha)))
        rw [hv.unique h.deterministic m1]
        exact m2
      · intro ha
        obtain ⟨q, m1, m2⟩ := Accepts.split v ((hw _).2 ((h.hasWords _).1 (hv.accepts ha)))
        rw [k1.unique hd m1]
        exact m2
    · exact ⟨0, fun hp' => absurd hp' hp⟩
  choose g hg using pick
  have hnd : ((List.range n).map g).Nodup := by
    refine List.Nodup.map_on ?_ List.nodup_range
    intro p hp q hq he
    rw [List.mem_range] at hp hq
    refine h.distinct hne ((h.numbered p).2 hp) ((h.numbered q).2 hq) fun w => ?_
    rw [← (hg p hp).2, ← (hg q hq).2, he]
  have hsub : List.Subperm ((List.range n).map g) other := List.Nodup.subperm hnd fun t ht => by
    obtain ⟨p, hp, rfl⟩ := List.mem_map.1 ht
    exact (hg p (List.mem_range.1 hp)).1
  have := hsub.length_le
  simpa using this

/-! ## A word that begins the last one -/

theorem deltaPrefix_none {f : Fsa} {reg : Reg} {n : Nat} (post : List Node) {pre : List Node} {x : Node}
    {w : List Nat} (way : List Nat) (hi : Inv reg (pre ++ x :: post) n)
    (hr : Rep f reg (pre ++ x :: post) n) (hw : w <+: post.map Node.sym) :
    f.deltaPrefix x.id w way = none := by
  induction post generalizing pre x w way with
  | nil =>
    simp only [List.map_nil, List.prefix_nil] at hw
    subst hw
    rfl
  | cons y l ih =>
    cases w with
    | nil => rfl
    | cons c w =>
      rw [List.map_cons, List.cons_prefix_cons] at hw
      obtain ⟨rfl, hw⟩ := hw
      have row := hr.row pre x (y :: l) rfl
      have hn := hi.next pre x y l rfl
      have e : pre ++ x :: y :: l = (pre ++ [x]) ++ y :: l := by simp
      rw [e] at hi hr
      have : (x.done ++ [(y.sym, y.id)]).lookup y.sym = some y.id :=
        lookup_append_last fun d hd => by have := hn d hd; omega
      simp only [Fsa.deltaPrefix, row, tailArc, Option.bind_some, this]
      exact ih _ hi hr hw

theorem addWords_append (a b : List (List Nat)) (f : Fsa) :
    addWords (a ++ b) f = (addWords a f).bind (addWords b) := by
  induction a generalizing f with
  | nil => rfl
  | cons w a ih =>
    simp only [List.cons_append, addWords, Option.bind_assoc]
    congr 1
    funext g
    exact ih g

end Verif.Minfsa
