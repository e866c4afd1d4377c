import Verif.Lattice.WalkLemmas
import Verif.Lattice.PropsCut

/-!
Property theorems C98 (the iterator over the vertices) and C99 (the iterators over the sorted edges).
-/
set_option linter.unusedVariables false
set_option linter.unusedSimpArgs false

namespace Verif.Lattice
open Verif Verif.Tags Verif.Tags.Spec Verif.Lattice.Spec

/-! ## C98 -/

/-- **C98** In a lattice without loose vertices the iterator that skips nothing yields every position between two
characters once, from the beginning of the text to its end. -/
theorem C98_text_all {s : State} (hw : Utf8.Spec.WellFormed s.text) (hl : s.nLoose = 0) (order : List Vertex) :
    ∃ it l, VIter.start s order false = .ok it ∧ (∀ n, s.text.length + 2 ≤ n → it.all s n = some (.ok l)) ∧
      l.Pairwise (· < ·) ∧ ∀ v, v ∈ l ↔ Position s v := by
  obtain ⟨it, l, h1, h2, h3, h4, h5⟩ := text_walk (skip := false) (by simp) hw hl order
  exact ⟨it, l, h1, fun n hn => yields_all h2 (by omega), h4, fun v => by simpa using h5 v⟩

/-- **C98** The iterator that skips useless vertices yields those where an edge begins or ends. -/
theorem C98_text_used {s : State} (h : Lattice.Spec.Reachable s) (hw : Utf8.Spec.WellFormed s.text) (ha : Aligned s)
    (hl : s.nLoose = 0) (order : List Vertex) :
    ∃ it l, VIter.start s order true = .ok it ∧ (∀ n, s.text.length + 2 ≤ n → it.all s n = some (.ok l)) ∧
      l.Pairwise (· < ·) ∧ ∀ v, v ∈ l ↔ Used s v := by
  obtain ⟨it, l, h1, h2, h3, h4, h5⟩ := text_walk (skip := true) (fun _ => ⟨reachable_verts h, ha⟩) hw hl order
  refine ⟨it, l, h1, fun n hn => yields_all h2 (by omega), h4, ?_⟩
  intro v
  rw [h5]
  constructor
  · rintro ⟨_, hu⟩
    exact hu rfl
  · intro hu
    refine ⟨?_, fun _ => hu⟩
    apply (used_position (reachable_inv' h) ha hu).2.2
    obtain ⟨e, he, hv⟩ := hu
    have := noLoose_span (reachable_inv' h) hl he
    rcases hv with rfl | rfl <;> omega

/-- **C98** With loose vertices the iterator yields the vertices of the graph and the positions of the text (those that
are used, and the end, if it skips useless vertices), once each and sorted by their places.  Every edge leads from a
vertex to a later one, except one from a loose vertex back to a text position before the place of the loose vertex. -/
theorem C98_loose {s : State} (h : Lattice.Spec.Reachable s) (hw : Utf8.Spec.WellFormed s.text) (skip : Bool)
    (ha : skip = true → Aligned s) (hl : s.nLoose ≠ 0) {order : List Vertex} (hto : Topological s order) :
    ∃ (it : VIter) (l : List Vertex) (f : Vertex → Int), VIter.start s order skip = .ok it ∧ (∀ n, l.length < n → it.all s n = some (.ok l)) ∧ l.Nodup ∧
      (∀ v, v ∈ l ↔ GraphVertex s v ∨ (Position s v ∧ (v = s.text.length ∨ (skip = true → Used s v)))) ∧
      (∀ v ∈ l, Place s v (f v)) ∧ l.Pairwise (fun a b => f a ≤ f b) ∧
      (∀ e, Present s e → Explicit e ∨ Aligned s → (s.src e < 0 → 0 ≤ s.tgt e → f (s.src e) ≤ s.tgt e) →
        Before l (s.src e) (s.tgt e)) := by
  have hv := reachable_verts h
  have hi := reachable_inv' h
  obtain ⟨l, h1, h2, h3, h4, h5⟩ := loose_walk hv ha hw hl hto (skip := skip)
  have hplace : ∀ v, v ∈ l → Place s v (place s s.verts.length v) := by
    intro v hvl
    by_cases h0 : 0 ≤ v
    · unfold Place; rw [if_pos h0, place_text _ _ _ h0]
    · rcases (h3 v).1 hvl with hg | ⟨hp, _⟩
      · apply place_spec hto
        rw [← order_length hv hto, List.idxOf_lt_length_iff]
        exact (hto.mem v).2 hg
      · exact absurd hp.1 h0
  refine ⟨_, l, place s s.verts.length, h1, fun n hn => yields_all (yields_rest s 0 skip l) hn, h2, h3, hplace, h4, ?_⟩
  intro e he hx hback
  cases e with
  | impl i =>
    have hal : Aligned s := by
      rcases hx with hx | hx
      · exact absurd hx (by simp [Explicit])
      · exact hx
    have hu1 : Used s (s.src (.impl i)) := ⟨_, he, Or.inl rfl⟩
    have hu2 : Used s (s.tgt (.impl i)) := ⟨_, he, Or.inr rfl⟩
    have h01 : 0 ≤ s.src (.impl i) := by simp only [State.src]; omega
    have h02 : 0 ≤ s.tgt (.impl i) := by simp only [State.tgt]; omega
    apply before_of_lt h4
    · exact (h3 _).2 (Or.inr ⟨(used_position hi hal hu1).2.2 h01, Or.inr fun _ => hu1⟩)
    · exact (h3 _).2 (Or.inr ⟨(used_position hi hal hu2).2.2 h02, Or.inr fun _ => hu2⟩)
    · rw [place_text _ _ _ h01, place_text _ _ _ h02]
      have := symLen_pos s i
      simp only [State.src, State.tgt]
      omega
  | expl k =>
    have hb := hto.forward _ he trivial
    apply h5 _ _ hb
    have hk := hi.entries k (present_expl.1 he)
    have hfw := hk.forward
    have hsm : s.src (.expl k) ∈ l := (h3 _).2 (Or.inl (Or.inr ⟨_, he, trivial, Or.inl rfl⟩))
    have htm : s.tgt (.expl k) ∈ l := (h3 _).2 (Or.inl (Or.inr ⟨_, he, trivial, Or.inr rfl⟩))
    have hp1 := hplace _ hsm
    have hp2 := hplace _ htm
    by_cases hs : 0 ≤ s.src (.expl k)
    · by_cases ht : 0 ≤ s.tgt (.expl k)
      · rw [place_text _ _ _ hs, place_text _ _ _ ht]
        simp only [State.src, State.tgt] at hs ht ⊢
        by_contra hgt
        exact hfw ⟨hs, ht, by omega⟩
      · rw [place_text _ _ _ hs]
        unfold Place at hp2
        rw [if_neg ht] at hp2
        have hlead := LeadsTo.edge he hs
        rcases hp2 with ⟨_, hp2⟩ | ⟨_, hp2⟩
        · exact hp2 _ hlead
        · exact absurd hlead (hp2 _)
    · by_cases ht : 0 ≤ s.tgt (.expl k)
      · rw [place_text _ _ _ ht]
        exact hback (by omega) ht
      · unfold Place at hp1 hp2
        rw [if_neg hs] at hp1
        rw [if_neg ht] at hp2
        rcases hp1 with ⟨hp1, _⟩ | ⟨hp1, _⟩
        · have hlead := LeadsTo.step hp1 (by omega) he
          rcases hp2 with ⟨_, hp2⟩ | ⟨_, hp2⟩
          · exact hp2 _ hlead
          · exact absurd hlead (hp2 _)
        · rw [hp1]
          exact place_ge (s := s) (v := s.tgt (.expl k)) (by unfold Place; rw [if_neg ht]; exact hp2)

/-! ### Concrete lattices -/

theorem ascii_wellFormed {t : Str} (h : ∀ b ∈ t, b < 128) : Utf8.Spec.WellFormed t := by
  induction t with
  | nil => exact ⟨[], by simp, rfl⟩
  | cons b t ih =>
    obtain ⟨cs, hc, ht⟩ := ih (fun x hx => h x (by simp [hx]))
    have hb := h b (by simp)
    have hb' : b.toNat < 128 := by simpa [UInt8.lt_iff_toNat_lt] using hb
    refine ⟨b.toNat :: cs, ?_, ?_⟩
    · intro x hx
      rcases List.mem_cons.1 hx with rfl | hx
      · unfold Utf8.Spec.Scalar; omega
      · exact hc x hx
    · rw [encodeAll_cons', ← ht]
      have : Utf8.Spec.encode b.toNat = [b] := by
        have all : ∀ n : Fin 128, Utf8.Spec.encode n.val = [UInt8.ofNat n.val] := by decide +kernel
        have := all ⟨b.toNat, hb'⟩
        simpa using this
      rw [this]
      rfl

theorem ascii_aligned {s : State} (h : ∀ b ∈ s.text, b < 128) : Aligned s :=
  fun e _ => ⟨Or.inr (ascii_wellFormed fun b hb => h b (List.mem_of_mem_take hb)),
    Or.inr (ascii_wellFormed fun b hb => h b (List.mem_of_mem_take hb))⟩

theorem topological_of {s : State} (h : Lattice.Spec.Reachable s) {order : List Vertex} (hn : order.Nodup)
    (hp : order.Perm s.verts) (hf : ∀ k, k < s.edges.length → Before order (s.entry k).src (s.entry k).tgt) : Topological s order where
  nodup := hn
  mem := fun v => by rw [hp.mem_iff, mem_verts (reachable_verts h)]
  forward := by
    intro e he hx
    cases e with
    | impl i => exact absurd hx (by simp [Explicit])
    | expl k => exact hf k (present_expl.1 he)

/-- "abcd" with a loose vertex, an edge from `u` to it and one from it to `v`. -/
def walkArgs (u v : Vertex) : Args := { src := u, tgt := v, item := ⟨[120], [], []⟩, tags := bit 2 }
def walk0 : State := (addLooseVertex abcd0).2
def walk (u v : Vertex) : State := (addEdge (addEdge walk0 (walkArgs u (-1))).2 (walkArgs (-1) v)).2
/-- The way from 1 over the loose vertex to 3, and the letter "a". -/
def forth : State := (addEdge (walk 1 3) (symArgs 0 97)).2
/-- The way from 3 over the loose vertex back to 1. -/
def back : State := walk 3 1

theorem walk0_reachable : Lattice.Spec.Reachable walk0 :=
  .step (reachable_append .refl _) trivial .loose

theorem back_reachable : Lattice.Spec.Reachable back := by
  have h1 := reachable_add walk0_reachable (a := walkArgs 3 (-1)) (made_token walk0_reachable) (by decide +kernel)
  exact reachable_add h1 (made_token h1) (by decide +kernel)

theorem forth_reachable : Lattice.Spec.Reachable forth := by
  have h1 := reachable_add walk0_reachable (a := walkArgs 1 (-1)) (made_token walk0_reachable) (by decide +kernel)
  have h2 := reachable_add h1 (a := walkArgs (-1) 3) (made_token h1) (by decide +kernel)
  exact reachable_add h2 (made_symbol h2) (by decide +kernel)

theorem back_topological : Topological back [3, -1, 1] :=
  topological_of back_reachable (by decide +kernel) (by decide +kernel) (by unfold Before; decide +kernel)

theorem forth_topological : Topological forth [1, -1, 3] :=
  topological_of forth_reachable (by decide +kernel) (by decide +kernel) (by unfold Before; decide +kernel)

example : Utf8.Spec.WellFormed sample2.text ∧ sample2.nLoose = 0 ∧ Position sample2 1 ∧ Position sample2 3 ∧
    ¬Position sample2 2 ∧ Lattice.Spec.Reachable sample2 ∧ Used sample2 1 := by
  refine ⟨⟨[97, 233], by simp [Utf8.Spec.Scalar], by decide +kernel⟩, by decide +kernel,
    ⟨by decide, by decide +kernel, [97], by simp [Utf8.Spec.Scalar], by decide +kernel⟩,
    ⟨by decide, by decide +kernel, [97, 233], by simp [Utf8.Spec.Scalar], by decide +kernel⟩, ?_, sample2_reachable,
    ⟨.impl 0, present_impl.2 (by decide +kernel), Or.inr (by decide +kernel)⟩⟩
  rintro ⟨_, _, h⟩
  have ht : sample2.text = Utf8.Spec.encodeAll [97, 233] := by decide +kernel
  rw [ht] at h
  have := (prefix_split (cs := [97, 233]) (by simp [Utf8.Spec.Scalar]) (by decide +kernel)).1 h
  revert this
  decide +kernel

example : Lattice.Spec.Reachable forth ∧ Utf8.Spec.WellFormed forth.text ∧ Aligned forth ∧ forth.nLoose ≠ 0 ∧
    Topological forth [1, -1, 3] ∧ Place forth (-1) 1 ∧ Present forth (.impl 0) := by
  refine ⟨forth_reachable, ascii_wellFormed (by decide +kernel), ascii_aligned (by decide +kernel), by decide +kernel,
    forth_topological, ?_, present_impl.2 (by decide +kernel)⟩
  have := place_spec forth_topological 3 (-1) (by decide +kernel)
  have hp : place forth 3 (-1) = 1 := by decide +kernel
  rwa [hp] at this

/-- **C98** is not true as "the source of every edge stands before its target": an edge from a loose vertex may lead back. -/
theorem C98_back_false : ∃ (s : State) (order l : List Vertex) (it : VIter) (e : Edge), Lattice.Spec.Reachable s ∧
    Utf8.Spec.WellFormed s.text ∧ Aligned s ∧ Topological s order ∧ VIter.start s order true = .ok it ∧
    (∀ n, l.length < n → it.all s n = some (.ok l)) ∧ l.Nodup ∧ Present s e ∧ Before l (s.tgt e) (s.src e) := by
  have ha : Aligned back := ascii_aligned (by decide +kernel)
  obtain ⟨it, l, f, h1, h2, h3, h4, h5, h6, _⟩ := C98_loose back_reachable (ascii_wellFormed (by decide +kernel)) true
    (fun _ => ha) (by decide +kernel) back_topological
  refine ⟨back, [3, -1, 1], l, it, .expl 1, back_reachable, ascii_wellFormed (by decide +kernel), ha, back_topological, h1, h2, h3,
    present_expl.2 (by decide +kernel), ?_⟩
  have m1 : (1 : Vertex) ∈ l := (h4 1).2 (Or.inl ((back_topological.mem 1).1 (by simp)))
  have m2 : (-1 : Vertex) ∈ l := (h4 (-1)).2 (Or.inl ((back_topological.mem (-1)).1 (by simp)))
  have p1 := h5 1 m1
  have p2 := h5 (-1) m2
  unfold Place at p1 p2
  rw [if_pos (by decide)] at p1
  rw [if_neg (by decide)] at p2
  have hlead : LeadsTo back 3 (-1) := LeadsTo.edge (s := back) (e := .expl 0) (present_expl.2 (by decide +kernel)) (by decide +kernel)
  have hle : 3 ≤ f (-1) := by
    rcases p2 with ⟨_, p2⟩ | ⟨_, p2⟩
    · exact p2 3 hlead
    · exact absurd hlead (p2 3)
  have : Before l 1 (-1) := before_of_lt h6 m1 m2 (by omega)
  exact this

theorem walk_rest (s : State) (vd : Nat) (skip : Bool) (l : List Vertex) : Walk s ⟨vd, some l, skip⟩ l ⟨vd, some [], skip⟩ := by
  induction l with
  | nil => exact .nil _
  | cons v l ih => exact .cons (it1 := ⟨vd, some (v :: l), skip⟩) (by simp [VIter.hasNext]) (by simp [VIter.next]) ih

/-- **C98** Without loose vertices `next` behind the last vertex throws. -/
theorem C98_end {s : State} {it it1 : VIter} (h : it.hasNext s = .ok (false, it1)) (hr : it.rest = none) :
    it1.next s = .error .noVertex ∧ it.next s = .error .noVertex := by
  unfold VIter.hasNext at h
  rw [hr] at h
  dsimp only at h
  split at h
  · cases h
  · rename_i vd hvd
    simp only [Except.ok.injEq, Prod.mk.injEq, decide_eq_false_iff_not] at h
    obtain ⟨h4, rfl⟩ := h
    constructor
    · simp only [VIter.next, hr, VIter.nextText]
      have : seekVertex s it.skip (s.text.length + 1) vd = .ok vd := by rw [seekVertex, if_neg h4]
      rw [this]
      simp [h4]
    · simp only [VIter.next, hr, VIter.nextText, hvd]
      simp [h4]

/-- **C98** With loose vertices it starts again with the positions of the text. -/
theorem C98_end_false : ∃ (s : State) (order l : List Vertex) (it it1 it2 : VIter) (v : Vertex), Lattice.Spec.Reachable s ∧
    Utf8.Spec.WellFormed s.text ∧ Topological s order ∧ VIter.start s order false = .ok it ∧ Walk s it l it1 ∧
    it1.hasNext s = .ok (false, it1) ∧ v ∈ l ∧ it1.next s = .ok (v, it2) := by
  obtain ⟨l, h1, h2, h3, h4, h5⟩ := loose_walk (reachable_verts back_reachable) (skip := false) (by simp)
    (ascii_wellFormed (by decide +kernel)) (by decide +kernel) back_topological
  refine ⟨back, [3, -1, 1], l, ⟨0, some l, false⟩, ⟨0, some [], false⟩, ⟨1, some [], false⟩, 0, back_reachable,
    ascii_wellFormed (by decide +kernel), back_topological, h1, walk_rest _ _ _ _, rfl, ?_, rfl⟩
  refine (h3 0).2 (Or.inr ⟨⟨by decide, by decide +kernel, [], by simp, rfl⟩, Or.inr (by simp)⟩)

theorem inside1_reachable : Lattice.Spec.Reachable inside1 := by
  have h0 : Lattice.Spec.Reachable bad0 := reachable_append .refl _
  exact reachable_add h0 (made_symbol h0) (by decide +kernel)

/-- **C98** needs `Aligned`: a position that is the end of an edge from within a character is skipped. -/
theorem C98_inside_false : ∃ (s : State) (it : VIter) (l : List Vertex) (v : Vertex), Lattice.Spec.Reachable s ∧
    Utf8.Spec.WellFormed s.text ∧ s.nLoose = 0 ∧ VIter.start s [] true = .ok it ∧ it.all s 10 = some (.ok l) ∧
    Position s v ∧ Used s v ∧ v ∉ l :=
  ⟨inside1, ⟨0, none, true⟩, [], 2, inside1_reachable, ⟨[233], by simp [Utf8.Spec.Scalar], by decide +kernel⟩, by decide +kernel,
    rfl, by decide +kernel, ⟨by decide, by decide +kernel, [233], by simp [Utf8.Spec.Scalar], by decide +kernel⟩,
    ⟨.impl 1, present_impl.2 (by decide +kernel), Or.inr (by decide +kernel)⟩, by simp⟩

/-- A text that ends within a character. -/
def cut0 : State := appendString initial [195]
def cut1 : State := (addEdge cut0 { src := 0, tgt := 1, item := ⟨[120], [], []⟩, tags := bit 2 }).2

/-- **C98** needs a well-formed text: otherwise the end of the text may be left out. -/
theorem C98_malformed_false : ∃ (s : State) (it : VIter) (l : List Vertex), Lattice.Spec.Reachable s ∧ s.nLoose = 0 ∧
    VIter.start s [] true = .ok it ∧ it.all s 10 = some (.ok l) ∧ Used s s.text.length ∧ (s.text.length : Vertex) ∉ l := by
  have h0 : Lattice.Spec.Reachable cut0 := reachable_append .refl _
  exact ⟨cut1, ⟨0, none, true⟩, [0], reachable_add h0 (made_token h0) (by decide +kernel), by decide +kernel, rfl,
    by decide +kernel, ⟨.expl 0, present_expl.2 (by decide +kernel), Or.inr (by decide +kernel)⟩, by decide +kernel⟩

/-! ## C99 -/

/-- Both kinds of walks, for the iterators over edges. -/
theorem walk_used {s : State} (h : Lattice.Spec.Reachable s) (hw : Utf8.Spec.WellFormed s.text) (ha : Aligned s)
    {order : List Vertex} (hto : s.nLoose = 0 ∨ Topological s order) :
    ∃ vi vs, ∃ f : Vertex → Int, VIter.start s order true = .ok vi ∧ Yields s vi vs ∧ vs.Nodup ∧ (∀ v, Used s v → v ∈ vs) ∧
      (∀ v ∈ vs, s.validVertex v = true ∧ Boundary s v) ∧ (∀ v ∈ vs, Place s v (f v)) ∧ vs.Pairwise (fun a b => f a ≤ f b) := by
  have hv := reachable_verts h
  have hi := reachable_inv' h
  have hpos : ∀ v, Position s v → s.validVertex v = true ∧ Boundary s v := by
    rintro v ⟨h1, h2, h3⟩
    refine ⟨?_, Or.inr h3⟩
    simp only [State.validVertex, Bool.and_eq_true, decide_eq_true_eq]
    constructor <;> omega
  by_cases hl : s.nLoose = 0
  · obtain ⟨it, l, h1, h2, h3, h4, h5⟩ := text_walk (skip := true) (fun _ => ⟨hv, ha⟩) hw hl order
    refine ⟨it, l, id, h1, h2, h4.imp (by intro a b h; omega), ?_, ?_, ?_, h4.imp (by intro a b h; simp; omega)⟩
    · intro v hu
      refine (h5 v).2 ⟨?_, fun _ => hu⟩
      apply (used_position hi ha hu).2.2
      obtain ⟨e, he, hv⟩ := hu
      have := noLoose_span hi hl he
      rcases hv with rfl | rfl <;> omega
    · intro v hm
      exact hpos v ((h5 v).1 hm).1
    · intro v hm
      unfold Place
      rw [if_pos ((h5 v).1 hm).1.1]
      rfl
  · have hto : Topological s order := by
      rcases hto with h | h
      · exact absurd h hl
      · exact h
    obtain ⟨l, h1, h2, h3, h4, h5⟩ := loose_walk hv (fun _ => ha) hw hl hto (skip := true)
    refine ⟨_, l, place s s.verts.length, h1, yields_rest _ _ _ _, h2, ?_, ?_, ?_, h4⟩
    · intro v hu
      by_cases h0 : 0 ≤ v
      · exact (h3 v).2 (Or.inr ⟨(used_position hi ha hu).2.2 h0, Or.inr fun _ => hu⟩)
      · have := (used_position hi ha hu).2.1
        simp only [State.validVertex, Bool.and_eq_true, decide_eq_true_eq] at this
        exact (h3 v).2 (Or.inl (Or.inl ⟨by omega, this.1⟩))
    · intro v hm
      rcases (h3 v).1 hm with (⟨a, b⟩ | ⟨e, he, _, hv⟩) | ⟨hp, _⟩
      · refine ⟨?_, Or.inl a⟩
        simp only [State.validVertex, Bool.and_eq_true, decide_eq_true_eq]
        exact ⟨b, by omega⟩
      · have := used_position hi ha (v := v) ⟨e, he, hv⟩
        exact ⟨this.2.1, this.1⟩
      · exact hpos v hp
    · intro v hm
      by_cases h0 : 0 ≤ v
      · unfold Place; rw [if_pos h0, place_text _ _ _ h0]
      · rcases (h3 v).1 hm with hg | ⟨hp, _⟩
        · apply place_spec hto
          rw [← order_length hv hto, List.idxOf_lt_length_iff]
          exact (hto.mem v).2 hg
        · exact absurd hp.1 h0

/-- **C99** The iterators over sorted edges yield every edge that the lattice returns at its source (at its target) for
the mask, once, sorted by the places of the sources (of the targets). -/
theorem C99_edges {s : State} (h : Lattice.Spec.Reachable s) (hw : Utf8.Spec.WellFormed s.text) (ha : Aligned s)
    {order : List Vertex} (hto : s.nLoose = 0 ∨ Topological s order) {mask : Mask} (hp : ProperMask mask) (byTarget : Bool) :
    ∃ (it : SIter) (es : List Edge) (q : State) (f : Vertex → Int) (n0 : Nat), SIter.start s order byTarget mask = (.ok it, q) ∧
      (∀ fuel n, n0 ≤ fuel → n0 ≤ n → SIter.all fuel n q it = some (.ok es, q)) ∧ es.Nodup ∧
      (∀ e, e ∈ es ↔ Present s e ∧ Offered s byTarget mask e) ∧
      (∀ e ∈ es, Place s (endOf s byTarget e) (f (endOf s byTarget e))) ∧
      es.Pairwise (fun a b => f (endOf s byTarget a) ≤ f (endOf s byTarget b)) := by
  have hi := reachable_inv' h
  obtain ⟨vi, vs, f, h1, h2, h3, h4, h5, h6, h7⟩ := walk_used h hw ha hto
  have hview := queried_view hi mask
  have hsound := fun v => C05_sound h hp v
  -- the edges at a vertex
  let g : Vertex → List Edge := fun v =>
    if byTarget then (match (inEdges s v mask).1 with | .ok l => l | .error _ => []) else (outEdges s v mask).1
  have hgin : ∀ v ∈ vs, byTarget = true → (inEdges s v mask).1 = .ok (g v) := by
    intro v hv hb
    obtain ⟨l, hl⟩ := inEdges_ok hi mask (h5 v hv).1 (h5 v hv).2
    simp only [g, hb, if_true, hl]
  have hgend : ∀ v ∈ vs, ∀ e ∈ g v, Present s e ∧ endOf s byTarget e = v := by
    intro v hv e he
    cases hb : byTarget with
    | true =>
      obtain ⟨all, ha1, ha2⟩ := (hsound v).2 _ (hgin v hv hb)
      have := (mem_allIn h ha (h5 v hv).2 (h5 v hv).1 ha1 e).1 (ha2 e he).1
      simpa [endOf] using this
    | false =>
      simp only [g, hb, Bool.false_eq_true, if_false] at he
      have := mem_allOut_iff.1 ((hsound v).1 e he).1
      simpa [endOf] using this
  have hgnd : ∀ v ∈ vs, (g v).Nodup := by
    intro v hv
    cases hb : byTarget with
    | true => exact inEdges_nodup hi (hgin v hv hb)
    | false =>
      simp only [g, hb, Bool.false_eq_true, if_false]
      exact outEdges_nodup hi v mask
  have hedges : ∀ vi es, ∀ v ∈ vs, SIter.edgesAt (queried s mask) ⟨vi, es, byTarget, mask⟩ v = (.ok (g v), queried s mask) := by
    intro vi es v hv
    cases hb : byTarget with
    | true =>
      have hin : (inEdges (queried s mask) v mask).1 = .ok (g v) := by rw [hview.maskIns]; exact hgin v hv hb
      have hst := inEdges_snd hin
      rw [queried_twice] at hst
      simp only [SIter.edgesAt, if_true]
      exact Prod.ext hin hst
    | false =>
      rw [edgesAt_out, queried_twice, hview.maskOuts]
      simp only [g, hb, Bool.false_eq_true, if_false]
  have hzero : ∀ vi, (SIter.edgesAt s ⟨vi, [], byTarget, mask⟩ 0).2 = queried s mask ∧
      ∃ l, (SIter.edgesAt s ⟨vi, [], byTarget, mask⟩ 0).1 = .ok l ∧ (vs = [] → l = []) := by
    intro vi
    have hv0 : s.validVertex 0 = true := by simp [State.validVertex]
    have hb0 : Boundary s 0 := Or.inr ⟨[], by simp, rfl⟩
    cases hb : byTarget with
    | true =>
      obtain ⟨l, hl⟩ := inEdges_ok hi mask hv0 hb0
      simp only [SIter.edgesAt, if_true]
      refine ⟨inEdges_snd hl, l, hl, ?_⟩
      intro hvs
      rw [List.eq_nil_iff_forall_not_mem]
      intro e he
      obtain ⟨all, ha1, ha2⟩ := (hsound 0).2 _ hl
      have := (mem_allIn h ha hb0 hv0 ha1 e).1 (ha2 e he).1
      have hm := h4 0 ⟨e, this.1, Or.inr this.2⟩
      rw [hvs] at hm
      cases hm
    | false =>
      rw [edgesAt_out]
      refine ⟨rfl, _, rfl, ?_⟩
      intro hvs
      rw [List.eq_nil_iff_forall_not_mem]
      intro e he
      have := mem_allOut_iff.1 ((hsound 0).1 e he).1
      have hm := h4 0 ⟨e, this.1, Or.inl this.2⟩
      rw [hvs] at hm
      cases hm
  have hmem : ∀ e, e ∈ vs.flatMap g ↔ Present s e ∧ Offered s byTarget mask e := by
    intro e
    rw [List.mem_flatMap]
    constructor
    · rintro ⟨v, hv, he⟩
      obtain ⟨hpr, hev⟩ := hgend v hv e he
      refine ⟨hpr, ?_⟩
      cases hb : byTarget with
      | true =>
        simp only [endOf, hb, if_true] at hev
        simp only [Offered, if_true]
        exact ⟨g v, by rw [hev]; exact hgin v hv hb, he⟩
      | false =>
        simp only [endOf, hb, Bool.false_eq_true, if_false] at hev
        simp only [Offered, Bool.false_eq_true, if_false]
        simp only [g, hb, Bool.false_eq_true, if_false] at he
        rw [hev]
        exact he
    · rintro ⟨hpr, hoff⟩
      cases hb : byTarget with
      | true =>
        simp only [Offered, hb, if_true] at hoff
        obtain ⟨l, hl, he⟩ := hoff
        have hv := h4 (s.tgt e) ⟨e, hpr, Or.inr rfl⟩
        refine ⟨s.tgt e, hv, ?_⟩
        have := hgin _ hv hb
        rw [hl] at this
        simp only [Except.ok.injEq] at this
        rw [← this]
        exact he
      | false =>
        simp only [Offered, hb, Bool.false_eq_true, if_false] at hoff
        refine ⟨s.src e, h4 (s.src e) ⟨e, hpr, Or.inl rfl⟩, ?_⟩
        simp only [g, hb, Bool.false_eq_true, if_false]
        exact hoff
  obtain ⟨it, hstart, _⟩ := start_edges (f := g) (fuel := vs.length + 1) (n := (vs.flatMap g).length + 1) h1 h2 hzero hedges
    (by omega) (by omega)
  refine ⟨it, vs.flatMap g, queried s mask, f, vs.length + (vs.flatMap g).length + 1, hstart, ?_, ?_, hmem, ?_, ?_⟩
  · intro fuel n hf hn
    obtain ⟨it', hstart', hall⟩ := start_edges (f := g) (fuel := fuel) (n := n) h1 h2 hzero hedges (by omega) (by omega)
    rw [hstart] at hstart'
    simp only [Prod.mk.injEq, Except.ok.injEq, and_true] at hstart'
    rw [hstart']
    exact hall
  · unfold List.Nodup
    rw [List.pairwise_flatMap]
    refine ⟨hgnd, ?_⟩
    refine List.Pairwise.imp_of_mem ?_ h3
    intro a b hma hmb hab x hx y hy hxy
    subst hxy
    exact hab ((hgend a hma x hx).2.symm.trans (hgend b hmb x hy).2)
  · intro e he
    rw [List.mem_flatMap] at he
    obtain ⟨v, hv, he⟩ := he
    rw [(hgend v hv e he).2]
    exact h6 v hv
  · rw [List.pairwise_flatMap]
    constructor
    · intro v hv
      refine List.Pairwise.imp_of_mem (R := fun _ _ => True) ?_ (List.pairwise_of_forall (by simp))
      intro a b hma hmb _
      rw [(hgend v hv a hma).2, (hgend v hv b hmb).2]
    · refine List.Pairwise.imp_of_mem ?_ h7
      intro a b hma hmb hab x hx y hy
      rw [(hgend a hma x hx).2, (hgend b hmb y hy).2]
      exact hab

example : Lattice.Spec.Reachable forth ∧ Utf8.Spec.WellFormed forth.text ∧ Aligned forth ∧ Topological forth [1, -1, 3] ∧
    ProperMask (Mask.ofBool true) ∧ Offered forth true (Mask.ofBool true) (.expl 0) ∧ Offered forth false (Mask.ofBool true) (.impl 0) :=
  ⟨forth_reachable, ascii_wellFormed (by decide +kernel), ascii_aligned (by decide +kernel), forth_topological, .flag true,
    ⟨[.expl 0], by decide +kernel, by simp⟩,
    by show Edge.impl 0 ∈ (outEdges forth (forth.src (.impl 0)) (Mask.ofBool true)).1; decide +kernel⟩

/-- **C99** If no edge has come to match the mask since it was first used, the iterators yield exactly the edges
that match it.  Missing: masks asked for earlier (see `C05_stale_index_false`) and edges that begin or end within a
character (see `C99_inside_false`). -/
theorem C99_exact_partial {s0 s : State} {mask : Mask} (hp : ProperMask mask) (h0 : Run (NotQueried mask) initial s0)
    (hm : symbolMask.eq mask = false ∨ s0 = initial) (h : Run (NoNewMatch mask) s0 s) (hz : 0 ∉ mask.alts)
    (hw : Utf8.Spec.WellFormed s.text) (ha : Aligned s) {order : List Vertex} (hto : s.nLoose = 0 ∨ Topological s order)
    (byTarget : Bool) :
    ∃ (it : SIter) (es : List Edge) (q : State) (f : Vertex → Int) (n0 : Nat), SIter.start s order byTarget mask = (.ok it, q) ∧
      (∀ fuel n, n0 ≤ fuel → n0 ≤ n → SIter.all fuel n q it = some (.ok es, q)) ∧ es.Nodup ∧
      (∀ e, e ∈ es ↔ Present s e ∧ «matches» (s.tags e) mask = true) ∧
      (∀ e ∈ es, Place s (endOf s byTarget e) (f (endOf s byTarget e))) ∧
      es.Pairwise (fun a b => f (endOf s byTarget a) ≤ f (endOf s byTarget b)) := by
  have hr : Lattice.Spec.Reachable s := steps_trans (run_steps h0) (run_steps h)
  have hi := reachable_inv' hr
  obtain ⟨it, es, q, f, n0, h1, h2, h3, h4, h5, h6⟩ := C99_edges hr hw ha hto hp byTarget
  refine ⟨it, es, q, f, n0, h1, h2, h3, ?_, h5, h6⟩
  intro e
  rw [h4]
  apply and_congr_right
  intro hpr
  obtain ⟨hout, hin⟩ := C05_exact_partial hp h0 hm h hz (s.src e)
  cases byTarget with
  | false =>
    simp only [Offered, Bool.false_eq_true, if_false, hout, List.mem_filter, mem_allOut_iff]
    simp [hpr]
  | true =>
    obtain ⟨_, hin⟩ := C05_exact_partial hp h0 hm h hz (s.tgt e)
    have hu : Used s (s.tgt e) := ⟨e, hpr, Or.inr rfl⟩
    obtain ⟨hb, hv, _⟩ := used_position hi ha hu
    obtain ⟨l, hl⟩ : ∃ l, s.allInEdges (s.tgt e) = .ok l := by
      obtain ⟨l, hl, _⟩ := C06_agree_partial hr hb hb hv
      exact ⟨l, hl⟩
    have := hin l hl
    simp only [Offered, if_true, this, Except.ok.injEq]
    constructor
    · rintro ⟨_, rfl, he⟩
      exact (List.mem_filter.1 he).2
    · intro hmt
      exact ⟨_, rfl, List.mem_filter.2 ⟨(mem_allIn hr ha hb hv hl e).2 ⟨hpr, rfl⟩, hmt⟩⟩

example : ProperMask (Mask.ofTags (bit 2)) ∧ Run (NotQueried (Mask.ofTags (bit 2))) initial sample0 ∧
    Run (NoNewMatch (Mask.ofTags (bit 2))) sample0 sample0 ∧ symbolMask.eq (Mask.ofTags (bit 2)) = false ∧
    0 ∉ (Mask.ofTags (bit 2)).alts ∧ Aligned sample0 :=
  ⟨.alts [bit 2], .step (c := .append [97, 195, 169]) .refl trivial .append, .refl, by decide +kernel, by decide +kernel, by
    intro e he
    cases e with
    | impl i =>
      exfalso
      have := present_impl.1 he
      have himp : sample0.implicit = [false, false, false, false] := by decide +kernel
      rw [himp] at this
      unfold bitAt at this
      rcases i with _ | _ | _ | _ | i <;> simp at this
    | expl k =>
      have := present_expl.1 he
      have hl : sample0.edges.length = 0 := by decide +kernel
      omega⟩

/-- **C99** needs `Aligned`: an edge that begins within a character is not found. -/
theorem C99_inside_false : ∃ (s : State) (it : SIter) (q : State) (e : Edge), Lattice.Spec.Reachable s ∧
    Utf8.Spec.WellFormed s.text ∧ s.nLoose = 0 ∧ SIter.start s [] false (Mask.ofBool true) = (.ok it, q) ∧
    SIter.all 10 10 q it = some (.ok [], q) ∧ Present s e ∧ Offered s false (Mask.ofBool true) e :=
  ⟨inside1, ⟨⟨3, none, true⟩, [], false, Mask.ofBool true⟩, inside1, .impl 1, inside1_reachable,
    ⟨[233], by simp [Utf8.Spec.Scalar], by decide +kernel⟩, by decide +kernel, rfl, rfl,
    present_impl.2 (by decide +kernel),
    by show Edge.impl 1 ∈ (outEdges inside1 (inside1.src (.impl 1)) (Mask.ofBool true)).1; decide +kernel⟩

end Verif.Lattice
