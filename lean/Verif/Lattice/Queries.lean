import Verif.Lattice.Invariant

/-!
What the queries return, in terms of the stored edges.
-/
set_option linter.unusedVariables false
set_option linter.unusedSimpArgs false

namespace Verif.Lattice
open Verif Verif.Tags Verif.Tags.Spec Verif.Lattice.Spec

theorem mem_implicitOut {s : State} {v : Vertex} {e : Edge} :
    e ∈ s.implicitOut v ↔ ∃ i : Nat, e = .impl i ∧ v = i ∧ bitAt s.implicit i = true := by
  unfold State.implicitOut
  split
  · rename_i h
    simp only [List.mem_singleton]
    constructor
    · rintro rfl; exact ⟨_, rfl, by omega, h.2⟩
    · rintro ⟨i, rfl, rfl, _⟩; simp
  · rename_i h
    simp only [List.not_mem_nil, false_iff]
    rintro ⟨i, rfl, rfl, hb⟩
    exact h ⟨by omega, by simpa using hb⟩

theorem mem_graphOut {s : State} {v : Vertex} {k : Nat} :
    k ∈ s.graphOut v ↔ k < s.edges.length ∧ (s.entry k).src = v := by
  simp [State.graphOut]

theorem mem_graphIn {s : State} {v : Vertex} {k : Nat} :
    k ∈ s.graphIn v ↔ k < s.edges.length ∧ (s.entry k).tgt = v := by
  simp [State.graphIn]

theorem impl_mem_allOut {s : State} {v : Vertex} {i : Nat} :
    .impl i ∈ s.allOutEdges v ↔ v = i ∧ bitAt s.implicit i = true := by
  simp [State.allOutEdges, mem_implicitOut]

theorem expl_mem_allOut {s : State} {v : Vertex} {k : Nat} :
    .expl k ∈ s.allOutEdges v ↔ k < s.edges.length ∧ (s.entry k).src = v := by
  simp [State.allOutEdges, mem_implicitOut, mem_graphOut]

theorem mem_allOut_src {s : State} {v : Vertex} {e : Edge} (h : e ∈ s.allOutEdges v) :
    s.src e = v := by
  cases e with
  | impl i => exact (impl_mem_allOut.1 h).1.symm
  | expl k => exact (expl_mem_allOut.1 h).2

theorem present_impl {s : State} {i : Nat} : Present s (.impl i) ↔ bitAt s.implicit i = true := by
  simp [Present, impl_mem_allOut]

theorem present_expl {s : State} {k : Nat} : Present s (.expl k) ↔ k < s.edges.length := by
  simp [Present, expl_mem_allOut]

theorem mem_allOut_iff {s : State} {v : Vertex} {e : Edge} :
    e ∈ s.allOutEdges v ↔ Present s e ∧ s.src e = v := by
  constructor
  · intro h; exact ⟨⟨v, h⟩, mem_allOut_src h⟩
  · rintro ⟨⟨w, hw⟩, rfl⟩
    rw [mem_allOut_src hw]; exact hw

theorem allOut_nodup (s : State) (v : Vertex) : (s.allOutEdges v).Nodup := by
  unfold State.allOutEdges
  rw [List.nodup_append]
  refine ⟨?_, ?_, ?_⟩
  · unfold State.implicitOut; split <;> simp
  · exact List.pairwise_map.2 ((List.nodup_range.filter _).imp (fun hne heq => hne (by simpa using heq)))
  · intro a ha b hb
    obtain ⟨i, rfl, _⟩ := mem_implicitOut.1 ha
    simp at hb
    obtain ⟨k, _, rfl⟩ := hb
    simp

/-! ### Mask indexes -/

/-- The ids a query with this mask finds. -/
def State.indexFor (s : State) (mask : Mask) : List Nat :=
  match s.findMask mask with
  | some mi => mi.outs
  | none => s.matching mask

theorem findMask_register (s : State) (mask : Mask) :
    ∃ mi, (addTagMaskIndex s mask).findMask mask = some mi ∧ mi.outs = s.indexFor mask ∧
      (mi ∈ s.masks ∨ mi.ins = mi.outs) := by
  unfold addTagMaskIndex State.indexFor
  split
  · rename_i mi h
    rw [h]
    exact ⟨mi, rfl, rfl, Or.inl (List.mem_of_find?_eq_some h)⟩
  · rename_i h
    rw [h]
    unfold State.findMask at h ⊢
    refine ⟨⟨mask, s.matching mask, s.matching mask⟩, ?_, rfl, Or.inr rfl⟩
    rw [List.find?_append, h]
    simp [Mask.eq_refl]

theorem register_entry (s : State) (m : Mask) (k : Nat) : (addTagMaskIndex s m).entry k = s.entry k :=
  (alike_register s m).entry k

theorem indexOut_register (s : State) (v : Vertex) (mask : Mask) :
    (addTagMaskIndex s mask).indexOut v mask =
      (s.indexFor mask).filter (fun k => decide ((s.entry k).src = v)) := by
  obtain ⟨mi, h1, h2, _⟩ := findMask_register s mask
  unfold State.indexOut
  rw [h1]
  simp only [h2, register_entry]

theorem indexIn_register {s : State} (hi : Inv s) (v : Vertex) (mask : Mask) :
    (addTagMaskIndex s mask).indexIn v mask =
      (s.indexFor mask).filter (fun k => decide ((s.entry k).tgt = v)) := by
  obtain ⟨mi, h1, h2, h3⟩ := findMask_register s mask
  have h4 : mi.ins = mi.outs := h3.elim (fun h => (hi.masks mi h).2.1) id
  unfold State.indexIn
  rw [h1]
  simp only [h4, h2, register_entry]

theorem register_implicitOut (s : State) (m : Mask) (v : Vertex) :
    (addTagMaskIndex s m).implicitOut v = s.implicitOut v := by
  unfold State.implicitOut; simp

theorem register_implicitIn (s : State) (m : Mask) (v : Vertex) :
    (addTagMaskIndex s m).implicitIn v = s.implicitIn v := by
  unfold State.implicitIn State.priorVertex; simp

/-- A query for out-edges. -/
theorem outEdges_fst (s : State) (v : Vertex) (mask : Mask) :
    (outEdges s v mask).1 = if mask.any then s.allOutEdges v else
      (if canBeAppliedToImplicitSymbol mask then s.implicitOut v else []) ++
      ((s.indexFor mask).filter (fun k => decide ((s.entry k).src = v))).map .expl := by
  unfold outEdges
  split
  · rfl
  · simp only [indexOut_register, register_implicitOut]

/-- A query for in-edges. -/
theorem inEdges_fst {s : State} (hi : Inv s) (v : Vertex) (mask : Mask) :
    (inEdges s v mask).1 = if mask.any then s.allInEdges v else
      match s.implicitIn v with
      | .error e => .error e
      | .ok l => .ok ((if canBeAppliedToImplicitSymbol mask then l else []) ++
        ((s.indexFor mask).filter (fun k => decide ((s.entry k).tgt = v))).map .expl) := by
  unfold inEdges
  split
  · rfl
  · simp only [indexIn_register hi, register_implicitIn]
    cases s.implicitIn v <;> rfl

/-- Indexing one mask does not change what is found for another. -/
theorem indexFor_register {s : State} (m mask : Mask) (hm : m.any = false) (hk : mask.any = false) :
    (addTagMaskIndex s m).indexFor mask = s.indexFor mask := by
  have hmat : (addTagMaskIndex s m).matching mask = s.matching mask := by
    unfold State.matching; simp only [register_edges, register_entry]
  cases h : s.findMask m with
  | some mj =>
    have : addTagMaskIndex s m = s := by unfold addTagMaskIndex; rw [h]
    rw [this]
  | none =>
    have hms : (addTagMaskIndex s m).masks = s.masks ++ [⟨m, s.matching m, s.matching m⟩] := by
      unfold addTagMaskIndex; rw [h]
    unfold State.indexFor
    rw [hmat]
    unfold State.findMask
    rw [hms, List.find?_append]
    cases hf : s.masks.find? (fun mi => mi.mask.eq mask) with
    | some mi => simp
    | none =>
      by_cases he : m.eq mask = true
      · simp only [Option.none_or, List.find?_cons, he]
        unfold State.matching
        congr 1
        funext k
        exact matches_of_eq hm hk he _
      · simp [he]

theorem indexFor_sublist {s : State} (hi : Inv s) {mask : Mask} (hm : mask.any = false) :
    (s.indexFor mask).Sublist (s.matching mask) := by
  unfold State.indexFor
  split
  · rename_i mi h
    obtain ⟨c1, c2, c3⟩ := hi.masks mi (List.mem_of_find?_eq_some h)
    have he := List.find?_some h
    have : s.matching mask = s.matching mi.mask := by
      unfold State.matching
      congr 1; funext k
      exact (matches_of_eq c1 hm he _).symm
    rw [this]; exact c3
  · exact List.Sublist.refl _

theorem mem_matching {s : State} {mask : Mask} {k : Nat} :
    k ∈ s.matching mask ↔ k < s.edges.length ∧ «matches» (s.entry k).tags mask = true := by
  simp [State.matching]

/-! ### Same state, same view -/

theorem view_register {s : State} (hi : Inv s) {m : Mask} (hm : m.any = false) :
    SameView s (addTagMaskIndex s m) := by
  have ha := alike_register s m
  have hi' := inv_micro hi (.register s m hm)
  have hout : ∀ v, (addTagMaskIndex s m).allOutEdges v = s.allOutEdges v := by
    intro v
    unfold State.allOutEdges State.graphOut
    simp only [register_implicitOut, register_entry, register_edges]
  have hin : ∀ v, (addTagMaskIndex s m).allInEdges v = s.allInEdges v := by
    intro v
    unfold State.allInEdges State.graphIn
    simp only [register_implicitIn, register_entry, register_edges]
  refine ⟨by simp, hout, hin, ?_, ?_, ?_, ?_, ?_, ?_, ?_, ?_, ?_, ?_, ?_⟩
  · intro v mask
    rw [outEdges_fst, outEdges_fst]
    split
    · exact hout v
    · rename_i h
      rw [indexFor_register m mask hm (by simpa using h)]
      simp only [register_implicitOut, register_entry]
  · intro v mask
    rw [inEdges_fst hi', inEdges_fst hi]
    split
    · exact hin v
    · rename_i h
      rw [indexFor_register m mask hm (by simpa using h)]
      simp only [register_implicitIn, register_entry]
  · intro e; cases e <;> simp [State.src, register_entry]
  · intro e; cases e <;> simp [State.tgt, register_entry, ha.symLen]
  · intro e; cases e <;> simp [State.item, register_entry, ha.symLen]
  · intro e; cases e <;> simp [State.tags, register_entry]
  · intro e; cases e <;> simp [State.score, register_entry]
  · intro e; cases e <;> simp [State.parts, register_entry]
  · intro e; cases e <;> simp [State.isHidden]
  · intro u v; simp [State.countEdges]
  · unfold State.getLastVertex; rw [hout]; simp

theorem SameView.refl (s : State) : SameView s s :=
  ⟨rfl, fun _ => rfl, fun _ => rfl, fun _ _ => rfl, fun _ _ => rfl, fun _ => rfl, fun _ => rfl,
    fun _ => rfl, fun _ => rfl, fun _ => rfl, fun _ => rfl, fun _ => rfl, fun _ _ => rfl, rfl⟩

/-! ### The text before a boundary -/

theorem encodeAll_append (a b : List Nat) :
    Utf8.Spec.encodeAll (a ++ b) = Utf8.Spec.encodeAll a ++ Utf8.Spec.encodeAll b := by
  simp [Utf8.Spec.encodeAll]

theorem priorLead_trail (u before acc : Str) (hb : before ≠ [])
    (hu : ∀ c ∈ u, Utf8.isTrail c = true) :
    priorLead (u ++ before) acc = priorLead before (u.reverse ++ acc) := by
  induction u generalizing acc with
  | nil => simp
  | cons c u ih =>
    have hc := hu c (by simp)
    have hne : u ++ before ≠ [] := by simp [hb]
    simp only [List.cons_append, priorLead, hc, if_true, if_neg hne]
    rw [ih _ (fun x hx => hu x (List.mem_cons_of_mem _ hx))]
    simp

/-- Going back over one well-formed character. -/
theorem priorLength_encode (pre : Str) (c : Nat) (hc : Utf8.Spec.Scalar c) :
    priorLength (pre ++ Utf8.Spec.encode c) = some (Utf8.Spec.encode c).length := by
  obtain ⟨b, t, he, hb, ht, hl⟩ := Utf8.encode_shape c (Utf8.scalar_lt hc)
  unfold priorLength
  have h1 : priorLead (pre ++ Utf8.Spec.encode c).reverse [] = some (Utf8.Spec.encode c) := by
    rw [he]
    simp only [List.reverse_append, List.reverse_cons, List.append_assoc]
    rw [priorLead_trail t.reverse ([b] ++ pre.reverse) [] (by simp) (by simpa using ht)]
    simp [priorLead, hb]
  rw [h1]
  have h2 : Utf8.validateNext (Utf8.Spec.encode c) = .ok (c, []) := by
    rw [Utf8.validateNext_iff]; exact ⟨hc, by simp⟩
  simp only [h2]
  rw [Utf8.append_eq_encode c (Utf8.scalar_lt hc)]

/-- A nonempty well-formed text ends with a character. -/
theorem wellFormed_last {t : Str} (h : Utf8.Spec.WellFormed t) (hne : t ≠ []) :
    ∃ pre c, Utf8.Spec.WellFormed pre ∧ Utf8.Spec.Scalar c ∧ t = pre ++ Utf8.Spec.encode c := by
  obtain ⟨cps, hc, rfl⟩ := h
  rcases List.eq_nil_or_concat cps with rfl | ⟨l, c, rfl⟩
  · simp [Utf8.Spec.encodeAll] at hne
  · refine ⟨Utf8.Spec.encodeAll l, c, ⟨l, fun x hx => hc x (by simp [hx]), rfl⟩, hc c (by simp), ?_⟩
    rw [List.concat_eq_append, encodeAll_append]
    simp [Utf8.Spec.encodeAll]

theorem encode_length_pos (c : Nat) : 0 < (Utf8.Spec.encode c).length :=
  List.length_pos_iff.2 (Utf8.encode_ne_nil c)

/-- At a boundary the vertex before exists and is the beginning of the last character. -/
theorem prior_boundary {s : State} {v : Nat} (hv : 0 < v) (hl : v ≤ s.text.length)
    (h : Utf8.Spec.WellFormed (s.text.take v)) :
    ∃ pre c post, Utf8.Spec.WellFormed pre ∧ Utf8.Spec.Scalar c ∧
      s.text = pre ++ Utf8.Spec.encode c ++ post ∧ v = pre.length + (Utf8.Spec.encode c).length ∧
      s.priorVertex v = .ok pre.length := by
  have hne : s.text.take v ≠ [] := by
    intro h0
    have := congrArg List.length h0
    rw [List.length_take, List.length_nil] at this; omega
  obtain ⟨pre, c, hp, hc, ht⟩ := wellFormed_last h hne
  have hlen := congrArg List.length ht
  simp only [List.length_take, List.length_append] at hlen
  have hv' : v = pre.length + (Utf8.Spec.encode c).length := by omega
  refine ⟨pre, c, s.text.drop v, hp, hc, ?_, hv', ?_⟩
  · rw [← ht, List.take_append_drop]
  · unfold State.priorVertex
    have : ¬ ((v : Int) ≤ 0) := by omega
    rw [if_neg this]
    have : (v : Int).toNat = v := by omega
    rw [this, ht, priorLength_encode pre c hc]
    have h3 : v - (Utf8.Spec.encode c).length = pre.length := by omega
    simp only [h3]

theorem symLen_encode {s : State} {pre post : Str} {c : Nat} (hc : Utf8.Spec.Scalar c)
    (h : s.text = pre ++ Utf8.Spec.encode c ++ post) :
    s.symLen pre.length = (Utf8.Spec.encode c).length := by
  obtain ⟨b, t, he, hb, ht, hl⟩ := Utf8.encode_shape c (Utf8.scalar_lt hc)
  unfold State.symLen
  rw [h, he]
  simp only [List.getD_eq_getElem?_getD, List.append_assoc]
  rw [List.getElem?_append_right (Nat.le_refl _)]
  simp only [Nat.sub_self, List.cons_append, List.getElem?_cons_zero, Option.getD_some,
    Utf8.symbolLength, hl]
  simp

/-- In-edges at a boundary never fail. -/
theorem implicitIn_ok {s : State} {v : Vertex} (hl : s.validVertex v = true) (h : Boundary s v) :
    ∃ l, s.implicitIn v = .ok l := by
  unfold State.implicitIn
  split
  · exact ⟨_, rfl⟩
  · rename_i hv
    simp only [State.validVertex, Bool.and_eq_true, decide_eq_true_eq] at hl
    rcases h with h | h
    · exact absurd h hv
    · by_cases h0 : v = 0
      · subst h0
        exact ⟨[], by simp [State.priorVertex]⟩
      · obtain ⟨n, rfl⟩ : ∃ n : Nat, v = n := ⟨v.toNat, by omega⟩
        have hn : (n : Int).toNat = n := by omega
        rw [hn] at h
        obtain ⟨pre, c, post, _, _, _, _, hp⟩ := prior_boundary (s := s) (v := n) (by omega) (by omega) h
        rw [hp]
        exact ⟨_, rfl⟩

end Verif.Lattice
