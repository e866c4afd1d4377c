import Verif.Lattice.Queries

/-!
The possible outcomes of `addEdge`, and what they do to the edges between two vertices.
-/
set_option linter.unusedVariables false
set_option linter.unusedSimpArgs false

namespace Verif.Lattice
open Verif Verif.Tags Verif.Tags.Spec Verif.Lattice.Spec

/-- `s1` is like `s`, with these implicit edges and counters. -/
structure Mid (s s1 : State) (im : List Bool) (ct : Vertex → Vertex → Nat) : Prop where
  micros : Micros s s1
  alike : Alike s s1
  implicit : s1.implicit = im
  counter : s1.counter = ct

theorem Quiet.mid {s s1 : State} (h : Quiet s s1) : Mid s s1 s.implicit s.counter :=
  ⟨h.micros, h.alike, h.implicit, h.counter⟩

/-- The counters after counting an edge. -/
def bumped (ct : Vertex → Vertex → Nat) (u v : Vertex) : Vertex → Vertex → Nat :=
  fun x y => if x = u ∧ y = v then ct x y + 1 else ct x y

/-- What `addNew` does, given the state before counting. -/
inductive NewOutcome (s : State) (b : Args) : Except Exn Edge × State → Prop
  | failed {x s'} : Mid s s' s.implicit (bumped s.counter b.src b.tgt) →
      b.tags = symbolTag → (x = .undefined ∨ x = .utf8 ∧ ¬ Boundary s b.tgt) →
      NewOutcome s b (.error x, s')
  | added {s1} : Mid s s1 s.implicit (bumped s.counter b.src b.tgt) →
      NewOutcome s b (.ok (addNewRest s1 b).1, (addNewRest s1 b).2)

theorem implicitIn_error {s : State} {v : Vertex} {x : Exn} (h : s.implicitIn v = .error x) :
    x = .utf8 := by
  unfold State.implicitIn at h
  split at h
  · simp at h
  · unfold State.priorVertex at h
    by_cases h0 : v ≤ 0
    · rw [if_pos h0] at h; simp at h
    · rw [if_neg h0] at h
      cases hp : priorLength (List.take v.toNat s.text) <;> rw [hp] at h <;> simp at h
      exact h.symm

/-- A failing `updateVisible` that is not undefined comes from the in-edges of the target. -/
theorem updateVisible_error {s : State} (hi : Inv s) {f t : Vertex} {x : Exn} {s' : State}
    (h : updateVisible s f t = (.error x, s')) (hx : x ≠ .undefined) (ht : s.validVertex t = true) :
    ¬ Boundary s t ∧ x = .utf8 := by
  unfold updateVisible at h
  have hq := quiet_outEdges s f symbolMask
  split at h
  · simp at h
  · rename_i e es s1 h1
    rw [h1] at hq
    split at h
    · simp at h; exact absurd h.1.symm hx
    · have hq2 := hq.trans (quiet_visible s1 f.toNat)
      generalize hs2 : ({ s1 with visible := s1.visible.set f.toNat true } : State) = s2 at h hq2
      unfold updateVisibleIn at h
      have hne : ∀ y, s2.implicitIn t = .error y → ¬ Boundary s t ∧ y = .utf8 := by
        intro y hy
        constructor
        · intro hb
          have hb2 : Boundary s2 t := by unfold Boundary; rw [hq2.alike.text]; exact hb
          obtain ⟨l, hl⟩ := implicitIn_ok (s := s2) (by rw [hq2.alike.validVertex]; exact ht) hb2
          rw [hl] at hy; simp at hy
        · exact implicitIn_error hy
      split at h
      · rename_i y s3 h3
        simp only [Prod.mk.injEq, Except.error.injEq] at h
        have hfst := congrArg Prod.fst h3
        rw [inEdges_fst (inv_micros hi hq2.micros)] at hfst
        have hany : symbolMask.any = false := rfl
        simp only [hany, Bool.false_eq_true, if_false] at hfst
        split at hfst
        · rename_i z hz
          simp at hfst
          obtain ⟨c1, c2⟩ := hne z hz
          refine ⟨c1, ?_⟩
          rw [← h.1, ← hfst]; exact c2
        · simp at hfst
      · simp at h
      · split at h
        · simp at h; exact absurd h.1.symm hx
        · simp at h

theorem addNew_outcome {s : State} (hi : Inv s) {b : Args} (ht : s.validVertex b.tgt = true) :
    NewOutcome s b (addNew s b) := by
  have hm0 : Micros s (bumpCounter s b.src b.tgt) := .single (.bump _ _ _)
  have hmid : ∀ s1, Quiet (bumpCounter s b.src b.tgt) s1 →
      Mid s s1 s.implicit (bumped s.counter b.src b.tgt) := fun s1 hq =>
    ⟨hm0.trans hq.micros, (alike_bump s _ _).trans hq.alike, hq.implicit, hq.counter⟩
  unfold addNew
  dsimp only
  split
  · rename_i hsym
    have hq := quiet_updateVisible (bumpCounter s b.src b.tgt) b.src b.tgt
    split
    · rename_i x s1 h1
      rw [h1] at hq
      refine .failed (hmid _ hq) hsym ?_
      by_cases hx : x = .undefined
      · exact Or.inl hx
      · have := updateVisible_error (s := bumpCounter s b.src b.tgt) (inv_micro hi (.bump _ _ _)) h1 hx ht
        exact Or.inr ⟨this.2, this.1⟩
    · rename_i u s1 h1
      rw [h1] at hq
      exact .added (hmid _ hq)
  · exact .added (hmid _ (.refl _))

/-- What `addEdge` does; `b` are the arguments after inheriting plane tags. -/
inductive Outcome (s : State) (b : Args) : Except Exn Edge × State → Prop
  | rejected {x s'} : Quiet s s' → s' = s ∨ s' = addTagMaskIndex s symbolMask →
      Outcome s b (.error x, s')
  | merged {s1 k} : Quiet s s1 → s.isoplanar b.key b.tags = some (.expl k) → k < s.edges.length →
      (s.entry k).key = b.key → Outcome s b (.ok (.expl k), mergeInto s1 k b)
  | new {r} : CanAdd s b → s.isoplanar b.key b.tags = none → NewOutcome s b r → Outcome s b r
  | promoted {s1 r i} : CanAdd s b → s.isoplanar b.key b.tags = some (.impl i) →
      b.src = i → b.tgt = (i + s.symLen i : Nat) → i + s.symLen i ≤ s.text.length →
      Mid s s1 (s.implicit.set i false) s.counter →
      NewOutcome s1 { b with tags := createUnion symbolTag b.tags } r → Outcome s b r

theorem sequenceContains_state (s : State) (q : Sequence) (e : Edge) :
    (sequenceContains s q e).2 = s ∨ (sequenceContains s q e).2 = addTagMaskIndex s symbolMask := by
  unfold sequenceContains
  repeat' split
  · exact Or.inr rfl
  · exact Or.inl rfl
  · exact Or.inl rfl

theorem addEdge_outcome {s : State} (hi : Inv s) {a : Args} (ho : Okay s.mgr a.tags) :
    Outcome s (inheritTags s a) (addEdge s a) := by
  unfold addEdge
  split
  · rename_i hv
    simp only [Bool.and_eq_true] at hv
    have hok := inherit_okay hi ho hv.2
    have hs : s.validVertex (inheritTags s a).src = true := hv.1.1
    have ht : s.validVertex (inheritTags s a).tgt = true := hv.1.2
    generalize inheritTags s a = b at hok hs ht
    unfold addEdgeCore
    split
    · exact .rejected (.refl _) (Or.inl rfl)
    · rename_i hl
      split
      · exact .rejected (.refl _) (Or.inl rfl)
      · rename_i hf
        split
        · rename_i hn
          exact .new ⟨hs, ht, hl, hf, hok, Or.inl (find?_none_all hn)⟩ hn (addNew_outcome hi ht)
        · rename_i e he
          unfold mergeWith
          have hst := sequenceContains_state s b.seq e
          have hq := quiet_sequenceContains s b.seq e
          have hmem := inv_vvcEntry_mem.1 (isoplanar_mem he).1
          split
          · rename_i x s1 h1; rw [h1] at hst hq; exact .rejected hq hst
          · rename_i s1 h1; rw [h1] at hst hq; exact .rejected hq hst
          · rename_i s1 h1; rw [h1] at hst hq
            have hq : Quiet s s1 := hq
            split
            · rename_i k
              obtain ⟨c1, c2⟩ := hi.vvcExpl _ _ hmem
              exact .merged hq he c1 c2.symm
            · rename_i i
              obtain ⟨c1, c2, c3⟩ := hi.vvcImpl _ _ hmem
              have c1 : b.src = i := c1
              have hsi : b.src.toNat = i := by omega
              rw [hsi, mergedWithImplicit_eq]
              have hm : Mid s { s1 with implicit := s1.implicit.set i false }
                  (s.implicit.set i false) s.counter :=
                ⟨hq.micros.step (.clear s1 i), hq.alike.trans ⟨rfl, rfl, rfl, rfl, rfl, rfl⟩,
                  congrArg (fun l => List.set l i false) hq.implicit, hq.counter⟩
              refine .promoted ⟨hs, ht, hl, hf, hok, Or.inr ⟨i, (isoplanar_mem he).1⟩⟩ he c1 c2 c3 hm ?_
              exact addNew_outcome (inv_micros hi hm.micros) (by rw [hm.alike.validVertex]; exact ht)
  · exact .rejected (.refl _) (Or.inl rfl)

end Verif.Lattice
