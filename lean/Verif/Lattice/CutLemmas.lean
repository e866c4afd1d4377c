import Verif.Lattice.CutSpec
import Verif.Lattice.PropsPaths
import Verif.Lattice.PropsAdded

/-!
Lemmas on running a cutter on a lattice.
-/
set_option linter.unusedVariables false
set_option linter.unusedSimpArgs false

namespace Verif.Lattice
open Verif Verif.Tags Verif.Tags.Spec Verif.Lattice.Spec

/-! ## Registering the mask of symbols -/

/-- At most the mask of symbols has been indexed. -/
def Reg (s s' : State) : Prop := s' = s ∨ s' = addTagMaskIndex s symbolMask

theorem Reg.refl (s : State) : Reg s s := Or.inl rfl

theorem Reg.trans {a b c : State} (h : Reg a b) (h' : Reg b c) : Reg a c := by
  rcases h with rfl | rfl
  · exact h'
  · rcases h' with rfl | rfl
    · exact Or.inr rfl
    · right; exact register_twice a

theorem reg_outEdges (s : State) (v : Vertex) : Reg s (outEdges s v symbolMask).2 := by
  rcases outEdges_state s v symbolMask with h | ⟨_, h⟩
  · exact Or.inl h
  · exact Or.inr h

theorem reg_inEdges (s : State) (v : Vertex) : Reg s (inEdges s v symbolMask).2 := by
  rcases inEdges_state s v symbolMask with h | ⟨_, h⟩
  · exact Or.inl h
  · exact Or.inr h

theorem reg_firstOut (s : State) (v : Vertex) : Reg s (firstOut s v symbolMask).2 := by
  have := reg_outEdges s v
  unfold firstOut
  split <;> rename_i h <;> rw [h] at this <;> exact this

theorem reg_firstIn (s : State) (v : Vertex) : Reg s (firstIn s v symbolMask).2 := by
  have := reg_inEdges s v
  unfold firstIn
  split <;> rename_i h <;> rw [h] at this <;> exact this

/-! ## Changes that leave the symbols alone -/

/-- `s'` comes from `s` by calls that leave the text and the symbol edges alone. -/
structure Calm (s s' : State) : Prop where
  steps : Steps s s'
  text : s'.text = s.text
  implicit : s'.implicit = s.implicit
  nLoose : s'.nLoose = s.nLoose

theorem steps_trans {a b c : State} (h : Steps a b) (h' : Steps b c) : Steps a c := by
  induction h' with
  | refl => exact h
  | step _ h1 h2 ih => exact .step ih h1 h2

theorem Calm.refl (s : State) : Calm s s := ⟨.refl, rfl, rfl, rfl⟩
theorem Calm.trans {a b c : State} (h : Calm a b) (h' : Calm b c) : Calm a c :=
  ⟨steps_trans h.steps h'.steps, h'.text.trans h.text, h'.implicit.trans h.implicit, h'.nLoose.trans h.nLoose⟩

theorem calm_register (s : State) (m : Mask) (hm : m.any = false) : Calm s (addTagMaskIndex s m) := by
  refine ⟨?_, by simp, by simp, by simp⟩
  have h : (outEdges s 0 m).2 = addTagMaskIndex s m := by
    unfold outEdges; rw [hm]; rfl
  rw [← h]
  exact .step .refl trivial (.out (v := 0) (mask := m) (by simp [State.validVertex]))

theorem calm_queried (s : State) (m : Mask) : Calm s (queried s m) := by
  unfold queried
  split
  · exact .refl s
  · rename_i h; exact calm_register s m (by simpa using h)

theorem Reg.calm {s s' : State} (h : Reg s s') : Calm s s' := by
  rcases h with rfl | rfl
  · exact .refl _
  · exact calm_register _ _ rfl

theorem Calm.symLen {s s' : State} (h : Calm s s') (i : Nat) : s'.symLen i = s.symLen i := by
  unfold State.symLen; rw [h.text]

theorem Calm.present {s s' : State} (hi : Inv s) (h : Calm s s') {e : Edge} (he : Present s e) : Present s' e := by
  cases e with
  | impl i => rw [present_impl] at he ⊢; rw [h.implicit]; exact he
  | expl k => rw [present_expl] at he ⊢; exact Nat.lt_of_lt_of_le he (steps_grow hi h.steps).len

theorem Calm.src {s s' : State} (hi : Inv s) (h : Calm s s') {e : Edge} (he : Present s e) : s'.src e = s.src e :=
  (present_keeps hi (steps_grow hi h.steps) he).1
theorem Calm.tgt {s s' : State} (hi : Inv s) (h : Calm s s') {e : Edge} (he : Present s e) : s'.tgt e = s.tgt e :=
  (present_keeps hi (steps_grow hi h.steps) he).2

theorem Calm.edgeText {s s' : State} (hi : Inv s) (h : Calm s s') {e : Edge} (he : Present s e) :
    s'.edgeText e = s.edgeText e := by
  unfold State.edgeText
  rw [h.src hi he, h.tgt hi he, h.text]

theorem Calm.chain {s s' : State} (hi : Inv s) (h : Calm s s') {l : List Edge} (hp : ∀ e ∈ l, Present s e) {u v : Vertex} :
    Chain s' u l v ↔ Chain s u l v := by
  induction l generalizing u with
  | nil => exact Iff.rfl
  | cons e l ih =>
    simp only [Chain]
    rw [h.src hi (hp e (by simp)), h.tgt hi (hp e (by simp)), ih (fun x hx => hp x (by simp [hx]))]

theorem Calm.boundary {s s' : State} (h : Calm s s') {v : Vertex} (hb : Boundary s v) : Boundary s' v := by
  unfold Boundary at *; rw [h.text]; exact hb

theorem Calm.textOf {s s' : State} (hi : Inv s) (h : Calm s s') {l : List Edge} (hp : ∀ e ∈ l, Present s e) :
    textOf s' l = textOf s l := by
  induction l with
  | nil => rfl
  | cons e l ih =>
    have := ih (fun x hx => hp x (by simp [hx]))
    unfold Lattice.Spec.textOf at *
    rw [List.flatMap_cons, List.flatMap_cons, this, h.edgeText hi (hp e (by simp))]

theorem Calm.item {s s' : State} (hi : Inv s) (h : Calm s s') {e : Edge} (he : Present s e) : s'.item e = s.item e := by
  cases e with
  | impl i => unfold State.item; simp only [h.symLen, h.text]
  | expl k => simp only [State.item, (steps_grow hi h.steps).item k (present_expl.1 he)]

theorem Calm.inv {s s' : State} (hi : Inv s) (h : Calm s s') : Inv s' := inv_micros hi (run_micros hi h.steps)

theorem Calm.reachable {s s' : State} (hr : Lattice.Spec.Reachable s) (h : Calm s s') : Lattice.Spec.Reachable s' :=
  steps_trans hr h.steps

/-! ## Chains -/

theorem chain_split {s : State} {a b : List Edge} {u w : Vertex} (h : Chain s u (a ++ b) w) :
    ∃ v, Chain s u a v ∧ Chain s v b w := by
  induction a generalizing u with
  | nil => exact ⟨u, rfl, h⟩
  | cons e a ih =>
    obtain ⟨v, h1, h2⟩ := ih h.2
    exact ⟨v, ⟨h.1, h1⟩, h2⟩

theorem chain_unique {s : State} {l : List Edge} {u v v' : Vertex} (h : Chain s u l v) (h' : Chain s u l v') : v = v' := by
  induction l generalizing u with
  | nil => exact h.symm.trans h'
  | cons e l ih => exact ih h.2 h'.2

theorem chain_last {s : State} {l : List Edge} {e : Edge} {u v : Vertex} (h : Chain s u (l ++ [e]) v) : s.tgt e = v := by
  obtain ⟨w, _, h2⟩ := chain_split h
  exact h2.2

/-- A chain of edges leads forward in the text. -/
theorem chain_forward {s : State} (hi : Inv s) (hl : s.nLoose = 0) {l : List Edge} (hp : ∀ e ∈ l, Present s e)
    {u v : Vertex} (hu : 0 ≤ u) (h : Chain s u l v) :
    u ≤ v ∧ (l ≠ [] → u < v ∧ v ≤ s.text.length) ∧
      textOf s l = (s.text.drop u.toNat).take (v - u).toNat := by
  induction l generalizing u with
  | nil =>
    have : u = v := h
    subst this
    simp [textOf]
  | cons e l ih =>
    obtain ⟨c1, c2, c3⟩ := noLoose_span hi hl (hp e (by simp))
    have hsrc : s.src e = u := h.1
    obtain ⟨d1, d2, d3⟩ := ih (fun x hx => hp x (by simp [hx])) (by omega) h.2
    refine ⟨by omega, fun _ => ⟨by omega, ?_⟩, ?_⟩
    · by_cases hl' : l = []
      · subst hl'
        have : s.tgt e = v := h.2
        omega
      · exact (d2 hl').2
    · have e1 : textOf s (e :: l) = s.edgeText e ++ textOf s l := rfl
      rw [e1, d3]
      unfold State.edgeText
      have : (isLoose (s.src e) || isLoose (s.tgt e)) = false := by simp [isLoose]; omega
      rw [this, hsrc]
      simp only [Bool.false_eq_true, if_false]
      have h1 : (s.tgt e).toNat = u.toNat + (s.tgt e - u).toNat := by omega
      have h2 : (v - u).toNat = (s.tgt e - u).toNat + (v - s.tgt e).toNat := by omega
      rw [h2, List.take_add, List.drop_drop, h1]

theorem edge_text_pos {s : State} (hi : Inv s) (hl : s.nLoose = 0) {e : Edge} (he : Present s e) :
    0 < (s.edgeText e).length := by
  obtain ⟨c1, c2, c3⟩ := noLoose_span hi hl he
  unfold State.edgeText
  have : (isLoose (s.src e) || isLoose (s.tgt e)) = false := by simp [isLoose]; omega
  rw [this]
  simp only [Bool.false_eq_true, if_false, List.length_take, List.length_drop]
  omega

/-! ## The iterator -/

/-- The iterator is going to yield the edges `es`. -/
inductive IterAt (s : State) (it : Iter) (es : List Edge) : Prop
  | links : it.seq.links ≠ [] → (it.seq.links.drop it.ei).map (·.edge) = es → IterAt s it es
  | range : it.seq.links = [] → Chain s it.si es it.seq.end_ →
      (∀ e ∈ es, ∃ k, e = .impl k ∧ bitAt s.implicit k = true) → IterAt s it es

theorem chain_impl {s s' : State} (h : Calm s s') {l : List Edge} (hl : ∀ e ∈ l, ∃ k, e = .impl k ∧ bitAt s.implicit k = true)
    {u v : Vertex} (hc : Chain s u l v) : Chain s' u l v := by
  induction l generalizing u with
  | nil => exact hc
  | cons e l ih =>
    obtain ⟨k, rfl, _⟩ := hl e (by simp)
    refine ⟨hc.1, ?_⟩
    have : s'.tgt (.impl k) = s.tgt (.impl k) := by simp [State.tgt, h.symLen]
    rw [this]
    exact ih (fun x hx => hl x (by simp [hx])) hc.2

theorem IterAt.calm {s s' : State} (h : Calm s s') {it : Iter} {es : List Edge} (hit : IterAt s it es) : IterAt s' it es := by
  cases hit with
  | links a b => exact .links a b
  | range a b c =>
    refine .range a (chain_impl h c b) ?_
    intro e he
    obtain ⟨k, h1, h2⟩ := c e he
    exact ⟨k, h1, by rw [h.implicit]; exact h2⟩

theorem chain_impl_le {s : State} {es : List Edge} (hb : ∀ e ∈ es, ∃ k, e = .impl k ∧ bitAt s.implicit k = true)
    {i j : Nat} (h : Chain s i es j) : i + es.length ≤ j := by
  induction es generalizing i with
  | nil =>
    have : (i : Int) = j := h
    simp; omega
  | cons e es ih =>
    obtain ⟨k, rfl, _⟩ := hb e (by simp)
    have h1 : ((k : Nat) : Int) = i := h.1
    have hk : k = i := by omega
    subst hk
    have := ih (fun x hx => hb x (by simp [hx])) (i := k + s.symLen k) h.2
    have hp := symLen_pos s k
    simp only [List.length_cons]
    omega

theorem iter_left {s : State} {it : Iter} {es : List Edge} (h : IterAt s it es) : es.length ≤ it.left := by
  unfold Iter.left
  cases h with
  | links h1 h2 =>
    rw [if_neg h1, ← h2]; simp
  | range h1 h2 h3 =>
    rw [if_pos h1]
    have := chain_impl_le h3 h2
    omega

theorem iter_hasNext {s : State} {it : Iter} {es : List Edge} (h : IterAt s it es) : it.hasNext = true ↔ es ≠ [] := by
  unfold Iter.hasNext
  cases h with
  | links h1 h2 =>
    rw [if_neg h1, decide_eq_true_eq, ← h2]
    simp
  | range h1 h2 h3 =>
    rw [if_pos h1, decide_eq_true_eq]
    have := chain_impl_le h3 h2
    constructor
    · rintro h rfl
      have : (it.si : Int) = it.seq.end_ := h2
      omega
    · intro h
      have := List.length_pos_iff.2 h
      omega

theorem iter_next {s : State} {it : Iter} {e : Edge} {es : List Edge} (h : IterAt s it (e :: es)) :
    ∃ it' s', it.next s = (.ok e, it', s') ∧ Reg s s' ∧ IterAt s' it' es := by
  have hn := (iter_hasNext h).2 (by simp)
  cases h with
  | links h1 h2 =>
    have hlt : it.ei < it.seq.links.length := by
      by_contra hge
      rw [List.drop_eq_nil_of_le (by omega)] at h2
      simp at h2
    rw [List.drop_eq_getElem_cons hlt, List.map_cons, List.cons.injEq] at h2
    refine ⟨{ it with ei := it.ei + 1 }, s, ?_, .refl s, .links h1 h2.2⟩
    unfold Iter.next
    rw [if_neg h1, List.getElem?_eq_getElem hlt]
    simp [h2.1]
  | range h1 h2 h3 =>
    obtain ⟨k, rfl, hb⟩ := h3 e (by simp)
    have hk : ((k : Nat) : Int) = it.si := h2.1
    have hk : k = it.si := by omega
    subst hk
    have hr := reg_firstOut s it.si
    refine ⟨{ it with si := it.si + s.symLen it.si }, (firstOut s it.si symbolMask).2, ?_, hr, ?_⟩
    · unfold Iter.next
      unfold Iter.hasNext at hn
      rw [if_pos h1, decide_eq_true_eq] at hn
      rw [if_pos h1, if_pos hn]
      obtain ⟨l, hl⟩ := first_symbol hb
      have : (firstOut s it.si symbolMask).1 = .ok (.impl it.si) := by
        unfold firstOut
        split
        · rename_i h; rw [h] at hl; simp at hl
        · rename_i h; rw [h] at hl; simp at hl; simp [hl.1]
      simp only [this]
    · refine IterAt.calm hr.calm (.range h1 ?_ (fun x hx => h3 x (by simp [hx])))
      exact h2.2

/-! ## Taking edges off a sequence -/

theorem Reg.builder {s s' : State} (h : Reg s s') (b : Builder) (u : Usage) : b.addEdge s' u = b.addEdge s u := by
  rcases h with rfl | rfl
  · rfl
  · exact builder_register _ b u

/-- The builder after adding the edges. -/
def buildUp (s : State) (b : Builder) (g : List Edge) : Builder := g.foldl (fun b e => b.addEdge s ⟨e, none⟩) b

theorem cutLoop_ok {s : State} (hi : Inv s) (hl : s.nLoose = 0) {n : Nat} {it : Iter} {g rest : List Edge}
    (hp : ∀ e ∈ g, Present s e) (hit : IterAt s it (g ++ rest)) (hn : g.length ≤ n) (b : Builder) (gathered : Nat) :
    ∃ it' s', cutLoop ((gathered + (textOf s g).length : Nat) : Int) n s it b gathered = (.ok (buildUp s b g), it', s') ∧
      Reg s s' ∧ IterAt s' it' rest := by
  generalize hlen : gathered + (textOf s g).length = len
  suffices h : ∀ (g : List Edge) (n : Nat) (it : Iter) (b : Builder) (gathered : Nat) (s1 : State), Reg s s1 →
      (∀ e ∈ g, Present s e) → IterAt s1 it (g ++ rest) → g.length ≤ n → gathered + (textOf s g).length = len →
      ∃ it' s', cutLoop (len : Int) n s1 it b gathered = (.ok (buildUp s b g), it', s') ∧ Reg s s' ∧ IterAt s' it' rest from
    h g n it b gathered s (.refl s) hp hit hn hlen
  intro g
  induction g with
  | nil =>
    intro n it b gathered s1 hr hp hit hn hlen
    have : gathered = len := by simpa [textOf] using hlen
    subst this
    refine ⟨it, s1, ?_, hr, hit⟩
    cases n with
    | zero => rfl
    | succ n => unfold cutLoop; simp [buildUp]
  | cons e g ih =>
    intro n it b gathered s1 hr hp hit hn hlen
    cases n with
    | zero => simp at hn
    | succ n =>
      obtain ⟨it', s2, h1, h2, h3⟩ := iter_next hit
      have hr2 := hr.trans h2
      have hpos := edge_text_pos hi hl (hp e (by simp))
      have ht : (textOf s (e :: g)).length = (s.edgeText e).length + (textOf s g).length := by simp [textOf]
      have hc : (it.hasNext && decide ((gathered : Int) < len)) = true := by
        rw [(iter_hasNext hit).2 (by simp)]
        simp; omega
      obtain ⟨it'', s3, g1, g2, g3⟩ := ih n it' (b.addEdge s ⟨e, none⟩) (gathered + (s.edgeText e).length) s2 hr2
        (fun x hx => hp x (by simp [hx])) h3 (by simp at hn; omega) (by omega)
      refine ⟨it'', s3, ?_, g2, g3⟩
      unfold cutLoop
      rw [if_pos hc, h1]
      simp only [hr2.builder, hr2.calm.edgeText hi (hp e (by simp))]
      exact g1

end Verif.Lattice
