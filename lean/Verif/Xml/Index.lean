import Verif.Xml.Spec
import Mathlib.Data.List.Sort

set_option linter.unusedVariables false
set_option linter.unusedSimpArgs false

namespace Verif.Xml
open Verif Verif.Server

/-- The index as a list, in the order of `ConnectNodes`. -/
def innerEntries (s : Nat) (m : Inner) : List (Nat × Nat × Nat) :=
  m.reverse.flatMap (fun q => q.2.reverse.map (fun id => (s, q.1, id)))

def entries (idx : List (Nat × Inner)) : List (Nat × Nat × Nat) := idx.flatMap (fun p => innerEntries p.1 p.2)

theorem visitOrder_entries (idx : List (Nat × Inner)) : visitOrder idx = (entries idx).map (fun x => x.2.2) := by
  simp [visitOrder, entries, innerEntries, List.map_flatMap, Function.comp_def]

/-- The order of the visits. -/
def Before (x y : Nat × Nat × Nat) : Prop :=
  x.1 < y.1 ∨ (x.1 = y.1 ∧ (y.2.1 < x.2.1 ∨ (x.2.1 = y.2.1 ∧ y.2.2 < x.2.2)))

def InnerWF (n : Nat) (m : Inner) : Prop :=
  m.Pairwise (fun a b => a.1 < b.1) ∧ ∀ q ∈ m, q.2 ≠ [] ∧ q.2.Pairwise (fun a b => a < b) ∧ ∀ id ∈ q.2, id < n

def IndexWF (n : Nat) (idx : List (Nat × Inner)) : Prop :=
  idx.Pairwise (fun a b => a.1 < b.1) ∧ ∀ p ∈ idx, p.2 ≠ [] ∧ InnerWF n p.2

theorem InnerWF.mono {n n' : Nat} (h : n ≤ n') {m : Inner} (hm : InnerWF n m) : InnerWF n' m :=
  ⟨hm.1, fun q hq => ⟨(hm.2 q hq).1, (hm.2 q hq).2.1, fun id hid => by have := (hm.2 q hq).2.2 id hid; omega⟩⟩

theorem putInner_keys (e id : Nat) : ∀ (m : Inner) (a : Nat × List Nat), a ∈ putInner e id m →
    a.1 = e ∨ ∃ b ∈ m, b.1 = a.1 := by
  intro m
  induction m with
  | nil => intro a h; simp [putInner] at h; left; rw [h]
  | cons x m ih =>
    obtain ⟨k, v⟩ := x
    intro a h
    simp only [putInner] at h
    split at h
    · rcases List.mem_cons.1 h with rfl | h
      · left; rfl
      · right; exact ⟨a, h, rfl⟩
    · split at h
      · rename_i he
        rcases List.mem_cons.1 h with rfl | h
        · left; exact he.symm
        · right; exact ⟨a, List.mem_cons_of_mem _ h, rfl⟩
      · rcases List.mem_cons.1 h with rfl | h
        · right; exact ⟨_, List.mem_cons_self, rfl⟩
        · rcases ih a h with h | ⟨b, hb, h⟩
          · exact Or.inl h
          · exact Or.inr ⟨b, List.mem_cons_of_mem _ hb, h⟩

theorem putInner_wf (e n : Nat) : ∀ (m : Inner), InnerWF n m → InnerWF (n + 1) (putInner e n m) := by
  intro m
  induction m with
  | nil =>
    intro _
    refine ⟨by simp [putInner], ?_⟩
    intro q hq
    simp [putInner] at hq
    subst hq
    simp
  | cons x m ih =>
    obtain ⟨k, v⟩ := x
    intro h
    have h' : InnerWF n m := ⟨(List.pairwise_cons.1 h.1).2, fun q hq => h.2 q (List.mem_cons_of_mem _ hq)⟩
    have hk := (List.pairwise_cons.1 h.1).1
    have hm := h.mono (Nat.le_succ n)
    simp only [putInner]
    split
    · rename_i he
      refine ⟨List.pairwise_cons.2 ⟨?_, h.1⟩, ?_⟩
      · intro a ha
        rcases List.mem_cons.1 ha with rfl | ha
        · exact he
        · have := hk a ha; simp at this ⊢; omega
      · intro q hq
        rcases List.mem_cons.1 hq with rfl | hq
        · simp
        · exact hm.2 q hq
    · split
      · refine ⟨List.pairwise_cons.2 ⟨hk, h'.1⟩, ?_⟩
        intro q hq
        rcases List.mem_cons.1 hq with rfl | hq
        · obtain ⟨h1, h2, h3⟩ := h.2 (k, v) (by simp)
          refine ⟨by simp, ?_, ?_⟩
          · rw [List.pairwise_append]
            refine ⟨h2, by simp, ?_⟩
            intro a ha b hb
            simp at hb
            subst hb
            exact h3 a ha
          · intro id hid
            rcases List.mem_append.1 hid with hid | hid
            · have := h3 id hid; omega
            · simp at hid; omega
        · exact hm.2 q (List.mem_cons_of_mem _ hq)
      · rename_i h1 h2
        have ih' := ih h'
        refine ⟨List.pairwise_cons.2 ⟨?_, ih'.1⟩, ?_⟩
        · intro a ha
          rcases putInner_keys e n m a ha with h3 | ⟨b, hb, h3⟩
          · simp only; omega
          · have := hk b hb; simp only at this ⊢; omega
        · intro q hq
          rcases List.mem_cons.1 hq with rfl | hq
          · exact hm.2 _ (by simp)
          · exact ih'.2 q hq

theorem putInner_ne (e n : Nat) (m : Inner) : putInner e n m ≠ [] := by
  cases m with
  | nil => simp [putInner]
  | cons x m =>
    obtain ⟨k, v⟩ := x
    simp only [putInner]
    split
    · simp
    · split <;> simp

theorem putInner_perm (s e id : Nat) : ∀ m : Inner,
    (innerEntries s (putInner e id m)).Perm ((s, e, id) :: innerEntries s m) := by
  intro m
  induction m with
  | nil => simp [putInner, innerEntries]
  | cons x m ih =>
    obtain ⟨k, v⟩ := x
    have hcons : ∀ (y : Nat × List Nat) (m : Inner),
        innerEntries s (y :: m) = innerEntries s m ++ y.2.reverse.map (fun id => (s, y.1, id)) := by
      intro y m; simp [innerEntries]
    simp only [putInner]
    split
    · rw [hcons]
      simp only [List.reverse_cons, List.reverse_nil, List.nil_append, List.map_cons, List.map_nil]
      exact List.perm_append_comm
    · split
      · rename_i he
        subst he
        rw [hcons, hcons]
        simp only [List.reverse_append, List.reverse_cons, List.reverse_nil, List.nil_append, List.cons_append,
          List.map_cons]
        exact List.perm_middle
      · rw [hcons, hcons, ← List.cons_append]
        exact ih.append_right _

theorem putIndex_keys (s e id : Nat) : ∀ (m : List (Nat × Inner)) (a : Nat × Inner), a ∈ putIndex s e id m →
    a.1 = s ∨ ∃ b ∈ m, b.1 = a.1 := by
  intro m
  induction m with
  | nil => intro a h; simp [putIndex] at h; left; rw [h]
  | cons x m ih =>
    obtain ⟨k, v⟩ := x
    intro a h
    simp only [putIndex] at h
    split at h
    · rcases List.mem_cons.1 h with rfl | h
      · left; rfl
      · right; exact ⟨a, h, rfl⟩
    · split at h
      · rename_i he
        rcases List.mem_cons.1 h with rfl | h
        · left; exact he.symm
        · right; exact ⟨a, List.mem_cons_of_mem _ h, rfl⟩
      · rcases List.mem_cons.1 h with rfl | h
        · right; exact ⟨_, List.mem_cons_self, rfl⟩
        · rcases ih a h with h | ⟨b, hb, h⟩
          · exact Or.inl h
          · exact Or.inr ⟨b, List.mem_cons_of_mem _ hb, h⟩

theorem putIndex_wf (s e n : Nat) : ∀ (m : List (Nat × Inner)), IndexWF n m → IndexWF (n + 1) (putIndex s e n m) := by
  have hone : InnerWF (n + 1) [(e, [n])] := by
    have := putInner_wf e n [] ⟨by simp, by simp⟩
    simpa [putInner] using this
  intro m
  induction m with
  | nil =>
    intro _
    refine ⟨by simp [putIndex], ?_⟩
    intro q hq
    simp only [putIndex, List.mem_singleton] at hq
    subst hq
    exact ⟨by simp, hone⟩
  | cons x m ih =>
    obtain ⟨k, v⟩ := x
    intro h
    have h' : IndexWF n m := ⟨(List.pairwise_cons.1 h.1).2, fun q hq => h.2 q (List.mem_cons_of_mem _ hq)⟩
    have hk := (List.pairwise_cons.1 h.1).1
    have hm : IndexWF (n + 1) ((k, v) :: m) :=
      ⟨h.1, fun q hq => ⟨(h.2 q hq).1, (h.2 q hq).2.mono (Nat.le_succ n)⟩⟩
    simp only [putIndex]
    split
    · rename_i he
      refine ⟨List.pairwise_cons.2 ⟨?_, h.1⟩, ?_⟩
      · intro a ha
        rcases List.mem_cons.1 ha with rfl | ha
        · exact he
        · have := hk a ha; simp at this ⊢; omega
      · intro q hq
        rcases List.mem_cons.1 hq with rfl | hq
        · exact ⟨by simp, hone⟩
        · exact hm.2 q hq
    · split
      · refine ⟨List.pairwise_cons.2 ⟨hk, h'.1⟩, ?_⟩
        intro q hq
        rcases List.mem_cons.1 hq with rfl | hq
        · exact ⟨putInner_ne _ _ _, putInner_wf e n v (h.2 (k, v) (by simp)).2⟩
        · exact hm.2 q (List.mem_cons_of_mem _ hq)
      · rename_i h1 h2
        have ih' := ih h'
        refine ⟨List.pairwise_cons.2 ⟨?_, ih'.1⟩, ?_⟩
        · intro a ha
          rcases putIndex_keys s e n m a ha with h3 | ⟨b, hb, h3⟩
          · simp only; omega
          · have := hk b hb; simp only at this ⊢; omega
        · intro q hq
          rcases List.mem_cons.1 hq with rfl | hq
          · exact hm.2 _ (by simp)
          · exact ih'.2 q hq

theorem putIndex_perm (s e id : Nat) : ∀ m : List (Nat × Inner),
    (entries (putIndex s e id m)).Perm ((s, e, id) :: entries m) := by
  intro m
  induction m with
  | nil => simp [putIndex, entries, innerEntries]
  | cons x m ih =>
    obtain ⟨k, v⟩ := x
    simp only [putIndex]
    split
    · simp [entries, innerEntries]
    · split
      · rename_i he
        subst he
        simp only [entries, List.flatMap_cons]
        rw [← List.cons_append]
        exact (putInner_perm s e id v).append_right _
      · simp only [entries, List.flatMap_cons]
        exact (ih.append_left _).trans List.perm_middle

theorem indexFrom_spec : ∀ (nodes : List Node) (n : Nat) (idx : List (Nat × Inner)), IndexWF n idx →
    IndexWF (n + nodes.length) (indexFrom n idx nodes) ∧
    (entries (indexFrom n idx nodes)).Perm
      ((nodes.zipIdx n).map (fun x => (x.1.first, x.1.last, x.2)) ++ entries idx) := by
  intro nodes
  induction nodes with
  | nil => intro n idx h; exact ⟨h, by simp [indexFrom]⟩
  | cons x xs ih =>
    intro n idx h
    obtain ⟨h1, h2⟩ := ih (n + 1) _ (putIndex_wf x.first x.last n idx h)
    refine ⟨?_, ?_⟩
    · rw [indexFrom]
      have : n + (x :: xs).length = n + 1 + xs.length := by simp; omega
      rw [this]
      exact h1
    · rw [indexFrom, List.zipIdx_cons, List.map_cons, List.cons_append]
      exact h2.trans (((putIndex_perm _ _ _ _).append_left _).trans List.perm_middle)

theorem index_wf (nodes : List Node) : IndexWF nodes.length (index nodes) := by
  have := (indexFrom_spec nodes 0 [] ⟨by simp, by simp⟩).1
  rw [Nat.zero_add] at this
  exact this

theorem index_perm (nodes : List Node) :
    (entries (index nodes)).Perm (nodes.zipIdx.map (fun x => (x.1.first, x.1.last, x.2))) := by
  have := (indexFrom_spec nodes 0 [] ⟨by simp, by simp⟩).2
  simpa [entries, index] using this

theorem entries_sorted {n : Nat} {idx : List (Nat × Inner)} (h : IndexWF n idx) : (entries idx).Pairwise Before := by
  have hinner : ∀ s (m : Inner), InnerWF n m → (innerEntries s m).Pairwise Before := by
    intro s m hm
    rw [innerEntries, List.pairwise_flatMap]
    constructor
    · intro q hq
      rw [List.pairwise_map, List.pairwise_reverse]
      refine (hm.2 q (List.mem_reverse.1 hq)).2.1.imp ?_
      intro a b hab
      exact Or.inr ⟨rfl, Or.inr ⟨rfl, hab⟩⟩
    · rw [List.pairwise_reverse]
      refine hm.1.imp ?_
      intro a b hab x hx y hy
      simp only [List.mem_map, List.mem_reverse] at hx hy
      obtain ⟨_, _, rfl⟩ := hx
      obtain ⟨_, _, rfl⟩ := hy
      exact Or.inr ⟨rfl, Or.inl hab⟩
  have hfst : ∀ s (m : Inner), ∀ x ∈ innerEntries s m, x.1 = s := by
    intro s m x hx
    simp only [innerEntries, List.mem_flatMap, List.mem_map] at hx
    obtain ⟨_, _, _, _, rfl⟩ := hx
    rfl
  rw [entries, List.pairwise_flatMap]
  constructor
  · intro p hp
    exact hinner _ _ (h.2 p hp).2
  · refine h.1.imp ?_
    intro a b hab x hx y hy
    rw [← hfst _ _ x hx, ← hfst _ _ y hy] at hab
    exact Or.inl hab

theorem Before.irrefl (x : Nat × Nat × Nat) : ¬Before x x := by
  unfold Before; omega

theorem Before.antisymm {x y : Nat × Nat × Nat} (h : Before x y) (h' : Before y x) : False := by
  unfold Before at h h'; omega

/-- The order of the visits is determined. -/
theorem order_eq {nodes : List Node} {l : List (Nat × Nat × Nat)} (hs : l.Pairwise Before)
    (hp : l.Perm (nodes.zipIdx.map (fun x => (x.1.first, x.1.last, x.2)))) :
    visitOrder (index nodes) = l.map (fun x => x.2.2) := by
  rw [visitOrder_entries]
  congr 1
  exact List.Perm.eq_of_pairwise (fun a b _ _ h1 h2 => (h1.antisymm h2).elim) (entries_sorted (index_wf nodes)) hs
    ((index_perm nodes).trans hp.symm)

/-! ### Looking up -/

theorem lookup_mem {α : Type} : ∀ {m : List (Nat × α)} {k : Nat} {v : α}, m.Pairwise (fun a b => a.1 < b.1) →
    (m.lookup k = some v ↔ (k, v) ∈ m) := by
  intro m k v
  induction m with
  | nil => intro _; simp
  | cons x m ih =>
    obtain ⟨j, w⟩ := x
    intro h
    have hk := (List.pairwise_cons.1 h).1
    rw [List.lookup_cons]
    by_cases he : k = j
    · subst he
      simp only [beq_self_eq_true, Option.some.injEq, List.mem_cons, Prod.mk.injEq, true_and]
      constructor
      · intro h; exact Or.inl h.symm
      · rintro (h | h)
        · exact h.symm
        · have := hk _ h; simp at this
    · have : (k == j) = false := by simpa using he
      simp only [this, ih (List.pairwise_cons.1 h).2, List.mem_cons, Prod.mk.injEq, he, false_and, false_or]

theorem hasNode_iff {n : Nat} {idx : List (Nat × Inner)} (h : IndexWF n idx) (s e : Nat) :
    hasNode idx s e = true ↔ ∃ id, (s, e, id) ∈ entries idx := by
  rw [hasNode, decide_eq_true_iff, getNodes]
  constructor
  · intro hl
    split at hl
    · simp at hl
    · rename_i inner hi
      have h1 := (lookup_mem h.1).1 hi
      cases hq : inner.lookup e with
      | none => rw [hq] at hl; simp at hl
      | some ids =>
        have h2 := (lookup_mem (h.2 _ h1).2.1).1 hq
        rw [hq] at hl
        cases ids with
        | nil => simp at hl
        | cons id ids =>
          refine ⟨id, ?_⟩
          simp only [entries, innerEntries, List.mem_flatMap, List.mem_map]
          exact ⟨(s, inner), h1, (e, id :: ids), by simpa using h2, id, by simp, rfl⟩
  · rintro ⟨id, hid⟩
    simp only [entries, innerEntries, List.mem_flatMap, List.mem_map] at hid
    obtain ⟨⟨s', inner⟩, h1, ⟨e', ids⟩, h2, id', h3, h4⟩ := hid
    simp only [Prod.mk.injEq] at h4
    obtain ⟨rfl, rfl, rfl⟩ := h4
    rw [List.mem_reverse] at h2 h3
    rw [(lookup_mem h.1).2 h1]
    dsimp only
    rw [(lookup_mem (h.2 _ h1).2.1).2 h2]
    exact List.length_pos_of_mem h3

theorem hasNode_nodes (nodes : List Node) (s e : Nat) :
    hasNode (index nodes) s e = true ↔ ∃ x ∈ nodes, x.first = s ∧ x.last = e := by
  rw [hasNode_iff (index_wf nodes)]
  constructor
  · rintro ⟨id, hid⟩
    have := (index_perm nodes).mem_iff.1 hid
    simp only [List.mem_map, Prod.mk.injEq] at this
    obtain ⟨⟨x, i⟩, hx, h1, h2, h3⟩ := this
    exact ⟨x, List.fst_mem_of_mem_zipIdx hx, h1, h2⟩
  · rintro ⟨x, hx, rfl, rfl⟩
    obtain ⟨i, hi, he⟩ := List.mem_iff_getElem.1 hx
    refine ⟨i, (index_perm nodes).mem_iff.2 ?_⟩
    simp only [List.mem_map, Prod.mk.injEq]
    refine ⟨(x, i), ?_, rfl, rfl, rfl⟩
    rw [List.mem_zipIdx_iff_getElem?]
    rw [List.getElem?_eq_getElem hi, he]

theorem index_length {n : Nat} {nodes : List Node} (h : OfWords n nodes) : (index nodes).length = n := by
  have hwf := index_wf nodes
  have hkeys : ∀ s, s ∈ (index nodes).map (·.1) ↔ s < n := by
    intro s
    constructor
    · intro hs
      simp only [List.mem_map] at hs
      obtain ⟨⟨k, inner⟩, hp, rfl⟩ := hs
      obtain ⟨h1, h2⟩ := hwf.2 _ hp
      cases inner with
      | nil => exact absurd rfl h1
      | cons q m =>
        obtain ⟨e, ids⟩ := q
        cases ids with
        | nil => exact absurd rfl (h2.2 (e, []) (by simp)).1
        | cons id ids =>
          have hh : hasNode (index nodes) k e = true := by
            rw [hasNode_iff hwf]
            refine ⟨id, ?_⟩
            simp only [entries, innerEntries, List.mem_flatMap, List.mem_map]
            exact ⟨_, hp, (e, id :: ids), by simp, id, by simp, rfl⟩
          obtain ⟨x, hx, h3, h4⟩ := (hasNode_nodes nodes k e).1 hh
          have := h.1 x hx
          simp only
          omega
    · intro hs
      obtain ⟨x, hx, h1, h2⟩ := h.2 s hs
      have hh := (hasNode_nodes nodes s s).2 ⟨x, hx, h1, h2⟩
      rw [hasNode_iff hwf] at hh
      obtain ⟨id, hid⟩ := hh
      simp only [entries, innerEntries, List.mem_flatMap, List.mem_map, Prod.mk.injEq] at hid
      obtain ⟨p, hp, _, _, _, _, h5, _⟩ := hid
      exact List.mem_map.2 ⟨p, hp, h5⟩
  have hsorted : ((index nodes).map (·.1)).Pairwise (fun a b => a < b) := by
    rw [List.pairwise_map]
    exact hwf.1
  have hrange : (List.range n).Pairwise (fun a b => a < b) := List.pairwise_lt_range
  have hperm : ((index nodes).map (·.1)).Perm (List.range n) := by
    rw [List.perm_ext_iff_of_nodup (hsorted.imp (fun h => by omega)) (hrange.imp (fun h => by omega))]
    intro a
    rw [hkeys, List.mem_range]
  have := hperm.length_eq
  simpa using this

end Verif.Xml
