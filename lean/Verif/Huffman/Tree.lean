import Verif.Huffman.Spec
import Verif.ListAux

/-!
The array built by `CalcLengths` represents a forest; at the end a single binary tree.
-/
set_option linter.unusedVariables false
set_option linter.unusedSimpArgs false

namespace Verif.Huffman
open Verif Spec

inductive Tree where
  | leaf (i : Nat)
  | node (i : Nat) (l r : Tree)

namespace Tree

def root : Tree → Nat
  | leaf i => i
  | node i _ _ => i

def nodes : Tree → List Nat
  | leaf i => [i]
  | node i l r => i :: (l.nodes ++ r.nodes)

/-- Leaves with their depths. -/
def leafDepths : Tree → Nat → List (Nat × Nat)
  | leaf i, d => [(i, d)]
  | node _ l r, d => l.leafDepths (d + 1) ++ r.leafDepths (d + 1)

def weight (freq : Nat → Nat) : Tree → Nat
  | leaf i => freq i
  | node _ l r => l.weight freq + r.weight freq

def height : Tree → Nat
  | leaf _ => 0
  | node _ l r => max l.height r.height + 1

/-- Parent pointers. -/
def Linked (A : List Nat) : Tree → Prop
  | leaf _ => True
  | node i l r => A[l.root]? = some i ∧ A[r.root]? = some i ∧ Linked A l ∧ Linked A r

/-- Parents have smaller indices than children. -/
def Ordered : Tree → Prop
  | leaf _ => True
  | node i l r => i < l.root ∧ i < r.root ∧ Ordered l ∧ Ordered r

/-- Leaves are at `n` and above, inner nodes below. -/
def Shape (n : Nat) : Tree → Prop
  | leaf i => n ≤ i
  | node i l r => i < n ∧ Shape n l ∧ Shape n r

theorem root_mem_nodes (t : Tree) : t.root ∈ t.nodes := by cases t <;> simp [root, nodes]

theorem Ordered.root_le {t : Tree} (h : t.Ordered) : ∀ i ∈ t.nodes, t.root ≤ i := by
  induction t with
  | leaf i => simp [nodes, root]
  | node i l r ihl ihr =>
    obtain ⟨h1, h2, h3, h4⟩ := h
    intro j hj
    simp only [nodes, List.mem_cons, List.mem_append] at hj
    simp only [root]
    rcases hj with rfl | hj | hj
    · exact Nat.le_refl _
    · have := ihl h3 j hj; omega
    · have := ihr h4 j hj; omega

/-- Changing cells outside the non-root nodes keeps the links. -/
theorem Linked.congr {A B : List Nat} {t : Tree} (h : t.Linked A)
    (hAB : ∀ i ∈ t.nodes, i ≠ t.root → A[i]? = B[i]?) (ho : t.Ordered) : t.Linked B := by
  induction t with
  | leaf i => trivial
  | node i l r ihl ihr =>
    obtain ⟨h1, h2, h3, h4⟩ := h
    obtain ⟨o1, o2, o3, o4⟩ := ho
    have key : ∀ j, (j ∈ l.nodes ∨ j ∈ r.nodes) → A[j]? = B[j]? := by
      intro j hj
      apply hAB
      · simp [nodes]; right; exact hj
      · simp only [root]
        rcases hj with hj | hj
        · have := o3.root_le j hj; omega
        · have := o4.root_le j hj; omega
    refine ⟨?_, ?_, ?_, ?_⟩
    · rw [← key _ (Or.inl (root_mem_nodes l))]; exact h1
    · rw [← key _ (Or.inr (root_mem_nodes r))]; exact h2
    · exact ihl h3 (fun j hj _ => key j (Or.inl hj)) o3
    · exact ihr h4 (fun j hj _ => key j (Or.inr hj)) o4

theorem leafDepths_fst (n : Nat) (t : Tree) (d : Nat) (h : t.Shape n) :
    (t.leafDepths d).map (·.1) = t.nodes.filter (fun i => decide (n ≤ i)) := by
  induction t generalizing d with
  | leaf i => simp [leafDepths, nodes, show n ≤ i from h]
  | node i l r ihl ihr =>
    obtain ⟨h1, h2, h3⟩ := h
    have : ¬ n ≤ i := by omega
    simp [leafDepths, nodes, ihl _ h2, ihr _ h3, this]

theorem leafDepths_le (t : Tree) (d : Nat) : ∀ e ∈ t.leafDepths d, d ≤ e.2 ∧ e.2 ≤ d + t.height := by
  induction t generalizing d with
  | leaf i => simp [leafDepths, height]
  | node i l r ihl ihr =>
    intro e he
    simp only [leafDepths, List.mem_append] at he
    simp only [height]
    rcases he with he | he
    · have := ihl _ e he; omega
    · have := ihr _ e he; omega

theorem height_lt (t : Tree) (d : Nat) : t.height < (t.leafDepths d).length := by
  induction t generalizing d with
  | leaf i => simp [leafDepths, height]
  | node i l r ihl ihr =>
    have h1 := ihl (d + 1)
    have h2 := ihr (d + 1)
    simp [leafDepths, height]; omega

theorem kraft_leafDepths (t : Tree) (D d : Nat) (h : d + t.height ≤ D) :
    kraft D ((t.leafDepths d).map (·.2)) = 2 ^ (D - d) := by
  induction t generalizing d with
  | leaf i => simp [leafDepths, kraft]
  | node i l r ihl ihr =>
    simp only [height] at h
    have h1 := ihl (d + 1) (by omega)
    have h2 := ihr (d + 1) (by omega)
    simp only [kraft, leafDepths, List.map_append, List.sum_append] at *
    rw [h1, h2]
    have : D - d = D - (d + 1) + 1 := by omega
    rw [this, Nat.pow_succ]; omega

/-- Depths computed along parent pointers are the depths in the tree. -/
theorem depths_correct {P D : List Nat} {n : Nat} (t : Tree) (hl : t.Linked P) (ho : t.Ordered)
    (hb : ∀ i ∈ t.nodes, 1 ≤ i ∧ i < 2 * n)
    (hD : ∀ i p, 2 ≤ i → i < 2 * n → P[i]? = some p → ∃ d, D[p]? = some d ∧ D[i]? = some (d + 1))
    (d : Nat) (hr : D[t.root]? = some d) : ∀ e ∈ t.leafDepths d, D[e.1]? = some e.2 := by
  induction t generalizing d with
  | leaf i =>
    intro e he
    simp [leafDepths] at he; subst he; exact hr
  | node i l r ihl ihr =>
    obtain ⟨h1, h2, h3, h4⟩ := hl
    obtain ⟨o1, o2, o3, o4⟩ := ho
    have hbi := hb i (by simp [nodes])
    have hbl : ∀ j ∈ l.nodes, 1 ≤ j ∧ j < 2 * n := fun j hj => hb j (by simp [nodes, hj])
    have hbr : ∀ j ∈ r.nodes, 1 ≤ j ∧ j < 2 * n := fun j hj => hb j (by simp [nodes, hj])
    simp only [root] at hr
    intro e he
    simp only [leafDepths, List.mem_append] at he
    rcases he with he | he
    · refine ihl h3 o3 hbl (d + 1) ?_ e he
      have hx := hbl _ (root_mem_nodes l)
      obtain ⟨d', e1, e2⟩ := hD l.root i (by omega) hx.2 h1
      rw [hr] at e1; cases e1; exact e2
    · refine ihr h4 o4 hbr (d + 1) ?_ e he
      have hx := hbr _ (root_mem_nodes r)
      obtain ⟨d', e1, e2⟩ := hD r.root i (by omega) hx.2 h2
      rw [hr] at e1; cases e1; exact e2

end Tree

open Tree

/-! ### The heap -/

theorem IsHeap.congr {w w' : Nat → Nat} {l : List Nat} (h : IsHeap w l) (hw : ∀ x ∈ l, w x = w' x) :
    IsHeap w' l := by
  intro i hi h0
  rw [← hw _ (List.getElem_mem _), ← hw _ (List.getElem_mem _)]
  exact h i hi h0

theorem IsHeap.head_min {w : Nat → Nat} {x : Nat} {l : List Nat} (h : IsHeap w (x :: l)) :
    ∀ y ∈ l, w x ≤ w y := by
  have key : ∀ i (hi : i < (x :: l).length), w x ≤ w (x :: l)[i] := by
    intro i
    induction i using Nat.strongRecOn with
    | ind i ih =>
      intro hi
      by_cases h0 : i = 0
      · subst h0; simp
      · exact Nat.le_trans (ih ((i - 1) / 2) (by omega) (by omega)) (h i hi (by omega))
  intro y hy
  obtain ⟨i, hi, rfl⟩ := List.getElem_of_mem hy
  have := key (i + 1) (by simpa using hi)
  simpa using this

/-! ### Invariant of the merging loop -/

/-- The array `A` with heap size `h` represents the forest `ts`. -/
structure Inv (n : Nat) (freq : Nat → Nat) (A : List Nat) (h : Nat) (ts : List Tree) : Prop where
  len : A.length = 2 * n
  h_le : h ≤ n
  roots : (A.take h).Perm (ts.map root)
  nodes : (ts.flatMap nodes).Perm (List.range' h (2 * n - h))
  linked : ∀ t ∈ ts, t.Linked A
  ordered : ∀ t ∈ ts, t.Ordered
  shape : ∀ t ∈ ts, t.Shape n
  weights : ∀ t ∈ ts, A[t.root]? = some (t.weight freq % 2 ^ 64)
  heap : IsHeap (weightOf A) (A.take h)

theorem perm_map_cons {f : Tree → Nat} {x : Nat} {l : List Nat} {ts : List Tree}
    (h : (x :: l).Perm (ts.map f)) : ∃ t rest, ts.Perm (t :: rest) ∧ f t = x ∧ l.Perm (rest.map f) := by
  have hx : x ∈ ts.map f := h.mem_iff.1 (by simp)
  obtain ⟨t, ht, rfl⟩ := List.mem_map.1 hx
  obtain ⟨a, b, rfl⟩ := List.append_of_mem ht
  refine ⟨t, a ++ b, List.perm_middle, rfl, ?_⟩
  have h2 : ((a ++ t :: b).map f).Perm (f t :: (a ++ b).map f) := by
    rw [List.map_append, List.map_cons, List.map_append]; exact List.perm_middle
  exact (List.perm_cons _).1 (h.trans h2)

/-- The array after one round, cell by cell. -/
theorem mergeStep_facts {n : Nat} {freq : Nat → Nat} {ops : HeapOps} (hops : Standard ops)
    {A : List Nat} {h : Nat} {ts : List Tree} (hinv : Inv n freq A (h + 2) ts) :
    ∃ t1 t2 rest, ts.Perm (t1 :: t2 :: rest) ∧
      (mergeStep ops A (h + 1)).length = 2 * n ∧
      ((mergeStep ops A (h + 1)).take (h + 1)).Perm (rest.map root ++ [h + 1]) ∧
      IsHeap (weightOf (mergeStep ops A (h + 1))) ((mergeStep ops A (h + 1)).take (h + 1)) ∧
      (mergeStep ops A (h + 1))[h + 1]? = some ((t1.weight freq + t2.weight freq) % 2 ^ 64) ∧
      (∀ j, h + 1 < j → (mergeStep ops A (h + 1))[j]? =
        if j = t1.root ∨ j = t2.root then some (h + 1) else A[j]?) ∧
      (∀ t ∈ t2 :: rest, weightOf A t1.root ≤ weightOf A t.root) ∧
      (∀ t ∈ rest, weightOf A t2.root ≤ weightOf A t.root) := by
  obtain ⟨hlen, hle, hroots, hnodes, hlinked, hordered, hshape, hweights, hheap⟩ := hinv
  have hmem_ge : ∀ t ∈ ts, h + 2 ≤ t.root ∧ t.root < 2 * n := by
    intro t ht
    have : t.root ∈ ts.flatMap Tree.nodes := List.mem_flatMap.2 ⟨t, ht, root_mem_nodes t⟩
    have := hnodes.mem_iff.1 this
    rw [List.mem_range'_1] at this; omega
  -- first pop
  obtain ⟨m1, l, hml⟩ : ∃ m1 l, A.take (h + 2) = m1 :: l := by
    cases hA : A.take (h + 2) with
    | nil => have := congrArg List.length hA; rw [List.length_take, hlen, List.length_nil] at this; omega
    | cons a b => exact ⟨a, b, rfl⟩
  rw [hml] at hroots hheap
  obtain ⟨t1, rest1, hp1, hr1, hl1⟩ := perm_map_cons hroots
  have hA0 : weightOf A 0 = m1 := by
    have : A[0]? = some m1 := by
      have := congrArg (·[0]?) hml
      simpa using this
    simp [weightOf, this]
  obtain ⟨l', hpop1, hl', hheap1⟩ := hops.pop _ m1 l hheap
  have hll : l.length = h + 1 := by
    have := congrArg List.length hml; simp at this; omega
  have hl'l : l'.length = h + 1 := by rw [hl'.length_eq, hll]
  have hmin1 : ∀ t ∈ rest1, weightOf A m1 ≤ weightOf A t.root := by
    intro t ht
    exact IsHeap.head_min hheap t.root (hl1.mem_iff.2 (List.mem_map_of_mem ht))
  -- second pop
  obtain ⟨m2, l2, hm2⟩ : ∃ m2 l2, l' = m2 :: l2 := by
    cases hA : l' with
    | nil => rw [hA] at hl'l; simp at hl'l
    | cons a b => exact ⟨a, b, rfl⟩
  have hl'1 : (m2 :: l2).Perm (rest1.map root) := by rw [← hm2]; exact hl'.trans hl1
  obtain ⟨t2, rest, hp2, hr2, hl2⟩ := perm_map_cons hl'1
  have hperm : ts.Perm (t1 :: t2 :: rest) := hp1.trans (List.Perm.cons t1 hp2)
  have ht1 : t1 ∈ ts := hperm.mem_iff.2 (by simp)
  have ht2 : t2 ∈ ts := hperm.mem_iff.2 (by simp)
  have hrest : ∀ t ∈ rest, t ∈ ts := fun t ht => hperm.mem_iff.2 (by simp [ht])
  have hg1 := hmem_ge t1 ht1
  have hg2 := hmem_ge t2 ht2
  rw [hr1] at hg1; rw [hr2] at hg2
  -- the tail of the array
  obtain ⟨T, hT⟩ : ∃ T, A.drop (h + 2) = T := ⟨_, rfl⟩
  have hTl : T.length = 2 * n - (h + 2) := by rw [← hT]; simp [hlen]
  have hAT : ∀ j, h + 2 ≤ j → A[j]? = T[j - (h + 2)]? := by
    intro j hj; rw [← hT, List.getElem?_drop]; congr 1; omega
  have hA1 : ops.pop (weightOf A) (A.take (h + 2)) ++ A.drop (h + 2) = m2 :: l2 ++ (m1 :: T) := by
    rw [hml, hpop1, hm2, hT]; simp
  have hl2l : l2.length = h := by rw [hm2] at hl'l; simpa using hl'l
  have hA1w : ∀ x, h + 2 ≤ x → weightOf (m2 :: l2 ++ (m1 :: T)) x = weightOf A x := by
    intro x hx
    simp only [weightOf, hAT x hx]
    rw [List.getElem?_append_right (by simp; omega)]
    have : x - (m2 :: l2).length = x - (h + 2) + 1 := by simp; omega
    rw [this, List.getElem?_cons_succ]
  have hge2 : ∀ x ∈ m2 :: l2, h + 2 ≤ x := by
    intro x hx
    have := hl'1.mem_iff.1 hx
    obtain ⟨t, ht, rfl⟩ := List.mem_map.1 this
    exact (hmem_ge t (hp1.mem_iff.2 (by simp [ht]))).1
  have hheap1' : IsHeap (weightOf (m2 :: l2 ++ (m1 :: T))) (m2 :: l2) := by
    rw [← hm2] at *
    apply IsHeap.congr hheap1
    intro x hx; rw [hA1w x (hge2 x hx)]
  obtain ⟨l2', hpop2, hl2', hheap2⟩ := hops.pop _ m2 l2 hheap1'
  have hl2'l : l2'.length = h := by rw [hl2'.length_eq, hl2l]
  have hmin2 : ∀ t ∈ rest, weightOf A m2 ≤ weightOf A t.root := by
    intro t ht
    have := IsHeap.head_min hheap1' t.root (hl2.mem_iff.2 (List.mem_map_of_mem ht))
    rw [hA1w _ hg2.1, hA1w _ (hmem_ge t (hrest t ht)).1] at this
    exact this
  -- the array before the last push
  have hw1 : A[m1]? = some (t1.weight freq % 2 ^ 64) := by rw [← hr1]; exact hweights t1 ht1
  have hw2 : A[m2]? = some (t2.weight freq % 2 ^ 64) := by rw [← hr2]; exact hweights t2 ht2
  have hA2w : ∀ x, h + 2 ≤ x → weightOf (l2' ++ (m2 :: m1 :: T)) x = weightOf A x := by
    intro x hx
    simp only [weightOf, hAT x hx]
    rw [List.getElem?_append_right (by omega)]
    have : x - l2'.length = x - (h + 2) + 1 + 1 := by omega
    rw [this, List.getElem?_cons_succ, List.getElem?_cons_succ]
  have hstep : mergeStep ops A (h + 1) =
      ops.push (weightOf (l2' ++ ((h + 1) :: ((t1.weight freq + t2.weight freq) % 2 ^ 64) ::
          (T.set (m2 - (h + 2)) (h + 1)).set (m1 - (h + 2)) (h + 1)))) (l2' ++ [h + 1]) ++
        (((t1.weight freq + t2.weight freq) % 2 ^ 64) ::
          (T.set (m2 - (h + 2)) (h + 1)).set (m1 - (h + 2)) (h + 1)) := by
    have hs : (weightOf (l2' ++ (m2 :: m1 :: T)) m1 + weightOf (l2' ++ (m2 :: m1 :: T)) m2) % 2 ^ 64
        = (t1.weight freq + t2.weight freq) % 2 ^ 64 := by
      rw [hA2w m1 hg1.1, hA2w m2 hg2.1]
      simp only [weightOf, hw1, hw2, Option.getD_some]
      rw [← Nat.add_mod]
    have e0 : weightOf (m2 :: l2 ++ (m1 :: T)) 0 = m2 := by simp [weightOf]
    have e1 : (m2 :: l2 ++ (m1 :: T)).take (h + 1) = m2 :: l2 := by
      rw [List.take_append_of_le_length (by simp; omega), List.take_of_length_le (by simp; omega)]
    have e2 : (m2 :: l2 ++ (m1 :: T)).drop (h + 1) = m1 :: T := by
      rw [List.drop_append_of_le_length (by simp; omega), List.drop_of_length_le (by simp; omega)]
      simp
    have e3 : ops.pop (weightOf (m2 :: l2 ++ (m1 :: T))) (m2 :: l2) ++ (m1 :: T)
        = l2' ++ (m2 :: m1 :: T) := by rw [hpop2]; simp
    have set_app : ∀ (X Y : List Nat) (k v : Nat), X.length ≤ k → (X ++ Y).set k v = X ++ Y.set (k - X.length) v := by
      intro X Y k v hk
      rw [List.set_append_right _ _ hk]
    simp only [mergeStep, hA0, hA1, e0, e1, e2, e3, hs]
    rw [set_app _ _ _ _ (by omega), hl2'l]
    have k1 : h + 1 - h = 0 + 1 := by omega
    rw [k1, List.set_cons_succ, List.set_cons_zero]
    rw [set_app _ _ (h + 1 - 1) _ (by omega), hl2'l]
    have k2 : h + 1 - 1 - h = 0 := by omega
    rw [k2, List.set_cons_zero]
    rw [set_app _ _ m2 _ (by omega), hl2'l]
    have k3 : m2 - h = (m2 - (h + 2)) + 1 + 1 := by omega
    rw [k3, List.set_cons_succ, List.set_cons_succ]
    rw [set_app _ _ m1 _ (by omega), hl2'l]
    have k4 : m1 - h = (m1 - (h + 2)) + 1 + 1 := by omega
    rw [k4, List.set_cons_succ, List.set_cons_succ]
    have k5 : ∀ Z, (l2' ++ (h + 1) :: Z).take (h + 1) = l2' ++ [h + 1] := by
      intro Z
      have : l2' ++ (h + 1) :: Z = (l2' ++ [h + 1]) ++ Z := by simp
      rw [this, List.take_append_of_le_length (by simp; omega), List.take_of_length_le (by simp; omega)]
    have k6 : ∀ Z, (l2' ++ (h + 1) :: Z).drop (h + 1) = Z := by
      intro Z
      have : l2' ++ (h + 1) :: Z = (l2' ++ [h + 1]) ++ Z := by simp
      rw [this, List.drop_append_of_le_length (by simp; omega), List.drop_of_length_le (by simp; omega)]
      simp
    rw [k5, k6]
  -- heap property of the elements kept
  have hnd : (ts.flatMap Tree.nodes).Nodup := hnodes.nodup_iff.2 List.nodup_range'
  have hne12 : ∀ t ∈ rest, t.root ≠ m1 ∧ t.root ≠ m2 := by
    intro t ht
    have h1 : ((t1 :: t2 :: rest).flatMap Tree.nodes).Nodup :=
      (hperm.flatMap_right _).nodup_iff.1 hnd
    simp only [List.flatMap_cons, List.nodup_append, List.mem_append, List.mem_flatMap] at h1
    obtain ⟨_, ⟨_, _, h3⟩, h2⟩ := h1
    constructor
    · rw [← hr1]; exact fun e => h2 t1.root (root_mem_nodes t1) t.root (Or.inr ⟨t, ht, root_mem_nodes t⟩) e.symm
    · rw [← hr2]; exact fun e => h3 t2.root (root_mem_nodes t2) t.root ⟨t, ht, root_mem_nodes t⟩ e.symm
  have hcell : ∀ j, h + 2 ≤ j →
      ((T.set (m2 - (h + 2)) (h + 1)).set (m1 - (h + 2)) (h + 1))[j - (h + 2)]? =
        if j = m1 ∨ j = m2 then some (h + 1) else A[j]? := by
    intro j hj
    by_cases hj1 : j = m1
    · subst hj1
      rw [List.getElem?_set_self (by simp [hTl]; omega)]; simp
    · rw [List.getElem?_set_ne (by omega)]
      by_cases hj2 : j = m2
      · subst hj2
        rw [List.getElem?_set_self (by simp [hTl]; omega)]; simp
      · rw [List.getElem?_set_ne (by omega)]
        simp [hj1, hj2, hAT j hj]
  have hheap3 : IsHeap (weightOf (l2' ++ ((h + 1) :: ((t1.weight freq + t2.weight freq) % 2 ^ 64) ::
          (T.set (m2 - (h + 2)) (h + 1)).set (m1 - (h + 2)) (h + 1)))) l2' := by
    apply IsHeap.congr hheap2
    intro x hx
    have hxm : x ∈ rest.map root := hl2.mem_iff.1 (hl2'.mem_iff.1 hx)
    obtain ⟨t, ht, rfl⟩ := List.mem_map.1 hxm
    have hge := hmem_ge t (hrest t ht)
    rw [hA1w _ hge.1]
    simp only [weightOf]
    rw [List.getElem?_append_right (by omega)]
    have : t.root - l2'.length = t.root - (h + 2) + 1 + 1 := by omega
    rw [this, List.getElem?_cons_succ, List.getElem?_cons_succ, hcell _ hge.1]
    have := hne12 t ht
    simp [this.1, this.2]
  obtain ⟨hpush, hheap4⟩ := hops.push _ l2' (h + 1) hheap3
  have hPl : (ops.push (weightOf (l2' ++ ((h + 1) :: ((t1.weight freq + t2.weight freq) % 2 ^ 64) ::
          (T.set (m2 - (h + 2)) (h + 1)).set (m1 - (h + 2)) (h + 1)))) (l2' ++ [h + 1])).length = h + 1 := by
    rw [hpush.length_eq]; simp; omega
  generalize hP : ops.push (weightOf (l2' ++ ((h + 1) :: ((t1.weight freq + t2.weight freq) % 2 ^ 64) ::
          (T.set (m2 - (h + 2)) (h + 1)).set (m1 - (h + 2)) (h + 1)))) (l2' ++ [h + 1]) = P at *
  have htake : (mergeStep ops A (h + 1)).take (h + 1) = P := by
    rw [hstep, List.take_append_of_le_length (by omega), List.take_of_length_le (by omega)]
  have hcells : ∀ j, h + 1 < j → (mergeStep ops A (h + 1))[j]? =
        if j = t1.root ∨ j = t2.root then some (h + 1) else A[j]? := by
    intro j hj
    rw [hstep, List.getElem?_append_right (by omega), hr1, hr2, ← hcell j (by omega)]
    have : j - P.length = j - (h + 2) + 1 := by omega
    rw [this, List.getElem?_cons_succ]
  have hsum : (mergeStep ops A (h + 1))[h + 1]? = some ((t1.weight freq + t2.weight freq) % 2 ^ 64) := by
    rw [hstep, List.getElem?_append_right (by omega), hPl]; simp
  refine ⟨t1, t2, rest, hperm, ?_, ?_, ?_, hsum, hcells, ?_, ?_⟩
  · rw [hstep]; simp [hPl, hTl]; omega
  · rw [htake]
    exact hpush.trans (List.Perm.append_right _ (hl2'.trans hl2))
  · rw [htake]
    apply IsHeap.congr hheap4
    intro x hx
    have hx' := hpush.mem_iff.1 hx
    simp only [List.mem_append, List.mem_singleton] at hx'
    have : h + 1 ≤ x := by
      rcases hx' with hx' | hx'
      · have hxm : x ∈ rest.map root := hl2.mem_iff.1 (hl2'.mem_iff.1 hx')
        obtain ⟨t, ht, rfl⟩ := List.mem_map.1 hxm
        have := hmem_ge t (hrest t ht); omega
      · omega
    simp only [weightOf]
    rw [hstep]
    rw [List.getElem?_append_right (by omega), List.getElem?_append_right (by omega), hPl, hl2'l]
    have : x - h = (x - (h + 1)) + 1 := by omega
    rw [this, List.getElem?_cons_succ]
  · intro t ht
    rw [hr1]
    simp only [List.mem_cons] at ht
    rcases ht with rfl | ht
    · exact hmin1 t (hp2.mem_iff.2 (by simp))
    · exact hmin1 t (hp2.mem_iff.2 (by simp [ht]))
  · rw [hr2]; exact hmin2

/-- The forest after one round. -/
theorem inv_mergeStep {n : Nat} {freq : Nat → Nat} {ops : HeapOps} (hops : Standard ops)
    {A : List Nat} {h : Nat} {ts : List Tree} (hinv : Inv n freq A (h + 2) ts) :
    ∃ t1 t2 rest, ts.Perm (t1 :: t2 :: rest) ∧
      (∀ t ∈ t2 :: rest, weightOf A t1.root ≤ weightOf A t.root) ∧
      (∀ t ∈ rest, weightOf A t2.root ≤ weightOf A t.root) ∧
      Inv n freq (mergeStep ops A (h + 1)) (h + 1) (node (h + 1) t1 t2 :: rest) := by
  obtain ⟨t1, t2, rest, hperm, f1, f2, f3, f4, f5, f6, f7⟩ := mergeStep_facts hops hinv
  obtain ⟨hlen, hle, hroots, hnodes, hlinked, hordered, hshape, hweights, hheap⟩ := hinv
  have ht1 : t1 ∈ ts := hperm.mem_iff.2 (by simp)
  have ht2 : t2 ∈ ts := hperm.mem_iff.2 (by simp)
  have hrest : ∀ t ∈ rest, t ∈ ts := fun t ht => hperm.mem_iff.2 (by simp [ht])
  have hnodes' : ((t1 :: t2 :: rest).flatMap Tree.nodes).Perm (List.range' (h + 2) (2 * n - (h + 2))) :=
    (hperm.flatMap_right _).symm.trans hnodes
  have hnd : ((t1 :: t2 :: rest).flatMap Tree.nodes).Nodup := hnodes'.nodup_iff.2 List.nodup_range'
  have hge : ∀ t ∈ ts, ∀ i ∈ t.nodes, h + 2 ≤ i ∧ i < 2 * n := by
    intro t ht i hi
    have := hnodes.mem_iff.1 (List.mem_flatMap.2 ⟨t, ht, hi⟩)
    rw [List.mem_range'_1] at this; omega
  simp only [List.flatMap_cons, List.nodup_append, List.mem_append, List.mem_flatMap] at hnd
  obtain ⟨_, ⟨_, _, hd2⟩, hd1⟩ := hnd
  -- links of a tree are not disturbed
  have keep : ∀ t ∈ ts, (∀ i ∈ t.nodes, i ≠ t.root → i ≠ t1.root ∧ i ≠ t2.root) →
      t.Linked (mergeStep ops A (h + 1)) := by
    intro t ht hne
    apply (hlinked t ht).congr _ (hordered t ht)
    intro i hi hir
    have := hge t ht i hi
    rw [f5 i (by omega)]
    have := hne i hi hir
    simp [this.1, this.2]
  refine ⟨t1, t2, rest, hperm, f6, f7, f1, by omega, ?_, ?_, ?_, ?_, ?_, ?_, f3⟩
  · refine f2.trans ?_
    simp only [List.map_cons, root]
    exact List.perm_append_comm
  · simp only [List.flatMap_cons, Tree.nodes, List.cons_append, List.append_assoc]
    have e : List.range' (h + 1) (2 * n - (h + 1)) = (h + 1) :: List.range' (h + 2) (2 * n - (h + 2)) := by
      have : 2 * n - (h + 1) = (2 * n - (h + 2)) + 1 := by omega
      rw [this, List.range'_succ]
    rw [e]
    refine List.Perm.cons _ ?_
    simpa [List.flatMap_cons] using hnodes'
  · intro t ht
    simp only [List.mem_cons] at ht
    rcases ht with rfl | ht
    · refine ⟨?_, ?_, ?_, ?_⟩
      · have := hge t1 ht1 _ (root_mem_nodes t1)
        rw [f5 _ (by omega)]; simp
      · have := hge t2 ht2 _ (root_mem_nodes t2)
        rw [f5 _ (by omega)]; simp
      · apply keep t1 ht1
        intro i hi hir
        exact ⟨hir, fun e => hd1 i hi t2.root (Or.inl (root_mem_nodes t2)) e⟩
      · apply keep t2 ht2
        intro i hi hir
        exact ⟨fun e => hd1 t1.root (root_mem_nodes t1) i (Or.inl hi) e.symm, hir⟩
    · apply keep t (hrest t ht)
      intro i hi hir
      exact ⟨fun e => hd1 t1.root (root_mem_nodes t1) i (Or.inr ⟨t, ht, hi⟩) e.symm,
        fun e => hd2 t2.root (root_mem_nodes t2) i ⟨t, ht, hi⟩ e.symm⟩
  · intro t ht
    simp only [List.mem_cons] at ht
    rcases ht with rfl | ht
    · have a1 := hge t1 ht1 _ (root_mem_nodes t1)
      have a2 := hge t2 ht2 _ (root_mem_nodes t2)
      exact ⟨by omega, by omega, hordered t1 ht1, hordered t2 ht2⟩
    · exact hordered t (hrest t ht)
  · intro t ht
    simp only [List.mem_cons] at ht
    rcases ht with rfl | ht
    · exact ⟨by omega, hshape t1 ht1, hshape t2 ht2⟩
    · exact hshape t (hrest t ht)
  · intro t ht
    simp only [List.mem_cons] at ht
    rcases ht with rfl | ht
    · simp only [root, Tree.weight]; exact f4
    · have a := hge t (hrest t ht) _ (root_mem_nodes t)
      rw [f5 _ (by omega)]
      have n1 : t.root ≠ t1.root := fun e => hd1 t1.root (root_mem_nodes t1) t.root (Or.inr ⟨t, ht, root_mem_nodes t⟩) e.symm
      have n2 : t.root ≠ t2.root := fun e => hd2 t2.root (root_mem_nodes t2) t.root ⟨t, ht, root_mem_nodes t⟩ e.symm
      simp only [n1, n2, or_self, if_false]
      exact hweights t (hrest t ht)

end Verif.Huffman
