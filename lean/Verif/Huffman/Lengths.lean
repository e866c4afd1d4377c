import Verif.Huffman.Tree

/-! The lengths computed by `CalcLengths` are the leaf depths of a binary tree. -/
set_option linter.unusedVariables false
set_option linter.unusedSimpArgs false

namespace Verif.Huffman
open Verif Spec Tree

/-- Running the merging loop to the end, with a property of forests that every merge of two lightest
trees keeps. -/
theorem mergeLoop_inv {n : Nat} {freq : Nat → Nat} {ops : HeapOps} (hops : Standard ops)
    (Q : List Tree → Prop) (hQp : ∀ ts ts', ts.Perm ts' → Q ts → Q ts')
    (hQ : ∀ h t1 t2 rest, Q (t1 :: t2 :: rest) →
      (∀ t ∈ t2 :: rest, t1.weight freq % 2 ^ 64 ≤ t.weight freq % 2 ^ 64) →
      (∀ t ∈ rest, t2.weight freq % 2 ^ 64 ≤ t.weight freq % 2 ^ 64) → Q (node h t1 t2 :: rest))
    (h : Nat) (A : List Nat) (ts : List Tree) (hinv : Inv n freq A (h + 1) ts) (hq : Q ts) :
    ∃ t, Inv n freq (mergeLoop ops (h + 1) A) 1 [t] ∧ Q [t] := by
  induction h generalizing A ts with
  | zero =>
    have hl := hinv.roots.length_eq
    rw [List.length_take, hinv.len, List.length_map] at hl
    have := hinv.h_le
    match ts, hl with
    | [t], _ => exact ⟨t, hinv, hq⟩
    | [], hl => simp at hl; omega
    | _ :: _ :: _, hl => simp at hl; omega
  | succ h ih =>
    obtain ⟨t1, t2, rest, hp, m1, m2, hinv'⟩ := inv_mergeStep hops hinv
    rw [mergeLoop]
    refine ih _ _ hinv' ?_
    have hw : ∀ t ∈ ts, weightOf A t.root = t.weight freq % 2 ^ 64 := by
      intro t ht; simp [weightOf, hinv.weights t ht]
    have ht1 : t1 ∈ ts := hp.mem_iff.2 (by simp)
    have ht2 : t2 ∈ ts := hp.mem_iff.2 (by simp)
    apply hQ _ _ _ _ (hQp _ _ hp hq)
    · intro t ht
      have hts : t ∈ ts := hp.mem_iff.2 (by simp at ht; rcases ht with rfl | ht <;> simp_all)
      rw [← hw t1 ht1, ← hw t hts]; exact m1 t ht
    · intro t ht
      have hts : t ∈ ts := hp.mem_iff.2 (by simp [ht])
      rw [← hw t2 ht2, ← hw t hts]; exact m2 t ht

/-- Initial forest: one leaf for each symbol. -/
def leaves (n : Nat) : List Tree := (List.range' n n).map leaf

/-- Frequency of the leaf at index `i`. -/
def freqAt (freqs : List Nat) (i : Nat) : Nat := freqs[i - freqs.length]?.getD 0

theorem inv_init {ops : HeapOps} (hops : Standard ops) (freqs : List Nat)
    (hf : ∀ f ∈ freqs, f < 2 ^ 64) :
    Inv freqs.length (freqAt freqs)
      (ops.make (weightOf (List.range' freqs.length freqs.length ++ freqs))
        ((List.range' freqs.length freqs.length ++ freqs).take freqs.length) ++
        (List.range' freqs.length freqs.length ++ freqs).drop freqs.length)
      freqs.length (leaves freqs.length) := by
  generalize hn : freqs.length = n
  have e1 : (List.range' n n ++ freqs).take n = List.range' n n := by
    rw [List.take_append_of_le_length (by simp), List.take_of_length_le (by simp)]
  have e2 : (List.range' n n ++ freqs).drop n = freqs := by
    rw [List.drop_append_of_le_length (by simp), List.drop_of_length_le (by simp)]; simp
  rw [e1, e2]
  obtain ⟨hp, hh⟩ := hops.make (weightOf (List.range' n n ++ freqs)) (List.range' n n)
  generalize ops.make (weightOf (List.range' n n ++ freqs)) (List.range' n n) = P at *
  have hPl : P.length = n := by rw [hp.length_eq]; simp
  have htk : (P ++ freqs).take n = P := by
    rw [List.take_append_of_le_length (by omega), List.take_of_length_le (by omega)]
  have hmap : (leaves n).map root = List.range' n n := by
    simp only [leaves, List.map_map]
    have : (root ∘ leaf) = id := by funext i; rfl
    rw [this, List.map_id]
  refine ⟨by simp [hPl, hn]; omega, Nat.le_refl _, ?_, ?_, ?_, ?_, ?_, ?_, ?_⟩
  · rw [htk, hmap]; exact hp
  · have : (leaves n).flatMap Tree.nodes = List.range' n n := by
      simp only [leaves, List.flatMap_map]
      show (List.range' n n).flatMap (fun i => [i]) = _
      rw [List.flatMap_singleton']
    rw [this]
    have : 2 * n - n = n := by omega
    rw [this]
  · intro t ht; simp only [leaves, List.mem_map] at ht; obtain ⟨i, _, rfl⟩ := ht; trivial
  · intro t ht; simp only [leaves, List.mem_map] at ht; obtain ⟨i, _, rfl⟩ := ht; trivial
  · intro t ht; simp only [leaves, List.mem_map] at ht; obtain ⟨i, hi, rfl⟩ := ht
    rw [List.mem_range'_1] at hi; exact hi.1
  · intro t ht; simp only [leaves, List.mem_map] at ht; obtain ⟨i, hi, rfl⟩ := ht
    rw [List.mem_range'_1] at hi
    simp only [root, Tree.weight, freqAt, hn]
    rw [List.getElem?_append_right (by omega), hPl]
    have hl : i - n < freqs.length := by omega
    rw [List.getElem?_eq_getElem hl, Option.getD_some,
      Nat.mod_eq_of_lt (hf _ (List.getElem_mem _))]
  · rw [htk]
    apply IsHeap.congr hh
    intro x hx
    have := hp.mem_iff.1 hx
    rw [List.mem_range'_1] at this
    simp only [weightOf]
    rw [List.getElem?_append_right (by simp; omega), List.getElem?_append_right (by omega)]
    simp [hPl]

/-- The depth pass. -/
theorem depthLoop_spec (P : List Nat) (N : Nat) (hP : P.length = N)
    (hpar : ∀ i p, 2 ≤ i → i < N → P[i]? = some p → 1 ≤ p ∧ p < i)
    (i cnt : Nat) (A : List Nat) (hi : 2 ≤ i) (hcnt : i + cnt = N) (hA : A.length = N)
    (h1 : A[1]? = some 0)
    (hdone : ∀ j p, 2 ≤ j → j < i → P[j]? = some p → ∃ d, A[p]? = some d ∧ A[j]? = some (d + 1))
    (htodo : ∀ j, i ≤ j → A[j]? = P[j]?) :
    (depthLoop i cnt A).length = N ∧ (depthLoop i cnt A)[1]? = some 0 ∧
    ∀ j p, 2 ≤ j → j < N → P[j]? = some p →
      ∃ d, (depthLoop i cnt A)[p]? = some d ∧ (depthLoop i cnt A)[j]? = some (d + 1) := by
  induction cnt generalizing i A with
  | zero =>
    simp only [depthLoop]
    exact ⟨hA, h1, fun j p h2 hj hp => hdone j p h2 (by omega) hp⟩
  | succ cnt ih =>
    rw [depthLoop]
    have hil : i < P.length := by omega
    have hPi : P[i]? = some P[i] := List.getElem?_eq_getElem hil
    have hAi : weightOf A i = P[i] := by simp [weightOf, htodo i (Nat.le_refl _), hPi]
    obtain ⟨hp1, hp2⟩ := hpar i _ hi (by omega) hPi
    have hgetp : A[P[i]]? = some (weightOf A P[i]) := by
      have : P[i] < A.length := by omega
      simp [weightOf, this]
    apply ih (i + 1)
    · omega
    · omega
    · simpa using hA
    · rw [List.getElem?_set_ne (by omega)]; exact h1
    · intro j p h2 hj hp
      by_cases hji : j = i
      · subst hji
        rw [hPi] at hp; cases hp
        refine ⟨weightOf A P[j], ?_, ?_⟩
        · rw [List.getElem?_set_ne (by omega)]; exact hgetp
        · rw [List.getElem?_set_self (by omega), hAi]
      · have hpj := hpar j p h2 (by omega) hp
        obtain ⟨d, d1, d2⟩ := hdone j p h2 (by omega) hp
        exact ⟨d, by rw [List.getElem?_set_ne (by omega)]; exact d1,
          by rw [List.getElem?_set_ne (by omega)]; exact d2⟩
    · intro j hj
      rw [List.getElem?_set_ne (by omega)]; exact htodo j (by omega)

/-- Every non-root node of a linked ordered tree has its parent in the tree. -/
theorem parent_bounds {A : List Nat} {t : Tree} (hl : t.Linked A) (ho : t.Ordered) :
    ∀ i ∈ t.nodes, i ≠ t.root → ∃ p, A[i]? = some p ∧ t.root ≤ p ∧ p < i := by
  induction t with
  | leaf i => simp [nodes, root]
  | node i l r ihl ihr =>
    obtain ⟨h1, h2, h3, h4⟩ := hl
    obtain ⟨o1, o2, o3, o4⟩ := ho
    intro j hj hne
    simp only [nodes, List.mem_cons, List.mem_append] at hj
    simp only [root] at hne ⊢
    rcases hj with rfl | hj | hj
    · exact absurd rfl hne
    · by_cases hjr : j = l.root
      · subst hjr; exact ⟨i, h1, Nat.le_refl _, o1⟩
      · obtain ⟨p, p1, p2, p3⟩ := ihl h3 o3 j hj hjr
        exact ⟨p, p1, by omega, p3⟩
    · by_cases hjr : j = r.root
      · subst hjr; exact ⟨i, h2, Nat.le_refl _, o2⟩
      · obtain ⟨p, p1, p2, p3⟩ := ihr h4 o4 j hj hjr
        exact ⟨p, p1, by omega, p3⟩

/-- The result of `CalcLengths` for two or more symbols. -/
theorem calcLengths_tree {ops : HeapOps} (hops : Standard ops) (freqs : List Nat)
    (hn : 2 ≤ freqs.length) (hf : ∀ f ∈ freqs, f < 2 ^ 64)
    (Q : List Tree → Prop) (hQp : ∀ ts ts', ts.Perm ts' → Q ts → Q ts')
    (hQ : ∀ h t1 t2 rest, Q (t1 :: t2 :: rest) →
      (∀ t ∈ t2 :: rest, t1.weight (freqAt freqs) % 2 ^ 64 ≤ t.weight (freqAt freqs) % 2 ^ 64) →
      (∀ t ∈ rest, t2.weight (freqAt freqs) % 2 ^ 64 ≤ t.weight (freqAt freqs) % 2 ^ 64) →
      Q (node h t1 t2 :: rest))
    (hq0 : Q (leaves freqs.length)) :
    ∃ t, Q [t] ∧ ((t.leafDepths 0).map (·.1)).Perm (List.range' freqs.length freqs.length) ∧
      (calcLengths ops freqs).length = freqs.length ∧
      ∀ e ∈ t.leafDepths 0, (calcLengths ops freqs)[e.1 - freqs.length]? = some (e.2 % 65536) := by
  have hinit := inv_init hops freqs hf
  unfold calcLengths
  generalize hn' : freqs.length = n at *
  rw [if_neg (by omega)]
  obtain ⟨k, rfl⟩ : ∃ k, n = k + 1 := ⟨n - 1, by omega⟩
  obtain ⟨t, ht, hqt⟩ := mergeLoop_inv hops Q hQp hQ k _ _ hinit hq0
  simp only
  generalize mergeLoop ops (k + 1) _ = P at *
  have hnodes : t.nodes.Perm (List.range' 1 (2 * (k + 1) - 1)) := by
    have := ht.nodes; simpa using this
  have ho := ht.ordered t (by simp)
  have hlk := ht.linked t (by simp)
  have hsh := ht.shape t (by simp)
  have hroot : t.root = 1 := by
    have h1 : 1 ∈ t.nodes := hnodes.mem_iff.2 (by rw [List.mem_range'_1]; omega)
    have h2 := ho.root_le 1 h1
    have h3 := hnodes.mem_iff.1 (root_mem_nodes t)
    rw [List.mem_range'_1] at h3; omega
  have hbounds : ∀ i ∈ t.nodes, 1 ≤ i ∧ i < 2 * (k + 1) := by
    intro i hi
    have h3 := hnodes.mem_iff.1 hi
    rw [List.mem_range'_1] at h3; omega
  -- parents
  have hlk' : t.Linked (P.set 1 0) := by
    apply hlk.congr _ ho
    intro i hi hir
    rw [List.getElem?_set_ne (by omega)]
  have hpar : ∀ i p, 2 ≤ i → i < 2 * (k + 1) → (P.set 1 0)[i]? = some p → 1 ≤ p ∧ p < i := by
    intro i p h2 hi hp
    have him : i ∈ t.nodes := hnodes.mem_iff.2 (by rw [List.mem_range'_1]; omega)
    obtain ⟨p', p1, p2, p3⟩ := parent_bounds hlk' ho i him (by omega)
    rw [hp] at p1; cases p1
    omega
  have hPl : (P.set 1 0).length = 2 * (k + 1) := by rw [List.length_set]; exact ht.len
  obtain ⟨d1, d2, d3⟩ := depthLoop_spec (P.set 1 0) (2 * (k + 1)) hPl hpar 2 (2 * (k + 1) - 2)
    (P.set 1 0) (by omega) (by omega) hPl (by rw [List.getElem?_set_self (by rw [ht.len]; omega)])
    (by intro j p h2 hj; omega) (fun _ _ => rfl)
  have hdep := depths_correct t hlk' ho hbounds d3 0 (by rw [hroot]; exact d2)
  have hfst := leafDepths_fst (k + 1) t 0 hsh
  have hperm : ((t.leafDepths 0).map (·.1)).Perm (List.range' (k + 1) (k + 1)) := by
    rw [hfst]
    refine (hnodes.filter _).trans ?_
    have : List.range' 1 (2 * (k + 1) - 1) = List.range' 1 k ++ List.range' (k + 1) (k + 1) := by
      have e : 2 * (k + 1) - 1 = k + (k + 1) := by omega
      rw [e, ← List.range'_append_1]
      congr 1
      rw [Nat.add_comm]
    rw [this, List.filter_append]
    have f1 : (List.range' 1 k).filter (fun i => decide (k + 1 ≤ i)) = [] := by
      rw [List.filter_eq_nil_iff]; intro a ha; rw [List.mem_range'_1] at ha; simp; omega
    have f2 : (List.range' (k + 1) (k + 1)).filter (fun i => decide (k + 1 ≤ i)) = List.range' (k + 1) (k + 1) := by
      rw [List.filter_eq_self]; intro a ha; rw [List.mem_range'_1] at ha; simp; omega
    rw [f1, f2]; simp
  refine ⟨t, hqt, hperm, ?_, ?_⟩
  · simp [d1]; omega
  · intro e he
    have h1 := hdep e he
    have h2 : e.1 ∈ List.range' (k + 1) (k + 1) := hperm.mem_iff.1 (List.mem_map_of_mem he)
    rw [List.mem_range'_1] at h2
    rw [List.getElem?_map, List.getElem?_take, if_pos (by omega), List.getElem?_drop]
    have : k + 1 + (e.1 - (k + 1)) = e.1 := by omega
    rw [this, h1]; rfl

theorem calcLengths_perm {ops : HeapOps} {freqs : List Nat} {t : Tree} {D : List Nat}
    (hp : ((t.leafDepths 0).map (·.1)).Perm (List.range' freqs.length freqs.length))
    (hl : D.length = freqs.length)
    (hd : ∀ e ∈ t.leafDepths 0, D[e.1 - freqs.length]? = some (e.2 % 65536)) :
    D.Perm ((t.leafDepths 0).map fun e => e.2 % 65536) := by
  have h1 : D = (List.range' freqs.length freqs.length).map (fun i => D[i - freqs.length]?.getD 0) := by
    apply List.ext_getElem?
    intro i
    by_cases hi : i < freqs.length
    · simp [hi, hl]
    · simp [hi, hl]
  have h2 : (t.leafDepths 0).map (fun e => e.2 % 65536) =
      ((t.leafDepths 0).map (·.1)).map (fun i => D[i - freqs.length]?.getD 0) := by
    rw [List.map_map]
    apply List.map_congr_left
    intro e he
    simp [hd e he]
  rw [h2]
  have h3 := (hp.map (fun i => D[i - freqs.length]?.getD 0)).symm
  rwa [← h1] at h3

/-- Fibonacci numbers, `fib 1 = fib 2 = 1`. -/
def fib : Nat → Nat
  | 0 => 0
  | 1 => 1
  | n+2 => fib (n + 1) + fib n

theorem fib_mono_succ (n : Nat) : fib n ≤ fib (n + 1) := by
  cases n with
  | zero => simp [fib]
  | succ n => simp [fib]

theorem fib_mono {a b : Nat} (h : a ≤ b) : fib a ≤ fib b := by
  induction h with
  | refl => exact Nat.le_refl _
  | step h ih => exact Nat.le_trans ih (fib_mono_succ _)

/-- Trees built by merging lightest trees are heavy when they are high. -/
def FibForest (freq : Nat → Nat) (ts : List Tree) : Prop :=
  (ts.map (Tree.weight freq)).sum < 2 ^ 64 ∧
  ∃ M, ∀ t ∈ ts, M ≤ t.weight freq ∧ fib (t.height + 2) ≤ t.weight freq ∧ fib (t.height + 1) ≤ M

theorem le_sum_of_mem {l : List Nat} {x : Nat} (h : x ∈ l) : x ≤ l.sum := by
  induction l with
  | nil => simp at h
  | cons a l ih =>
    simp at h ⊢
    rcases h with rfl | h
    · omega
    · have := ih h; omega

theorem fibForest_perm (freq : Nat → Nat) (ts ts' : List Tree) (h : ts.Perm ts')
    (hq : FibForest freq ts) : FibForest freq ts' := by
  obtain ⟨h1, M, h2⟩ := hq
  refine ⟨?_, M, fun t ht => h2 t (h.mem_iff.2 ht)⟩
  rw [← (h.map _).sum_nat]; exact h1

theorem fibForest_step (freq : Nat → Nat) (h : Nat) (t1 t2 : Tree) (rest : List Tree)
    (hq : FibForest freq (t1 :: t2 :: rest))
    (m1 : ∀ t ∈ t2 :: rest, t1.weight freq % 2 ^ 64 ≤ t.weight freq % 2 ^ 64)
    (m2 : ∀ t ∈ rest, t2.weight freq % 2 ^ 64 ≤ t.weight freq % 2 ^ 64) :
    FibForest freq (node h t1 t2 :: rest) := by
  obtain ⟨h1, M, h2⟩ := hq
  have hlt : ∀ t ∈ t1 :: t2 :: rest, t.weight freq % 2 ^ 64 = t.weight freq := by
    intro t ht
    apply Nat.mod_eq_of_lt
    have := le_sum_of_mem (List.mem_map_of_mem (f := Tree.weight freq) ht)
    omega
  have m12 : t1.weight freq ≤ t2.weight freq := by
    have := m1 t2 (by simp)
    rwa [hlt t1 (by simp), hlt t2 (by simp)] at this
  have m2r : ∀ t ∈ rest, t2.weight freq ≤ t.weight freq := by
    intro t ht
    have := m2 t ht
    rwa [hlt t2 (by simp), hlt t (by simp [ht])] at this
  obtain ⟨a1, a2, a3⟩ := h2 t1 (by simp)
  obtain ⟨b1, b2, b3⟩ := h2 t2 (by simp)
  refine ⟨?_, t2.weight freq, ?_⟩
  · simp only [List.map_cons, List.sum_cons, Tree.weight] at h1 ⊢; omega
  · intro t ht
    simp only [List.mem_cons] at ht
    rcases ht with rfl | ht
    · simp only [Tree.weight, Tree.height]
      rcases Nat.le_total t1.height t2.height with hh | hh
      · rw [Nat.max_eq_right hh]
        have e : fib (t2.height + 1 + 2) = fib (t2.height + 2) + fib (t2.height + 1) := rfl
        refine ⟨by omega, by omega, b2⟩
      · rw [Nat.max_eq_left hh]
        have e : fib (t1.height + 1 + 2) = fib (t1.height + 2) + fib (t1.height + 1) := rfl
        refine ⟨by omega, by omega, Nat.le_trans a2 m12⟩
    · obtain ⟨c1, c2, c3⟩ := h2 t (by simp [ht])
      exact ⟨m2r t ht, c2, by omega⟩

theorem fibForest_leaves (freqs : List Nat) (hpos : ∀ f ∈ freqs, 1 ≤ f) (hs : freqs.sum < 2 ^ 64) :
    FibForest (freqAt freqs) (leaves freqs.length) := by
  have hmap : (leaves freqs.length).map (Tree.weight (freqAt freqs)) = freqs := by
    simp only [leaves, List.map_map]
    apply List.ext_getElem?
    intro i
    by_cases hi : i < freqs.length
    · simp [hi, Tree.weight, freqAt]
    · simp [hi]
  refine ⟨by rw [hmap]; exact hs, 1, ?_⟩
  intro t ht
  have hw : t.weight (freqAt freqs) ∈ freqs := by
    have := List.mem_map_of_mem (f := Tree.weight (freqAt freqs)) ht
    rwa [hmap] at this
  simp only [leaves, List.mem_map] at ht
  obtain ⟨i, _, rfl⟩ := ht
  have := hpos _ hw
  simp only [Tree.height, fib]
  omega

theorem weight_sum (freq : Nat → Nat) (t : Tree) (d : Nat) :
    t.weight freq = ((t.leafDepths d).map (fun e => freq e.1)).sum := by
  induction t generalizing d with
  | leaf i => simp [Tree.weight, leafDepths]
  | node i l r ihl ihr => simp [Tree.weight, leafDepths, ihl (d + 1), ihr (d + 1)]

end Verif.Huffman
