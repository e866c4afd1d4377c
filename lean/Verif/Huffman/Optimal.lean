import Verif.Huffman.Lemmas

/-! Optimality of the lengths: the exchange argument. -/
set_option linter.unusedVariables false
set_option linter.unusedSimpArgs false

namespace Verif.Huffman
open Verif Spec Tree

/-- Weighted length of a list of pairs (weight, length). -/
def cost (ps : List (Nat × Nat)) : Nat := (ps.map fun p => p.1 * p.2).sum

theorem cost_cons (p : Nat × Nat) (ps : List (Nat × Nat)) : cost (p :: ps) = p.1 * p.2 + cost ps := by simp [cost]

theorem cost_perm {ps qs : List (Nat × Nat)} (h : ps.Perm qs) : cost ps = cost qs := (h.map _).sum_nat

theorem kraft_cons (D l : Nat) (ls : List Nat) : kraft D (l :: ls) = 2 ^ (D - l) + kraft D ls := by simp [kraft]

theorem kraft_perm {D : Nat} {ls ms : List Nat} (h : ls.Perm ms) : kraft D ls = kraft D ms := (h.map _).sum_nat

/-- Giving the lightest element the greatest length. -/
theorem bubble (a : Nat) (rest : List (Nat × Nat)) (h : ∀ p ∈ rest, a ≤ p.1) (l : Nat) :
    ∃ L rest', rest'.map (·.1) = rest.map (·.1) ∧ (L :: rest'.map (·.2)).Perm (l :: rest.map (·.2)) ∧
      (∀ p ∈ rest', p.2 ≤ L) ∧ l ≤ L ∧ a * L + cost rest' ≤ a * l + cost rest := by
  induction rest generalizing l with
  | nil => exact ⟨l, [], rfl, List.Perm.refl _, by simp, Nat.le_refl _, Nat.le_refl _⟩
  | cons p rest ih =>
    obtain ⟨b, m⟩ := p
    have hb : a ≤ b := h (b, m) (by simp)
    have hr : ∀ p ∈ rest, a ≤ p.1 := fun p hp => h p (by simp [hp])
    by_cases hlm : m ≤ l
    · obtain ⟨L, r, e1, e2, e3, e4, e5⟩ := ih hr l
      refine ⟨L, (b, m) :: r, by simp [e1], ?_, ?_, e4, ?_⟩
      · simp only [List.map_cons]
        exact (List.Perm.swap m L _).trans ((List.Perm.cons m e2).trans (List.Perm.swap l m _))
      · intro p hp
        simp only [List.mem_cons] at hp
        rcases hp with rfl | hp
        · exact Nat.le_trans hlm e4
        · exact e3 p hp
      · simp only [cost_cons]; omega
    · obtain ⟨L, r, e1, e2, e3, e4, e5⟩ := ih hr m
      refine ⟨L, (b, l) :: r, by simp [e1], ?_, ?_, by omega, ?_⟩
      · simp only [List.map_cons]
        exact (List.Perm.swap l L _).trans (List.Perm.cons l e2)
      · intro p hp
        simp only [List.mem_cons] at hp
        rcases hp with rfl | hp
        · simp only; omega
        · exact e3 p hp
      · simp only [cost_cons]
        have hswap : a * m + b * l ≤ a * l + b * m := by
          obtain ⟨d, rfl⟩ : ∃ d, b = a + d := ⟨b - a, by omega⟩
          obtain ⟨e, rfl⟩ : ∃ e, m = l + e := ⟨m - l, by omega⟩
          simp only [Nat.mul_add, Nat.add_mul]
          omega
        omega

theorem kraft_scale {D k : Nat} (hk : k ≤ D) (ls : List Nat) (h : ∀ l ∈ ls, l ≤ k) :
    kraft D ls = 2 ^ (D - k) * kraft k ls := by
  induction ls with
  | nil => simp [kraft]
  | cons l ls ih =>
    rw [kraft_cons, kraft_cons, ih (fun x hx => h x (by simp [hx])), Nat.mul_add, ← Nat.pow_add]
    have := h l (by simp)
    congr 2; omega

/-- The two lightest elements can be given lengths that allow to join them. -/
theorem join_lightest (D a b l m : Nat) (rest : List (Nat × Nat)) (hab : a ≤ b) (hb : ∀ p ∈ rest, b ≤ p.1)
    (hD : ∀ x ∈ l :: m :: rest.map (·.2), x ≤ D) (hk : kraft D (l :: m :: rest.map (·.2)) ≤ 2 ^ D) :
    ∃ k rest', rest'.map (·.1) = rest.map (·.1) ∧ (∀ x ∈ k :: rest'.map (·.2), x ≤ D) ∧
      kraft D (k :: rest'.map (·.2)) ≤ 2 ^ D ∧
      (a + b) * k + cost rest' + (a + b) ≤ a * l + b * m + cost rest := by
  obtain ⟨L, r1, e1, e2, e3, e4, e5⟩ := bubble a ((b, m) :: rest)
    (by intro p hp; simp only [List.mem_cons] at hp; rcases hp with rfl | hp
        · exact hab
        · exact Nat.le_trans hab (hb p hp)) l
  match r1, e1 with
  | (b', m') :: r1, e1 =>
  simp only [List.map_cons, List.cons.injEq] at e1 e2
  obtain ⟨rfl, e6⟩ := e1
  have hb1 : ∀ p ∈ r1, b' ≤ p.1 := by
    intro p hp
    have : p.1 ∈ rest.map (·.1) := by rw [← e6]; exact List.mem_map_of_mem hp
    obtain ⟨q, hq, hqe⟩ := List.mem_map.1 this
    rw [← hqe]; exact hb q hq
  obtain ⟨K, r2, f1, f2, f3, f4, f5⟩ := bubble b' r1 hb1 m'
  have hLK : K ≤ L := by
    have : K ∈ m' :: r1.map (·.2) := f2.mem_iff.1 (by simp)
    simp only [List.mem_cons, List.mem_map] at this
    rcases this with rfl | ⟨p, hp, rfl⟩
    · exact e3 (b', K) (by simp)
    · exact e3 p (by simp [hp])
  have hperm : (L :: K :: r2.map (·.2)).Perm (l :: m :: rest.map (·.2)) := (List.Perm.cons L f2).trans e2
  have hD' : ∀ x ∈ L :: K :: r2.map (·.2), x ≤ D := fun x hx => hD x (hperm.mem_iff.1 hx)
  have hk' : kraft D (L :: K :: r2.map (·.2)) ≤ 2 ^ D := by rw [kraft_perm hperm]; exact hk
  have hKD : K ≤ D := hD' K (by simp)
  have hle : ∀ x ∈ K :: r2.map (·.2), x ≤ K := by
    intro x hx
    simp only [List.mem_cons, List.mem_map] at hx
    rcases hx with rfl | ⟨p, hp, rfl⟩
    · exact Nat.le_refl _
    · exact f3 p hp
  -- both get the length `K`
  have hsum : 2 ^ (D - K) + kraft D (K :: r2.map (·.2)) ≤ 2 ^ D := by
    rw [kraft_cons, kraft_scale hKD _ hle] at hk'
    rw [kraft_scale hKD _ hle]
    have hpos : 0 < 2 ^ (D - L) := Nat.two_pow_pos _
    have hDK : 2 ^ D = 2 ^ (D - K) * 2 ^ K := by rw [← Nat.pow_add]; congr 1; omega
    rw [hDK] at hk' ⊢
    have hlt : 2 ^ (D - K) * kraft K (K :: r2.map (·.2)) < 2 ^ (D - K) * 2 ^ K := by omega
    have := Nat.lt_of_mul_lt_mul_left hlt
    calc 2 ^ (D - K) + 2 ^ (D - K) * kraft K (K :: r2.map (·.2))
        = 2 ^ (D - K) * (kraft K (K :: r2.map (·.2)) + 1) := by rw [Nat.mul_add]; omega
      _ ≤ 2 ^ (D - K) * 2 ^ K := Nat.mul_le_mul_left _ this
  rw [kraft_cons] at hsum
  have hK0 : 0 < K := by
    rcases Nat.eq_zero_or_pos K with h0 | h0
    · subst h0
      simp only [Nat.sub_zero] at hsum
      have := Nat.two_pow_pos D
      omega
    · exact h0
  refine ⟨K - 1, r2, by rw [f1, e6], ?_, ?_, ?_⟩
  · intro x hx
    simp only [List.mem_cons] at hx
    rcases hx with rfl | hx
    · omega
    · exact hD' x (by simp [hx])
  · rw [kraft_cons]
    have : 2 ^ (D - (K - 1)) = 2 ^ (D - K) + 2 ^ (D - K) := by
      have e : D - (K - 1) = D - K + 1 := by omega
      rw [e, Nat.pow_succ]; omega
    omega
  · obtain ⟨k, rfl⟩ : ∃ k, K = k + 1 := ⟨K - 1, by omega⟩
    simp only [cost_cons] at e5
    have h1 : a * (k + 1) ≤ a * L := Nat.mul_le_mul_left _ hLK
    have h2 : (a + b') * k + (a + b') = a * (k + 1) + b' * (k + 1) := by
      simp only [Nat.mul_add, Nat.add_mul]; omega
    simp only [Nat.add_sub_cancel]
    omega

/-- Weighted depth of the leaves of a tree. -/
def treeCost (freq : Nat → Nat) (t : Tree) (d : Nat) : Nat := ((t.leafDepths d).map fun e => freq e.1 * e.2).sum

theorem treeCost_succ (freq : Nat → Nat) (t : Tree) (d : Nat) :
    treeCost freq t (d + 1) = treeCost freq t d + t.weight freq := by
  induction t generalizing d with
  | leaf i => simp [treeCost, leafDepths, Tree.weight, Nat.mul_add]
  | node i l r ihl ihr =>
    have h1 := ihl (d + 1)
    have h2 := ihr (d + 1)
    simp only [treeCost, leafDepths, Tree.weight, List.map_append, List.sum_append] at *
    omega

theorem treeCost_node (freq : Nat → Nat) (h : Nat) (l r : Tree) :
    treeCost freq (node h l r) 0 = treeCost freq l 0 + treeCost freq r 0 + (l.weight freq + r.weight freq) := by
  have h1 := treeCost_succ freq l 0
  have h2 := treeCost_succ freq r 0
  simp only [treeCost, leafDepths, List.map_append, List.sum_append] at *
  omega

/-- The forest can be completed to a code whose cost does not exceed `c`. -/
def Completable (freq : Nat → Nat) (D c : Nat) (ts : List Tree) : Prop :=
  (ts.map (Tree.weight freq)).sum < 2 ^ 64 ∧
  ∃ ps : List (Nat × Nat), (ps.map (·.1)).Perm (ts.map (Tree.weight freq)) ∧ (∀ x ∈ ps.map (·.2), x ≤ D) ∧
    kraft D (ps.map (·.2)) ≤ 2 ^ D ∧ cost ps + (ts.map fun t => treeCost freq t 0).sum ≤ c

theorem completable_perm (freq : Nat → Nat) (D c : Nat) (ts ts' : List Tree) (h : ts.Perm ts')
    (hq : Completable freq D c ts) : Completable freq D c ts' := by
  obtain ⟨h0, ps, h1, h2, h3, h4⟩ := hq
  refine ⟨?_, ps, h1.trans (h.map _), h2, h3, ?_⟩
  · rw [← (h.map _).sum_nat]; exact h0
  · rw [← (h.map _).sum_nat]; exact h4

/-- Picking the pair with a given first component. -/
theorem pick {ps : List (Nat × Nat)} {a : Nat} {m : List Nat} (h : (ps.map (·.1)).Perm (a :: m)) :
    ∃ l qs, ps.Perm ((a, l) :: qs) ∧ (qs.map (·.1)).Perm m := by
  have hm : a ∈ ps.map (·.1) := h.mem_iff.2 (by simp)
  obtain ⟨p, hp, hpa⟩ := List.mem_map.1 hm
  obtain ⟨s, t, rfl⟩ := List.append_of_mem hp
  have hperm : (s ++ p :: t).Perm (p :: (s ++ t)) := List.perm_middle
  refine ⟨p.2, s ++ t, ?_, ?_⟩
  · rw [← hpa]; exact hperm
  · have := (hperm.map (·.1)).symm.trans h
    rw [List.map_cons, hpa] at this
    exact (List.perm_cons a).1 this

theorem completable_step (freq : Nat → Nat) (D c : Nat) (h : Nat) (t1 t2 : Tree) (rest : List Tree)
    (hq : Completable freq D c (t1 :: t2 :: rest))
    (m1 : ∀ t ∈ t2 :: rest, t1.weight freq % 2 ^ 64 ≤ t.weight freq % 2 ^ 64)
    (m2 : ∀ t ∈ rest, t2.weight freq % 2 ^ 64 ≤ t.weight freq % 2 ^ 64) :
    Completable freq D c (node h t1 t2 :: rest) := by
  obtain ⟨h0, ps, h1, h2, h3, h4⟩ := hq
  have hlt : ∀ t ∈ t1 :: t2 :: rest, t.weight freq % 2 ^ 64 = t.weight freq := by
    intro t ht
    apply Nat.mod_eq_of_lt
    have := le_sum_of_mem (List.mem_map_of_mem (f := Tree.weight freq) ht)
    omega
  have m12 : t1.weight freq ≤ t2.weight freq := by
    have := m1 t2 (by simp)
    rwa [hlt t1 (by simp), hlt t2 (by simp)] at this
  have m2r : ∀ t ∈ rest, t2.weight freq ≤ t.weight freq := by
    intro t ht
    have := m2 t ht
    rwa [hlt t2 (by simp), hlt t (by simp [ht])] at this
  simp only [List.map_cons] at h1
  obtain ⟨l, qs, q1, q2⟩ := pick h1
  obtain ⟨m, rs, r1, r2⟩ := pick q2
  have hp : ps.Perm ((t1.weight freq, l) :: (t2.weight freq, m) :: rs) := q1.trans (List.Perm.cons _ r1)
  have hp2 := hp.map (·.2)
  simp only [List.map_cons] at hp2
  have hrs : ∀ p ∈ rs, t2.weight freq ≤ p.1 := by
    intro p hp
    have := r2.mem_iff.1 (List.mem_map_of_mem (f := (·.1)) hp)
    obtain ⟨t, ht, e⟩ := List.mem_map.1 this
    rw [← e]; exact m2r t ht
  obtain ⟨k, rest', e1, e2, e3, e4⟩ := join_lightest D (t1.weight freq) (t2.weight freq) l m rs m12 hrs
    (fun x hx => h2 x (hp2.mem_iff.2 hx)) (by rw [← kraft_perm hp2]; exact h3)
  refine ⟨?_, (t1.weight freq + t2.weight freq, k) :: rest', ?_, e2, e3, ?_⟩
  · simp only [List.map_cons, List.sum_cons, Tree.weight] at h0 ⊢; omega
  · simp only [List.map_cons, Tree.weight, e1]; exact List.Perm.cons _ r2
  · rw [cost_perm hp] at h4
    simp only [List.map_cons, List.sum_cons, cost_cons, treeCost_node] at h4 ⊢
    omega

theorem leaves_weights (freqs : List Nat) :
    (leaves freqs.length).map (Tree.weight (freqAt freqs)) = freqs := by
  simp only [leaves, List.map_map]
  apply List.ext_getElem?
  intro i
  by_cases hi : i < freqs.length
  · simp [hi, Tree.weight, freqAt]
  · simp [hi]

theorem leaves_cost (freqs : List Nat) :
    ((leaves freqs.length).map fun t => treeCost (freqAt freqs) t 0).sum = 0 := by
  have : (leaves freqs.length).map (fun t => treeCost (freqAt freqs) t 0) =
      (List.range' freqs.length freqs.length).map (fun _ => 0) := by
    simp only [leaves, List.map_map]
    apply List.map_congr_left
    intro i _
    simp [treeCost, leafDepths]
  rw [this]
  induction List.range' freqs.length freqs.length with
  | nil => rfl
  | cons a l ih => simpa using ih

/-- The cost of the computed lengths is that of the tree. -/
theorem cost_of_tree {freqs : List Nat} {t : Tree} {ls : List Nat}
    (hp : ((t.leafDepths 0).map (·.1)).Perm (List.range' freqs.length freqs.length))
    (hl : ls.length = freqs.length)
    (hd : ∀ e ∈ t.leafDepths 0, ls[e.1 - freqs.length]? = some e.2) :
    cost (freqs.zip ls) = treeCost (freqAt freqs) t 0 := by
  have h1 : treeCost (freqAt freqs) t 0 =
      (((t.leafDepths 0).map (·.1)).map fun i => freqAt freqs i * ls[i - freqs.length]?.getD 0).sum := by
    rw [treeCost, List.map_map]
    congr 1
    apply List.map_congr_left
    intro e he
    simp [hd e he]
  rw [h1, (hp.map _).sum_nat, cost]
  congr 1
  apply List.ext_getElem?
  intro i
  by_cases hi : i < freqs.length
  · have hi' : i < ls.length := by omega
    simp [hi, hi', freqAt, List.getElem?_zip_eq_some, List.getElem?_map]
    exact ⟨_, _, ⟨rfl, rfl⟩, rfl⟩
  · simp [hi, hl]

/-- No list of lengths that satisfies Kraft's inequality has a smaller weighted sum. -/
theorem calcLengths_optimal {ops : HeapOps} (hops : Standard ops) (freqs : List Nat)
    (hn : 2 ≤ freqs.length) (hn' : freqs.length ≤ 65536) (hs : freqs.sum < 2 ^ 64)
    (ls : List Nat) (hl : ls.length = freqs.length) (D : Nat) (hD : ∀ l ∈ ls, l ≤ D) (hk : kraft D ls ≤ 2 ^ D) :
    cost (freqs.zip (calcLengths ops freqs)) ≤ cost (freqs.zip ls) := by
  have hf : ∀ f ∈ freqs, f < 2 ^ 64 := fun f hf => by have := le_sum_of_mem hf; omega
  have hz1 : (freqs.zip ls).map (·.1) = freqs := List.map_fst_zip (by omega)
  have hz2 : (freqs.zip ls).map (·.2) = ls := List.map_snd_zip (by omega)
  obtain ⟨t, ⟨_, ps, p1, p2, p3, p4⟩, hp, hlen, hd⟩ := calcLengths_tree hops freqs hn hf
    (Completable (freqAt freqs) D (cost (freqs.zip ls)))
    (completable_perm _ _ _) (completable_step _ _ _)
    (by
      refine ⟨by rw [leaves_weights]; exact hs, freqs.zip ls, ?_, ?_, ?_, ?_⟩
      · rw [leaves_weights, hz1]
      · rw [hz2]; exact hD
      · rw [hz2]; exact hk
      · rw [leaves_cost]; omega)
  have hh := height_lt t 0
  have hlen' : (t.leafDepths 0).length = freqs.length := by
    have := hp.length_eq; simpa using this
  rw [cost_of_tree hp hlen (by
    intro e he
    rw [hd e he]
    have := (leafDepths_le t 0 e he).2
    rw [Nat.mod_eq_of_lt (by omega)])]
  simp only [List.map_cons, List.map_nil, List.sum_cons, List.sum_nil] at p4
  omega

/-- The words that begin with a given bit, without it. -/
def after (b : Bool) : List (List Bool) → List (List Bool)
  | [] => []
  | (c :: w) :: ws => if c = b then w :: after b ws else after b ws
  | [] :: ws => after b ws

theorem after_mem {b : Bool} {w : List Bool} : ∀ {ws : List (List Bool)}, w ∈ after b ws → (b :: w) ∈ ws
  | (c :: v) :: ws, h => by
    rw [after] at h
    split at h
    · rename_i hc
      simp only [List.mem_cons] at h
      rcases h with rfl | h
      · simp [hc]
      · exact List.mem_cons_of_mem _ (after_mem h)
    · exact List.mem_cons_of_mem _ (after_mem h)
  | [] :: ws, h => List.mem_cons_of_mem _ (after_mem h)

theorem after_pairwise {b : Bool} : ∀ {ws : List (List Bool)},
    ws.Pairwise (fun v w => ¬ v <+: w ∧ ¬ w <+: v) → (after b ws).Pairwise (fun v w => ¬ v <+: w ∧ ¬ w <+: v)
  | [], _ => List.Pairwise.nil
  | [] :: ws, h => by rw [after]; exact after_pairwise (List.pairwise_cons.1 h).2
  | (c :: v) :: ws, h => by
    rw [List.pairwise_cons] at h
    rw [after]
    split
    · rename_i hc
      rw [List.pairwise_cons]
      refine ⟨?_, after_pairwise h.2⟩
      intro w hw
      have := h.1 _ (after_mem hw)
      rw [hc, List.prefix_cons_inj, List.prefix_cons_inj] at this
      exact this
    · exact after_pairwise h.2

/-- Kraft's inequality: words none of which begins another one have a Kraft sum of at most 1. -/
theorem kraft_le : ∀ (D : Nat) (ws : List (List Bool)), (∀ w ∈ ws, w.length ≤ D) →
    ws.Pairwise (fun v w => ¬ v <+: w ∧ ¬ w <+: v) → kraft D (ws.map List.length) ≤ 2 ^ D := by
  intro D
  induction D with
  | zero =>
    intro ws hD hp
    match ws with
    | [] => simp [kraft]
    | [w] => simp [kraft]
    | v :: w :: ws =>
      have h1 : v = [] := List.length_eq_zero_iff.1 (Nat.le_zero.1 (hD v (by simp)))
      have := (List.pairwise_cons.1 hp).1 w (by simp)
      rw [h1] at this
      exact absurd (List.nil_prefix) this.1
  | succ D ih =>
    intro ws hD hp
    by_cases hnil : [] ∈ ws
    · obtain ⟨s, t, rfl⟩ := List.append_of_mem hnil
      have hs : s = [] := by
        rw [List.pairwise_append] at hp
        match s with
        | [] => rfl
        | v :: s => exact absurd List.nil_prefix (hp.2.2 v (by simp) [] (by simp)).2
      have ht : t = [] := by
        subst hs
        simp only [List.nil_append, List.pairwise_cons] at hp
        match t with
        | [] => rfl
        | v :: t => exact absurd List.nil_prefix (hp.1 v (by simp)).1
      subst hs ht
      simp [kraft]
    · have hsplit : ∀ ws : List (List Bool), [] ∉ ws → (∀ w ∈ ws, w.length ≤ D + 1) →
          kraft (D + 1) (ws.map List.length) =
            kraft D ((after false ws).map List.length) + kraft D ((after true ws).map List.length) := by
        intro ws
        induction ws with
        | nil => intro _ _; simp [kraft, after]
        | cons w ws ihw =>
          intro hn hl
          have := ihw (fun h => hn (by simp [h])) (fun v hv => hl v (by simp [hv]))
          match w with
          | [] => exact absurd (by simp) hn
          | c :: v =>
            have e : D + 1 - (v.length + 1) = D - v.length := by omega
            cases c <;> simp only [after, List.map_cons, kraft_cons, List.length_cons, e, this, if_true,
              Bool.false_eq_true, Bool.true_eq_false, if_false, reduceCtorEq] <;> omega
      rw [hsplit ws hnil hD]
      have h1 := ih (after false ws) (fun w hw => by have := hD _ (after_mem hw); simpa using this) (after_pairwise hp)
      have h2 := ih (after true ws) (fun w hw => by have := hD _ (after_mem hw); simpa using this) (after_pairwise hp)
      rw [Nat.pow_succ]; omega

end Verif.Huffman
