import Verif.Fsa.Hash
import Verif.Fsa.Spec
import Mathlib.Data.Nat.Find
import Mathlib.Data.List.GetD

/-!
Lemmas about `HashFSA`.
-/
set_option linter.unusedSimpArgs false
namespace Verif.Fsa
open Verif Verif.Fsa.Spec

/-- The words accepted from `p` with paths of at most `n` arcs, in order. -/
def wordsN (a : Fsa) : Nat → Nat → List (List Sym)
  | 0, p => if a.isEnd p then [[]] else []
  | n + 1, p => (if a.isEnd p then [[]] else []) ++ (a.arcs p).flatMap (fun y => (wordsN a n y.2).map (y.1 :: ·))

/-- Arcs lead to states of smaller rank. -/
def Ranked (a : Fsa) (r : Nat → Nat) : Prop := ∀ p x q, (x, q) ∈ a.arcs p → r q < r p

/-- The words accepted from `p`, in order. -/
def words (a : Fsa) (r : Nat → Nat) (p : Nat) : List (List Sym) := wordsN a (r p) p

section
variable {a : Fsa} {r : Nat → Nat}

theorem ranked_nil (h : Ranked a r) {p : Nat} (hp : r p = 0) : a.arcs p = [] := by
  cases e : a.arcs p with
  | nil => rfl
  | cons y l => have := h p y.1 y.2 (by rw [e]; simp); omega

theorem flatMap_congr' {α β : Type} {l : List α} {f g : α → List β} (h : ∀ x ∈ l, f x = g x) :
    l.flatMap f = l.flatMap g := by
  induction l with
  | nil => rfl
  | cons x l ih =>
    rw [List.flatMap_cons, List.flatMap_cons, h x (by simp), ih (fun y hy => h y (by simp [hy]))]

theorem wordsN_stable (h : Ranked a r) : ∀ n m p, r p ≤ n → r p ≤ m → wordsN a n p = wordsN a m p := by
  intro n
  induction n with
  | zero =>
    intro m p hn hm
    cases m with
    | zero => rfl
    | succ m => simp [wordsN, ranked_nil h (by omega : r p = 0)]
  | succ n ih =>
    intro m p hn hm
    cases m with
    | zero => simp [wordsN, ranked_nil h (by omega : r p = 0)]
    | succ m =>
      simp only [wordsN]
      congr 1
      apply flatMap_congr'
      intro y hy
      have := h p y.1 y.2 hy
      rw [ih m y.2 (by omega) (by omega)]

theorem words_eq (h : Ranked a r) (p : Nat) : words a r p =
    (if a.isEnd p then [[]] else []) ++ (a.arcs p).flatMap (fun y => (words a r y.2).map (y.1 :: ·)) := by
  rw [words, wordsN_stable h (r p) (r p + 1) p (by omega) (by omega), wordsN]
  congr 1
  apply flatMap_congr'
  intro y hy
  have := h p y.1 y.2 hy
  rw [words, wordsN_stable h (r p) (r y.2) y.2 (by omega) (by omega)]

theorem words_mem (h : Ranked a r) : ∀ (w : List Sym) (p : Nat), w ∈ words a r p ↔ Right a p w := by
  intro w
  induction w with
  | nil =>
    intro p
    rw [words_eq h]
    constructor
    · intro hm
      simp only [List.mem_append, List.mem_flatMap, List.mem_map] at hm
      rcases hm with hm | ⟨y, _, v, _, e⟩
      · split at hm
        · rename_i e; exact ⟨p, by simpa [Fsa.isEnd] using e, .nil⟩
        · simp at hm
      · cases e
    · rintro ⟨q, hq, hp⟩
      cases hp
      simp [Fsa.isEnd, hq]
  | cons x v ih =>
    intro p
    rw [words_eq h]
    constructor
    · intro hm
      simp only [List.mem_append, List.mem_flatMap, List.mem_map] at hm
      rcases hm with hm | ⟨y, hy, u, hu, e⟩
      · split at hm <;> simp at hm
      · cases e
        obtain ⟨q, hq, hp⟩ := (ih y.2).1 hu
        exact ⟨q, hq, .cons hy hp⟩
    · rintro ⟨q, hq, hp⟩
      cases hp with
      | cons ha hp =>
        simp only [List.mem_append, List.mem_flatMap, List.mem_map]
        exact Or.inr ⟨_, ha, v, (ih _).2 ⟨q, hq, hp⟩, rfl⟩

/-- The symbols of the arcs of a state are in ascending order. -/
def Ascending (a : Fsa) : Prop := ∀ p, (a.arcs p).Pairwise (fun x y => x.1 < y.1)

theorem words_sorted (h : Ranked a r) (hs : Ascending a) : ∀ n p, r p ≤ n → (words a r p).Pairwise (· < ·) := by
  intro n
  induction n with
  | zero =>
    intro p hp
    rw [words_eq h, ranked_nil h (by omega : r p = 0)]
    split <;> simp
  | succ n ih =>
    intro p hp
    rw [words_eq h]
    rw [List.pairwise_append]
    refine ⟨by split <;> simp, ?_, ?_⟩
    · rw [List.pairwise_flatMap]
      constructor
      · intro y hy
        have := h p y.1 y.2 hy
        rw [List.pairwise_map]
        refine (ih y.2 (by omega)).imp ?_
        intro u v huv
        exact List.cons_lt_cons_iff.2 (Or.inr ⟨rfl, huv⟩)
      · refine (hs p).imp ?_
        intro y z hyz u hu v hv
        simp only [List.mem_map] at hu hv
        obtain ⟨u, _, rfl⟩ := hu
        obtain ⟨v, _, rfl⟩ := hv
        exact List.cons_lt_cons_iff.2 (Or.inl hyz)
    · intro u hu v hv
      split at hu
      · simp at hu
        subst hu
        simp only [List.mem_flatMap, List.mem_map] at hv
        obtain ⟨y, _, v, _, rfl⟩ := hv
        exact List.nil_lt_cons _ _
      · simp at hu

/-- The number of words accepted from a state. -/
def cnt (a : Fsa) (r : Nat → Nat) (p : Nat) : Nat := (words a r p).length

/-- The numbers of words that come before those of each arc. -/
def wts (a : Fsa) (r : Nat → Nat) : List (Sym × Nat) → Nat → List Nat
  | [], _ => []
  | y :: l, s => s :: wts a r l (s + cnt a r y.2)

/-- The number of words that begin with an arc of the list. -/
def total (a : Fsa) (r : Nat → Nat) (l : List (Sym × Nat)) : Nat := (l.map (fun y => cnt a r y.2)).sum

theorem cnt_eq (h : Ranked a r) (p : Nat) : cnt a r p = (if a.isEnd p then 1 else 0) + total a r (a.arcs p) := by
  rw [cnt, words_eq h, List.length_append, List.length_flatMap]
  congr 1
  · split <;> rfl
  · rw [total]; congr 1; apply List.map_congr_left; intro y _; simp [cnt]

theorem wts_length (l : List (Sym × Nat)) : ∀ s, (wts a r l s).length = l.length := by
  induction l with
  | nil => intro s; rfl
  | cons y l ih => intro s; simp [wts, ih]

theorem wts_append (l m : List (Sym × Nat)) : ∀ s, wts a r (l ++ m) s = wts a r l s ++ wts a r m (s + total a r l) := by
  induction l with
  | nil => intro s; simp [wts, total]
  | cons y l ih => intro s; simp [wts, ih, total, Nat.add_assoc]

theorem wts_ge (l : List (Sym × Nat)) : ∀ s, ∀ x ∈ wts a r l s, s ≤ x := by
  induction l with
  | nil => intro s x hx; simp [wts] at hx
  | cons y l ih =>
    intro s x hx
    simp only [wts, List.mem_cons] at hx
    rcases hx with rfl | hx
    · omega
    · have := ih _ _ hx; omega

theorem wts_le (l : List (Sym × Nat)) : ∀ s, ∀ x ∈ wts a r l s, x ≤ s + total a r l := by
  induction l with
  | nil => intro s x hx; simp [wts] at hx
  | cons y l ih =>
    intro s x hx
    simp only [wts, List.mem_cons] at hx
    simp only [total, List.map_cons, List.sum_cons]
    rcases hx with rfl | hx
    · omega
    · have := ih _ _ hx; simp only [total] at this; omega

/-- What is known of a state that was counted. -/
def Counted (a : Fsa) (r : Nat → Nat) (n : Numbers) (s : Nat) : Prop :=
  n.count s = 0 ∨ (n.count s = cnt a r s ∧ n.weights s = wts a r (a.arcs s) 0 ∧
    ∀ y ∈ a.arcs s, cnt a r y.2 ≠ 0 → n.count y.2 ≠ 0)

theorem counted_mono {n n' : Numbers} {s : Nat} (hc : Counted a r n s) (h1 : n'.count s = n.count s)
    (h2 : n'.weights s = n.weights s) (h3 : ∀ y ∈ a.arcs s, n.count y.2 ≠ 0 → n'.count y.2 ≠ 0) : Counted a r n' s := by
  rcases hc with hc | ⟨c1, c2, c3⟩
  · left; rw [h1, hc]
  · right
    exact ⟨by rw [h1, c1], by rw [h2, c2], fun y hy h => h3 y hy (c3 y hy h)⟩

/-- What a call for `p` does. -/
def CallOk (a : Fsa) (r : Nat → Nat) (rec : Nat → Numbers → Option Numbers) (p : Nat) : Prop :=
  ∀ n : Numbers, (∀ s, (n.weights s).length = (a.arcs s).length) → (∀ s, r s ≤ r p → Counted a r n s) →
    ∃ n', rec p n = some n' ∧ (∀ s, (n'.weights s).length = (a.arcs s).length) ∧ (∀ s, r s ≤ r p → Counted a r n' s) ∧
      n'.count p = cnt a r p ∧ (∀ s, r p ≤ r s → s ≠ p → n'.count s = n.count s ∧ n'.weights s = n.weights s) ∧
      (∀ s, n.count s ≠ 0 → n'.count s ≠ 0)

theorem hashArcs_ok (h : Ranked a r) {rec : Nat → Numbers → Option Numbers} {p : Nat}
    (hrec : ∀ q, r q < r p → CallOk a r rec q) :
    ∀ (l pre : List (Sym × Nat)) (n : Numbers), a.arcs p = pre ++ l →
      (∀ s, (n.weights s).length = (a.arcs s).length) → (∀ s, r s ≤ r p → s ≠ p → Counted a r n s) →
      n.count p = total a r pre → (n.weights p).take pre.length = wts a r pre 0 →
      (∀ y ∈ pre, cnt a r y.2 ≠ 0 → n.count y.2 ≠ 0) →
      ∃ n', hashArcs rec p pre.length l n = some n' ∧ (∀ s, (n'.weights s).length = (a.arcs s).length) ∧
        (∀ s, r s ≤ r p → s ≠ p → Counted a r n' s) ∧ n'.count p = total a r (a.arcs p) ∧
        n'.weights p = wts a r (a.arcs p) 0 ∧ (∀ y ∈ a.arcs p, cnt a r y.2 ≠ 0 → n'.count y.2 ≠ 0) ∧
        (∀ s, r p ≤ r s → s ≠ p → n'.count s = n.count s ∧ n'.weights s = n.weights s) ∧
        (∀ s, s ≠ p → n.count s ≠ 0 → n'.count s ≠ 0) := by
  intro l
  induction l with
  | nil =>
    intro pre n e hlen hc hcount hw hpre
    simp only [List.append_nil] at e
    refine ⟨n, rfl, hlen, hc, by rw [e, hcount], ?_, by rw [e]; exact hpre, fun _ _ _ => ⟨rfl, rfl⟩, fun _ _ h => h⟩
    rw [e, ← hw, List.take_of_length_le]
    rw [hlen, e]
  | cons y l ih =>
    intro pre n e hlen hc hcount hw hpre
    obtain ⟨x, q⟩ := y
    have hq : r q < r p := h p x q (by rw [e]; simp)
    have hqp : q ≠ p := by rintro rfl; omega
    -- after setting the weight
    have hlen1 : ∀ s, ((n.setWeight p pre.length (n.count p)).weights s).length = (a.arcs s).length := by
      intro s
      simp only [Numbers.setWeight]
      split
      · rename_i e; subst e; simp [hlen]
      · exact hlen s
    obtain ⟨n', e1, k1, k2, k3, k4, k5⟩ := hrec q hq (n.setWeight p pre.length (n.count p)) hlen1 (by
      intro s hs
      have hsp : s ≠ p := by rintro rfl; omega
      refine counted_mono (hc s (by omega) hsp) rfl ?_ (fun _ _ h => h)
      simp [Numbers.setWeight, hsp])
    have hp' := k4 p (by omega) (by omega)
    simp only [hashArcs, hashArc, e1]
    -- the state after the round
    have hstep := ih (pre ++ [(x, q)]) (n'.add p (n'.count q)) (by rw [e]; simp) k1 (by
        intro s hs hsp
        have hcs : (n'.add p (n'.count q)).count s = n'.count s := by simp [Numbers.add, hsp]
        have key : Counted a r n' s := by
          by_cases hsq : r s ≤ r q
          · exact k2 s hsq
          · have := k4 s (by omega) (by rintro rfl; omega)
            refine counted_mono (hc s hs hsp) (by rw [this.1]; rfl) (by rw [this.2]; simp [Numbers.setWeight, hsp]) ?_
            intro y hy hy0
            exact k5 y.2 hy0
        refine counted_mono key hcs rfl ?_
        intro y hy hy0
        have : r y.2 < r s := h s y.1 y.2 hy
        have : y.2 ≠ p := by intro e; rw [e] at this; omega
        simpa [Numbers.add, this] using hy0) (by
        simp only [Numbers.add, if_pos]
        rw [hp'.1, k3]
        simp only [Numbers.setWeight]
        rw [hcount]
        simp [total]) (by
        simp only [Numbers.add]
        rw [hp'.2]
        simp only [Numbers.setWeight, if_pos, List.length_append, List.length_cons, List.length_nil]
        have hl : pre.length < (n.weights p).length := by rw [hlen, e]; simp
        rw [List.take_succ_eq_append_getElem (by simpa using hl)]
        simp only [List.getElem_set_self, List.take_set_of_le (Nat.le_refl _)]
        rw [hw, wts_append, hcount]
        simp [wts]) (by
        intro y hy hy0
        have hyp : y.2 ≠ p := by
          have hm : (y.1, y.2) ∈ a.arcs p := by rw [e]; simp only [List.mem_append, List.mem_cons] at hy ⊢; tauto
          have := h p y.1 y.2 hm
          intro e; rw [e] at this; omega
        simp only [Numbers.add, hyp, if_false]
        simp only [List.mem_append, List.mem_singleton] at hy
        rcases hy with hy | hy
        · exact k5 y.2 (hpre y hy hy0)
        · subst hy; rw [k3]; exact hy0)
    simp only [List.length_append, List.length_cons, List.length_nil, Nat.zero_add] at hstep
    obtain ⟨n'', e2, m1, m2, m3, m4, m5, m6, m7⟩ := hstep
    refine ⟨n'', e2, m1, m2, m3, m4, m5, ?_, ?_⟩
    · intro s hs hsp
      obtain ⟨u1, u2⟩ := m6 s hs hsp
      obtain ⟨v1, v2⟩ := k4 s (by omega) (by rintro rfl; omega)
      refine ⟨?_, ?_⟩
      · rw [u1]; simp only [Numbers.add, hsp, if_false]; rw [v1]; rfl
      · rw [u2]; simp only [Numbers.add]; rw [v2]; simp [Numbers.setWeight, hsp]
    · intro s hsp hs
      apply m7 s hsp
      simp only [Numbers.add, hsp, if_false]
      exact k5 s hs

theorem wordNumbers_ok (h : Ranked a r) : ∀ fuel p, r p < fuel → CallOk a r (wordNumbers a fuel) p := by
  intro fuel
  induction fuel with
  | zero => intro p hp; omega
  | succ fuel ih =>
    intro p hp n hlen hc
    simp only [wordNumbers]
    by_cases h0 : n.count p = 0
    · rw [if_pos h0]
      obtain ⟨n', e, k1, k2, k3, k4, k5, k6, k7⟩ := hashArcs_ok h (p := p) (rec := wordNumbers a fuel)
        (fun q hq => ih q (by omega)) (a.arcs p) [] n rfl hlen (fun s hs _ => hc s hs) (by rw [h0]; rfl) (by rfl)
        (by simp)
      simp only [List.length_nil] at e
      rw [e]
      refine ⟨_, rfl, ?_⟩
      have hcp : (if a.isEnd p then n'.add p 1 else n').count p = cnt a r p := by
        rw [cnt_eq h]
        split
        · simp [Numbers.add, k3, Nat.add_comm]
        · simp [k3]
      have hcs : ∀ s, s ≠ p → (if a.isEnd p then n'.add p 1 else n').count s = n'.count s := by
        intro s hs
        split
        · simp [Numbers.add, hs]
        · rfl
      have hws : (if a.isEnd p then n'.add p 1 else n').weights = n'.weights := by split <;> rfl
      refine ⟨by rw [hws]; exact k1, ?_, hcp, ?_, ?_⟩
      · intro s hs
        by_cases hsp : s = p
        · subst hsp
          right
          refine ⟨hcp, by rw [hws, k4], ?_⟩
          intro y hy hy0
          have := h s y.1 y.2 hy
          rw [hcs y.2 (by intro e; rw [e] at this; omega)]
          exact k5 y hy hy0
        · refine counted_mono (k2 s hs hsp) (hcs s hsp) (by rw [hws]) ?_
          intro y hy hy0
          have : r y.2 < r s := h s y.1 y.2 hy
          rw [hcs y.2 (by intro e; rw [e] at this; omega)]
          exact hy0
      · intro s hs hsp
        rw [hcs s hsp, hws]
        exact k6 s hs hsp
      · intro s hs
        have hsp : s ≠ p := by rintro rfl; exact hs h0
        rw [hcs s hsp]
        exact k7 s hsp hs
    · rw [if_neg h0]
      refine ⟨n, rfl, hlen, hc, ?_, fun _ _ _ => ⟨rfl, rfl⟩, fun _ h => h⟩
      rcases hc p (Nat.le_refl _) with hc | hc
      · exact absurd hc h0
      · exact hc.1

/-- What the constructor computes. -/
structure Numbered (a : Fsa) (r : Nat → Nat) (n : Numbers) : Prop where
  size : n.size = cnt a r 0
  counted : ∀ s, r s ≤ r 0 → Counted a r n s

theorem hashNumbers_ok (h : Ranked a r) {fuel : Nat} (hf : r 0 < fuel) :
    ∃ n, hashNumbers a fuel = some n ∧ Numbered a r n := by
  obtain ⟨n, e, _, k2, k3, _⟩ := wordNumbers_ok h fuel 0 hf (Numbers.init a) (by intro s; simp [Numbers.init])
    (by intro s _; left; rfl)
  exact ⟨n, e, k3, k2⟩

/-! ### Looking up -/

theorem flatMap_split {α β : Type} {f : α → List β} {w : β} : ∀ {l : List α} {A B : List β}, l.flatMap f = A ++ w :: B →
    ∃ pre y post A1 B1, l = pre ++ y :: post ∧ f y = A1 ++ w :: B1 ∧ A = pre.flatMap f ++ A1 := by
  intro l
  induction l with
  | nil => intro A B e; simp at e
  | cons y l ih =>
    intro A B e
    rw [List.flatMap_cons, List.append_eq_append_iff] at e
    rcases e with ⟨C, e1, e2⟩ | ⟨C, e1, e2⟩
    · obtain ⟨pre, z, post, A1, B1, k1, k2, k3⟩ := ih e2
      exact ⟨y :: pre, z, post, A1, B1, by rw [k1]; rfl, k2, by rw [e1, k3]; simp⟩
    · cases C with
      | nil =>
        obtain ⟨pre, z, post, A1, B1, k1, k2, k3⟩ := ih (A := []) (B := B) (by simpa using e2.symm)
        refine ⟨y :: pre, z, post, A1, B1, by rw [k1]; rfl, k2, ?_⟩
        simp at e1
        rw [List.flatMap_cons, List.append_assoc, ← k3, e1]; simp
      | cons c C =>
        simp only [List.cons_append, List.cons.injEq] at e2
        exact ⟨[], y, l, A, C, rfl, by rw [e1, e2.1], by simp⟩

/-- Where a word with a first symbol stands among the words of a state. -/
theorem words_split (h : Ranked a r) {p : Nat} {x : Sym} {v : List Sym} {A B : List (List Sym)}
    (e : words a r p = A ++ (x :: v) :: B) :
    ∃ pre q post A1 B1, a.arcs p = pre ++ (x, q) :: post ∧ words a r q = A1 ++ v :: B1 ∧
      A.length = (if a.isEnd p then 1 else 0) + total a r pre + A1.length := by
  rw [words_eq h] at e
  obtain ⟨A', e', hA⟩ : ∃ A', (a.arcs p).flatMap (fun y => (words a r y.2).map (y.1 :: ·)) = A' ++ (x :: v) :: B ∧
      A.length = (if a.isEnd p then 1 else 0) + A'.length := by
    by_cases hp : a.isEnd p = true
    · rw [if_pos hp] at e ⊢
      cases A with
      | nil => simp at e
      | cons c A => simp at e; exact ⟨A, e.2, by simp [Nat.add_comm]⟩
    · rw [if_neg hp] at e ⊢
      exact ⟨A, by simpa using e, by simp⟩
  obtain ⟨pre, y, post, A1, B1, k1, k2, k3⟩ := flatMap_split e'
  obtain ⟨A2, B2, m1, m2, m3⟩ : ∃ A2 B2, words a r y.2 = A2 ++ B2 ∧ A2.map (y.1 :: ·) = A1 ∧
      B2.map (y.1 :: ·) = (x :: v) :: B1 := by
    have := List.map_eq_append_iff.1 k2
    obtain ⟨A2, B2, u1, u2, u3⟩ := this
    exact ⟨A2, B2, u1, u2, u3⟩
  cases B2 with
  | nil => simp at m3
  | cons b B2 =>
    simp only [List.map_cons, List.cons.injEq] at m3
    obtain ⟨⟨rfl, rfl⟩, _⟩ := m3
    refine ⟨pre, y.2, post, A2, B2, k1, m1, ?_⟩
    rw [hA, k3, List.length_append, List.length_flatMap, ← m2, Nat.add_assoc]
    congr 2
    · rw [total]; congr 1; apply List.map_congr_left; intro z _; simp [cnt]
    · simp

theorem findIdx_pre {x : Sym} {q : Nat} {post : List (Sym × Nat)} : ∀ {pre : List (Sym × Nat)},
    (∀ y ∈ pre, y.1 < x) → (pre ++ (x, q) :: post).findIdx (fun y => decide (x ≤ y.1)) = pre.length := by
  intro pre
  induction pre with
  | nil => intro _; simp [List.findIdx_cons]
  | cons y pre ih =>
    intro h
    have h1 : ¬ x ≤ y.1 := by simpa using h y (by simp)
    simp [List.findIdx_cons, h1, ih (fun z hz => h z (by simp [hz]))]

theorem ascending_pre (hs : Ascending a) {p : Nat} {pre post : List (Sym × Nat)} {y : Sym × Nat}
    (e : a.arcs p = pre ++ y :: post) : ∀ z ∈ pre, z.1 < y.1 := by
  have := hs p
  rw [e, List.pairwise_append] at this
  intro z hz
  exact this.2.2 z hz y (by simp)

theorem wts_getD {pre post : List (Sym × Nat)} {y : Sym × Nat} :
    (wts a r (pre ++ y :: post) 0).getD pre.length 0 = total a r pre := by
  rw [wts_append]
  simp [wts, List.getD_eq_getElem?_getD, List.getElem?_append_right, wts_length]

theorem counted_live {n : Numbers} {p : Nat} (hc : Counted a r n p) (h0 : n.count p ≠ 0) :
    n.weights p = wts a r (a.arcs p) 0 ∧ ∀ y ∈ a.arcs p, cnt a r y.2 ≠ 0 → n.count y.2 ≠ 0 := by
  rcases hc with hc | hc
  · exact absurd hc h0
  · exact hc.2

theorem hashLoop_word (h : Ranked a r) (hs : Ascending a) {n : Numbers} (hn : Numbered a r n) : ∀ (w : List Sym) (p index : Nat)
    (A B : List (List Sym)), words a r p = A ++ w :: B → r p ≤ r 0 → n.count p ≠ 0 →
    (if a.isEnd p then 1 else 0) ≤ index → hashLoop a n index p w + (if a.isEnd p then 1 else 0) = index + A.length := by
  intro w
  induction w with
  | nil =>
    intro p index A B e hr h0 hi
    have hend : a.isEnd p = true := by
      have : [] ∈ words a r p := by rw [e]; simp
      obtain ⟨q, hq, hp⟩ := (words_mem h [] p).1 this
      cases hp
      simp [Fsa.isEnd, hq]
    have hA : A = [] := by
      rw [words_eq h, if_pos hend] at e
      cases A with
      | nil => rfl
      | cons c A =>
        simp at e
        have hm : [] ∈ (a.arcs p).flatMap (fun y => (words a r y.2).map (y.1 :: ·)) := by
          have : (a.arcs p).flatMap (fun y => (words a r y.2).map (y.1 :: ·)) = A ++ [] :: B := e.2
          rw [this]; simp
        simp at hm
    simp only [hend, if_true] at hi ⊢
    simp only [hashLoop, hend, if_true, hA, List.length_nil]
    rw [if_neg (by omega)]
    omega
  | cons x v ih =>
    intro p index A B e hr h0 hi
    obtain ⟨pre, q, post, A1, B1, k1, k2, k3⟩ := words_split h e
    have hf : hashFind a p x = pre.length := by
      rw [hashFind, k1]; exact findIdx_pre (ascending_pre hs k1)
    have hg : (a.arcs p)[pre.length]? = some (x, q) := by rw [k1]; simp
    obtain ⟨c1, c2⟩ := counted_live (hn.counted p hr) h0
    have hq : r q < r p := h p x q (by rw [k1]; simp)
    simp only [hashLoop, hf, hg]
    rw [c1, k1, wts_getD]
    have := ih q (index + total a r pre + (if a.isEnd q then 1 else 0)) A1 B1 k2 (by omega)
      (c2 (x, q) (by rw [k1]; simp) (by simp [cnt, k2])) (by omega)
    omega

theorem binsearch_at {ws : List Nat} {v i : Nat} (hlt : ∀ j, j ≤ i → ws.getD j 0 < v)
    (hge : ∀ j, i < j → j < ws.length → v ≤ ws.getD j 0) (hi : i < ws.length) :
    ∀ l r, l ≤ i → i < r → r ≤ ws.length → binsearch ws v l r = i := by
  intro l r
  fun_induction binsearch ws v l r with
  | case1 l r h m h1 =>
    intro hl hr hw
    have hm : m < ws.length := by omega
    by_cases e : m = i
    · exact e
    · rcases Nat.lt_or_ge i m with hlt' | hge'
      · have := hge m hlt' hm; omega
      · rcases h1.2 with h2 | h2
        · omega
        · have := hlt (m + 1) (by omega); omega
  | case2 l r h m h1 h2 ih =>
    intro hl hr hw
    have hm : m < ws.length := by omega
    have hmi : m ≤ i := by
      by_contra hc
      have := hge m (by omega) hm; omega
    have hmi' : m ≠ i := by
      rintro rfl
      apply h1
      refine ⟨h2, ?_⟩
      by_cases e : m = ws.length - 1
      · exact Or.inl e
      · exact Or.inr (hge (m + 1) (by omega) (by omega))
    exact ih (by omega) hr hw
  | case3 l r h m h1 h2 ih =>
    intro hl hr hw
    have : i < m := by
      by_contra hc
      exact h2 (hlt m (by omega))
    exact ih hl this (by omega)
  | case4 l r h => intro hl hr hw; omega

theorem findNum_at {pre post : List (Sym × Nat)} {y : Sym × Nat} {k : Nat} (hk : k < cnt a r y.2) :
    findNum (wts a r (pre ++ y :: post) 0) (total a r pre + k + 1) = some pre.length := by
  have hne : wts a r (pre ++ y :: post) 0 ≠ [] := by
    intro e
    have := congrArg List.length e
    rw [wts_length] at this
    simp at this
  rw [findNum, if_neg hne]
  congr 1
  apply binsearch_at (i := pre.length)
  · intro j hj
    by_cases e : j = pre.length
    · subst e; rw [wts_getD]; omega
    · rw [wts_append, List.getD_append _ _ _ _ (by rw [wts_length]; omega)]
      have hj' : j < (wts a r pre 0).length := by rw [wts_length]; omega
      have := wts_le pre 0 _ (List.getElem_mem hj')
      rw [List.getD_eq_getElem?_getD, List.getElem?_eq_getElem hj', Option.getD_some]
      omega
  · intro j hj hjl
    rw [wts_length] at hjl
    rw [wts_append, List.getD_append_right _ _ _ _ (by rw [wts_length]; omega), wts_length]
    obtain ⟨m, hm⟩ : ∃ m, j - pre.length = m + 1 := ⟨j - pre.length - 1, by omega⟩
    rw [hm]
    simp only [wts, List.getD_cons_succ]
    have hj' : m < (wts a r post (0 + total a r pre + cnt a r y.2)).length := by
      rw [wts_length]; simp at hjl; omega
    have := wts_ge post _ _ (List.getElem_mem hj')
    rw [List.getD_eq_getElem?_getD, List.getElem?_eq_getElem hj', Option.getD_some]
    omega
  · rw [wts_length]; simp
  · omega
  · rw [wts_length]; simp
  · omega

theorem unhashLoop_word (h : Ranked a r) {n : Numbers} (hn : Numbered a r n) : ∀ (w : List Sym) (fuel p index : Nat)
    (A B : List (List Sym)), w.length < fuel → words a r p = A ++ w :: B → r p ≤ r 0 → n.count p ≠ 0 →
    index + (if a.isEnd p then 1 else 0) = A.length + 1 → unhashLoop a n fuel p index = some w := by
  intro w
  induction w with
  | nil =>
    intro fuel p index A B hf e hr h0 hi
    have hend : a.isEnd p = true := by
      have : [] ∈ words a r p := by rw [e]; simp
      obtain ⟨q, hq, hp⟩ := (words_mem h [] p).1 this
      cases hp
      simp [Fsa.isEnd, hq]
    have hA : A = [] := by
      rw [words_eq h, if_pos hend] at e
      cases A with
      | nil => rfl
      | cons c A =>
        simp at e
        have hm : [] ∈ (a.arcs p).flatMap (fun y => (words a r y.2).map (y.1 :: ·)) := by
          have : (a.arcs p).flatMap (fun y => (words a r y.2).map (y.1 :: ·)) = A ++ [] :: B := e.2
          rw [this]; simp
        simp at hm
    subst hA
    rw [if_pos hend] at hi
    simp at hi
    subst hi
    cases fuel with
    | zero => omega
    | succ fuel => simp [unhashLoop]
  | cons x v ih =>
    intro fuel p index A B hf e hr h0 hi
    obtain ⟨pre, q, post, A1, B1, k1, k2, k3⟩ := words_split h e
    obtain ⟨c1, c2⟩ := counted_live (hn.counted p hr) h0
    have hq : r q < r p := h p x q (by rw [k1]; simp)
    have hg : (a.arcs p)[pre.length]? = some (x, q) := by rw [k1]; simp
    have hcq : A1.length < cnt a r q := by simp [cnt, k2]
    cases fuel with
    | zero => omega
    | succ fuel =>
      have hix : index = total a r pre + A1.length + 1 := by omega
      simp only [unhashLoop]
      rw [if_neg (by omega), c1, k1, hix, findNum_at (y := (x, q)) hcq]
      simp only [← k1, hg]
      rw [k1, wts_getD]
      rw [ih fuel q _ A1 B1 (by simpa using hf) k2 (by omega) (c2 (x, q) (by rw [k1]; simp) (by simp [cnt, k2]))
        (by split <;> omega)]
      rfl

end

end Verif.Fsa
