import Verif.Dag.SubsetLemmas
import Verif.Dag.MultihashLemmas
import Verif.Dag.HashProps

/-! # What the products of automata do -/

namespace Verif.Dag

/-- In each state there is at most one arc with a symbol, and the arcs are in order. -/
def InOrder (d : Dag) : Prop := ∀ p, (d.row p).Pairwise fun x y => x.a < y.a

/-! ## C160: intersection -/

/-- The intersection ends and gives a deterministic automaton whose words are the words of both
(compressed automata begin in the state 0); `in` decides them. -/
theorem C160_intersect (d o : Dag) (hd : Valid d) (ho : Valid o) (hd' : InOrder d) (ho' : InOrder o) :
    ∃ e, d.intersect o = some e ∧ Valid e ∧ Sorted e ∧ Deterministic e ∧ Initial e 0 ∧
      (∀ w, Words e w ↔ Accepts d 0 w ∧ Accepts o 0 w) ∧
      (∀ w, e.isIn w = true ↔ Accepts d 0 w ∧ Accepts o 0 w) ∧
      e.rows.length ≤ d.rows.length * o.rows.length + 1 := by
  obtain ⟨e, h1, h2, h3, h4, h5, h6, h7⟩ := intersect_spec hd ho hd' ho'
  have hdet : Deterministic e := ⟨h4, 0, (h5 0).2 rfl, fun q hq => (h5 q).1 hq⟩
  have hw : ∀ w, Words e w ↔ Accepts d 0 w ∧ Accepts o 0 w := by
    intro w
    rw [← h6]
    constructor
    · rintro ⟨p, hp, ha⟩
      rw [h5] at hp; subst hp; exact ha
    · intro ha
      exact ⟨0, (h5 0).2 rfl, ha⟩
  exact ⟨e, h1, h2, h3, hdet, (h5 0).2 rfl, hw,
    fun w => (C153_in e h3 hdet ((h5 0).2 rfl) w).1.trans (hw w), h7⟩

/-- Another automaton for the examples: `1 3 1`, `2 1`. -/
def exOther : Dag :=
  { rows := [[⟨1, 1, 0⟩, ⟨2, 2, 0⟩], [⟨3, 2, 0⟩], [⟨1, 3, 0⟩], []], ends := [3], starts := 1 }

theorem exOther_valid : Valid exOther := by
  refine ⟨?_, by decide, by decide⟩
  intro p x hx
  have := lt_of_mem_row hx
  have : p < 4 := this
  revert x
  revert p
  decide

theorem exOther_inOrder : InOrder exOther := by
  intro p
  by_cases h : p < 4
  · revert p; decide
  · rw [row_of_ge (by exact Nat.le_of_not_lt h)]; simp

theorem exOther_acyclic : Acyclic exOther := by
  have step : ∀ p < 4, ∀ x ∈ exOther.row p, p < x.q := by decide
  have up : ∀ p w q, Path exOther p w q → p + w.length ≤ q := by
    intro p w q h
    induction h with
    | nil => simp
    | cons hx _ ih =>
      have := step _ (lt_of_mem_row hx) _ hx
      simp only [List.length_cons] at *
      omega
  intro p w h
  have := up p w p h
  cases w with
  | nil => rfl
  | cons a w => simp at this

example : Valid exTrie ∧ Valid exOther ∧ InOrder exTrie ∧ InOrder exOther :=
  ⟨exTrie_valid, exOther_valid, exTrie_strict, exOther_inOrder⟩

example : (exTrie.intersect exOther).map (fun e => [[1, 3, 1], [2, 1], [1, 3], [2], [1, 1]].map e.isIn) =
    some [true, true, false, false, false] := by decide +kernel

/-! ## C161: the subsets -/

/-- A subset of the numbers `1 … n` with `k` elements, in order. -/
def KSubset (k n : Nat) (c : List Int) : Prop :=
  c.length = k ∧ c.Pairwise (· < ·) ∧ ∀ x ∈ c, 1 ≤ x ∧ x ≤ n

/-- The calls of `nextksb` until it returns false; `none` if it reads outside the list or does not
end within the number of calls. -/
def calls (k n : Nat) : Nat → Subset → Option (List (List Int))
  | 0, _ => none
  | fuel + 1, s =>
    match nextksb s k n with
    | none => none
    | some none => some []
    | some (some s1) => (calls k n fuel s1).map (s1.a :: ·)

theorem kSubset_iff {k n : Nat} {c : List Int} : KSubset k n c ↔ IsSub k n c :=
  ⟨fun ⟨h1, h2, h3⟩ => ⟨h1, h2, h3⟩, fun h => ⟨h.length, h.sorted, h.range⟩⟩

theorem before_lt {a c : List Int} (h : Before a c) : a < c := by
  induction a generalizing c with
  | nil => simp [Before] at h
  | cons x a ih =>
    cases c with
    | nil => simp [Before] at h
    | cons y c =>
      rw [List.cons_lt_cons_iff]
      rcases h with h | ⟨h, h'⟩
      · exact .inl h
      · exact .inr ⟨h, ih h'⟩

theorem calls_spec {k n : Nat} (fuel : Nat) (s : Subset) (hs : Listed k n s)
    (hf : (((n + 2 : Nat) : Int)) ^ k - val (n + 2) s.a < fuel) :
    ∃ l, calls k n fuel s = some l ∧ l.Pairwise Before ∧ (∀ c ∈ l, IsSub k n c ∧ Before s.a c) ∧
      ∀ c, IsSub k n c → Before s.a c → c ∈ l := by
  have rng : ∀ c, IsSub k n c → ∀ x ∈ c, 0 ≤ x ∧ x < ((n + 2 : Nat) : Int) := by
    intro c hc x hx
    have := hc.range x hx
    push_cast; omega
  induction fuel generalizing s with
  | zero =>
    have := (val_bound (n + 2) s.a (rng _ hs.isSub)).2
    rw [hs.isSub.length] at this
    push_cast at hf this
    omega
  | succ fuel ih =>
    unfold calls
    rcases nextksb_next hs with ⟨h1, h2⟩ | ⟨s', h1, h2, h3, h4⟩
    · rw [h1]
      exact ⟨[], rfl, .nil, by simp, fun c hc hb => absurd hb (h2 c hc)⟩
    · rw [h1]
      simp only
      have hval := val_lt (n + 2) s.a s'.a (by rw [hs.isSub.length, h2.isSub.length])
        (rng _ hs.isSub) (rng _ h2.isSub) h3
      obtain ⟨l, k1, k2, k3, k4⟩ := ih s' h2 (by push_cast at hf ⊢; omega)
      refine ⟨s'.a :: l, by rw [k1]; rfl, ?_, ?_, ?_⟩
      · rw [List.pairwise_cons]
        exact ⟨fun c hc => (k3 c hc).2, k2⟩
      · intro c hc
        rcases List.mem_cons.1 hc with rfl | hc
        · exact ⟨h2.isSub, h3⟩
        · exact ⟨(k3 c hc).1, before_trans h3 (k3 c hc).2⟩
      · intro c hc hb
        rcases h4 c hc hb with e | e
        · subst e; simp
        · exact List.mem_cons_of_mem _ (k4 c hc e)

/-- For `1 ≤ k ≤ n` the calls of `nextksb` stay inside the list, end, and give each subset of `1 … n`
with `k` elements exactly once, in lexicographic order. -/
theorem C161_subsets_partial (k n : Nat) (hk : 1 ≤ k) (hn : k ≤ n) :
    ∃ fuel l, calls k n fuel {} = some l ∧ l.Pairwise (· < ·) ∧ ∀ c, c ∈ l ↔ KSubset k n c := by
  obtain ⟨s, h1, h2, h3⟩ := nextksb_first hk hn
  obtain ⟨l, k1, k2, k3, k4⟩ := calls_spec (k := k) (n := n) ((n + 2) ^ k + 1) s h2 (by
    have := (val_bound (n + 2) s.a fun x hx => by
      have := h2.isSub.range x hx
      push_cast; omega).1
    push_cast at this ⊢
    omega)
  refine ⟨(n + 2) ^ k + 2, s.a :: l, ?_, ?_, fun c => ?_⟩
  · rw [calls, h1]
    simp [k1]
  · rw [List.pairwise_cons]
    exact ⟨fun c hc => before_lt (k3 c hc).2, k2.imp before_lt⟩
  · rw [kSubset_iff]
    constructor
    · intro hc
      rcases List.mem_cons.1 hc with rfl | hc
      · exact h2.isSub
      · exact (k3 c hc).1
    · intro hc
      rcases h3 c hc with e | e
      · subst e; simp
      · exact List.mem_cons_of_mem _ (k4 c hc e)

example : calls 2 4 10 {} = some [[1, 2], [1, 3], [1, 4], [2, 3], [2, 4], [3, 4]] := by decide

/-- With more elements wanted than there are numbers there are no subsets, but `nextksb` gives a list
that is none, and then reads outside the list. -/
theorem C161_too_many_false :
    ¬ ∀ k n : Nat, 1 ≤ k → ∃ fuel l, calls k n fuel {} = some l ∧ ∀ c ∈ l, KSubset k n c := by
  intro h
  obtain ⟨fuel, l, h1, h2⟩ := h 5 3 (by decide)
  cases fuel with
  | zero => simp [calls] at h1
  | succ fuel =>
    have e1 : nextksb {} 5 3 = some (some ⟨[1, 2, 3, 4, 5], 5, 0⟩) := by decide
    rw [calls, e1] at h1
    simp only [Option.map_eq_some_iff] at h1
    obtain ⟨l', _, rfl⟩ := h1
    have := (h2 [1, 2, 3, 4, 5] (by simp)).2.2 5 (by simp)
    omega

example : nextksb ⟨[1, 2, 3, 4, 5], 5, 0⟩ 5 3 = none ∧ nextksb {} 4 3 = some none := by decide

/-! ## C162: limiting the length and the number of nonterminals -/

/-- For at most as many nonterminals as the length allows, pruning with the automaton that
`build_intersector` makes keeps exactly the words that begin with a nonterminal and have then between
one and `n` symbols, at most `k` of them nonterminals. -/
theorem C162_prune_partial (k n : Nat) (hk : k ≤ n) (nts : Nat → Bool) (d : Dag) (hd : Valid d) :
    ∃ int e, buildIntersector k n = some int ∧ int.prune nts d = some e ∧ Valid e ∧ Sorted e ∧
      Deterministic e ∧ Initial e 0 ∧
      ∀ w, Words e w ↔ Words d w ∧ ∃ x v, w = x :: v ∧ nts x = true ∧ 1 ≤ v.length ∧ v.length ≤ n ∧
        (v.filter nts).length ≤ k := by
  obtain ⟨int, h1, h2, h3, h4, h5⟩ := intersector_spec hk
  obtain ⟨e, g1, g2, g3, g4, g5, g6⟩ := prune_spec nts h2 h3 h4 hd
  refine ⟨int, e, h1, g1, g2, g3, ⟨g4, 0, (g5 0).2 rfl, fun q hq => (g5 q).1 hq⟩, (g5 0).2 rfl,
    fun w => ?_⟩
  rw [g6, h5]
  apply and_congr_right
  intro _
  constructor
  · rintro ⟨v, e1, e2, e3, _, e5⟩
    cases w with
    | nil => simp [kinds] at e1
    | cons x u =>
      have e1' : kinds nts (x :: u) = (if nts x then 1 else 0) :: kinds nts u := rfl
      rw [e1', List.cons.injEq] at e1
      obtain ⟨ex, eu⟩ := e1
      subst eu
      rw [ones_kinds] at e5
      have hlen : (kinds nts u).length = u.length := by simp [kinds]
      rw [hlen] at e2 e3
      refine ⟨x, u, rfl, ?_, e2, e3, e5⟩
      by_contra c
      simp [c] at ex
  · rintro ⟨x, v, rfl, hx, e2, e3, e5⟩
    have hlen : (kinds nts v).length = v.length := by simp [kinds]
    refine ⟨kinds nts v, ?_, by rw [hlen]; exact e2, by rw [hlen]; exact e3, ?_, by rw [ones_kinds]; exact e5⟩
    · have e1' : kinds nts (x :: v) = (if nts x then 1 else 0) :: kinds nts v := rfl
      rw [e1', hx]; rfl
    · intro a ha
      unfold kinds at ha
      obtain ⟨y, _, rfl⟩ := List.mem_map.1 ha
      cases nts y <;> simp

example : (2 : Nat) ≤ 3 ∧ Valid exTrie := ⟨by decide, exTrie_valid⟩

example : ((buildIntersector 1 2).bind fun int => int.prune (fun a => decide (a < 3)) exTrie).map
    (fun e => [[1, 1], [1, 1, 5], [1, 3], [1, 3, 1], [1, 3, 1, 5], [2], [2, 1]].map e.isIn) =
    some [true, true, true, true, false, false, true] := by decide +kernel

/-- With one nonterminal more than the length no nonterminals at all are allowed, with still more the
list is read outside: the limit that is wider gives less. -/
theorem C162_wide_false :
    ¬ ∀ k n : Nat, ∃ int, buildIntersector k n = some int ∧
      ∀ w, Words int w ↔ ∃ v, w = 1 :: v ∧ 1 ≤ v.length ∧ v.length ≤ n ∧ (∀ a ∈ v, a = 0 ∨ a = 1) ∧
        (v.filter fun a => a == 1).length ≤ k := by
  intro h
  obtain ⟨int, h1, _⟩ := h 4 2
  have : buildIntersector 4 2 = none := by decide +kernel
  rw [this] at h1
  cases h1

example : (buildIntersector 3 2).map (fun e => [[1, 0], [1, 1], [1, 0, 0], [1, 1, 1]].map e.isIn) =
    some [true, false, true, false] ∧
    (buildIntersector 2 2).map (fun e => [[1, 0], [1, 1], [1, 0, 0], [1, 1, 1]].map e.isIn) =
    some [true, true, true, true] := by decide +kernel

/-! ## C163: hashing all words of an automaton -/

/-- `multihash` ends; it gives no word twice, only words of both automata, and with each its hash. If
each pair of states is reached by words of one length only, it gives all words of both. -/
theorem C163_multihash_partial (d o : Dag) (hd : Valid d) (ho : Valid o) (hd' : InOrder d)
    (ho' : InOrder o) (ha : Acyclic d) :
    ∃ l, d.multihash o = some l ∧ (l.map Prod.fst).Nodup ∧
      (∀ w n, (w, n) ∈ l → Accepts d 0 w ∧ Accepts o 0 w ∧ d.hash w = some n) ∧
      ((∀ u v p q, Path d 0 u p → Path o 0 u q → Path d 0 v p → Path o 0 v q → u.length = v.length) →
        ∀ w, Accepts d 0 w → Accepts o 0 w → ∃ n, (w, n) ∈ l) := by
  obtain ⟨l, h1, h2, h3, h4⟩ := multihash_spec hd ho hd' ho' (by
    intro p x hx e
    have hx' : (⟨x.a, p, x.w⟩ : Arc) ∈ d.row p := by subst e; exact hx
    have := ha p [x.a] (.cons hx' (.nil _))
    cases this)
  exact ⟨l, h1, h2, fun w n hw => h3 (w, n) hw, h4⟩

example : Valid exTrie ∧ Valid exOther ∧ InOrder exTrie ∧ InOrder exOther ∧ Acyclic exTrie :=
  ⟨exTrie_valid, exOther_valid, exTrie_strict, exOther_inOrder, exTrie_acyclic⟩

/-- All words of the length 2. -/
def exPairs : Dag :=
  { rows := [[⟨1, 1, 0⟩, ⟨2, 1, 0⟩], [⟨1, 2, 0⟩, ⟨3, 2, 0⟩], []], ends := [2], starts := 1 }

example : ∀ u v p q, Path exPairs 0 u p → Path exTrie 0 u q → Path exPairs 0 v p → Path exTrie 0 v q →
    u.length = v.length := by
  have up : ∀ p w q, Path exPairs p w q → q = p + w.length := by
    have step : ∀ p < 3, ∀ x ∈ exPairs.row p, x.q = p + 1 := by decide
    intro p w q h
    induction h with
    | nil => simp
    | cons hx _ ih =>
      have := step _ (lt_of_mem_row hx) _ hx
      simp only [List.length_cons] at *
      omega
  intro u v p q h1 _ h2 _
  have e1 := up _ _ _ h1
  have e2 := up _ _ _ h2
  omega

example : (exTrie.withWeights.bind fun e => e.multihash exPairs) =
    some [([1, 1], 1), ([2, 1], 7), ([1, 3], 3)] := by decide +kernel

/-- In general words are lost: when a pair of states is reached by a shorter and a longer word, the
words of its successors are made before the longer word has come. `2 1 3` is a word of both automata,
and the intersection keeps it. -/
theorem C163_loses_false :
    ¬ ∀ d o : Dag, Valid d → Valid o → InOrder d → InOrder o → Acyclic d → ∃ l, d.multihash o = some l ∧
      ∀ w, Accepts d 0 w → Accepts o 0 w → ∃ n, (w, n) ∈ l := by
  intro h
  let A : Dag := { rows := [[⟨1, 1, 0⟩, ⟨2, 2, 0⟩], [⟨3, 3, 0⟩], [⟨1, 1, 0⟩], []], ends := [3], starts := 1 }
  have hv : Valid A := by
    refine ⟨?_, by decide, by decide⟩
    intro p x hx
    have := lt_of_mem_row hx
    have : p < 4 := this
    revert x
    revert p
    decide
  have hs : InOrder A := by
    intro p
    by_cases h : p < 4
    · revert p; decide
    · rw [row_of_ge (by exact Nat.le_of_not_lt h)]; simp
  have hac : Acyclic A := by
    let r : Nat → Nat := fun p => if p = 1 then 2 else if p = 2 then 1 else p
    have step : ∀ p < 4, ∀ x ∈ A.row p, r p < r x.q := by decide
    have up : ∀ p w q, Path A p w q → r p + w.length ≤ r q := by
      intro p w q h
      induction h with
      | nil => simp
      | cons hx _ ih =>
        have := step _ (lt_of_mem_row hx) _ hx
        simp only [List.length_cons] at *
        omega
    intro p w h
    have := up p w p h
    cases w with
    | nil => rfl
    | cons a w => simp at this
  obtain ⟨l, h1, h2⟩ := h A A hv hv hs hs hac
  have e1 : A.multihash A = some [([1, 3], 1)] := by decide +kernel
  rw [e1] at h1
  cases h1
  have hacc : Accepts A 0 [2, 1, 3] :=
    ⟨3, .cons (q := 2) (w := 0) (by decide) (.cons (q := 1) (w := 0) (by decide)
      (.cons (q := 3) (w := 0) (by decide) (.nil _))), by decide⟩
  obtain ⟨n, hn⟩ := h2 [2, 1, 3] hacc hacc
  simp at hn

end Verif.Dag
