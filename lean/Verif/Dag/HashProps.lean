import Verif.Dag.HashLemmas
import Verif.Dag.Props

/-! # What the numbering of the words does -/

namespace Verif.Dag

/-- No way leads from a state back to it. -/
def Acyclic (d : Dag) : Prop := ∀ p w, Path d p w p → w = []

open Classical in
/-- The number of states behind a state. -/
noncomputable def rankOf (d : Dag) (p : Nat) : Nat :=
  ((List.range d.rows.length).filter fun q => decide (∃ w, w ≠ [] ∧ Path d p w q)).length

theorem rankOf_le (d : Dag) (p : Nat) : rankOf d p ≤ d.rows.length := by
  unfold rankOf
  exact Nat.le_trans (List.length_filter_le _ _) (by simp)

theorem filter_length_le {α : Type} (l : List α) (P Q : α → Bool) (h : ∀ x, P x → Q x) :
    (l.filter P).length ≤ (l.filter Q).length := by
  induction l with
  | nil => simp
  | cons z l ih =>
    cases cp : P z with
    | true => simp [List.filter_cons, cp, h z cp, ih]
    | false => cases cq : Q z <;> simp [List.filter_cons, cp, cq] <;> omega

theorem filter_length_lt {α : Type} (l : List α) (P Q : α → Bool) (h : ∀ x, P x → Q x) {y : α}
    (hy : y ∈ l) (h1 : Q y = true) (h2 : P y = false) : (l.filter P).length < (l.filter Q).length := by
  induction l with
  | nil => simp at hy
  | cons z l ih =>
    rcases List.mem_cons.1 hy with rfl | hy
    · have := filter_length_le l P Q h
      simp [List.filter_cons, h1, h2]; omega
    · have := ih hy
      cases cp : P z with
      | true => simp [List.filter_cons, cp, h z cp, this]
      | false => cases cq : Q z <;> simp [List.filter_cons, cp, cq] <;> omega

open Classical in
theorem rankOf_lt {d : Dag} (hv : Valid d) (ha : Acyclic d) (p : Nat) (x : Nat × Nat)
    (hx : x ∈ d.skel p) : rankOf d x.2 < rankOf d p := by
  obtain ⟨w, hw⟩ := mem_skel.1 hx
  refine filter_length_lt _ _ _ ?_ (List.mem_range.2 (hv.arcs p _ hw)) ?_ ?_
  · intro q hq
    rw [decide_eq_true_eq] at hq ⊢
    obtain ⟨u, _, hu⟩ := hq
    exact ⟨x.1 :: u, by simp, .cons hw hu⟩
  · rw [decide_eq_true_eq]
    exact ⟨[x.1], by simp, .cons hw (.nil _)⟩
  · rw [decide_eq_false_iff_not]
    rintro ⟨u, hu, hp⟩
    exact hu (ha _ _ hp)

/-- The words of limited length. -/
def wordsTo (d : Dag) : Nat → Nat → List (List Nat)
  | 0, _ => []
  | n + 1, p => (if p ∈ d.ends then [[]] else []) ++
      (d.skel p).flatMap fun x => (wordsTo d n x.2).map (x.1 :: ·)

theorem wordsTo_stable {d : Dag} {rank : Nat → Nat}
    (hr : ∀ p x, x ∈ d.skel p → rank x.2 < rank p) (n m p : Nat) (hn : rank p < n) (hm : rank p < m) :
    wordsTo d n p = wordsTo d m p := by
  induction n generalizing m p with
  | zero => omega
  | succ n ih =>
    cases m with
    | zero => omega
    | succ m =>
      unfold wordsTo
      congr 1
      have : ∀ l : List (Nat × Nat), (∀ x ∈ l, x ∈ d.skel p) →
          (l.flatMap fun x => (wordsTo d n x.2).map (x.1 :: ·)) =
          l.flatMap fun x => (wordsTo d m x.2).map (x.1 :: ·) := by
        intro l hl
        induction l with
        | nil => rfl
        | cons y l ihl =>
          have hy := hr p y (hl y (by simp))
          rw [List.flatMap_cons, List.flatMap_cons, ih m y.2 (by omega) (by omega),
            ihl fun x hx => hl x (by simp [hx])]
      exact this _ fun _ h => h

theorem wordsTo_isWords {d : Dag} (hv : Valid d) (ha : Acyclic d) :
    IsWords d (wordsTo d (d.rows.length + 1)) := by
  intro p
  have : wordsTo d (d.rows.length + 1) p = wordsTo d (d.rows.length + 2) p := by
    apply wordsTo_stable (rankOf_lt hv ha) <;> have := rankOf_le d p <;> omega
  rw [this]
  rfl

theorem count_le_iff (l : List (List Nat)) (h : l.Pairwise (· < ·)) (w : List Nat) (i : Nat) :
    (w ∈ l ∧ i + 1 = (l.filter fun v => decide (v ≤ w)).length) ↔ l[i]? = some w := by
  induction l generalizing i with
  | nil => simp
  | cons v l ih =>
    rw [List.pairwise_cons] at h
    simp only [List.filter_cons]
    by_cases c : v ≤ w
    · simp only [c, decide_true, if_true, List.length_cons]
      cases i with
      | zero =>
        simp only [List.getElem?_cons_zero, Option.some.injEq]
        constructor
        · rintro ⟨h1, h2⟩
          rcases List.mem_cons.1 h1 with rfl | h1
          · rfl
          · exfalso
            have : 0 < (l.filter fun v => decide (v ≤ w)).length :=
              List.length_pos_of_mem (a := w) (by simp [h1, List.le_refl])
            omega
        · rintro rfl
          refine ⟨by simp, ?_⟩
          have : (l.filter fun u => decide (u ≤ v)) = [] := by
            rw [List.filter_eq_nil_iff]
            intro u hu
            simpa using h.1 u hu
          rw [this]; rfl
      | succ i =>
        simp only [List.getElem?_cons_succ]
        rw [← ih h.2]
        constructor
        · rintro ⟨h1, h2⟩
          refine ⟨?_, by omega⟩
          rcases List.mem_cons.1 h1 with rfl | h1
          · exfalso
            have : (l.filter fun u => decide (u ≤ w)) = [] := by
              rw [List.filter_eq_nil_iff]
              intro u hu
              simpa using h.1 u hu
            rw [this] at h2
            simp at h2
          · exact h1
        · rintro ⟨h1, h2⟩
          exact ⟨by simp [h1], by omega⟩
    · have hw : w < v := by simpa using c
      have e : (l.filter fun u => decide (u ≤ w)) = [] := by
        rw [List.filter_eq_nil_iff]
        intro u hu
        simpa using List.lt_trans hw (h.1 u hu)
      simp only [c, decide_false, Bool.false_eq_true, if_false, e, List.length_nil]
      constructor
      · rintro ⟨_, h2⟩; omega
      · intro hi
        exfalso
        rcases List.mem_cons.1 (List.mem_of_getElem? hi) with rfl | hm
        · exact c (List.le_refl _)
        · exact absurd (List.lt_trans hw (h.1 w hm)) (List.lt_irrefl w)

theorem Same.accepts {d e : Dag} (h : Same d e) (p : Nat) (w : List Nat) :
    Accepts e p w ↔ Accepts d p w := by
  have step : ∀ {d e : Dag}, Same d e → ∀ p w q, Path e p w q → Path d p w q := by
    intro d e h p w q hp
    induction hp with
    | nil => exact .nil _
    | cons hx _ ih =>
      have := mem_skel.2 ⟨_, hx⟩
      rw [h.skel] at this
      obtain ⟨w', hw'⟩ := mem_skel.1 this
      exact .cons hw' ih
  have h' : Same e d := ⟨h.ends.symm, h.starts.symm, h.length.symm, fun p => (h.skel p).symm⟩
  unfold Accepts
  rw [h.ends]
  constructor <;> rintro ⟨q, h1, h2⟩
  · exact ⟨q, step h _ _ _ h1, h2⟩
  · exact ⟨q, step h' _ _ _ h1, h2⟩

/-! ## C158: hashing -/

/-- The sorted list of the words of an automaton from the state 0, without the empty one. -/
def IsDictionary (d : Dag) (l : List (List Nat)) : Prop :=
  l.Pairwise (· < ·) ∧ ∀ w, w ∈ l ↔ Accepts d 0 w ∧ w ≠ []

theorem numbering {d : Dag} (hv : Valid d) (hs : Sorted d)
    (hd : ∀ p, (d.row p).Pairwise fun x y => x.a ≠ y.a) (ha : Acyclic d) :
    ∃ e, d.withWeights = some e ∧ Same d e ∧ Strict d ∧
      Good d (wordsTo d (d.rows.length + 1)) e 0 := by
  have hW := wordsTo_isWords hv ha
  obtain ⟨st, h1, h2⟩ := numbers_spec hW (rankOf_lt hv ha) (d.rows.length + 1) 0 (d, fun _ => 0)
    (by have := rankOf_le d 0; omega) (Same.refl d) (fun _ _ => .inl rfl)
  refine ⟨st.1, by simp [Dag.withWeights, h1], h2.same, ?_, h2.good⟩
  intro p
  refine ((hs p).and (hd p)).imp fun h => ?_
  omega

theorem dictionary_unique {d : Dag} {l m : List (List Nat)} (hl : IsDictionary d l)
    (hm : IsDictionary d m) : l = m := by
  obtain ⟨h1, h2⟩ := hl
  obtain ⟨h3, h4⟩ := hm
  have key : ∀ l m : List (List Nat), l.Pairwise (· < ·) → m.Pairwise (· < ·) →
      (∀ w, w ∈ l ↔ w ∈ m) → l = m := by
    intro l
    induction l with
    | nil =>
      intro m _ _ h
      cases m with
      | nil => rfl
      | cons x m => exact absurd ((h x).2 (by simp)) (by simp)
    | cons x l ih =>
      intro m hl hm h
      cases m with
      | nil => exact absurd ((h x).1 (by simp)) (by simp)
      | cons y m =>
        rw [List.pairwise_cons] at hl hm
        have hxy : x = y := by
          rcases List.mem_cons.1 ((h x).1 (by simp)) with e | hx
          · exact e
          · rcases List.mem_cons.1 ((h y).2 (by simp)) with e | hy
            · exact e.symm
            · exact absurd (List.lt_trans (hl.1 y hy) (hm.1 x hx)) (List.lt_irrefl x)
        subst hxy
        congr 1
        refine ih m hl.2 hm.2 fun w => ?_
        constructor
        · intro hw
          rcases List.mem_cons.1 ((h w).1 (by simp [hw])) with e | hw'
          · subst e; exact absurd (hl.1 w hw) (List.lt_irrefl w)
          · exact hw'
        · intro hw
          rcases List.mem_cons.1 ((h w).2 (by simp [hw])) with e | hw'
          · subst e; exact absurd (hm.1 w hw) (List.lt_irrefl w)
          · exact hw'
  exact key l m h1 h3 fun w => by rw [h2, h4]

theorem dictionary_words {d : Dag} (hv : Valid d) (ha : Acyclic d) (hs : Strict d)
    {l : List (List Nat)} (hl : IsDictionary d l) :
    wordsTo d (d.rows.length + 1) 0 = (if 0 ∈ d.ends then [[]] else []) ++ l := by
  have hW := wordsTo_isWords hv ha
  rw [hW 0]
  congr 1
  refine dictionary_unique (d := d) ⟨?_, fun w => ?_⟩ hl
  · have := words_sorted hW hs (rankOf_lt hv ha) 0
    rw [hW 0, List.pairwise_append] at this
    exact this.2.1
  · rw [← mem_words hW, hW 0]
    simp only [List.mem_append, List.mem_flatMap, List.mem_map]
    constructor
    · rintro ⟨x, h1, v, h2, rfl⟩
      exact ⟨.inr ⟨x, h1, v, h2, rfl⟩, by simp⟩
    · rintro ⟨h | h, hne⟩
      · split at h <;> simp at h; exact absurd h hne
      · exact h

/-- An automaton without cycles whose states have sorted arcs with different symbols has a dictionary
(the sorted list of its words). The weights of its arcs are computed; they change no words. With them
the hash of a word that is not empty is its number in the dictionary, counted from one, the hash of the
empty word is 0, and there is no hash of anything that is no word. -/
theorem C158_hash (d : Dag) (hv : Valid d) (hs : Sorted d)
    (hd : ∀ p, (d.row p).Pairwise fun x y => x.a ≠ y.a) (ha : Acyclic d) :
    ∃ e l, d.withWeights = some e ∧ (∀ p w, Accepts e p w ↔ Accepts d p w) ∧ IsDictionary d l ∧
      (∀ w n, w ≠ [] → (e.hash w = some n ↔ 1 ≤ n ∧ l[n - 1]? = some w)) ∧
      ∀ n, e.hash [] = some n ↔ Accepts d 0 [] ∧ n = 0 := by
  obtain ⟨e, h1, h2, h3, h4⟩ := numbering hv hs hd ha
  have hW := wordsTo_isWords hv ha
  have hsrt := words_sorted hW h3 (rankOf_lt hv ha) 0
  have hl : IsDictionary d ((d.skel 0).flatMap fun x =>
      (wordsTo d (d.rows.length + 1) x.2).map (x.1 :: ·)) := by
    refine ⟨?_, fun w => ?_⟩
    · rw [hW 0, List.pairwise_append] at hsrt
      exact hsrt.2.1
    · rw [← mem_words hW, hW 0]
      simp only [List.mem_append, List.mem_flatMap, List.mem_map]
      constructor
      · rintro ⟨x, h1, v, h2, rfl⟩
        exact ⟨.inr ⟨x, h1, v, h2, rfl⟩, by simp⟩
      · rintro ⟨h | h, hne⟩
        · split at h <;> simp at h; exact absurd h hne
        · exact h
  refine ⟨e, _, h1, fun p w => h2.accepts p w, hl, ?_, ?_⟩
  · intro w n hne
    have hp := place_pos hW (p := 0) (w := w)
    unfold Dag.hash
    rw [hashFrom_spec hW h3 h2 h4]
    have e0 := dictionary_words hv ha h3 hl
    generalize ((d.skel 0).flatMap fun x =>
      (wordsTo d (d.rows.length + 1) x.2).map (x.1 :: ·)) = l at hl e0
    unfold place at hp ⊢
    rw [e0] at hp ⊢
    rw [e0, List.pairwise_append] at hsrt
    have hmem : w ∈ (if 0 ∈ d.ends then [[]] else []) ++ l ↔ w ∈ l := by
      split <;> simp [hne]
    have hfil : (((if 0 ∈ d.ends then [[]] else []) ++ l).filter fun v => decide (v ≤ w)).length =
        (if 0 ∈ d.ends then 1 else 0) + (l.filter fun v => decide (v ≤ w)).length := by
      split <;> simp [List.nil_le] <;> omega
    rw [hmem, hfil, Nat.zero_add]
    have hpos : w ∈ l → 0 < (l.filter fun v => decide (v ≤ w)).length := fun h =>
      List.length_pos_of_mem (a := w) (by simp [h, List.le_refl])
    rw [← count_le_iff l hsrt.2.1]
    constructor
    · rintro ⟨h5, h6⟩
      have := hpos h5
      exact ⟨by omega, h5, by omega⟩
    · rintro ⟨h5, h6, h7⟩
      exact ⟨h6, by omega⟩
  · intro n
    unfold Dag.hash
    rw [hashFrom_spec hW h3 h2 h4, mem_words hW, place_nil hW]
    constructor <;> rintro ⟨h5, h6⟩ <;> exact ⟨h5, by omega⟩

/-- The dictionary is the only one. -/
theorem C158_dictionary (d : Dag) (l m : List (List Nat)) (hl : IsDictionary d l)
    (hm : IsDictionary d m) : l = m := dictionary_unique hl hm

/-- A word of length two, then words that begin with it, then one of other symbols. -/
def exTrie : Dag :=
  { rows := [[⟨1, 1, 0⟩, ⟨2, 2, 0⟩], [⟨1, 3, 0⟩, ⟨3, 2, 0⟩], [⟨1, 3, 0⟩], [⟨5, 4, 0⟩], []]
    ends := [2, 3, 4], starts := 1 }

theorem exTrie_valid : Valid exTrie := by
  refine ⟨?_, by decide, by decide⟩
  intro p x hx
  have := lt_of_mem_row hx
  have : p < 5 := this
  revert x
  revert p
  decide

theorem exTrie_strict : Strict exTrie := by
  intro p
  by_cases h : p < 5
  · revert p; decide
  · rw [row_of_ge (by exact Nat.le_of_not_lt h)]; simp

theorem exTrie_acyclic : Acyclic exTrie := by
  have step : ∀ p < 5, ∀ x ∈ exTrie.row p, p < x.q := by decide
  have up : ∀ p w q, Path exTrie p w q → p + w.length ≤ q := by
    intro p w q h
    induction h with
    | nil => simp
    | cons hx _ ih =>
      have := step _ (lt_of_mem_row hx) _ hx
      simp only [List.length_cons] at *
      omega
  intro p w h
  have := up p w p h
  exact List.length_eq_zero_iff.1 (by omega)

example : Valid exTrie ∧ Sorted exTrie ∧ (∀ p, (exTrie.row p).Pairwise fun x y => x.a ≠ y.a) ∧
    Acyclic exTrie :=
  ⟨exTrie_valid, fun p => (exTrie_strict p).imp fun h => Nat.le_of_lt h,
    fun p => (exTrie_strict p).imp fun h => Nat.ne_of_lt h, exTrie_acyclic⟩

example : exTrie.withWeights.map (fun e => [[1, 1], [1, 1, 5], [1, 3], [1, 3, 1], [1, 3, 1, 5], [2],
    [2, 1], [2, 1, 5], [1], [5]].map e.hash) =
    some [some 1, some 2, some 3, some 4, some 5, some 6, some 7, some 8, none, none] := by
  decide +kernel

/-! ## C159: back from the hash -/

/-- With the computed weights `unhash` finds, for the number of a word in the dictionary, this word,
and for every other number (0, and all beyond the dictionary) the empty word. -/
theorem C159_unhash (d : Dag) (hv : Valid d) (hs : Sorted d)
    (hd : ∀ p, (d.row p).Pairwise fun x y => x.a ≠ y.a) (ha : Acyclic d) (l : List (List Nat))
    (hl : IsDictionary d l) (e : Dag) (he : d.withWeights = some e) (n : Nat) :
    e.unhash (n + 1) = some (l[n]?.getD []) ∧ e.unhash 0 = some [] := by
  obtain ⟨e', h1, h2, h3, h4⟩ := numbering hv hs hd ha
  rw [he] at h1; cases h1
  refine ⟨?_, by simp [Dag.unhash, Dag.unhashFrom]⟩
  have hW := wordsTo_isWords hv ha
  have hsrt := words_sorted hW h3 (rankOf_lt hv ha) 0
  have e0 := dictionary_words hv ha h3 hl
  unfold Dag.unhash
  have hfuel : rankOf d 0 < e.rows.length + 1 := by
    have := rankOf_le d 0
    rw [h2.length]; omega
  cases hn : l[n]? with
  | some w =>
    have hm := List.mem_of_getElem? hn
    have hw0 : w ∈ wordsTo d (d.rows.length + 1) 0 := by rw [e0]; simp [hm]
    have := unhashFrom_spec hW h3 h2 (rankOf_lt hv ha) h4 (e.rows.length + 1) hfuel w [] hw0
    have hc := ((count_le_iff l hl.1 w n).2 hn).2
    have hfil : (((if 0 ∈ d.ends then [[]] else []) ++ l).filter fun v => decide (v ≤ w)).length =
        (if 0 ∈ d.ends then 1 else 0) + (l.filter fun v => decide (v ≤ w)).length := by
      split <;> simp [List.nil_le] <;> omega
    unfold place at this
    rw [e0, hfil, ← hc, Nat.add_sub_cancel_left] at this
    simpa using this
  | none =>
    rw [List.getElem?_eq_none_iff] at hn
    have := unhashFrom_beyond hW h2 (rankOf_lt hv ha) (e.rows.length + 1) h4 hfuel (n + 1) [] (by
      rw [e0, List.length_append]
      split <;> simp <;> omega)
    rcases this with h | h
    · simpa using h
    · omega

/-- The number of a word leads back to the word. -/
theorem C159_back (d : Dag) (hv : Valid d) (hs : Sorted d)
    (hd : ∀ p, (d.row p).Pairwise fun x y => x.a ≠ y.a) (ha : Acyclic d) (e : Dag)
    (he : d.withWeights = some e) (w : List Nat) (n : Nat) (h : e.hash w = some n) :
    e.unhash n = some w := by
  obtain ⟨e', l, h1, _, hl, h3, h4⟩ := C158_hash d hv hs hd ha
  rw [he] at h1; cases h1
  by_cases hw : w = []
  · subst hw
    rw [((h4 n).1 h).2]
    exact (C159_unhash d hv hs hd ha l hl e he 0).2
  · obtain ⟨h5, h6⟩ := (h3 w n hw).1 h
    have := (C159_unhash d hv hs hd ha l hl e he (n - 1)).1
    rw [Nat.sub_add_cancel h5, h6] at this
    exact this

example : exTrie.withWeights.map (fun e => (List.range 10).map e.unhash) =
    some ([[], [1, 1], [1, 1, 5], [1, 3], [1, 3, 1], [1, 3, 1, 5], [2], [2, 1], [2, 1, 5], []].map some) := by
  decide +kernel

end Verif.Dag
