import Verif.Zval.SymSpec
import Verif.Zval.Lookup

/-! # Lemmas about tables of symbols and vectors -/

namespace Verif.Zval

/-! ## Tables of symbols -/

theorem symFuns_coherent : Coherent symFuns := by
  intro k v h
  simp only [symFuns, decide_eq_true_eq] at h ⊢
  rw [h]

/-- The answers of a map from texts to objects. -/
def symAnswers : (Str → Option Nat) → Nat → List SymCall → List (Option Nat)
  | _, _, [] => []
  | m, n, .get s :: cs =>
    (m s).elim (some n :: symAnswers (assign m s (some n)) (n + 1) cs)
      (fun i => some i :: symAnswers m n cs)
  | m, n, .getRaw s :: cs =>
    (m s).elim (some n :: symAnswers (assign m s (some n)) (n + 1) cs)
      (fun i => some i :: symAnswers m (n + 1) cs)
  | m, n, .remove s :: cs => none :: symAnswers (assign m s none) n cs

/-- The table holds the map. -/
def HoldsMap (l : List Sym) (m : Str → Option Nat) : Prop :=
  (l.map (·.text)).Nodup ∧ ∀ s i, (⟨i, s⟩ : Sym) ∈ l ↔ m s = some i

theorem HoldsMap.perm {l l' : List Sym} {m : Str → Option Nat} (h : HoldsMap l m) (p : l.Perm l') :
    HoldsMap l' m :=
  ⟨(p.map _).nodup_iff.mp h.1, fun s i => by rw [← p.mem_iff]; exact h.2 s i⟩

theorem HoldsMap.add {l : List Sym} {m : Str → Option Nat} (h : HoldsMap l m) {s : Str}
    (hn : m s = none) (i : Nat) : HoldsMap (⟨i, s⟩ :: l) (assign m s (some i)) := by
  refine ⟨?_, ?_⟩
  · rw [List.map_cons, List.nodup_cons]
    refine ⟨?_, h.1⟩
    intro hmem
    obtain ⟨⟨a, b⟩, hab, e⟩ := List.mem_map.mp hmem
    simp only at e
    subst e
    have := (h.2 b a).mp hab
    rw [hn] at this
    simp at this
  · intro a b
    rw [List.mem_cons, h.2 a b]
    unfold assign
    by_cases e : a = s
    · subst e
      rw [if_pos rfl, hn]
      simp [eq_comm]
    · rw [if_neg e]
      simp [e]

theorem HoldsMap.drop {l : List Sym} {m : Str → Option Nat} {s : Str} {i : Nat}
    (h : HoldsMap (⟨i, s⟩ :: l) m) : HoldsMap l (assign m s none) := by
  have nd := h.1
  rw [List.map_cons, List.nodup_cons] at nd
  refine ⟨nd.2, ?_⟩
  intro a b
  unfold assign
  by_cases e : a = s
  · subst e
    rw [if_pos rfl]
    constructor
    · intro hab
      exact absurd (List.mem_map.mpr ⟨_, hab, rfl⟩) nd.1
    · simp
  · rw [if_neg e, ← h.2 a b, List.mem_cons]
    simp [e]

theorem symCalls_eq : ∀ (cs : List SymCall) (st : SymTable) (k c : Nat) (m : Str → Option Nat),
    Good symFuns k st.table → HoldsMap (values st.table.block) m → st.table.occ ≤ c →
    (st.table.size ≤ 2 ^ 29 ∨ st.table.size ≤ 4 * c + 2) → c + cs.length ≤ 2 ^ 28 →
    st.calls cs = some (symAnswers m st.next cs) := by
  intro cs
  induction cs with
  | nil => intro st k c m _ _ _ _ _; rfl
  | cons cl cs ih =>
    intro st k c m g hm hc hs hl
    rw [List.length_cons] at hl
    have look : ∀ s, (m s = none ∧ st.table.get symFuns s = some none) ∨
        ∃ i, m s = some i ∧ st.table.get symFuns s = some (some ⟨i, s⟩) := by
      intro s
      obtain ⟨ix, i, h1, h2⟩ := get_good symFuns_coherent g s
      rcases h2 with ⟨h2, h3⟩ | ⟨⟨i, a⟩, h2, h3⟩
      · left
        refine ⟨?_, by simp [Table.get, h1, h2, Slot.value]⟩
        cases e : m s with
        | none => rfl
        | some i =>
          have := h3 _ ((hm.2 s i).mpr e)
          simp [symFuns] at this
      · right
        simp only [symFuns, decide_eq_true_eq] at h3
        subst h3
        exact ⟨i, (hm.2 _ i).mp (mem_values.mpr ⟨_, h2⟩), by
          simp [Table.get, h1, h2, Slot.value]⟩
    have make : ∀ s, m s = none → ∃ t, st.table.put symFuns ⟨st.next, s⟩ = some t ∧
        SymTable.calls { table := t, next := st.next + 1 } cs =
          some (symAnswers (assign m s (some st.next)) (st.next + 1) cs) := by
      intro s hn
      obtain ⟨t1, k1, h1, h2, h3, h4⟩ := put_good g ⟨st.next, s⟩ (by omega)
      refine ⟨t1, h1, ?_⟩
      refine ih { table := t1, next := st.next + 1 } k1 (c + 1) _ h2
        ((hm.add hn st.next).perm h3.symm) ?_ ?_ (by omega)
      · simp only
        rw [h2.occ, h3.length_eq, List.length_cons, ← g.occ]; omega
      · simp only; omega
    cases cl with
    | get s =>
      rcases look s with ⟨h1, h2⟩ | ⟨i, h1, h2⟩
      · obtain ⟨t, h3, h4⟩ := make s h1
        simp [SymTable.calls, SymTable.call, SymTable.getSymbol, h2, h3, h4, symAnswers, h1]
      · simp only [SymTable.calls, SymTable.call, SymTable.getSymbol, h2, symAnswers, h1,
          Option.bind_some, Option.elim, Option.map_some]
        rw [ih st k (c + 1) m g hm (by omega) (by omega) (by omega)]
        rfl
    | getRaw s =>
      rcases look s with ⟨h1, h2⟩ | ⟨i, h1, h2⟩
      · obtain ⟨t, h3, h4⟩ := make s h1
        simp [SymTable.calls, SymTable.call, SymTable.getRaw, h2, h3, h4, symAnswers, h1]
      · simp only [SymTable.calls, SymTable.call, SymTable.getRaw, h2, symAnswers, h1,
          Option.bind_some, Option.elim, Option.map_some]
        rw [ih { st with next := st.next + 1 } k (c + 1) m g hm (by simp only; omega)
          (by simp only; omega) (by omega)]
        rfl
    | remove s =>
      obtain ⟨r, t1, h1, g1, s1, h2⟩ := remove_good symFuns_coherent g s
      have hm1 : HoldsMap (values t1.block) (assign m s none) ∧ t1.occ ≤ c := by
        rcases h2 with ⟨_, h3, h4⟩ | ⟨⟨i, a⟩, _, h3, h4⟩
        · subst h3
          refine ⟨?_, hc⟩
          have : assign m s none = m := by
            funext a
            unfold assign
            split
            · rename_i e
              subst e
              cases e : m a with
              | none => rfl
              | some i =>
                have := h4 _ ((hm.2 a i).mpr e)
                simp [symFuns] at this
            · rfl
          rw [this]; exact hm
        · simp only [symFuns, decide_eq_true_eq] at h3
          subst h3
          refine ⟨(hm.perm h4).drop, ?_⟩
          have := h4.length_eq
          rw [List.length_cons, ← g.occ] at this
          rw [g1.occ]; omega
      simp only [SymTable.calls, SymTable.call, SymTable.removeSymbol, h1, symAnswers,
        Option.bind_some, Option.map_some, Option.map_none]
      rw [ih { st with table := t1 } k (c + 1) _ g1 hm1.1 (by have := hm1.2; simp only; omega)
        (by simp only; omega) (by omega)]
      rfl

/-- The map has only objects that were made, and each of them once. -/
def Proper (m : Str → Option Nat) (n : Nat) : Prop :=
  (∀ s i, m s = some i → i < n) ∧ ∀ s s' i, m s = some i → m s' = some i → s = s'

theorem Proper.add {m : Str → Option Nat} {n : Nat} (h : Proper m n) (s : Str) :
    Proper (assign m s (some n)) (n + 1) := by
  constructor
  · intro a i
    unfold assign
    split
    · intro e; simp only [Option.some.injEq] at e; omega
    · intro e; have := h.1 a i e; omega
  · intro a b i
    unfold assign
    split <;> split
    · intro _ _; simp_all
    · intro e1 e2
      simp only [Option.some.injEq] at e1
      have := h.1 _ _ e2
      omega
    · intro e1 e2
      simp only [Option.some.injEq] at e2
      have := h.1 _ _ e1
      omega
    · exact h.2 a b i

theorem Proper.drop {m : Str → Option Nat} {n : Nat} (h : Proper m n) (s : Str) :
    Proper (assign m s none) n := by
  constructor
  · intro a i
    unfold assign
    split
    · simp
    · exact h.1 a i
  · intro a b i
    unfold assign
    split <;> split
    · simp
    · simp
    · simp
    · exact h.2 a b i

theorem Proper.more {m : Str → Option Nat} {n : Nat} (h : Proper m n) : Proper m (n + 1) :=
  ⟨fun s i e => by have := h.1 s i e; omega, h.2⟩

/-- One call leads to a state with these answers. -/
theorem symAnswers_cons (m : Str → Option Nat) (n : Nat) (hp : Proper m n) (c : SymCall)
    (cs : List SymCall) :
    ∃ a m' n', symAnswers m n (c :: cs) = a :: symAnswers m' n' cs ∧ Proper m' n' ∧ n ≤ n' ∧
      (∀ s, Asks (c :: cs) 0 s → ∃ i, a = some i ∧ m' s = some i ∧ i < n') ∧
      (∀ s i, i < n → m' s = some i → m s = some i) ∧
      (∀ s i, m s = some i → c ≠ .remove s → m' s = some i) ∧
      (∀ s, c = .remove s → m' s = none) ∧
      (∀ s i, Asks (c :: cs) 0 s → a = some i → i < n → m s = some i) := by
  have fresh : ∀ s i, i < n → assign m s (some n) s = some i → False := by
    intro s i hi e
    simp only [assign, if_true, Option.some.injEq] at e
    omega
  have part : ∀ s s' i, i < n → assign m s (some n) s' = some i → m s' = some i := by
    intro s s' i hi e
    by_cases h : s' = s
    · subst h; exact (fresh _ _ hi e).elim
    · simpa [assign, h] using e
  cases c with
  | get t =>
    cases e : m t with
    | none =>
      refine ⟨some n, assign m t (some n), n + 1, by simp [symAnswers, e], hp.add t, by omega,
        ?_, part t, ?_, by simp, ?_⟩
      · rintro s (h | h)
        · simp only [List.getElem?_cons_zero, Option.some.injEq, SymCall.get.injEq] at h
          subst h
          exact ⟨n, rfl, by simp [assign], by omega⟩
        · simp at h
      · intro s i hm _
        have : s ≠ t := by rintro rfl; rw [e] at hm; simp at hm
        simp [assign, this, hm]
      · intro s i _ h hi
        simp only [Option.some.injEq] at h
        omega
    | some i =>
      refine ⟨some i, m, n, by simp [symAnswers, e], hp, Nat.le_refl _, ?_,
        fun s i _ h => h, fun s i h _ => h, by simp, ?_⟩
      · rintro s (h | h)
        · simp only [List.getElem?_cons_zero, Option.some.injEq, SymCall.get.injEq] at h
          subst h
          exact ⟨i, rfl, e, hp.1 _ _ e⟩
        · simp at h
      · rintro s j (h | h) hj _
        · simp only [List.getElem?_cons_zero, Option.some.injEq, SymCall.get.injEq] at h
          subst h
          rw [e]; exact hj
        · simp at h
  | getRaw t =>
    cases e : m t with
    | none =>
      refine ⟨some n, assign m t (some n), n + 1, by simp [symAnswers, e], hp.add t, by omega,
        ?_, part t, ?_, by simp, ?_⟩
      · rintro s (h | h)
        · simp at h
        · simp only [List.getElem?_cons_zero, Option.some.injEq, SymCall.getRaw.injEq] at h
          subst h
          exact ⟨n, rfl, by simp [assign], by omega⟩
      · intro s i hm _
        have : s ≠ t := by rintro rfl; rw [e] at hm; simp at hm
        simp [assign, this, hm]
      · intro s i _ h hi
        simp only [Option.some.injEq] at h
        omega
    | some i =>
      refine ⟨some i, m, n + 1, by simp [symAnswers, e], hp.more, by omega, ?_,
        fun s i _ h => h, fun s i h _ => h, by simp, ?_⟩
      · rintro s (h | h)
        · simp at h
        · simp only [List.getElem?_cons_zero, Option.some.injEq, SymCall.getRaw.injEq] at h
          subst h
          exact ⟨i, rfl, e, by have := hp.1 _ _ e; omega⟩
      · rintro s j (h | h) hj _
        · simp at h
        · simp only [List.getElem?_cons_zero, Option.some.injEq, SymCall.getRaw.injEq] at h
          subst h
          rw [e]; exact hj
  | remove t =>
    refine ⟨none, assign m t none, n, rfl, hp.drop t, Nat.le_refl _, ?_, ?_, ?_, ?_, ?_⟩
    · rintro s (h | h) <;> simp at h
    · intro s i _ h
      by_cases c : s = t
      · subst c; simp [assign] at h
      · simpa [assign, c] using h
    · intro s i h hne
      have : s ≠ t := by rintro rfl; exact hne rfl
      simpa [assign, this] using h
    · intro s h
      simp only [SymCall.remove.injEq] at h
      subst h
      simp [assign]
    · rintro s i _ h; simp at h

theorem asks_succ {c : SymCall} {cs : List SymCall} {j : Nat} {s : Str} :
    Asks (c :: cs) (j + 1) s ↔ Asks cs j s := by
  simp [Asks]

/-- An object that was made is only answered for the text that has it. -/
theorem answers_old : ∀ (cs : List SymCall) (m : Str → Option Nat) (n j i : Nat) (s : Str),
    Proper m n → i < n → Asks cs j s → (symAnswers m n cs)[j]? = some (some i) → m s = some i := by
  intro cs
  induction cs with
  | nil => intro m n j i s _ _ h; simp [Asks] at h
  | cons c cs ih =>
    intro m n j i s hp hi ha he
    obtain ⟨a, m', n', h1, h2, h3, h4, h5, h6, h7, h8⟩ := symAnswers_cons m n hp c cs
    rw [h1] at he
    cases j with
    | zero =>
      simp only [List.getElem?_cons_zero, Option.some.injEq] at he
      exact h8 s i ha he hi
    | succ j =>
      rw [List.getElem?_cons_succ] at he
      exact h5 s i hi (ih m' n' j i s h2 (by omega) (asks_succ.mp ha) he)

/-- An object that a text has is answered until the text is removed. -/
theorem answers_keep : ∀ (cs : List SymCall) (m : Str → Option Nat) (n j i : Nat) (s : Str),
    Proper m n → m s = some i → Asks cs j s → (∀ k, k < j → cs[k]? ≠ some (.remove s)) →
    (symAnswers m n cs)[j]? = some (some i) := by
  intro cs
  induction cs with
  | nil => intro m n j i s _ _ h; simp [Asks] at h
  | cons c cs ih =>
    intro m n j i s hp hi ha hk
    obtain ⟨a, m', n', h1, h2, h3, h4, h5, h6, h7, h8⟩ := symAnswers_cons m n hp c cs
    rw [h1]
    have keep : c ≠ .remove s → m' s = some i := h6 s i hi
    cases j with
    | zero =>
      obtain ⟨b, hb, hb2, _⟩ := h4 s ha
      have : c ≠ .remove s := by
        rintro rfl
        rcases ha with h | h <;> simp at h
      rw [keep this] at hb2
      rw [List.getElem?_cons_zero, hb, hb2]
    | succ j =>
      rw [List.getElem?_cons_succ]
      have : c ≠ .remove s := by
        rintro rfl
        exact hk 0 (by omega) rfl
      refine ih m' n' j i s h2 (keep this) (asks_succ.mp ha) ?_
      intro k hkj
      have := hk (k + 1) (by omega)
      rwa [List.getElem?_cons_succ] at this

/-- An object of a text that is removed is not answered any more. -/
theorem answers_gone : ∀ (cs : List SymCall) (m : Str → Option Nat) (n j i k : Nat) (s : Str),
    Proper m n → i < n → Asks cs j s → k < j → cs[k]? = some (.remove s) →
    (symAnswers m n cs)[j]? ≠ some (some i) := by
  intro cs
  induction cs with
  | nil => intro m n j i k s _ _ h; simp [Asks] at h
  | cons c cs ih =>
    intro m n j i k s hp hi ha hk hr
    obtain ⟨a, m', n', h1, h2, h3, h4, h5, h6, h7, h8⟩ := symAnswers_cons m n hp c cs
    rw [h1]
    cases j with
    | zero => omega
    | succ j =>
      rw [List.getElem?_cons_succ]
      cases k with
      | zero =>
        simp only [List.getElem?_cons_zero, Option.some.injEq] at hr
        have := h7 s hr
        intro he
        have := answers_old cs m' n' j i s h2 (by omega) (asks_succ.mp ha) he
        simp_all
      | succ k =>
        rw [List.getElem?_cons_succ] at hr
        exact ih m' n' j i k s h2 (by omega) (asks_succ.mp ha) (by omega) hr

theorem symAnswers_length : ∀ (cs : List SymCall) (m : Str → Option Nat) (n : Nat),
    (symAnswers m n cs).length = cs.length := by
  intro cs
  induction cs with
  | nil => intro m n; rfl
  | cons c cs ih =>
    intro m n
    cases c with
    | get s => simp only [symAnswers]; cases m s <;> simp [ih]
    | getRaw s => simp only [symAnswers]; cases m s <;> simp [ih]
    | remove s => simp [symAnswers, ih]

/-- The two halves for any two calls. -/
theorem answers_pair : ∀ (cs : List SymCall) (m : Str → Option Nat) (n i j : Nat) (s s' : Str),
    Proper m n → i < j → Asks cs i s → Asks cs j s' →
    ∃ a, (symAnswers m n cs)[i]? = some (some a) ∧
      (s = s' → (∀ k, i < k → k < j → cs[k]? ≠ some (.remove s)) →
        (symAnswers m n cs)[j]? = some (some a)) ∧
      (s ≠ s' → (symAnswers m n cs)[j]? ≠ some (some a)) ∧
      ((∃ k, i < k ∧ k < j ∧ cs[k]? = some (.remove s')) →
        (symAnswers m n cs)[j]? ≠ some (some a)) := by
  intro cs
  induction cs with
  | nil => intro m n i j s s' _ _ h; simp [Asks] at h
  | cons c cs ih =>
    intro m n i j s s' hp hij hi hj
    obtain ⟨a, m', n', h1, h2, h3, h4, h5, h6, h7, h8⟩ := symAnswers_cons m n hp c cs
    rw [h1]
    cases j with
    | zero => omega
    | succ j =>
      cases i with
      | zero =>
        obtain ⟨b, hb, hb2, hb3⟩ := h4 s hi
        refine ⟨b, by rw [List.getElem?_cons_zero, hb], ?_, ?_, ?_⟩
        · rintro rfl hk
          rw [List.getElem?_cons_succ]
          refine answers_keep cs m' n' j b s h2 hb2 (asks_succ.mp hj) ?_
          intro k hkj
          have := hk (k + 1) (by omega) (by omega)
          rwa [List.getElem?_cons_succ] at this
        · intro hne he
          rw [List.getElem?_cons_succ] at he
          exact hne (h2.2 s s' b hb2 (answers_old cs m' n' j b s' h2 hb3 (asks_succ.mp hj) he))
        · rintro ⟨k, hk1, hk2, hk3⟩
          rw [List.getElem?_cons_succ]
          cases k with
          | zero => omega
          | succ k =>
            rw [List.getElem?_cons_succ] at hk3
            exact answers_gone cs m' n' j b k s' h2 hb3 (asks_succ.mp hj) (by omega) hk3
      | succ i =>
        obtain ⟨b, hb, hb1, hb2, hb3⟩ := ih m' n' i j s s' h2 (by omega) (asks_succ.mp hi)
          (asks_succ.mp hj)
        refine ⟨b, by rw [List.getElem?_cons_succ]; exact hb, ?_, ?_, ?_⟩
        · intro e hk
          rw [List.getElem?_cons_succ]
          refine hb1 e ?_
          intro k hk1 hk2
          have := hk (k + 1) (by omega) (by omega)
          rwa [List.getElem?_cons_succ] at this
        · intro hne
          rw [List.getElem?_cons_succ]
          exact hb2 hne
        · rintro ⟨k, hk1, hk2, hk3⟩
          rw [List.getElem?_cons_succ]
          cases k with
          | zero => omega
          | succ k =>
            rw [List.getElem?_cons_succ] at hk3
            exact hb3 ⟨k, by omega, by omega, hk3⟩

/-! ## Vectors -/

variable {α : Type}

/-- The vector holds the list. -/
structure Holds (v : Vec α) (l : List α) : Prop where
  len : v.block.length = v.size
  occ : v.occ = l.length
  cap : l.length ≤ 90 * v.size / 100
  big : 10 ≤ v.size
  elems : ∀ i, i < l.length → v.block[i]? = some l[i]?

theorem memRequest_holds {v : Vec α} {l : List α} (h : Holds v l) (hs : 90 * v.size < 2 ^ 31) :
    ∃ w, v.memRequest 1 = some w ∧ Holds w l ∧ l.length + 1 ≤ 90 * w.size / 100 ∧
      (w.size = v.size ∨ w.size = 2 * v.size ∧ 90 * v.size / 100 < l.length + 1) := by
  have occ := h.occ
  have cap := h.cap
  have big := h.big
  unfold Vec.memRequest
  rw [if_neg (by omega)]
  by_cases c : v.occ + 1 > 90 * v.size / 100
  · rw [if_pos c]
    refine ⟨_, rfl, ⟨?_, occ, ?_, ?_, ?_⟩, ?_, Or.inr ⟨rfl, by omega⟩⟩
    · have := h.len
      simp only [Vec.resize, List.length_append, List.length_take, List.length_replicate]
      omega
    · simp only [Vec.resize]; omega
    · simp only [Vec.resize]; omega
    · intro i hi
      simp only [Vec.resize]
      have := h.len
      rw [List.getElem?_append_left (by rw [List.length_take]; omega), List.getElem?_take,
        if_pos (by omega)]
      exact h.elems i hi
    · simp only [Vec.resize]; omega
  · rw [if_neg c]
    exact ⟨v, rfl, h, by omega, Or.inl rfl⟩

theorem moveUp_eq (p : Nat) : ∀ (n : Nat) (v : Vec α), p + n < v.block.length →
    ∃ w, v.moveUp p n = some w ∧ w.size = v.size ∧ w.occ = v.occ ∧
      w.block.length = v.block.length ∧
      ∀ j, w.block[j]? = if p < j ∧ j ≤ p + n then v.block[j - 1]? else v.block[j]? := by
  intro n
  induction n with
  | zero =>
    intro v _
    refine ⟨v, rfl, rfl, rfl, rfl, ?_⟩
    intro j
    rw [if_neg (by omega)]
  | succ n ih =>
    intro v hl
    have hx : v.block[p + n]? = some v.block[p + n] := List.getElem?_eq_getElem (by omega)
    obtain ⟨w, h1, h2, h3, h4, h5⟩ := ih { v with block := v.block.set (p + n + 1) v.block[p + n] }
      (by simp only [List.length_set]; omega)
    refine ⟨w, ?_, h2, h3, by simpa using h4, ?_⟩
    · unfold Vec.moveUp
      rw [hx, Option.bind_some]
      unfold Vec.write
      rw [if_pos (by omega), Option.bind_some]
      exact h1
    · intro j
      rw [h5 j]
      simp only [List.getElem?_set]
      by_cases c1 : p < j ∧ j ≤ p + n
      · rw [if_pos c1, if_neg (by omega), if_pos (by omega)]
      · rw [if_neg c1]
        by_cases c2 : p + n + 1 = j
        · subst c2
          rw [if_pos rfl, if_pos (by omega), if_pos (by omega)]
          exact hx.symm
        · rw [if_neg c2, if_neg (by omega)]

theorem moveDown_eq : ∀ (n p : Nat) (v : Vec α), 0 < p → p + n ≤ v.block.length →
    ∃ w, v.moveDown p n = some w ∧ w.size = v.size ∧ w.occ = v.occ ∧
      w.block.length = v.block.length ∧
      ∀ j, w.block[j]? = if p ≤ j + 1 ∧ j + 1 < p + n then v.block[j + 1]? else v.block[j]? := by
  intro n
  induction n with
  | zero =>
    intro p v _ _
    refine ⟨v, rfl, rfl, rfl, rfl, ?_⟩
    intro j
    rw [if_neg (by omega)]
  | succ n ih =>
    intro p v hp hl
    have hx : v.block[p]? = some v.block[p] := List.getElem?_eq_getElem (by omega)
    obtain ⟨w, h1, h2, h3, h4, h5⟩ := ih (p + 1) { v with block := v.block.set (p - 1) v.block[p] }
      (by omega) (by simp only [List.length_set]; omega)
    refine ⟨w, ?_, h2, h3, by simpa using h4, ?_⟩
    · unfold Vec.moveDown
      rw [hx, Option.bind_some]
      unfold Vec.write
      rw [if_pos (by omega), Option.bind_some]
      exact h1
    · intro j
      rw [h5 j]
      simp only [List.getElem?_set]
      by_cases c1 : p + 1 ≤ j + 1 ∧ j + 1 < p + 1 + n
      · rw [if_pos c1, if_neg (by omega), if_pos (by omega)]
      · rw [if_neg c1]
        by_cases c2 : p - 1 = j
        · subst c2
          have e : p - 1 + 1 = p := by omega
          rw [if_pos rfl, if_pos (by omega), if_pos (by omega), e]
          exact hx.symm
        · rw [if_neg c2, if_neg (by omega)]

theorem add_holds {v : Vec α} {l : List α} (h : Holds v l) (hs : 90 * v.size < 2 ^ 31) (x : α) :
    ∃ w, v.add x = some w ∧ Holds w (l ++ [x]) ∧
      (w.size = v.size ∨ w.size = 2 * v.size ∧ 90 * v.size / 100 < l.length + 1) := by
  obtain ⟨u, h1, h2, h3, h4⟩ := memRequest_holds h hs
  have len := h2.len
  have occ := h2.occ
  have big := h2.big
  unfold Vec.add
  rw [h1, Option.bind_some]
  unfold Vec.write
  rw [if_pos (by omega), Option.map_some]
  refine ⟨_, rfl, ⟨?_, ?_, ?_, big, ?_⟩, h4⟩
  · simpa using len
  · simp only [List.length_append, List.length_singleton]; omega
  · simp only [List.length_append, List.length_singleton]; omega
  · intro i hi
    simp only [List.length_append, List.length_singleton] at hi
    simp only
    rw [List.getElem?_set]
    by_cases c : u.occ = i
    · rw [if_pos c, if_pos (by omega), List.getElem?_append_right (by omega)]
      have : i - l.length = 0 := by omega
      rw [this]
      rfl
    · rw [if_neg c, List.getElem?_append_left (by omega)]
      exact h2.elems i (by omega)

theorem elementAt_holds {v : Vec α} {l : List α} (h : Holds v l) (i : Nat) :
    v.elementAt i = l[i]? := by
  unfold Vec.elementAt
  have occ := h.occ
  by_cases c : i < v.occ
  · rw [if_pos c, h.elems i (by omega)]
    rfl
  · rw [if_neg c, List.getElem?_eq_none (by omega)]

theorem pop_holds {v : Vec α} {l : List α} (h : Holds v l) (x : α)
    (hx : l.getLast? = some x) : ∃ w, v.pop = some (x, w) ∧ Holds w l.dropLast ∧
      w.size = v.size := by
  have occ := h.occ
  have hne : l ≠ [] := by rintro rfl; simp at hx
  have hpos : 0 < l.length := List.length_pos_iff.mpr hne
  unfold Vec.pop
  rw [if_neg (by omega), elementAt_holds h, occ, ← List.getLast?_eq_getElem?, hx]
  refine ⟨_, rfl, ⟨h.len, by simp, ?_, h.big, ?_⟩, rfl⟩
  · have := h.cap
    simp only [List.length_dropLast]; omega
  · intro i hi
    simp only [List.length_dropLast] at hi
    rw [h.elems i (by omega), List.getElem?_dropLast, if_pos hi]

theorem change_holds {v : Vec α} {l : List α} (h : Holds v l) {i : Nat} (hi : i < l.length)
    (x : α) : ∃ w, v.change i x = some w ∧ Holds w (l.set i x) ∧ w.size = v.size := by
  have occ := h.occ
  have cap := h.cap
  have big := h.big
  have len := h.len
  unfold Vec.change Vec.write
  rw [if_pos (by omega), if_pos (by omega)]
  refine ⟨_, rfl, ⟨by simpa using len, by simpa using occ, by simpa using cap, big, ?_⟩, rfl⟩
  intro j hj
  rw [List.length_set] at hj
  simp only
  rw [List.getElem?_set, List.getElem?_set]
  by_cases c : i = j
  · rw [if_pos c, if_pos (by omega), if_pos c, if_pos hi]
  · rw [if_neg c, if_neg c]
    exact h.elems j hj

theorem insert_holds {v : Vec α} {l : List α} (h : Holds v l) (hs : 90 * v.size < 2 ^ 31)
    {i : Nat} (hi : i < l.length) (x : α) :
    ∃ w, v.insert x i = some w ∧ Holds w (l.insertIdx i x) ∧
      (w.size = v.size ∨ w.size = 2 * v.size ∧ 90 * v.size / 100 < l.length + 1) := by
  obtain ⟨u, h1, h2, h3, h4⟩ := memRequest_holds h hs
  have len := h2.len
  have occ := h2.occ
  have occ0 := h.occ
  have big := h2.big
  obtain ⟨w, m1, m2, m3, m4, m5⟩ := moveUp_eq i (u.occ - i) u (by omega)
  unfold Vec.insert
  rw [if_pos (by omega), h1, Option.bind_some, m1, Option.bind_some]
  unfold Vec.write
  rw [if_pos (by omega), Option.map_some]
  have hl : (l.insertIdx i x).length = l.length + 1 := by
    rw [List.length_insertIdx, if_pos (by omega)]
  refine ⟨_, rfl, ⟨?_, ?_, ?_, ?_, ?_⟩, ?_⟩
  · simp only [List.length_set]; omega
  · simp only [hl]; omega
  · simp only [hl, m2]; omega
  · simp only [m2]; exact big
  · intro j hj
    rw [hl] at hj
    simp only
    rw [List.getElem?_set]
    by_cases c : i = j
    · subst c
      rw [if_pos rfl, if_pos (by omega), List.getElem?_insertIdx_self, if_pos (by omega)]
    · rw [if_neg c, m5 j]
      by_cases c2 : i < j ∧ j ≤ i + (u.occ - i)
      · rw [if_pos c2, h2.elems (j - 1) (by omega), List.getElem?_insertIdx_of_gt (by omega)]
      · rw [if_neg c2, h2.elems j (by omega), List.getElem?_insertIdx_of_lt (by omega)]
  · simp only [m2]; exact h4

theorem remove_holds {v : Vec α} {l : List α} (h : Holds v l) (hs : v.size ≠ 10) {i : Nat} {x : α}
    (hx : l[i]? = some x) :
    ∃ w, v.remove i = some (x, w) ∧ Holds w (l.eraseIdx i) ∧ w.size = v.size := by
  have occ := h.occ
  have cap := h.cap
  have big := h.big
  have len := h.len
  have hi : i < l.length := (List.getElem?_eq_some_iff.mp hx).1
  obtain ⟨w, m1, m2, m3, m4, m5⟩ := moveDown_eq (v.occ - (i + 1)) (i + 1) v (by omega) (by omega)
  unfold Vec.remove
  rw [elementAt_holds h, hx, Option.bind_some, m1, Option.bind_some, if_pos (by omega)]
  have hl : (l.eraseIdx i).length = l.length - 1 := List.length_eraseIdx_of_lt hi
  refine ⟨_, rfl, ⟨?_, ?_, ?_, ?_, ?_⟩, m2⟩
  · simp only; omega
  · simp only [hl]; omega
  · simp only [hl, m2]; omega
  · simp only [m2]; exact big
  · intro j hj
    rw [hl] at hj
    simp only
    rw [m5 j]
    by_cases c : i + 1 ≤ j + 1 ∧ j + 1 < i + 1 + (v.occ - (i + 1))
    · rw [if_pos c, h.elems (j + 1) (by omega), List.getElem?_eraseIdx_of_ge (by omega)]
    · rw [if_neg c, h.elems j (by omega), List.getElem?_eraseIdx_of_lt (by omega)]

end Verif.Zval
