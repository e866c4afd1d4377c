import Verif.Zval.SymLemmas
import Verif.Server.Handler

/-! # Properties of tables of symbols and of vectors -/

namespace Verif.Zval

open Server (ascii)

theorem symCalls_new (cs : List SymCall) (h : cs.length ≤ 2 ^ 28) :
    SymTable.new.calls cs = some (symAnswers (fun _ => none) 0 cs) := by
  have g : Good symFuns 10 SymTable.new.table := good_generate symFuns (k := 10) (by omega)
  have e : values SymTable.new.table.block = [] := values_replicate 1024
  refine symCalls_eq cs SymTable.new 10 0 _ g ?_ ?_ ?_ ?_
  · rw [e]
    exact ⟨by simp, by simp⟩
  · exact Nat.le_refl 0
  · left
    show 1024 ≤ 2 ^ 29
    omega
  · omega

/-- **C141.** A table of symbols answers every sequence of calls, whatever its
texts; two questions for the same text get the same symbol if the text was not
removed in between, and two questions for different texts get different
symbols.  So symbols may be compared by their addresses. -/
theorem C141_interned (cs : List SymCall) (hl : cs.length ≤ 2 ^ 28) :
    ∃ as, SymTable.new.calls cs = some as ∧ as.length = cs.length ∧
      ∀ i j s s', i < j → Asks cs i s → Asks cs j s' →
        ∃ a b, as[i]? = some (some a) ∧ as[j]? = some (some b) ∧
          (s = s' → (∀ k, i < k → k < j → cs[k]? ≠ some (.remove s)) → a = b) ∧
          (s ≠ s' → a ≠ b) := by
  refine ⟨_, symCalls_new cs hl, symAnswers_length _ _ _, ?_⟩
  intro i j s s' hij hi hj
  have hp : Proper (fun _ => none) 0 := ⟨by simp, by simp⟩
  obtain ⟨a, h1, h2, h3, h4⟩ := answers_pair cs _ 0 i j s s' hp hij hi hj
  have hb : ∃ b, (symAnswers (fun _ => none) 0 cs)[j]? = some (some b) := by
    have : ∀ (cs : List SymCall) m n j s, Proper m n → Asks cs j s →
        ∃ b, (symAnswers m n cs)[j]? = some (some b) := by
      intro cs
      induction cs with
      | nil => intro m n j s _ h; simp [Asks] at h
      | cons c cs ih =>
        intro m n j s hp hj
        obtain ⟨a, m', n', g1, g2, g3, g4, -⟩ := symAnswers_cons m n hp c cs
        rw [g1]
        cases j with
        | zero =>
          obtain ⟨b, hb, -⟩ := g4 s hj
          exact ⟨b, by rw [List.getElem?_cons_zero, hb]⟩
        | succ j =>
          rw [List.getElem?_cons_succ]
          exact ih m' n' j s g2 (asks_succ.mp hj)
    exact this cs _ _ j s' hp hj
  obtain ⟨b, hb⟩ := hb
  refine ⟨a, b, h1, hb, ?_, ?_⟩
  · intro e hk
    have := h2 e hk
    rw [hb] at this
    simpa using this.symm
  · rintro hne rfl
    exact h3 hne hb

example : Asks [.get (ascii "np"), .get (ascii "vp"), .getRaw (ascii "np")] 2 (ascii "np") :=
  Or.inr rfl

/-- **C142** is false of the code: `remove_symbol` returns `NULL` also when it
has removed a symbol, as the result is never set (`common/zvalue.cpp`, 519-529). -/
theorem C142_false :
    SymTable.new.calls [.get (ascii "np"), .remove (ascii "np")] = some [some 0, none] := by
  decide +kernel

/-- **C142**, the part that is true: what is removed is gone.  A question after
the removal gets another symbol than any question before it.  Missing is the
result of the removal itself. -/
theorem C142_partial (cs : List SymCall) (hl : cs.length ≤ 2 ^ 28) :
    ∃ as, SymTable.new.calls cs = some as ∧
      ∀ i k j s, i < k → k < j → Asks cs i s → cs[k]? = some (.remove s) → Asks cs j s →
        ∃ a, as[i]? = some (some a) ∧ as[j]? ≠ some (some a) := by
  refine ⟨_, symCalls_new cs hl, ?_⟩
  intro i k j s hik hkj hi hk hj
  have hp : Proper (fun _ => none) 0 := ⟨by simp, by simp⟩
  obtain ⟨a, h1, h2, h3, h4⟩ := answers_pair cs _ 0 i j s s hp (by omega) hi hj
  exact ⟨a, h1, h4 ⟨k, hik, hkj, hk⟩⟩

example : SymTable.new.calls [.get (ascii "np"), .remove (ascii "np"), .get (ascii "np")] =
    some [some 0, none, some 1] := by decide +kernel

/-! ## Putting symbols together -/

/-- **C143.** Putting texts together is what one expects: `NULL` and the empty
text change nothing, the order of the steps does not matter, and putting words
together one after the other gives the words with one space between each two. -/
theorem C143_concat :
    (∀ a, concat none a = a ∧ concat a none = a) ∧
    (∀ a b, concat (some a) (some b) = some (a ++ b)) ∧
    (∀ a b c, concat (concat a b) c = concat a (concat b c)) ∧
    (∀ a, concatWithSpace none a = a ∧ concatWithSpace a none = a) ∧
    (∀ a, concatWithSpace (some []) (some a) = some a ∧ concatWithSpace (some a) (some []) = some a) ∧
    (∀ a b c, concatWithSpace (concatWithSpace a b) c = concatWithSpace a (concatWithSpace b c)) ∧
    (∀ w ws, (∀ v ∈ w :: ws, Trim v) →
      ((w :: ws).map some).foldl concatWithSpace none =
        some (List.intercalate [B.space] (w :: ws))) := by
  have cc : ∀ a b, concat (some a) (some b) = some (a ++ b) := by
    intro a b
    simp only [concat]
    split
    · rename_i h
      rw [List.length_eq_zero_iff.mp h]; rfl
    · rfl
  have c0 : ∀ a, concat none a = a ∧ concat a none = a := by
    intro a
    cases a <;> exact ⟨rfl, rfl⟩
  have s0 : ∀ a, concatWithSpace none a = a ∧ concatWithSpace a none = a := by
    intro a
    cases a <;> exact ⟨rfl, rfl⟩
  have s1 : ∀ a, concatWithSpace (some []) (some a) = some a ∧
      concatWithSpace (some a) (some []) = some a := by
    intro a
    refine ⟨by simp [concatWithSpace], ?_⟩
    cases a with
    | nil => simp [concatWithSpace]
    | cons x a => simp [concatWithSpace]
  have s2 : ∀ a b : Str, a ≠ [] → b ≠ [] → concatWithSpace (some a) (some b) =
      if a.getLast? = some B.space ∨ b.head? = some B.space then some (a ++ b)
      else some (a ++ [B.space] ++ b) := by
    intro a b ha hb
    simp only [concatWithSpace]
    rw [if_neg (by rw [List.length_eq_zero_iff]; exact ha),
      if_neg (by rw [List.length_eq_zero_iff]; exact hb), ← List.getLast?_eq_getElem?,
      ← List.head?_eq_getElem?]
  refine ⟨c0, cc, ?_, s0, s1, ?_, ?_⟩
  · intro a b c
    cases a with
    | none => rw [(c0 _).1, (c0 _).1]
    | some a =>
      cases b with
      | none => rw [(c0 _).2, (c0 _).1]
      | some b =>
        cases c with
        | none => rw [(c0 _).2, (c0 _).2]
        | some c => rw [cc, cc, cc, cc, List.append_assoc]
  · intro a b c
    cases a with
    | none => rw [(s0 _).1, (s0 _).1]
    | some a =>
      cases b with
      | none => rw [(s0 _).2, (s0 _).1]
      | some b =>
        cases c with
        | none => rw [(s0 _).2, (s0 _).2]
        | some c =>
          by_cases ha : a = []
          · subst ha
            rw [(s1 _).1]
            obtain ⟨d, hd⟩ : ∃ d, concatWithSpace (some b) (some c) = some d := by
              by_cases hb : b = []
              · subst hb; exact ⟨_, (s1 _).1⟩
              · by_cases hc : c = []
                · subst hc; exact ⟨_, (s1 _).2⟩
                · rw [s2 b c hb hc]; split <;> exact ⟨_, rfl⟩
            rw [hd, (s1 d).1]
          · by_cases hb : b = []
            · subst hb
              rw [(s1 _).2, (s1 _).1]
            · by_cases hc : c = []
              · subst hc
                rw [(s1 _).2]
                rw [s2 a b ha hb]
                split <;> exact (s1 _).2
              · have e1 : ∀ x, x = a ++ b ∨ x = a ++ [B.space] ++ b →
                    concatWithSpace (some x) (some c) =
                      if b.getLast? = some B.space ∨ c.head? = some B.space then some (x ++ c)
                      else some (x ++ [B.space] ++ c) := by
                  intro x hx
                  have hlast : x.getLast? = b.getLast? := by
                    rcases hx with rfl | rfl
                    · rw [List.getLast?_append_of_ne_nil _ hb]
                    · rw [List.getLast?_append_of_ne_nil _ hb]
                  rw [s2 x c (by rcases hx with rfl | rfl <;> simp [ha]) hc, hlast]
                have e2 : ∀ x, x = b ++ c ∨ x = b ++ [B.space] ++ c →
                    concatWithSpace (some a) (some x) =
                      if a.getLast? = some B.space ∨ b.head? = some B.space then some (a ++ x)
                      else some (a ++ [B.space] ++ x) := by
                  intro x hx
                  have hhead : x.head? = b.head? := by
                    rcases hx with rfl | rfl
                    · rw [List.head?_append_of_ne_nil _ hb]
                    · rw [List.append_assoc, List.head?_append_of_ne_nil _ hb]
                  rw [s2 a x ha (by rcases hx with rfl | rfl <;> simp [hb]), hhead]
                rw [s2 a b ha hb, s2 b c hb hc]
                by_cases p : a.getLast? = some B.space ∨ b.head? = some B.space <;>
                  by_cases q : b.getLast? = some B.space ∨ c.head? = some B.space
                · rw [if_pos p, if_pos q, e1 _ (Or.inl rfl), e2 _ (Or.inl rfl), if_pos p, if_pos q,
                    List.append_assoc]
                · rw [if_pos p, if_neg q, e1 _ (Or.inl rfl), e2 _ (Or.inr rfl), if_pos p, if_neg q]
                  simp
                · rw [if_neg p, if_pos q, e1 _ (Or.inr rfl), e2 _ (Or.inl rfl), if_neg p, if_pos q]
                  simp
                · rw [if_neg p, if_neg q, e1 _ (Or.inr rfl), e2 _ (Or.inr rfl), if_neg p, if_neg q]
                  simp
  · intro w ws
    have gen : ∀ (ws : List Str) (x : Str), x ≠ [] → x.getLast? ≠ some B.space →
        (∀ v ∈ ws, Trim v) →
        (ws.map some).foldl concatWithSpace (some x) =
          some (x ++ (ws.map (B.space :: ·)).flatten) := by
      intro ws
      induction ws with
      | nil => intro x _ _ _; simp
      | cons v ws ih =>
        intro x hx hl hv
        obtain ⟨v1, v2, v3⟩ := hv v (List.mem_cons_self ..)
        rw [List.map_cons, List.foldl_cons, s2 x v hx v1,
          if_neg (by rintro (h | h); exact hl h; exact v2 h), ih _ (by simp) ?_ ?_]
        · simp
        · rw [List.getLast?_append_of_ne_nil _ v1]; exact v3
        · intro u hu; exact hv u (List.mem_cons_of_mem _ hu)
    have inter : ∀ (ws : List Str) (w : Str),
        List.intercalate [B.space] (w :: ws) = w ++ (ws.map (B.space :: ·)).flatten := by
      intro ws
      induction ws with
      | nil => intro w; simp
      | cons v ws ih =>
        intro w
        rw [List.intercalate_cons_cons, ih v]
        simp
    intro h
    obtain ⟨w1, w2, w3⟩ := h w (List.mem_cons_self ..)
    rw [List.map_cons, List.foldl_cons, (s0 _).1,
      gen ws w w1 w3 (fun u hu => h u (List.mem_cons_of_mem _ hu)), inter]

example : Trim (ascii "ma") := ⟨by decide, by decide, by decide⟩
example : ([ascii "Ala", ascii "ma", ascii "kota"].map some).foldl concatWithSpace none =
    some (ascii "Ala ma kota") := by decide

/-- The condition of C143 is needed: where both texts have a space at the seam
there are two spaces in the result. -/
theorem C143_two_spaces :
    concatWithSpace (some (ascii "Ala ")) (some (ascii " ma")) = some (ascii "Ala  ma") := by
  decide

/-! ## Vectors -/

theorem vec_calls {α : Type} : ∀ (cs : List (VecCall α)) (v : Vec α) (l : List α) (c : Nat),
    Holds v l → l.length ≤ c → (v.size ≤ 2 ^ 23 ∨ v.size ≤ 4 * c + 2) → c + cs.length ≤ 2 ^ 22 →
    (v.size ≠ 10 ∨ ∀ i, VecCall.remove i ∉ cs) →
    v.calls cs = listAnswers l cs := by
  intro cs
  induction cs with
  | nil => intro v l c _ _ _ _ _; rfl
  | cons cl cs ih =>
    intro v l c h hc hs hl hr
    rw [List.length_cons] at hl
    have big := h.big
    have occ := h.occ
    have hr' : v.size ≠ 10 ∨ ∀ i, VecCall.remove i ∉ cs := by
      rcases hr with hr | hr
      · exact Or.inl hr
      · exact Or.inr fun i hi => hr i (List.mem_cons_of_mem _ hi)
    have grow : ∀ w : Vec α, (w.size = v.size ∨ w.size = 2 * v.size ∧
        90 * v.size / 100 < l.length + 1) → (w.size ≤ 2 ^ 23 ∨ w.size ≤ 4 * (c + 1) + 2) ∧
        (w.size ≠ 10 ∨ ∀ i, VecCall.remove i ∉ cs) := by
      intro w hw
      refine ⟨by omega, ?_⟩
      rcases hw with hw | ⟨hw, _⟩
      · rw [hw]; exact hr'
      · left; omega
    cases cl with
    | add x =>
      obtain ⟨w, h1, h2, h3⟩ := add_holds h (by omega) x
      simp only [Vec.calls, Vec.call, h1, Option.map_some, Option.bind_some, listAnswers]
      rw [ih w (l ++ [x]) (c + 1) h2 (by simp; omega) (grow w h3).1 (by omega) (grow w h3).2]
    | pop =>
      simp only [Vec.calls, Vec.call, listAnswers]
      cases e : l.getLast? with
      | none =>
        have : l = [] := List.getLast?_eq_none_iff.mp e
        subst this
        have : v.occ = 0 := by simpa using occ
        simp [Vec.pop, this]
      | some x =>
        obtain ⟨w, h1, h2, h3⟩ := pop_holds h x e
        rw [h1]
        simp only [Option.map_some, Option.bind_some]
        rw [ih w l.dropLast (c + 1) h2 (by simp; omega) (by omega) (by omega) (by rw [h3]; exact hr')]
    | elementAt i =>
      simp only [Vec.calls, Vec.call, listAnswers]
      rw [elementAt_holds h]
      cases e : l[i]? with
      | none => rfl
      | some x =>
        simp only [Option.map_some, Option.bind_some]
        rw [ih v l (c + 1) h (by omega) (by omega) (by omega) hr']
    | insert x i =>
      simp only [Vec.calls, Vec.call, listAnswers]
      by_cases hi : i < l.length
      · obtain ⟨w, h1, h2, h3⟩ := insert_holds h (by omega) hi x
        rw [h1, if_pos hi]
        simp only [Option.map_some, Option.bind_some]
        rw [ih w _ (c + 1) h2 (by rw [List.length_insertIdx]; split <;> omega) (grow w h3).1
          (by omega) (grow w h3).2]
      · rw [if_neg hi]
        unfold Vec.insert
        rw [if_neg (by omega)]
        rfl
    | change i x =>
      simp only [Vec.calls, Vec.call, listAnswers]
      by_cases hi : i < l.length
      · obtain ⟨w, h1, h2, h3⟩ := change_holds h hi x
        rw [h1, if_pos hi]
        simp only [Option.map_some, Option.bind_some]
        rw [ih w _ (c + 1) h2 (by simp; omega) (by omega) (by omega) (by rw [h3]; exact hr')]
      · rw [if_neg hi]
        unfold Vec.change
        rw [if_neg (by omega)]
        rfl
    | remove i =>
      have h10 : v.size ≠ 10 := by
        rcases hr with hr | hr
        · exact hr
        · exact absurd (List.mem_cons_self ..) (hr i)
      simp only [Vec.calls, Vec.call, listAnswers]
      cases e : l[i]? with
      | none =>
        simp [Vec.remove, elementAt_holds h, e]
      | some x =>
        obtain ⟨w, h1, h2, h3⟩ := remove_holds h h10 e
        rw [h1]
        simp only [Option.map_some, Option.bind_some]
        rw [ih w _ (c + 1) h2 (by rw [List.length_eraseIdx]; split <;> omega) (by omega) (by omega)
          (by rw [h3]; exact hr')]

/-- **C144** is false of the code: in a vector of the least size with nine
elements, `remove` clears a byte behind the end of the block
(`common/zvalue.hpp`, 470), although the position is right. -/
theorem C144_false :
    (Vec.generate Nat 1).calls (List.replicate 9 (.add 5) ++ [.remove 0]) = none ∧
    listAnswers [] (List.replicate 9 (.add 5) ++ [.remove 0]) =
      some (List.replicate 9 none ++ [some 5]) := by
  decide +kernel

/-- **C144**, the part that is true: a vector is a list.  Every sequence of calls
gets the answers of a list, and fails exactly when a position is not in the
list, if the vector is made for more than ten elements or if nothing is
removed.  Missing are removals from the least vectors, where the code may write
behind the block. -/
theorem C144_partial {α : Type} (n : Nat) (cs : List (VecCall α)) (hn : n ≤ 2 ^ 23)
    (hl : cs.length ≤ 2 ^ 22) (h : 10 < n ∨ ∀ i, VecCall.remove i ∉ cs) :
    (Vec.generate α n).calls cs = listAnswers [] cs := by
  have e : (Vec.generate α n).size = if 10 > n then 10 else n := rfl
  refine vec_calls cs _ [] 0 ?_ (Nat.le_refl _) ?_ (by omega) ?_
  · refine ⟨by simp [Vec.generate], rfl, by simp, ?_, by simp⟩
    rw [e]; split <;> omega
  · rw [e]; left; split <;> omega
  · rcases h with h | h
    · left; rw [e]; split <;> omega
    · exact Or.inr h

example : (Vec.generate Nat 16).calls [.add 1, .add 2, .insert 7 0, .remove 1, .pop, .elementAt 0] =
    some [none, none, none, some 1, some 2, some 7] := by decide

end Verif.Zval
