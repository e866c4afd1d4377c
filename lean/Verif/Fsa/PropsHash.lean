import Verif.Fsa.HashLemmas
import Verif.Fsa.PropsInc
import Mathlib.Data.List.Sort

/-!
C53: an automaton without cycles as an ordered minimal perfect hash function.
-/
set_option linter.unusedSimpArgs false
namespace Verif.Fsa
open Verif BinSpec Spec

/-- Paths are not longer than some number. -/
def NoCycles (a : Fsa) : Prop := ∃ N, ∀ p w q, Path a p w q → w.length ≤ N

theorem noCycles_ranked {a : Fsa} (h : NoCycles a) : ∃ r, Ranked a r := by
  classical
  obtain ⟨N, hN⟩ := h
  refine ⟨fun p => Nat.findGreatest (fun k => ∃ w q, Path a p w q ∧ w.length = k) N, ?_⟩
  intro p x q hpq
  have h1 : ∃ w s, Path a q w s ∧ w.length = Nat.findGreatest (fun k => ∃ w s, Path a q w s ∧ w.length = k) N :=
    Nat.findGreatest_spec (P := fun k => ∃ w s, Path a q w s ∧ w.length = k) (Nat.zero_le N) ⟨[], q, .nil, rfl⟩
  obtain ⟨w, s, h2, h3⟩ := h1
  have h4 : Path a p (x :: w) s := .cons hpq h2
  have h5 := Nat.le_findGreatest (P := fun k => ∃ w s, Path a p w s ∧ w.length = k) (hN _ _ _ h4) ⟨_, _, h4, rfl⟩
  show Nat.findGreatest _ N < Nat.findGreatest _ N
  rw [← h3]
  exact Nat.lt_of_lt_of_le (by simp) h5

theorem wf_ascending {a : Fsa} (hw : Wf a) (hd : Spec.Deterministic a) : Ascending a := by
  intro p
  have := (hw.arcsSorted p).and (hd.2 p)
  refine this.imp ?_
  intro x y hxy
  have h1 := hxy.1
  simp only [arcLt, symLt, Bool.or_eq_false_iff, decide_eq_false_iff_not] at h1
  have h2 : ¬ y.1 < x.1 := h1.1
  have h3 : x.1 ≤ y.1 := by simpa using h2
  rcases UInt8.lt_or_eq_of_le h3 with h | h
  · exact h
  · exact absurd h hxy.2

theorem ranked_hash {a : Fsa} {r : Nat → Nat} (hr : Ranked a r) (hs : Ascending a) (h0 : 0 ∉ a.ends) :
    (words a r 0).Pairwise (· < ·) ∧ (∀ w, w ∈ words a r 0 ↔ Right a 0 w) ∧
    ∀ fuel, r 0 < fuel → ∃ n, hashNumbers a fuel = some n ∧ n.size = (words a r 0).length ∧
      ∀ i, (hi : i < (words a r 0).length) → hash a n (words a r 0)[i] = i ∧
        ∀ fuel', (words a r 0)[i].length < fuel' → unhash a n fuel' i = some (words a r 0)[i] := by
  have hend : a.isEnd 0 = false := by simp [Fsa.isEnd, h0]
  refine ⟨words_sorted hr hs (r 0) 0 (Nat.le_refl _), fun w => words_mem hr w 0, ?_⟩
  intro fuel hf
  obtain ⟨n, e, hn⟩ := hashNumbers_ok hr hf
  refine ⟨n, e, hn.size, ?_⟩
  intro i hi
  have hsplit : words a r 0 = (words a r 0).take i ++ (words a r 0)[i] :: (words a r 0).drop (i + 1) := by
    rw [← List.drop_eq_getElem_cons hi, List.take_append_drop]
  have hlen : ((words a r 0).take i).length = i := by rw [List.length_take]; omega
  have hc : n.count 0 ≠ 0 := by
    have := hn.size
    rw [Numbers.size] at this
    rw [this, cnt]
    omega
  constructor
  · have := hashLoop_word hr hs hn _ 0 0 _ _ hsplit (Nat.le_refl _) hc (by simp [hend])
    simp only [hend, Bool.false_eq_true, if_false, Nat.add_zero, Nat.zero_add, hlen] at this
    exact this
  · intro fuel' hf'
    rw [unhash, if_pos (by rw [hn.size]; exact hi)]
    exact unhashLoop_word hr hn _ fuel' 0 (i + 1) _ _ hf' hsplit (Nat.le_refl _) hc (by simp [hend, hlen])

/-- **C53**: take a deterministic automaton without cycles whose start state is 0 and no end state.  Then the words it
accepts, in ascending order, are a finite list; the recursion of the constructor comes to an end; `size` is the number of
the words; `hash` of the word at position `i` is `i`, and `unhash` of `i` is that word.  (Missing: automata that accept
the empty word, see `C53_empty_false`, and words that are not accepted, see `C53_outside_false`.) -/
theorem C53_numbers_partial {a : Fsa} (hw : Wf a) (hd : Spec.Deterministic a) (hs : a.starts = [0]) (h0 : 0 ∉ a.ends)
    (hc : NoCycles a) :
    ∃ ws : List (List Sym), ws.Pairwise (· < ·) ∧ (∀ w, w ∈ ws ↔ Raw a w) ∧
      ∃ N, ∀ fuel ≥ N, ∃ n, hashNumbers a fuel = some n ∧ n.size = ws.length ∧
        ∀ i, (hi : i < ws.length) → hash a n ws[i] = i ∧
          ∀ fuel', ws[i].length < fuel' → unhash a n fuel' i = some ws[i] := by
  obtain ⟨r, hr⟩ := noCycles_ranked hc
  obtain ⟨k1, k2, k3⟩ := ranked_hash hr (wf_ascending hw hd) h0
  refine ⟨words a r 0, k1, ?_, r 0 + 1, fun fuel hf => k3 fuel (by omega)⟩
  intro w
  rw [k2]
  simp [Raw, Right, hs]

theorem rank_lt {A : Abs} {Reg : List Nat} (hI : Inv A Reg 0 [] []) {p q : Nat} {x : Sym} (h : (x, q) ∈ ar A p) :
    Reg.idxOf q < Reg.idxOf p := by
  by_cases hp : p ∈ Reg
  · obtain ⟨R1, R2, e⟩ := List.append_of_mem hp
    have hq := hI.glob.arcs R1 p R2 e (x, q) h
    have hn := hI.glob.nodup
    rw [e] at hn ⊢
    have hp1 : p ∉ R1 := by
      intro hm
      exact (List.nodup_append.1 hn).2.2 p hm p (by simp) rfl
    rw [List.idxOf_append_of_mem hq, List.idxOf_append_of_notMem hp1]
    have := List.idxOf_lt_length_iff.2 hq
    omega
  · have hlt : p < A.length := by
      by_contra hn
      have : ar A p = [] := by simp [ar, List.getElem?_eq_none (Nat.le_of_not_lt hn)]
      rw [this] at h
      simp at h
    rcases (hI.cover p).1 hlt with h' | h'
    · exact absurd h' hp
    · simp only [List.mem_singleton] at h'
      subst h'
      have := hI.head _ h
      rw [List.idxOf_eq_length hp]
      exact List.idxOf_lt_length_iff.2 this

theorem plain_right {a : Fsa} {A : Abs} (hp : Plain a A) (w : List Sym) : ∀ p, Right a p w ↔ Acc A p w := by
  induction w with
  | nil =>
    intro p
    constructor
    · rintro ⟨q, h1, h2⟩
      cases h2
      exact (hp.ends p).1 h1
    · intro h
      exact ⟨p, (hp.ends p).2 h, .nil⟩
  | cons x w ih =>
    intro p
    simp only [Acc, ← ih]
    constructor
    · rintro ⟨r, h1, h2⟩
      cases h2 with
      | cons h3 h4 => rw [plain_arcs hp] at h3; exact ⟨_, h3, r, h1, h4⟩
    · rintro ⟨q, h3, r, h1, h4⟩
      rw [← plain_arcs hp] at h3
      exact ⟨r, h1, .cons h3 h4⟩

/-- **C53** (word lists): for every ascending list of words that are not empty, the automaton that is built
incrementally from the list numbers its words by their positions. -/
theorem C53_list_partial (h : Bool × List (Sym × Nat) → Nat) {ws : List (List Sym)} (hs : ws.Pairwise (· < ·))
    (hne : ws ≠ []) (hnil : [] ∉ ws) :
    ∃ a, minimizeIncremental dfsaOps h ws = some a ∧
      ∃ N, ∀ fuel ≥ N, ∃ n, hashNumbers a fuel = some n ∧ n.size = ws.length ∧
        ∀ i, (hi : i < ws.length) → hash a n ws[i] = i ∧
          ∀ fuel', ws[i].length < fuel' → unhash a n fuel' i = some ws[i] := by
  have hne' : ∃ w ∈ ws, w ≠ [] := by
    cases ws with
    | nil => exact absurd rfl hne
    | cons w ws => exact ⟨w, by simp, by rintro rfl; simp at hnil⟩
  obtain ⟨A, Reg, e, hI, _, ha⟩ := minimizeIncremental_spec (cap := (ws.map List.length).sum + 1) h
    (hs.imp (fun h => List.le_of_lt h)) hne' (by omega)
  obtain ⟨a, e1, r1⟩ := sim_minimizeIncremental (sim_dfsa _) e
  have hr : Ranked a (fun p => Reg.idxOf p) := by
    intro p x q hpq
    rw [plain_arcs r1] at hpq
    exact rank_lt hI hpq
  have hasc : Ascending a := by intro p; rw [plain_arcs r1]; exact hI.glob.sorted p
  have h0 : 0 ∉ a.ends := by
    intro hm
    apply hnil
    rw [← ha]
    exact (r1.ends 0).1 hm
  obtain ⟨k1, k2, k3⟩ := ranked_hash hr hasc h0
  have hEq : words a (fun p => Reg.idxOf p) 0 = ws := by
    have hmem : ∀ w, w ∈ words a (fun p => Reg.idxOf p) 0 ↔ w ∈ ws := by
      intro w
      rw [k2, plain_right r1, ha]
    have n1 : (words a (fun p => Reg.idxOf p) 0).Nodup := k1.imp (fun {x y} h e => by subst e; exact List.lt_irrefl _ h)
    have n2 : ws.Nodup := hs.imp (fun {x y} h e => by subst e; exact List.lt_irrefl _ h)
    have hperm : (words a (fun p => Reg.idxOf p) 0).Perm ws := (List.perm_ext_iff_of_nodup n1 n2).2 hmem
    exact hperm.eq_of_pairwise (fun x y _ _ h1 h2 => absurd h2 (List.lt_asymm h1)) k1 hs
  rw [hEq] at k3
  exact ⟨a, e1, _, fun fuel hf => k3 fuel hf⟩

/-- The automaton of the words `ab`, `abc`, `b`. -/
def hashSample : Fsa := ⟨[[(97, 1), (98, 3)], [(98, 2)], [(99, 3)], []], [0], [2, 3]⟩

/-- The words of that automaton and their numbers. -/
example : (hashNumbers hashSample 4).map (fun n => (n.size, [[97, 98], [97, 98, 99], [98]].map (hash hashSample n),
    [0, 1, 2].map (unhash hashSample n 4))) = some (3, [0, 1, 2], [some [97, 98], some [97, 98, 99], some [98]]) := by
  decide +kernel

/-- The hypotheses of `C53_numbers_partial`. -/
example : Wf hashSample ∧ Spec.Deterministic hashSample ∧ hashSample.starts = [0] ∧ 0 ∉ hashSample.ends ∧
    NoCycles hashSample := by
  have hin : ∀ p x q, (x, q) ∈ hashSample.arcs p → p < 3 ∧ p < q ∧ q ≤ 3 := by
    intro p x q h
    match p, h with
    | 0, h => simp [hashSample, Fsa.arcs] at h; omega
    | 1, h => simp [hashSample, Fsa.arcs] at h; omega
    | 2, h => simp [hashSample, Fsa.arcs] at h; omega
    | 3, h => simp [hashSample, Fsa.arcs] at h
    | p + 4, h => simp [hashSample, Fsa.arcs] at h
  refine ⟨⟨?_, by decide, by decide, ?_, by decide, by decide⟩, ⟨⟨0, rfl⟩, ?_⟩, rfl, by decide, 3, ?_⟩
  · intro p x q h
    have := hin p x q h
    show q < 4
    omega
  · intro p
    match p with
    | 0 => decide
    | 1 => decide
    | 2 => decide
    | 3 => decide
    | p + 4 => simp [hashSample, Fsa.arcs]
  · intro p
    match p with
    | 0 => decide
    | 1 => decide
    | 2 => decide
    | 3 => decide
    | p + 4 => simp [hashSample, Fsa.arcs]
  · have key : ∀ p w q, Path hashSample p w q → w = [] ∨ w.length + p ≤ 3 := by
      intro p w q h
      induction h with
      | nil => left; rfl
      | cons h1 _ ih =>
        right
        have := hin _ _ _ h1
        rcases ih with rfl | ih
        · simp; omega
        · simp; omega
    intro p w q h
    rcases key p w q h with rfl | h
    · simp
    · omega

/-- The lists of `C53_list_partial`. -/
example : ([[97, 98], [97, 98, 99], [98]] : List (List Sym)).Pairwise (· < ·) ∧
    ([] : List Sym) ∉ ([[97, 98], [97, 98, 99], [98]] : List (List Sym)) := by decide +kernel

/-- The comment (fsa_hash_fsa.hpp 150-152) says that `hash` is `size` for a word that is not accepted.  It is not: the
next greater symbol is taken for a missing one. -/
theorem C53_outside_false : ∃ a w, Wf a ∧ ¬ Raw a w ∧
    (hashNumbers a 2).map (fun n => (n.size, hash a n w)) = some (1, 0) := by
  refine ⟨⟨[[(98, 1)], []], [0], [1]⟩, [97], ?_, ?_, by decide +kernel⟩
  · refine ⟨?_, by decide, by decide, ?_, by decide, by decide⟩
    · intro p x q h
      match p, h with
      | 0, h => simp [Fsa.arcs] at h; simp [Fsa.size, h.2]
      | 1, h => simp [Fsa.arcs] at h
      | p + 2, h => simp [Fsa.arcs] at h
    · intro p
      match p with
      | 0 => decide
      | 1 => decide
      | p + 2 => simp [Fsa.arcs]
  · rintro ⟨p, hp, q, _, h⟩
    simp at hp
    subst hp
    cases h with
    | cons h _ => simp [Fsa.arcs] at h

/-- If the empty word is accepted, its number is the largest `size_t`, and the number of the last word is not that of
any word: looking it up ends in a state without arcs (undefined). -/
theorem C53_empty_false : ∃ a : Fsa, a.din [] = true ∧ a.din [97] = true ∧
    (hashNumbers a 2).map (fun n => (n.size, hash a n [], hash a n [97], unhash a n 5 1)) =
      some (2, 2 ^ 64 - 1, 0, none) :=
  ⟨⟨[[(97, 1)], []], [0], [0, 1]⟩, by decide +kernel, by decide +kernel, by decide +kernel⟩

end Verif.Fsa
