import Verif.Minfsa.Minimal

/-!
# The automaton of sorted words

`minfsa` reads words, one after the other, and writes the lines of an automaton.  All theorems are for
words in strictly increasing lexicographic order, as the program expects them; C166 says what happens
otherwise.
-/

namespace Verif.Minfsa

/-- C164: for sorted words that are not empty the program ends, writes no line twice, and the automaton
has exactly these words. -/
theorem C164_words {ws : List (List Nat)} (hs : ws.Pairwise (· < ·)) (hne : ws ≠ []) (hw : [] ∉ ws) :
    ∃ ls, minfsa ws = some ls ∧ ls.Nodup ∧ HasWords ls 0 ws := by
  obtain ⟨ls, reg, root, n, k1, k2⟩ := minfsa_whole hs hne hw
  exact ⟨ls, k1, k2.nodup, k2.hasWords⟩

example : [[1], [1, 2], [2, 1], [3, 1, 1]].Pairwise (fun a b : List Nat => a < b) ∧
    ([[1], [1, 2], [2, 1], [3, 1, 1]] : List (List Nat)) ≠ [] ∧ ([] : List Nat) ∉ [[1], [1, 2], [2, 1], [3, 1, 1]] := by
  decide

/-- C165: the automaton is deterministic. -/
theorem C165_deterministic {ws : List (List Nat)} (hs : ws.Pairwise (· < ·)) (hne : ws ≠ [])
    (hw : [] ∉ ws) {ls : List Line} (h : minfsa ws = some ls) : Deterministic ls := by
  obtain ⟨ls', reg, root, n, k1, k2⟩ := minfsa_whole hs hne hw
  rw [k1] at h
  simp only [Option.some.injEq] at h
  subst h
  exact k2.deterministic

/-- C165: its states are the numbers below the number of states; no other deterministic automaton with
the same words has fewer states. -/
theorem C165_minimal {ws : List (List Nat)} (hs : ws.Pairwise (· < ·)) (hne : ws ≠ []) (hw : [] ∉ ws)
    {ls : List Line} (h : minfsa ws = some ls) :
    ∃ n, (∀ p, IsState 0 ls p ↔ p < n) ∧
      ∀ ls' s, Deterministic ls' → HasWords ls' s ws →
        ∀ other : List Nat, (∀ p, IsState s ls' p → p ∈ other) → n ≤ other.length := by
  obtain ⟨ls', reg, root, n, k1, k2⟩ := minfsa_whole hs hne hw
  rw [k1] at h
  simp only [Option.some.injEq] at h
  subst h
  exact ⟨n, k2.numbered, fun _ _ hd hw' _ ho => k2.minimal hne hd hw' ho⟩

/-- C165: every state is reached from the start and leads to some end, and two states never have the
same words. -/
theorem C165_trim {ws : List (List Nat)} (hs : ws.Pairwise (· < ·)) (hne : ws ≠ []) (hw : [] ∉ ws)
    {ls : List Line} (h : minfsa ws = some ls) :
    (∀ p, IsState 0 ls p → (∃ w, Leads ls 0 w p) ∧ ∃ w, Accepts ls p w) ∧
      ∀ p q, IsState 0 ls p → IsState 0 ls q → (∀ w, Accepts ls p w ↔ Accepts ls q w) → p = q := by
  obtain ⟨ls', reg, root, n, k1, k2⟩ := minfsa_whole hs hne hw
  rw [k1] at h
  simp only [Option.some.injEq] at h
  subst h
  exact ⟨fun p hp => ⟨k2.leads hp, k2.live hne hp⟩, fun p q hp hq heq => k2.distinct hne hp hq heq⟩

example : minfsa [[1, 1], [2, 1], [3]] =
    some [.arc 1 2 1, .final 2, .arc 0 1 1, .arc 0 1 2, .arc 0 2 3] := by decide +kernel

/-- C166: after sorted words, a word that is the last one again or begins it runs into the missing
value of `delta_prefix`, whatever comes later. -/
theorem C166_prefix {ws more : List (List Nat)} {u w : List Nat} (hs : (ws ++ [u]).Pairwise (· < ·))
    (hw : [] ∉ ws ++ [u]) (hp : w <+: u) : minfsa (ws ++ u :: w :: more) = none := by
  have hs' : ([] :: (ws ++ [u])).Pairwise (· < ·) := by
    rw [List.pairwise_cons]
    refine ⟨fun v hv => ?_, hs⟩
    cases v with
    | nil => exact absurd hv hw
    | cons c v => simp
  obtain ⟨f, reg, root, l, n, k1, k2⟩ := addWords_good (ws ++ [u]) good_start hs'
  have hl : ([] :: (ws ++ [u])).getLast (by simp) = u := by simp
  rw [hl] at k2
  have e : ws ++ u :: w :: more = (ws ++ [u]) ++ w :: more := by simp
  unfold minfsa
  rw [e, addWords_append, k1]
  simp only [Option.bind_some, addWords, Fsa.addWord]
  have := deltaPrefix_none (pre := []) l [] k2.inv k2.rep (by rw [k2.last]; exact hp)
  rw [k2.id] at this
  rw [this]
  rfl

example : ([[1], [1, 2]] ++ [[2, 1]]).Pairwise (fun a b : List Nat => a < b) ∧
    ([] : List Nat) ∉ [[1], [1, 2]] ++ [[2, 1]] ∧ [2] <+: [2, 1] := by decide

/-- C166: no words at all, and the empty word as the first one, are not handled either. -/
theorem C166_empty (ws : List (List Nat)) : minfsa [] = none ∧ minfsa ([] :: ws) = none := by
  constructor
  · decide +kernel
  · simp [minfsa, addWords, Fsa.addWord, Fsa.deltaPrefix]

/-- C166: words that are not sorted may give an automaton with other words, although the program ends. -/
theorem C166_unsorted_false : ¬ ∀ ws ls, ws.Nodup → [] ∉ ws → minfsa ws = some ls → HasWords ls 0 ws := by
  intro h
  have h1 := h [[1, 1], [2, 1], [3, 1], [1, 2]]
    [.arc 1 2 1, .final 2, .arc 3 4 1, .final 4, .arc 0 1 1, .arc 0 1 2, .arc 0 3 3, .arc 1 5 2, .final 5]
    (by decide) (by decide) (by decide +kernel) [2, 2]
  have h2 := h1.1 (.step (q := 1) (by decide) (.step (q := 5) (by decide) (.stop (by decide))))
  revert h2
  decide

end Verif.Minfsa
