import Verif.Glob.Lemmas

/-!
Property theorems C22 (segment globs).

The full claim — a glob matches exactly the intended names, for all globs and all well-formed
names — is false of the code (`C22_false`): after a `*` the matcher restarts at every *byte*, and a
`?` applied inside a multi-byte character consumes a single byte.  What holds: an intended match
is never missed, the matcher never reads out of bounds, and the answer is exact when the glob has
no `?` right after a `*`, or when the name is ASCII.
-/
set_option linter.unusedSimpArgs false

namespace Verif.Glob
open Verif

theorem encode_nonzero {c : Nat} (hc : Utf8.Spec.Scalar c) (h0 : c ≠ 0) :
    ∀ b ∈ Utf8.Spec.encode c, b ≠ 0 := by
  have hlt := Utf8.scalar_lt hc
  intro b hb
  have tb : ∀ n, n < 256 → (Utf8.Spec.byte n).toNat = n := by
    intro n hn; simp only [Utf8.Spec.byte, Utf8.toNat_ofNat]; omega
  have hne : ∀ n, n < 256 → n ≠ 0 → b = Utf8.Spec.byte n → b ≠ 0 := by
    intro n hn h1 e
    have h3 := tb n hn
    rintro rfl
    rw [← e] at h3; exact h1 (by simpa using h3.symm)
  unfold Utf8.Spec.encode at hb
  repeat' split at hb
  all_goals simp only [List.mem_cons, List.not_mem_nil, or_false] at hb
  · exact hne c (by omega) h0 hb
  · rcases hb with hb | hb <;> exact hne _ (by omega) (by omega) hb
  · rcases hb with hb | hb | hb <;> exact hne _ (by omega) (by omega) hb
  · rcases hb with hb | hb | hb | hb <;> exact hne _ (by omega) (by omega) hb

theorem cstr_encodeAll {cs : List Nat} (h : ∀ c ∈ cs, Utf8.Spec.Scalar c ∧ c ≠ 0) :
    cstr (Utf8.Spec.encodeAll cs) = Utf8.Spec.encodeAll cs := by
  have key : ∀ s : Str, (∀ b ∈ s, b ≠ 0) → cstr s = s := by
    intro s hs
    induction s with
    | nil => rfl
    | cons b s ih =>
      have hb := hs b (by simp)
      have := ih (fun c hc => hs c (by simp [hc]))
      simp only [cstr] at this ⊢
      simpa [List.takeWhile_cons, hb] using this
  apply key
  intro b hb
  simp only [Utf8.Spec.encodeAll, List.mem_flatMap] at hb
  obtain ⟨c, hc, hb⟩ := hb
  exact encode_nonzero (h c hc).1 (h c hc).2 b hb

/-- A glob without specials matches only itself. -/
theorem matches_fixed {g n : List Nat} (h : ∀ c ∈ g, c ≠ 42 ∧ c ≠ 63) :
    Spec.Matches g n ↔ n = g := by
  constructor
  · intro hm
    induction hm with
    | nil => rfl
    | star => exact absurd rfl (h 42 (by simp)).1
    | quest => exact absurd rfl (h 63 (by simp)).2
    | lit _ _ _ ih => rw [ih (fun c hc => h c (by simp [hc]))]
  · rintro rfl
    induction n with
    | nil => exact .nil
    | cons c n ih =>
      have := h c (by simp)
      exact .lit this.1 this.2 (ih (fun c hc => h c (by simp [hc])))

theorem isFixed_encodeAll {g : List Nat} (hg : ∀ c ∈ g, Utf8.Spec.Scalar c) :
    isFixed (Utf8.Spec.encodeAll g) = true ↔ ∀ c ∈ g, c ≠ 42 ∧ c ≠ 63 := by
  simp only [isFixed, Bool.not_eq_true', List.any_eq_false, Bool.or_eq_true, beq_iff_eq, B.star,
    B.quest]
  constructor
  · intro h c hc
    constructor
    · rintro rfl
      exact h 42 (by simp only [Utf8.Spec.encodeAll, List.mem_flatMap]; exact ⟨42, hc, by simp [encode_star]⟩)
        (Or.inl rfl)
    · rintro rfl
      exact h 63 (by simp only [Utf8.Spec.encodeAll, List.mem_flatMap]; exact ⟨63, hc, by simp [encode_quest]⟩)
        (Or.inr rfl)
  · intro h b hb
    simp only [Utf8.Spec.encodeAll, List.mem_flatMap] at hb
    obtain ⟨c, hc, hb⟩ := hb
    have := encode_lit (hg c hc) (h c hc).1 (h c hc).2 b hb
    rintro (h | h)
    · exact this.1 h
    · exact this.2 h

theorem encodeAll_inj {a b : List Nat} (ha : ∀ c ∈ a, Utf8.Spec.Scalar c)
    (hb : ∀ c ∈ b, Utf8.Spec.Scalar c) (h : Utf8.Spec.encodeAll a = Utf8.Spec.encodeAll b) : a = b := by
  induction a generalizing b with
  | nil =>
    match b with
    | [] => rfl
    | d :: b =>
      simp [Utf8.Spec.encodeAll] at h
      exact absurd h.1 (Utf8.encode_ne_nil d)
  | cons c a ih =>
    simp only [Utf8.Spec.encodeAll, List.flatMap_cons] at h
    obtain ⟨_, n', rfl, hn'⟩ := lit_boundary (t := []) (ha c (by simp)) (by simp) hb
      (r := Utf8.Spec.encodeAll a) (by simpa [Utf8.Spec.encodeAll] using h.symm)
    rw [ih (fun c hc => ha c (by simp [hc])) (fun c hc => hb c (by simp [hc])) hn']

/-- **C22 (partial)** No intended match is ever missed, for every glob and every name in
well-formed UTF-8 (without NUL characters). -/
theorem C22_complete_partial (g n : List Nat) (hg : ∀ c ∈ g, Utf8.Spec.Scalar c ∧ c ≠ 0)
    (hn : ∀ c ∈ n, Utf8.Spec.Scalar c ∧ c ≠ 0) (h : Spec.Matches g n) :
    «matches» (Utf8.Spec.encodeAll g) (Utf8.Spec.encodeAll n) = some true := by
  have hg' := fun c hc => (hg c hc).1
  have hn' := fun c hc => (hn c hc).1
  unfold «matches»
  split
  · rename_i hf
    rw [isFixed_encodeAll hg'] at hf
    rw [matches_fixed hf] at h
    subst h; simp
  · rw [cstr_encodeAll hg, cstr_encodeAll hn]
    exact loop1_complete _ _ (local_encodeAll n hn') (MC_of_matches hg' hn' h)

/-- **C22** on well-formed names the matcher never reads past the end of the name, for every
glob whatsoever (any bytes). -/
theorem C22_defined (g : Str) (n : List Nat) (hn : ∀ c ∈ n, Utf8.Spec.Scalar c ∧ c ≠ 0) :
    («matches» g (Utf8.Spec.encodeAll n)).isSome := by
  unfold «matches»
  split
  · rfl
  · rw [cstr_encodeAll hn]
    exact loop1_defined _ _ (local_encodeAll n (fun c hc => (hn c hc).1))

/-- **C22 (partial)** The answer is exact for every well-formed name when the glob has no `?`
right after a `*`. -/
theorem C22_exact_partial (g n : List Nat) (hg : ∀ c ∈ g, Utf8.Spec.Scalar c ∧ c ≠ 0)
    (hn : ∀ c ∈ n, Utf8.Spec.Scalar c ∧ c ≠ 0) (hq : Spec.NoStarQuest g) :
    «matches» (Utf8.Spec.encodeAll g) (Utf8.Spec.encodeAll n) = some true ↔ Spec.Matches g n := by
  refine ⟨fun h => ?_, C22_complete_partial g n hg hn⟩
  have hg' := fun c hc => (hg c hc).1
  have hn' := fun c hc => (hn c hc).1
  unfold «matches» at h
  split at h
  · rename_i hf
    rw [isFixed_encodeAll hg'] at hf
    simp only [Option.some.injEq, beq_iff_eq] at h
    rw [matches_fixed hf]
    exact encodeAll_inj hn' hg' h
  · rw [cstr_encodeAll hg, cstr_encodeAll hn] at h
    exact matches_of_MB hg' hn' hq (t := []) (by simp) (by simp) (loop1_sound _ _ h)

/-- **C22 (partial)** The answer is exact for every glob when the name is ASCII. -/
theorem C22_exact_ascii_partial (g n : List Nat) (hg : ∀ c ∈ g, Utf8.Spec.Scalar c ∧ c ≠ 0)
    (hn : ∀ c ∈ n, 0 < c ∧ c < 128) :
    «matches» (Utf8.Spec.encodeAll g) (Utf8.Spec.encodeAll n) = some true ↔ Spec.Matches g n := by
  have hn2 : ∀ c ∈ n, Utf8.Spec.Scalar c ∧ c ≠ 0 := by
    intro c hc
    have := hn c hc
    simp [Utf8.Spec.Scalar]; omega
  refine ⟨fun h => ?_, C22_complete_partial g n hg hn2⟩
  have hg' := fun c hc => (hg c hc).1
  have hn' := fun c hc => (hn2 c hc).1
  unfold «matches» at h
  split at h
  · rename_i hf
    rw [isFixed_encodeAll hg'] at hf
    simp only [Option.some.injEq, beq_iff_eq] at h
    rw [matches_fixed hf]
    exact encodeAll_inj hn' hg' h
  · rw [cstr_encodeAll hg, cstr_encodeAll hn2] at h
    exact matches_of_MB_ascii hg' (fun c hc => (hn c hc).2) (loop1_sound _ _ h)

/-- A match needs a character for every token other than `*`. -/
theorem matches_length {g n : List Nat} (h : Spec.Matches g n) :
    (g.filter (· ≠ 42)).length ≤ n.length := by
  induction h with
  | nil => simp
  | star _ ih => simp at ih ⊢; omega
  | quest _ ih => simp at ih ⊢; omega
  | lit h1 _ _ ih => simp [List.filter_cons, h1] at ih ⊢; omega

/-- **C22 (negation)** The glob `*??ab` accepts the three-character name `€ab`, although it asks
for at least four characters. -/
theorem C22_false : ∃ g n : List Nat, (∀ c ∈ g, Utf8.Spec.Scalar c ∧ c ≠ 0) ∧
    (∀ c ∈ n, Utf8.Spec.Scalar c ∧ c ≠ 0) ∧
    «matches» (Utf8.Spec.encodeAll g) (Utf8.Spec.encodeAll n) = some true ∧ ¬ Spec.Matches g n := by
  refine ⟨[42, 63, 63, 97, 98], [0x20AC, 97, 98], by simp [Utf8.Spec.Scalar],
    by simp [Utf8.Spec.Scalar], ?_, ?_⟩
  · have e1 : Utf8.Spec.encodeAll [42, 63, 63, 97, 98] = [42, 63, 63, 97, 98] := by decide
    have e2 : Utf8.Spec.encodeAll [0x20AC, 97, 98] = [0xE2, 0x82, 0xAC, 97, 98] := by decide
    have n1 : Utf8.next [0xE2, 0x82, 0xAC, 97, 98] = some (0x20AC, [97, 98]) := by rfl
    have n2 : Utf8.next [97, 98] = some (97, [98]) := by rfl
    have n3 : Utf8.next [0x82, 0xAC, 97, 98] = some (0x82, [0xAC, 97, 98]) := by rfl
    have n4 : Utf8.next [0xAC, 97, 98] = some (0xAC, [97, 98]) := by rfl
    rw [e1, e2]
    simp [«matches», isFixed, cstr, loop1, loop2, n1, n2, n3, n4, finish]
  intro h
  have := matches_length h
  simp at this

/-- `*.p?i` (no `?` right after `*`) matches `ąb.psi`. -/
example : Spec.NoStarQuest [42, 46, 112, 63, 105] ∧
    Spec.Matches [42, 46, 112, 63, 105] [0x105, 98, 46, 112, 115, 105] := by
  constructor
  · intro p q h
    match p with
    | [] | [_] | [_, _] | [_, _, _] | [_, _, _, _] => simp at h
    | _ :: _ :: _ :: _ :: _ :: p => simp at h
  · exact .star (run := [0x105, 98]) (.lit (by simp) (by simp) (.lit (by simp) (by simp)
      (.quest (.lit (by simp) (by simp) .nil))))

end Verif.Glob
