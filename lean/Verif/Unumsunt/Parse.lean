import Verif.Unumsunt.Spec
import Verif.Annot.Numbers
set_option linter.unusedSimpArgs false
set_option linter.unusedVariables false

namespace Verif.Unumsunt
open Verif Verif.Annot
open Verif.Server (ascii)

theorem isSpace_iff' (c : Byte) : isSpace c = true ↔ Space c := by
  have h : ∀ n : Fin 256, isSpace (UInt8.ofNat n.val) = true ↔ (n.val = 32 ∨ (9 ≤ n.val ∧ n.val ≤ 13)) := by decide +kernel
  have := h ⟨c.toNat, c.toNat_lt⟩
  simpa [Space] using this

/-! ### Runs -/

theorem takeWhile_run {p : Byte → Bool} {t rest : Str} (h : ∀ c ∈ t, p c = true) (hr : ∀ c, rest.head? = some c → p c = false) :
    (t ++ rest).takeWhile p = t ∧ (t ++ rest).dropWhile p = rest := by
  induction t with
  | nil =>
    cases rest with
    | nil => simp
    | cons c rest => simp [hr c rfl]
  | cons c t ih =>
    have hc := h c (by simp)
    obtain ⟨i1, i2⟩ := ih (fun d hd => h d (by simp [hd]))
    constructor
    · rw [List.cons_append, List.takeWhile_cons, hc, if_pos rfl, i1]
    · rw [List.cons_append, List.dropWhile_cons, hc, if_pos rfl, i2]

theorem runOf_eq {p : Byte → Bool} {t rest : Str} (ht : t ≠ []) (h : ∀ c ∈ t, p c = true) (hr : ∀ c, rest.head? = some c → p c = false) :
    runOf p (t ++ rest) = some (t, rest) := by
  obtain ⟨h1, h2⟩ := takeWhile_run h hr
  unfold runOf
  rw [h1, h2, if_neg (by simpa using ht)]

theorem moreRuns_eq {p : Byte → Bool} (hp : p 44 = false) {rest : Str} (hr : ∀ c, rest.head? = some c → p c = false ∧ c ≠ 44) :
    ∀ (cs : List Str) (fuel : Nat), (∀ t ∈ cs, t ≠ [] ∧ ∀ c ∈ t, p c = true) → (cs.flatMap (44 :: ·) ++ rest).length ≤ fuel →
      moreRuns p fuel (cs.flatMap (44 :: ·) ++ rest) = (cs, rest) := by
  intro cs
  induction cs with
  | nil =>
    intro fuel _ _
    simp only [List.flatMap_nil, List.nil_append]
    cases fuel with
    | zero => rfl
    | succ fuel =>
      cases rest with
      | nil => rfl
      | cons c rest => simp only [moreRuns]; rw [if_neg (hr c rfl).2]
  | cons t cs ih =>
    intro fuel h hl
    cases fuel with
    | zero => simp at hl
    | succ fuel =>
      obtain ⟨t1, t2⟩ := h t (by simp)
      have e : ((t :: cs).flatMap (44 :: ·) ++ rest : Str) = 44 :: (t ++ (cs.flatMap (44 :: ·) ++ rest)) := by simp
      rw [e]
      simp only [moreRuns, if_true]
      rw [runOf_eq t1 t2]
      · simp only
        rw [ih fuel (fun u hu => h u (by simp [hu]))]
        rw [e] at hl
        simp only [List.length_cons, List.length_append] at hl ⊢
        omega
      · intro c hc
        cases cs with
        | nil => exact (hr c (by simpa using hc)).1
        | cons u us => simp at hc; rw [← hc]; exact hp

theorem intercalate_cons (c : Str) (cs : List Str) : [44].intercalate (c :: cs) = c ++ cs.flatMap (44 :: ·) := by
  induction cs generalizing c with
  | nil => simp [List.intercalate]
  | cons d cs ih =>
    have : [44].intercalate (c :: d :: cs) = c ++ 44 :: [44].intercalate (d :: cs) := by simp [List.intercalate, List.intersperse]
    rw [this, ih]; simp

theorem runs_eq {p : Byte → Bool} (hp : p 44 = false) {rest : Str} (hr : ∀ c, rest.head? = some c → p c = false ∧ c ≠ 44)
    {cs : List Str} (hne : cs ≠ []) (h : ∀ t ∈ cs, t ≠ [] ∧ ∀ c ∈ t, p c = true) :
    runs p ([44].intercalate cs ++ rest) = some (cs, rest) := by
  cases cs with
  | nil => exact absurd rfl hne
  | cons t cs =>
    obtain ⟨t1, t2⟩ := h t (by simp)
    rw [intercalate_cons, List.append_assoc]
    unfold runs
    rw [runOf_eq t1 t2]
    · simp only
      rw [moreRuns_eq hp hr cs _ (fun u hu => h u (by simp [hu])) (Nat.le_refl _)]
    · intro c hc
      cases cs with
      | nil => exact (hr c (by simpa using hc)).1
      | cons u us => simp at hc; rw [← hc]; exact hp

theorem parseRule_eq {cs ds : List Str} (hc : cs ≠ []) (hd : ds ≠ []) (h1 : ∀ t ∈ cs, t ≠ [] ∧ ∀ c ∈ t, c ≠ 44 ∧ c ≠ 62)
    (h2 : ∀ t ∈ ds, t ≠ [] ∧ ∀ c ∈ t, c ≠ 44) :
    parseRule ([44].intercalate cs ++ [62, 62] ++ [44].intercalate ds) = some (cs, ds) := by
  unfold parseRule
  rw [List.append_assoc, runs_eq (by decide) (by simp) hc]
  · simp only [List.cons_append, List.nil_append, and_self, if_true]
    have := runs_eq (p := fun c => c != 44) (rest := []) (by decide) (by simp) hd (fun t ht => ⟨(h2 t ht).1, fun c hc => by simpa using (h2 t ht).2 c hc⟩)
    rw [List.append_nil] at this
    rw [this]
  · intro t ht
    refine ⟨(h1 t ht).1, fun c hc => ?_⟩
    have := (h1 t ht).2 c hc
    simp [this.1, this.2]

/-! ### Trimming -/

theorem dropWhile_pad {p t : Str} (hp : Pad p) (ht : ∀ c, t.head? = some c → ¬ Space c) : (p ++ t).dropWhile isSpace = t := by
  refine (takeWhile_run (fun c hc => (isSpace_iff' c).2 (hp c hc)) (fun c hc => ?_)).2
  have := ht c hc
  rw [← isSpace_iff'] at this
  simpa using this

theorem trim_pad {p t q : Str} (hp : Pad p) (hq : Pad q) (h1 : ∀ c, t.head? = some c → ¬ Space c) (h2 : ∀ c, t.getLast? = some c → ¬ Space c)
    (hne : t ≠ []) : trim (p ++ t ++ q) = t := by
  unfold trim
  rw [List.append_assoc, dropWhile_pad hp, List.reverse_append, dropWhile_pad, List.reverse_reverse]
  · intro c hc; exact hq c (by simpa using hc)
  · intro c hc; rw [List.head?_reverse] at hc; exact h2 c hc
  · intro c hc
    cases t with
    | nil => exact absurd rfl hne
    | cons d t => exact h1 c (by simpa using hc)

/-! ### Assignments -/

theorem pad_ok {p : Str} (h : Pad p) : ∀ c ∈ p, c ≠ 44 ∧ c ≠ 61 ∧ c ≠ 62 := by
  intro c hc
  have := h c hc
  refine ⟨?_, ?_, ?_⟩ <;> (rintro rfl; revert this; unfold Space; decide)

theorem sideOk {p t q : Str} (hp : Pad p) (hq : Pad q) (ht : Token t) : ∀ c ∈ p ++ t ++ q, c ≠ 44 ∧ c ≠ 61 ∧ c ≠ 62 := by
  intro c hc
  simp only [List.mem_append] at hc
  rcases hc with (hc | hc) | hc
  · exact pad_ok hp c hc
  · exact ht.2.1 c hc
  · exact pad_ok hq c hc

theorem parseAssignment_eq {s a v : Str} (h : WritesEq s a v) :
    ∃ x y, parseAssignment s = some (x, y) ∧ trim x = a ∧ trim y = v := by
  obtain ⟨p, q, p', q', rfl, hp, hq, hp', hq', ha, hv⟩ := h
  refine ⟨p ++ a ++ q, p' ++ v ++ q', ?_, trim_pad hp hq ha.2.2.1 ha.2.2.2 ha.1, trim_pad hp' hq' hv.2.2.1 hv.2.2.2 hv.1⟩
  have e : p ++ a ++ q ++ 61 :: p' ++ v ++ q' = (p ++ a ++ q) ++ (61 :: (p' ++ v ++ q')) := by simp
  rw [e]
  unfold parseAssignment
  rw [runOf_eq (by simp [ha.1]) (fun c hc => by have := sideOk hp hq ha c hc; simp [this.1, this.2.1]) (by simp)]
  simp only [if_true]
  have := runOf_eq (p := fun c => c != 44 && c != 61) (t := p' ++ v ++ q') (rest := []) (by simp [hv.1])
    (fun c hc => by have := sideOk hp' hq' hv c hc; simp [this.1, this.2.1]) (by simp)
  rw [List.append_nil] at this
  rw [this]

theorem trim_writes {s a v : Str} (h : WritesEq s a v) : WritesEq (trim s) a v ∧ 61 ∈ trim s := by
  obtain ⟨p, q, p', q', rfl, hp, hq, hp', hq', ha, hv⟩ := h
  have e : p ++ a ++ q ++ 61 :: p' ++ v ++ q' = p ++ (a ++ q ++ 61 :: p' ++ v) ++ q' := by simp
  have ht : trim (p ++ a ++ q ++ 61 :: p' ++ v ++ q') = a ++ q ++ 61 :: p' ++ v := by
    rw [e]
    refine trim_pad hp hq' ?_ ?_ ?_
    · intro c hc
      obtain ⟨d, t, rfl⟩ := List.exists_cons_of_ne_nil ha.1
      exact ha.2.2.1 c (by simpa using hc)
    · intro c hc
      rw [List.getLast?_append_of_ne_nil _ hv.1] at hc
      exact hv.2.2.2 c hc
    · simp
  rw [ht]
  refine ⟨⟨[], q, p', [], by simp, by simp [Pad], hq, hp', by simp [Pad], ha, hv⟩, by simp⟩

theorem writesEq_ok {s a v : Str} (h : WritesEq s a v) : s ≠ [] ∧ ∀ c ∈ s, c ≠ 44 ∧ c ≠ 62 := by
  obtain ⟨p, q, p', q', rfl, hp, hq, hp', hq', ha, hv⟩ := h
  refine ⟨by simp, ?_⟩
  intro c hc
  have e : p ++ a ++ q ++ 61 :: p' ++ v ++ q' = (p ++ a ++ q) ++ (61 :: (p' ++ v ++ q')) := by simp
  rw [e, List.mem_append, List.mem_cons] at hc
  rcases hc with hc | rfl | hc
  · have := sideOk hp hq ha c hc; exact ⟨this.1, this.2.2⟩
  · decide
  · have := sideOk hp' hq' hv c hc; exact ⟨this.1, this.2.2⟩

/-! ### Words -/

theorem splitWords_pad {p : Str} (hp : Pad p) (s : Str) : splitWords (p ++ s) = splitWords s := by
  induction p with
  | nil => rfl
  | cons c p ih =>
    have hc : isSpace c = true := (isSpace_iff' c).2 (hp c (by simp))
    rw [List.cons_append, splitWords.eq_def]; simp only [hc, if_true]; rw [ih (fun d hd => hp d (by simp [hd]))]

theorem splitWords_word {w : Str} : ∀ {s : Str}, w ≠ [] → (∀ c ∈ w, ¬ Space c) → (s = [] ∨ ∃ c s', s = c :: s' ∧ Space c) →
    splitWords (w ++ s) = w :: splitWords s := by
  induction w with
  | nil => intro s h; exact absurd rfl h
  | cons c w ih =>
    intro s _ hw hs
    have hc : ¬ isSpace c = true := fun h => hw c (by simp) ((isSpace_iff' c).1 h)
    rw [List.cons_append, splitWords.eq_def]
    simp only [if_neg hc]
    cases w with
    | nil =>
      rcases hs with rfl | ⟨d, s', rfl, hd⟩
      · rfl
      · simp only [List.nil_append]
        rw [if_pos ((isSpace_iff' d).2 hd)]
    | cons d w =>
      have hd : ¬ isSpace d = true := fun h => hw d (by simp) ((isSpace_iff' d).1 h)
      have := ih (s := s) (by simp) (fun e he => hw e (by simp [he])) hs
      simp only [List.cons_append] at this ⊢
      rw [if_neg hd, this]

theorem splitWords_eq {s : Str} {ws : List Str} (h : WritesWords s ws) : splitWords s = ws := by
  induction h with
  | @nil p hp =>
    have := splitWords_pad hp []
    rw [List.append_nil] at this
    rw [this]; rfl
  | @cons p w s ws hp hw hc hs _ ih =>
    rw [List.append_assoc, splitWords_pad hp, splitWords_word hw (fun c h => (hc c h).1) hs, ih]

theorem writesWords_ok {s : Str} {ws : List Str} (h : WritesWords s ws) : ∀ c ∈ s, c ≠ 44 ∧ c ≠ 61 ∧ c ≠ 62 := by
  induction h with
  | nil hp => exact pad_ok hp
  | @cons p w s ws hp hw hc hs _ ih =>
    intro c h
    simp only [List.mem_append] at h
    rcases h with (h | h) | h
    · exact pad_ok hp c h
    · exact (hc c h).2
    · exact ih c h

theorem writesWords_ne {s : Str} {ws : List Str} (h : WritesWords s ws) (hne : ws ≠ []) : s ≠ [] := by
  cases h with
  | nil => exact absurd rfl hne
  | cons hp hw hc hs _ => simp [hw]

theorem parseAssignment_words {s : Str} (h : ∀ c ∈ s, c ≠ 44 ∧ c ≠ 61 ∧ c ≠ 62) : parseAssignment s = none := by
  unfold parseAssignment
  by_cases hs : s = []
  · subst hs; rfl
  · have := runOf_eq (p := fun c => c != 44 && c != 61) (t := s) (rest := []) hs
      (fun c hc => by have := h c hc; simp [this.1, this.2.1]) (by simp)
    rw [List.append_nil] at this
    rw [this]

theorem writesCond_ok {s : Str} {c : Cond} (h : WritesCond s c) : s ≠ [] ∧ ∀ b ∈ s, b ≠ 44 ∧ b ≠ 62 := by
  cases c with
  | eq a v => exact writesEq_ok h
  | words ws => exact ⟨writesWords_ne h.2 h.1, fun b hb => ⟨(writesWords_ok h.2 b hb).1, (writesWords_ok h.2 b hb).2.2⟩⟩

theorem writesCmd_ok {s : Str} {c : Cmd} (h : WritesCmd s c) : s ≠ [] ∧ ∀ b ∈ s, b ≠ 44 := by
  cases c with
  | set a v => exact ⟨(writesEq_ok h).1, fun b hb => ((writesEq_ok h).2 b hb).1⟩
  | skip =>
    obtain ⟨p, q, hp, hq, rfl⟩ := h
    refine ⟨by simp [ascii], ?_⟩
    intro b hb
    simp only [List.mem_append] at hb
    rcases hb with (hb | hb) | hb
    · exact (pad_ok hp b hb).1
    · rintro rfl; revert hb; decide
    · exact (pad_ok hq b hb).1

/-! ### Conditions and commands -/

theorem addWord_mem (r : Rule) (w u : Str) : u ∈ (r.addWord w).words ↔ u ∈ r.words ∨ u = w := by
  unfold Rule.addWord
  by_cases h : w ∈ r.words
  · simp only [h, if_true]
    constructor
    · exact Or.inl
    · rintro (h' | rfl)
      · exact h'
      · exact h
  · simp [h]

theorem addWords_eq (ws : List Str) : ∀ r : Rule, ∃ l, ws.foldl Rule.addWord r = { r with words := l } ∧ ∀ u, u ∈ l ↔ u ∈ r.words ∨ u ∈ ws := by
  induction ws with
  | nil => intro r; exact ⟨r.words, rfl, by simp⟩
  | cons w ws ih =>
    intro r
    obtain ⟨l, h1, h2⟩ := ih (r.addWord w)
    refine ⟨l, ?_, ?_⟩
    · rw [List.foldl_cons, h1]; rfl
    · intro u; rw [h2, addWord_mem]; simp; tauto

theorem addConds_eq {cs : List Str} {conds : List Cond} (h : List.Forall₂ WritesCond cs conds) : ∀ r : Rule,
    ∃ l, cs.foldl addCond r = { r with words := l, conditions := r.conditions ++ eqs conds } ∧ ∀ u, u ∈ l ↔ u ∈ r.words ∨ HasWord conds u := by
  induction h with
  | nil => intro r; exact ⟨r.words, by simp [eqs], by simp [HasWord]⟩
  | @cons s c cs conds hc _ ih =>
    intro r
    cases c with
    | eq a v =>
      obtain ⟨x, y, h1, h2, h3⟩ := parseAssignment_eq hc
      have e : addCond r s = r.addCondition a v := by simp [addCond, h1, h2, h3]
      obtain ⟨l, k1, k2⟩ := ih (r.addCondition a v)
      refine ⟨l, ?_, ?_⟩
      · rw [List.foldl_cons, e, k1]
        simp [Rule.addCondition, eqs]
      · intro u; rw [k2]; simp [Rule.addCondition, HasWord]
    | words ws =>
      obtain ⟨l0, j1, j2⟩ := addWords_eq ws r
      have e : addCond r s = { r with words := l0 } := by
        simp only [addCond, parseAssignment_words (writesWords_ok hc.2), splitWords_eq hc.2, j1]
      obtain ⟨l, k1, k2⟩ := ih { r with words := l0 }
      refine ⟨l, ?_, ?_⟩
      · rw [List.foldl_cons, e, k1]
        simp [eqs]
      · intro u; rw [k2]
        simp only [j2, HasWord, List.mem_cons]
        constructor
        · rintro ((h | h) | ⟨ws', h, h'⟩)
          · exact Or.inl h
          · exact Or.inr ⟨ws, Or.inl rfl, h⟩
          · exact Or.inr ⟨ws', Or.inr h, h'⟩
        · rintro (h | ⟨ws', h | h, h'⟩)
          · exact Or.inl (Or.inl h)
          · cases h; exact Or.inl (Or.inr h')
          · exact Or.inr ⟨ws', h, h'⟩

/-- Commands in groups: a new group begins with a command with alternatives if the last has one already. -/
def group (g : List (Str × Str)) : List (Str × Str) → List (List (Str × Str))
  | [] => [g]
  | c :: cs => if 124 ∈ c.2 ∧ branching g ≠ 0 then g :: group [c] cs else group (g ++ [c]) cs

/-- A rule with commands. -/
def Rule.withCommands (r : Rule) (g : List (Str × Str)) : Rule := { r with commands := g, isSkip := false, breeding := branching g }

theorem branching_append (a b : List (Str × Str)) : branching (a ++ b) = branching a + branching b := by simp [branching]

theorem addCmd_set {rs : List Rule} {r : Rule} {s a v : Str} (h : WritesEq s a v) (g : List (Str × Str)) (hg : branching g ≤ 1) :
    addCmd (rs, r.withCommands g) s =
      if 124 ∈ v ∧ branching g ≠ 0 then some (rs ++ [r.withCommands g], r.withCommands [(a, v)])
      else some (rs, r.withCommands (g ++ [(a, v)])) := by
  obtain ⟨h', h61⟩ := trim_writes h
  obtain ⟨x, y, h1, h2, h3⟩ := parseAssignment_eq h'
  have hne : trim s ≠ ascii "SKIP" := by
    intro e; rw [e] at h61; revert h61; decide
  simp only [addCmd, if_neg hne, h1, h2, h3]
  by_cases hv : 124 ∈ v
  · by_cases hb : branching g = 0
    · have e : branching (g ++ [(a, v)]) = 1 := by rw [branching_append, hb, Nat.zero_add]; simp [branching, hv]
      simp [Rule.addCommand, Rule.withCommands, hv, hb, e]
    · have e : branching [(a, v)] = 1 := by simp [branching, hv]
      simp [Rule.addCommand, Rule.withCommands, Rule.clearCommands, hv, hb, e]
  · have e : branching (g ++ [(a, v)]) = branching g := by simp [branching_append, branching, hv]
    simp [Rule.addCommand, Rule.withCommands, hv, e]

theorem addCmds_set {ds : List Str} {cmds : List (Str × Str)} (h : List.Forall₂ (fun s c => WritesEq s c.1 c.2) ds cmds) {r : Rule} :
    ∀ (rs : List Rule) (g : List (Str × Str)), branching g ≤ 1 →
      ∃ rs' r', addCmds (rs, r.withCommands g) ds = some (rs', r') ∧ rs' ++ [r'] = rs ++ (group g cmds).map r.withCommands := by
  induction h with
  | nil => intro rs g hg; exact ⟨rs, _, rfl, by simp [group]⟩
  | @cons s c ds cmds hc _ ih =>
    intro rs g hg
    simp only [addCmds, addCmd_set hc g hg, group]
    by_cases hv : 124 ∈ c.2 ∧ branching g ≠ 0
    · simp only [if_pos hv]
      obtain ⟨rs', r', h1, h2⟩ := ih (rs ++ [r.withCommands g]) [(c.1, c.2)] (by simp [branching, hv.1])
      exact ⟨rs', r', h1, by rw [h2]; simp⟩
    · simp only [if_neg hv]
      have : branching (g ++ [(c.1, c.2)]) ≤ 1 := by
        rw [branching_append]
        by_cases h1 : 124 ∈ c.2
        · have : branching g = 0 := by
            apply Classical.byContradiction; intro h2; exact hv ⟨h1, h2⟩
          rw [this, Nat.zero_add]; exact Nat.le_trans (List.length_filter_le _ _) (by simp)
        · have e : branching [c] = 0 := by simp [branching, h1]
          rw [e]; exact hg
      obtain ⟨rs', r', h1, h2⟩ := ih rs (g ++ [(c.1, c.2)]) this
      exact ⟨rs', r', h1, h2⟩

theorem group_one {cs : List (Str × Str)} : ∀ {g}, branching (g ++ cs) ≤ 1 → group g cs = [g ++ cs] := by
  induction cs with
  | nil => intro g _; simp [group]
  | cons c cs ih =>
    intro g h
    rw [group, if_neg]
    · rw [ih (by simpa using h)]; simp
    · rintro ⟨h1, h2⟩
      have e : branching (c :: cs) = 1 + branching cs := by
        have := branching_append [c] cs
        simp only [List.singleton_append] at this
        rw [this]; simp [branching, h1]
      rw [branching_append, e] at h
      omega

theorem group_ne (g cs) : group g cs ≠ [] := by
  induction cs generalizing g with
  | nil => simp [group]
  | cons c cs ih =>
    rw [group]; split
    · simp
    · exact ih _

theorem group_flatten (g cs) : (group g cs).flatten = g ++ cs := by
  induction cs generalizing g with
  | nil => simp [group]
  | cons c cs ih =>
    rw [group]; split
    · simp [ih]
    · simp [ih]

theorem group_spec (cs) : ∀ g, branching g ≤ 1 →
    (∀ h ∈ group g cs, branching h ≤ 1) ∧ (∀ h ∈ (group g cs).dropLast, branching h = 1) ∧
    (∃ g' t, group g cs = (g ++ g') :: t ∧ ∀ h ∈ t, ∃ c t', h = c :: t' ∧ 124 ∈ c.2) := by
  induction cs with
  | nil => intro g hg; exact ⟨by simp [group, hg], by simp [group], [], [], by simp [group], by simp⟩
  | cons c cs ih =>
    intro g hg
    rw [group]
    split
    · rename_i hv
      obtain ⟨h1, h2, g', t, h3, h4⟩ := ih [c] (by simp [branching, hv.1])
      refine ⟨?_, ?_, [], group [c] cs, by simp, ?_⟩
      · intro h hm
        rcases List.mem_cons.1 hm with rfl | hm
        · exact hg
        · exact h1 h hm
      · intro h hm
        rw [List.dropLast_cons_of_ne_nil (group_ne _ _)] at hm
        rcases List.mem_cons.1 hm with rfl | hm
        · have := hv.2; omega
        · exact h2 h hm
      · rw [h3]
        intro h hm
        rcases List.mem_cons.1 hm with rfl | hm
        · exact ⟨c, g', rfl, hv.1⟩
        · exact h4 h hm
    · rename_i hv
      have hb : branching (g ++ [c]) ≤ 1 := by
        rw [branching_append]
        by_cases h1 : 124 ∈ c.2
        · have : branching g = 0 := by
            apply Classical.byContradiction; intro h2; exact hv ⟨h1, h2⟩
          rw [this, Nat.zero_add]; exact Nat.le_trans (List.length_filter_le _ _) (by simp)
        · have e : branching [c] = 0 := by simp [branching, h1]
          rw [e]; exact hg
      obtain ⟨h1, h2, g', t, h3, h4⟩ := ih (g ++ [c]) hb
      exact ⟨h1, h2, c :: g', t, by rw [h3]; simp, h4⟩

end Verif.Unumsunt
