import Verif.Guess.Spec
import Verif.Utf8.Props
import Mathlib.Tactic.Linarith
import Mathlib.Algebra.Order.Field.Rat
import Mathlib.Algebra.Order.Field.Basic
import Mathlib.Algebra.Order.BigOperators.Group.List
import Mathlib.Tactic.Ring
import Mathlib.Tactic.FieldSimp

set_option linter.unusedVariables false
set_option linter.unusedSimpArgs false

namespace Verif.Guess
open Verif Verif.Server Verif.Utf8

theorem encode_ne (c : Nat) : Spec.encode c ≠ [] := by
  unfold Spec.encode
  repeat' split
  all_goals simp

theorem encodeAll_cons (c : Nat) (cs : List Nat) : Spec.encodeAll (c :: cs) = Spec.encode c ++ Spec.encodeAll cs := by
  simp [Spec.encodeAll]

theorem encodeAll_ne {c : Nat} {cs : List Nat} : Spec.encodeAll (c :: cs) ≠ [] := by
  rw [encodeAll_cons]
  simp [encode_ne]

theorem next_encode {c : Nat} (h : Spec.Scalar c) (cs : List Nat) :
    validateNext (Spec.encodeAll (c :: cs)) = .ok (c, Spec.encodeAll cs) :=
  (C20_validate_exact _ _ _).2 ⟨h, encodeAll_cons c cs⟩

theorem isLetterOf_encode (letter : Nat) : ∀ ls : List Nat, (∀ c ∈ ls, Spec.Scalar c) →
    isLetterOf letter (Spec.encodeAll ls) = some (decide (letter ∈ ls)) := by
  intro ls
  induction ls with
  | nil => intro _; rw [isLetterOf]; simp [Spec.encodeAll]
  | cons c ls ih =>
    intro h
    rw [isLetterOf, if_neg encodeAll_ne]
    split
    · rename_i e he
      rw [next_encode (h c (by simp))] at he
      simp at he
    · rename_i cp rest he
      rw [next_encode (h c (by simp))] at he
      simp only [Except.ok.injEq, Prod.mk.injEq] at he
      obtain ⟨rfl, rfl⟩ := he
      split
      · rename_i e; subst e; simp
      · rename_i e
        rw [ih (fun x hx => h x (List.mem_cons_of_mem _ hx))]
        simp [e]

/-- The loop over the text, on code points. -/
def marksOf (ls : List Nat) (m : Marks) (cps : List Nat) : Marks :=
  cps.foldl (fun m c => m.letter c (decide (c ∈ ls))) m

theorem letterLoop_encode (ls : List Nat) (hls : ∀ c ∈ ls, Spec.Scalar c) : ∀ (cps : List Nat) (m : Marks),
    (∀ c ∈ cps, Spec.Scalar c) →
    letterLoop (Spec.encodeAll ls) (Spec.encodeAll cps) m = some (marksOf ls m cps) := by
  intro cps
  induction cps with
  | nil => intro m _; rw [letterLoop]; simp [Spec.encodeAll, marksOf]
  | cons c cps ih =>
    intro m h
    rw [letterLoop, if_neg encodeAll_ne]
    split
    · rename_i e he
      rw [next_encode (h c (by simp))] at he
      simp at he
    · rename_i cp rest he
      rw [next_encode (h c (by simp))] at he
      simp only [Except.ok.injEq, Prod.mk.injEq] at he
      obtain ⟨rfl, rfl⟩ := he
      rw [isLetterOf_encode _ ls hls]
      exact ih _ (fun x hx => h x (List.mem_cons_of_mem _ hx))

theorem wellFormed_next {text rest : Str} {cp : Nat} (he : validateNext text = .ok (cp, rest))
    (h : Spec.WellFormed rest) : Spec.WellFormed text := by
  obtain ⟨cps, hs, hrest⟩ := h
  obtain ⟨h1, h2⟩ := (C20_validate_exact _ _ _).1 he
  refine ⟨cp :: cps, ?_, ?_⟩
  · intro c hc
    rcases List.mem_cons.1 hc with rfl | hc
    · exact h1
    · exact hs c hc
  · rw [h2, hrest, encodeAll_cons]

theorem letterLoop_valid (letters : Str) : ∀ (n : Nat) (text : Str) (m m' : Marks), text.length ≤ n →
    letterLoop letters text m = some m' → Spec.WellFormed text := by
  intro n
  induction n with
  | zero =>
    intro text m m' hn _
    have : text = [] := List.eq_nil_of_length_eq_zero (by omega)
    exact ⟨[], by simp, by simp [this, Spec.encodeAll]⟩
  | succ n ih =>
    intro text m m' hn h
    rw [letterLoop] at h
    split at h
    · rename_i he; exact ⟨[], by simp, by simp [he, Spec.encodeAll]⟩
    · split at h
      · simp at h
      · rename_i cp rest he
        have hlt := validateNext_lt he
        split at h
        · simp at h
        · exact wellFormed_next he (ih rest _ _ (by omega) h)

/-! ### Words -/

theorem split_cons_space (cps : List Nat) :
    (32 :: cps).splitOnP (fun c => decide (c = 32)) = [] :: cps.splitOnP (fun c => decide (c = 32)) := by
  rw [List.splitOnP_cons]; simp

theorem split_cons_other {c : Nat} (hc : c ≠ 32) (cps : List Nat) : ∃ s ss,
    cps.splitOnP (fun c => decide (c = 32)) = s :: ss ∧
    (c :: cps).splitOnP (fun c => decide (c = 32)) = (c :: s) :: ss := by
  cases h : cps.splitOnP (fun c => decide (c = 32)) with
  | nil => exact absurd h (List.splitOnP_ne_nil _ _)
  | cons s ss =>
    refine ⟨s, ss, rfl, ?_⟩
    rw [List.splitOnP_cons, h]
    simp [hc]

theorem accept_iff (ls : List Nat) (hls : 32 ∉ ls) : ∀ (cps : List Nat) (m : Marks),
    ∃ s ss, cps.splitOnP (fun c => decide (c = 32)) = s :: ss ∧
      ((marksOf ls m cps).accept = true ↔ m.allWords = true ∧
        (m.isWord = true ∨ s ≠ [] → m.foundInWord = true ∨ ∃ c ∈ s, c ∈ ls) ∧
        (∀ w ∈ ss, w ≠ [] → ∃ c ∈ w, c ∈ ls) ∧ (m.found = true ∨ ∃ c ∈ cps, c ∈ ls)) := by
  intro cps
  induction cps with
  | nil =>
    intro m
    refine ⟨[], [], by simp [List.splitOnP_nil], ?_⟩
    obtain ⟨f, a, fw, w⟩ := m
    cases f <;> cases a <;> cases fw <;> cases w <;> simp [marksOf, Marks.accept]
  | cons c cps ih =>
    intro m
    by_cases hc : c = 32
    · subst hc
      obtain ⟨s, ss, h1, h2⟩ := ih (m.letter 32 (decide (32 ∈ ls)))
      refine ⟨[], s :: ss, by rw [split_cons_space, h1], ?_⟩
      have : marksOf ls m (32 :: cps) = marksOf ls (m.letter 32 (decide (32 ∈ ls))) cps := rfl
      rw [this, h2]
      obtain ⟨f, a, fw, w⟩ := m
      have hex : (∃ x ∈ 32 :: cps, x ∈ ls) ↔ ∃ x ∈ cps, x ∈ ls := by
        simp [hls]
      rw [hex]
      cases f <;> cases a <;> cases fw <;> cases w <;> simp [Marks.letter, hls, and_assoc]
    · obtain ⟨s, ss, h1, h1'⟩ := split_cons_other hc cps
      obtain ⟨s', ss', h2, h3⟩ := ih (m.letter c (decide (c ∈ ls)))
      rw [h1] at h2
      simp only [List.cons.injEq] at h2
      obtain ⟨rfl, rfl⟩ := h2
      refine ⟨c :: s, ss, h1', ?_⟩
      have : marksOf ls m (c :: cps) = marksOf ls (m.letter c (decide (c ∈ ls))) cps := rfl
      rw [this, h3]
      obtain ⟨f, a, fw, w⟩ := m
      by_cases hm : c ∈ ls
      · cases f <;> cases a <;> cases fw <;> cases w <;> simp [Marks.letter, hm, hc]
      · cases f <;> cases a <;> cases fw <;> cases w <;> simp [Marks.letter, hm, hc]

theorem mem_split {c : Nat} (hc : c ≠ 32) : ∀ cps : List Nat,
    (∃ w ∈ cps.splitOnP (fun c => decide (c = 32)), c ∈ w) ↔ c ∈ cps := by
  intro cps
  induction cps with
  | nil => simp [List.splitOnP_nil]
  | cons x cps ih =>
    by_cases hx : x = 32
    · subst hx
      rw [split_cons_space]
      simp [hc, ih]
    · obtain ⟨s, ss, h1, h2⟩ := split_cons_other hx cps
      rw [h2]
      rw [h1] at ih
      simp only [List.mem_cons, exists_eq_or_imp] at ih ⊢
      rw [← ih]
      tauto

theorem accept_marked (ls : List Nat) (hls : 32 ∉ ls) (cps : List Nat) :
    (marksOf ls {} cps).accept = true ↔ Marked ls cps := by
  obtain ⟨s, ss, h1, h2⟩ := accept_iff ls hls cps {}
  rw [h2]
  have hw : ∀ w, w ∈ words cps ↔ (w = s ∨ w ∈ ss) ∧ w ≠ [] := by
    intro w
    rw [words, h1, List.mem_filter, List.mem_cons]
    cases w <;> simp
  have hmem : ∀ c, c ∈ ls → (c ∈ cps ↔ ∃ w ∈ words cps, c ∈ w) := by
    intro c hc
    have hne : c ≠ 32 := by rintro rfl; exact hls hc
    rw [← mem_split hne, h1]
    constructor
    · rintro ⟨w, hw', hcw⟩
      exact ⟨w, (hw w).2 ⟨List.mem_cons.1 hw', by rintro rfl; simp at hcw⟩, hcw⟩
    · rintro ⟨w, hw', hcw⟩
      exact ⟨w, List.mem_cons.2 ((hw w).1 hw').1, hcw⟩
  simp only [true_and, Bool.false_eq_true, false_or]
  constructor
  · rintro ⟨a1, a2, c, hc1, hc2⟩
    refine ⟨?_, ?_⟩
    · obtain ⟨w, hw', _⟩ := (hmem c hc2).1 hc1
      exact List.ne_nil_of_mem hw'
    · intro w hw'
      obtain ⟨hws, hne⟩ := (hw w).1 hw'
      rcases hws with rfl | hws
      · exact a1 hne
      · exact a2 w hws hne
  · rintro ⟨b1, b2⟩
    refine ⟨fun hne => b2 s ((hw s).2 ⟨Or.inl rfl, hne⟩), fun w hws hne => b2 w ((hw w).2 ⟨Or.inr hws, hne⟩), ?_⟩
    obtain ⟨w, hw'⟩ := List.exists_mem_of_ne_nil _ b1
    obtain ⟨c, hc1, hc2⟩ := b2 w hw'
    exact ⟨c, (hmem c hc2).2 ⟨w, hw', hc1⟩, hc2⟩

theorem round_iff {lang : Language} {ls : List Nat} (h : Letters lang ls) {cps : List Nat} (hc : ∀ c ∈ cps, Spec.Scalar c) :
    ∃ m, letterLoop lang.letters (Spec.encodeAll cps) {} = some m ∧ (m.accept = true ↔ Marked ls cps) := by
  rw [h.2]
  exact ⟨_, letterLoop_encode ls (fun c hc => (h.1 c hc).1) cps {} hc,
    accept_marked ls (fun h' => (h.1 32 h').2 rfl) cps⟩

theorem letters_nil {lang : Language} {ls : List Nat} (h : Letters lang ls) : lang.letters = [] ↔ ls = [] := by
  rw [h.2]
  cases ls with
  | nil => simp [Spec.encodeAll]
  | cons c ls => simp [encodeAll_ne]

theorem byLetters_spec (letters : Language → List Nat) {cps : List Nat} (hc : ∀ c ∈ cps, Spec.Scalar c) :
    ∀ langs : List Language, (∀ l ∈ langs, Letters l (letters l)) →
    ∃ name, byLetters (Spec.encodeAll cps) langs = some name ∧
      ((∃ pre lang post, langs = pre ++ lang :: post ∧ lang.name = name ∧ Marked (letters lang) cps ∧
          ∀ l ∈ pre, ¬Marked (letters l) cps) ∨
        (name = unknown ∧ ∀ l ∈ langs, ¬Marked (letters l) cps)) := by
  intro langs
  induction langs with
  | nil => intro _; exact ⟨unknown, rfl, Or.inr ⟨rfl, by simp⟩⟩
  | cons lang langs ih =>
    intro h
    have hl := h lang (by simp)
    obtain ⟨name, h1, h2⟩ := ih (fun l hl' => h l (List.mem_cons_of_mem _ hl'))
    have skip : ¬Marked (letters lang) cps →
        ((∃ pre lang' post, lang :: langs = pre ++ lang' :: post ∧ lang'.name = name ∧ Marked (letters lang') cps ∧
          ∀ l ∈ pre, ¬Marked (letters l) cps) ∨
        (name = unknown ∧ ∀ l ∈ lang :: langs, ¬Marked (letters l) cps)) := by
      intro hm
      rcases h2 with ⟨pre, lang', post, e1, e2, e3, e4⟩ | ⟨e1, e2⟩
      · left
        refine ⟨lang :: pre, lang', post, by rw [e1]; simp, e2, e3, ?_⟩
        intro l hl'
        rcases List.mem_cons.1 hl' with rfl | hl'
        · exact hm
        · exact e4 l hl'
      · right
        refine ⟨e1, ?_⟩
        intro l hl'
        rcases List.mem_cons.1 hl' with rfl | hl'
        · exact hm
        · exact e2 l hl'
    rw [byLetters]
    by_cases he : lang.letters = []
    · rw [if_pos he]
      have : letters lang = [] := (letters_nil hl).1 he
      refine ⟨name, h1, skip ?_⟩
      rintro ⟨hw, hall⟩
      obtain ⟨w, hw'⟩ := List.exists_mem_of_ne_nil _ hw
      obtain ⟨c, _, hc2⟩ := hall w hw'
      rw [this] at hc2
      simp at hc2
    · rw [if_neg he]
      obtain ⟨m, e1, e2⟩ := round_iff hl hc
      rw [e1]
      dsimp only
      by_cases hm : Marked (letters lang) cps
      · rw [if_pos (e2.2 hm)]
        exact ⟨lang.name, rfl, Or.inl ⟨[], lang, langs, rfl, rfl, hm, by simp⟩⟩
      · rw [if_neg (fun h' => hm (e2.1 h'))]
        exact ⟨name, h1, skip hm⟩

theorem byLetters_invalid {text : Str} (h : ¬Spec.WellFormed text) : ∀ langs : List Language,
    byLetters text langs = (if ∃ l ∈ langs, l.letters ≠ [] then none else some unknown) := by
  classical
  intro langs
  induction langs with
  | nil => simp [byLetters]
  | cons lang langs ih =>
    rw [byLetters]
    by_cases he : lang.letters = []
    · rw [if_pos he, ih]
      simp [he]
    · rw [if_neg he, if_pos ⟨lang, by simp, he⟩]
      cases hl : letterLoop lang.letters text {} with
      | none => rfl
      | some m => exact absurd (letterLoop_valid _ _ _ _ _ (le_refl _) hl) h

/-! ### Bigrams -/

theorem lower_small (c : Nat) : lowerLetter c = small c := by
  unfold lowerLetter small
  split <;> split <;> omega

theorem cell_place (a b : Nat) : cell (small a) (small b) = place (a, b) := by
  unfold cell place factor tableSize
  rw [show (2 : Nat) ^ 32 = 512 * 8388608 by norm_num, Nat.mod_mul_right_mod]

theorem bigrams_cons (a b : Nat) (cs : List Nat) : bigrams (a :: b :: cs) = (a, b) :: bigrams (b :: cs) := rfl

theorem countLoop_encode : ∀ (cs : List Nat) (a b : Nat) (t : Nat → Nat), (∀ c ∈ cs, Spec.Scalar c) →
    countLoop (Spec.encodeAll cs) (small a) (small b) t =
      some (fun i => t i + ((bigrams (a :: b :: cs)).dropLast.filter (fun p => place p = i)).length) := by
  intro cs
  induction cs with
  | nil =>
    intro a b t _
    rw [countLoop]
    simp [Spec.encodeAll, bigrams]
  | cons c cs ih =>
    intro a b t h
    rw [countLoop, if_neg encodeAll_ne]
    split
    · rename_i e he
      rw [next_encode (h c (by simp))] at he
      simp at he
    · rename_i cp rest he
      rw [next_encode (h c (by simp))] at he
      simp only [Except.ok.injEq, Prod.mk.injEq] at he
      obtain ⟨rfl, rfl⟩ := he
      rw [lower_small, ih b c _ (fun x hx => h x (List.mem_cons_of_mem _ hx)), cell_place]
      congr 1
      funext i
      have hne : bigrams (b :: c :: cs) ≠ [] := by rw [bigrams_cons]; simp
      rw [bigrams_cons a b, List.dropLast_cons_of_ne_nil hne, List.filter_cons]
      generalize (bigrams (b :: c :: cs)).dropLast = ps
      by_cases hi : place (a, b) = i
      · simp only [bump, hi, decide_true, if_true, List.length_cons]
        omega
      · have hi' : ¬i = place (a, b) := fun h => hi h.symm
        simp only [bump, hi', hi, decide_false, if_false]
        rfl

theorem encode_length (c : Nat) : 0 < (Spec.encode c).length := List.length_pos_of_ne_nil (encode_ne c)

theorem count_encode {cps : List Nat} (h : ∀ c ∈ cps, Spec.Scalar c)
    (h1 : cps.length = 1 → (Spec.encodeAll cps).length = 1) :
    countBigrams (Spec.encodeAll cps) = some (fun i => ((bigrams cps).dropLast.filter (fun p => place p = i)).length) := by
  rw [countBigrams]
  match cps, h, h1 with
  | [], _, _ => simp [Spec.encodeAll, bigrams]
  | [a], _, h1 => rw [if_pos (by rw [h1 rfl]; omega)]; simp [bigrams]
  | a :: b :: cs, h, _ =>
    rw [if_neg]
    · rw [next_encode (h a (by simp))]
      dsimp only
      rw [next_encode (h b (by simp))]
      dsimp only
      rw [lower_small, lower_small, countLoop_encode cs a b _ (fun x hx => h x (by simp [hx]))]
      simp
    · rw [encodeAll_cons, encodeAll_cons]
      have := encode_length a
      have := encode_length b
      simp only [List.length_append]
      omega

theorem count_single {c : Nat} (h : Spec.Scalar c) (h1 : 1 < (Spec.encode c).length) :
    countBigrams (Spec.encodeAll [c]) = none := by
  rw [countBigrams, if_neg (by simp [Spec.encodeAll]; omega), next_encode h]
  rfl

theorem foldl_sum {α : Type} [AddCommMonoid α] (f : Nat → α) : ∀ (l : List Nat) (a : α),
    l.foldl (fun s i => s + f i) a = a + (l.map f).sum := by
  intro l
  induction l with
  | nil => intro a; simp
  | cons x l ih => intro a; rw [List.foldl_cons, ih]; simp [add_assoc]

theorem sum_indicator (x : Nat) : ∀ n, ((List.range n).map (fun i => if x = i then 1 else 0)).sum = if x < n then 1 else 0 := by
  intro n
  induction n with
  | zero => simp
  | succ n ih =>
    rw [List.range_succ, List.map_append, List.sum_append, ih]
    simp only [List.map_cons, List.map_nil, List.sum_cons, List.sum_nil]
    split <;> split <;> split <;> omega

theorem sum_filters (f : (Nat × Nat) → Nat) (n : Nat) : ∀ ps : List (Nat × Nat), (∀ p ∈ ps, f p < n) →
    ((List.range n).map (fun i => (ps.filter (fun p => f p = i)).length)).sum = ps.length := by
  intro ps
  induction ps with
  | nil => intro _; simp
  | cons p ps ih =>
    intro h
    have : (fun i => ((p :: ps).filter (fun p => decide (f p = i))).length) =
        fun i => (ps.filter (fun p => decide (f p = i))).length + if f p = i then 1 else 0 := by
      funext i
      rw [List.filter_cons]
      by_cases hi : f p = i <;> simp [hi]
    rw [this, List.sum_map_add, ih (fun q hq => h q (List.mem_cons_of_mem _ hq)), sum_indicator, if_pos (h p (by simp))]
    simp

theorem sumOfCounts_filters (ps : List (Nat × Nat)) :
    sumOfCounts (fun i => (ps.filter (fun p => place p = i)).length) = ps.length := by
  rw [sumOfCounts, foldl_sum, zero_add]
  exact sum_filters place 512 ps (fun p _ => Nat.mod_lt _ (by norm_num))

theorem frequencies_share (ps : List (Nat × Nat)) :
    frequencies (fun i => (ps.filter (fun p => place p = i)).length) = share ps := by
  funext i
  rw [frequencies, sumOfCounts_filters, share]
  cases ps with
  | nil => simp
  | cons p ps => simp

theorem distance_squares (t u : Nat → Rat) : distance t u = squares t u := by
  rw [distance, foldl_sum, zero_add, squares]
  simp only [pow_two]
  rfl

theorem share_bounds (ps : List (Nat × Nat)) (i : Nat) : 0 ≤ share ps i ∧ share ps i ≤ 1 := by
  rw [share]
  split
  · exact ⟨le_refl _, zero_le_one⟩
  · rename_i h
    have hp : 0 < (ps.length : Rat) := by
      have := List.length_pos_of_ne_nil h
      exact_mod_cast this
    constructor
    · exact div_nonneg (Nat.cast_nonneg _) hp.le
    · refine div_le_one_of_le₀ ?_ hp.le
      exact_mod_cast List.length_filter_le _ _

theorem sum_le_bound {f : Nat → Rat} : ∀ n, (∀ i < n, f i ≤ 1) → ((List.range n).map f).sum ≤ n := by
  intro n
  induction n with
  | zero => intro _; simp
  | succ n ih =>
    intro h
    rw [List.range_succ, List.map_append, List.sum_append]
    have h1 := ih (fun i hi => h i (by omega))
    have h2 := h n (by omega)
    simp only [List.map_cons, List.map_nil, List.sum_cons, List.sum_nil, add_zero]
    push_cast
    linarith

theorem squares_bound {t u : Nat → Rat} (ht : ∀ i < 512, 0 ≤ t i ∧ t i ≤ 1) (hu : ∀ i < 512, 0 ≤ u i ∧ u i ≤ 1) :
    squares t u ≤ 512 := by
  have := sum_le_bound (f := fun i => (t i - u i) ^ 2) 512 (by
    intro i hi
    obtain ⟨a, b⟩ := ht i hi
    obtain ⟨c, d⟩ := hu i hi
    nlinarith)
  exact_mod_cast this

theorem nearestLoop_spec (t : Nat → Rat) : ∀ (langs : List Language) (best : Str × Rat),
    (nearestLoop t langs best = best ∧ ∀ l ∈ langs, best.2 ≤ squares t l.table) ∨
    (∃ pre lang post, langs = pre ++ lang :: post ∧ nearestLoop t langs best = (lang.name, squares t lang.table) ∧
      squares t lang.table < best.2 ∧ (∀ l ∈ pre, squares t lang.table < squares t l.table) ∧
      ∀ l ∈ post, squares t lang.table ≤ squares t l.table) := by
  intro langs
  induction langs with
  | nil => intro best; left; exact ⟨rfl, by simp⟩
  | cons lang langs ih =>
    intro best
    have hstep : nearestLoop t (lang :: langs) best = nearestLoop t langs
        (if squares t lang.table < best.2 then (lang.name, squares t lang.table) else best) := by
      rw [nearestLoop, distance_squares]
    rw [hstep]
    clear hstep
    generalize hd : squares t lang.table = d
    by_cases hlt : d < best.2
    · rw [if_pos hlt]
      right
      rcases ih (lang.name, d) with ⟨h1, h2⟩ | ⟨pre, lang', post, h1, h2, h3, h4, h5⟩
      · exact ⟨[], lang, langs, rfl, by rw [hd]; exact h1, by rw [hd]; exact hlt, by simp, by rw [hd]; exact h2⟩
      · refine ⟨lang :: pre, lang', post, by rw [h1]; simp, h2, lt_trans h3 hlt, ?_, h5⟩
        intro l hl
        rcases List.mem_cons.1 hl with rfl | hl
        · rw [hd]; exact h3
        · exact h4 l hl
    · rw [if_neg hlt]
      rcases ih best with ⟨h1, h2⟩ | ⟨pre, lang', post, h1, h2, h3, h4, h5⟩
      · left
        refine ⟨h1, ?_⟩
        intro l hl
        rcases List.mem_cons.1 hl with rfl | hl
        · rw [hd]; exact not_lt.1 hlt
        · exact h2 l hl
      · right
        refine ⟨lang :: pre, lang', post, by rw [h1]; simp, h2, h3, ?_, h5⟩
        intro l hl
        rcases List.mem_cons.1 hl with rfl | hl
        · rw [hd]; exact lt_of_lt_of_le h3 (not_lt.1 hlt)
        · exact h4 l hl

theorem byBigrams_nearest {langs : List Language} {cps : List Nat} (hl : langs ≠ [])
    (ht : ∀ l ∈ langs, ∀ i < 512, 0 ≤ l.table i ∧ l.table i ≤ 1) (h : ∀ c ∈ cps, Spec.Scalar c) (hne : cps ≠ [])
    (h1 : cps.length = 1 → (Spec.encodeAll cps).length = 1) :
    ∃ name, byBigrams langs (Spec.encodeAll cps) = some name ∧ Nearest (share (bigrams cps).dropLast) langs name := by
  rw [byBigrams, if_neg, count_encode h h1]
  · dsimp only
    rw [frequencies_share]
    rcases nearestLoop_spec (share (bigrams cps).dropLast) langs (unknown, 100000000000) with ⟨_, h2⟩ | ⟨pre, lang, post, h2, h3, _, h5, h6⟩
    · exfalso
      obtain ⟨l, hl'⟩ := List.exists_mem_of_ne_nil _ hl
      have a := h2 l hl'
      have b := squares_bound (fun i _ => share_bounds (bigrams cps).dropLast i) (ht l hl')
      simp only at a
      linarith
    · exact ⟨lang.name, by rw [h3], pre, lang, post, h2, rfl, h5, h6⟩
  · cases cps with
    | nil => exact absurd rfl hne
    | cons c cps => simp [encodeAll_ne]

theorem guess_step {g : Guesser} {text : Str} (hf : g.forced = []) {l : Str}
    (h : (if text.length < minLength then byLetters text g.languages else byBigrams g.languages text) = some l)
    (hl : l ≠ unknown) : guess g text = some l := by
  rw [guess, if_neg (by simp [hf]), h]
  dsimp only
  rw [if_neg (by simp [hl])]
  simp [hl]

theorem nearest_mem {t : Nat → Rat} {langs : List Language} {name : Str} (h : Nearest t langs name) :
    ∃ l ∈ langs, l.name = name := by
  obtain ⟨pre, lang, post, h1, h2, _⟩ := h
  exact ⟨lang, by simp [h1], h2⟩

theorem byLetters_mem {text : Str} : ∀ {langs : List Language} {name : Str}, byLetters text langs = some name →
    (∃ l ∈ langs, l.name = name) ∨ name = unknown := by
  intro langs
  induction langs with
  | nil => intro name h; simp [byLetters] at h; exact Or.inr h.symm
  | cons lang langs ih =>
    intro name h
    have up : ((∃ l ∈ langs, l.name = name) ∨ name = unknown) → (∃ l ∈ lang :: langs, l.name = name) ∨ name = unknown := by
      rintro (⟨l, h1, h2⟩ | h)
      · exact Or.inl ⟨l, List.mem_cons_of_mem _ h1, h2⟩
      · exact Or.inr h
    rw [byLetters] at h
    split at h
    · exact up (ih h)
    · split at h
      · simp at h
      · split at h
        · simp only [Option.some.injEq] at h
          exact Or.inl ⟨lang, by simp, h⟩
        · exact up (ih h)

theorem byBigrams_mem {text : Str} {langs : List Language} {name : Str} (h : byBigrams langs text = some name) :
    (∃ l ∈ langs, l.name = name) ∨ name = unknown := by
  rw [byBigrams] at h
  split at h
  · simp only [Option.some.injEq] at h; exact Or.inr h.symm
  · split at h
    · simp at h
    · rename_i t ht
      simp only [Option.some.injEq] at h
      rcases nearestLoop_spec (frequencies t) langs (unknown, 100000000000) with ⟨h1, _⟩ | ⟨pre, lang, post, h1, h2, _⟩
      · rw [h1] at h; exact Or.inr h.symm
      · rw [h2] at h; exact Or.inl ⟨lang, by simp [h1], h⟩

theorem forceGuess_mem {g : Guesser} {text : Str} {name : Str} (h : forceGuess g text = some name) :
    (∃ l ∈ g.languages, l.name = name) ∨ name = unknown := by
  rw [forceGuess] at h
  split at h
  · simp at h
  · rename_i lang hl
    simp only [Option.some.injEq] at h
    exact Or.inl ⟨lang, by simp [hl], h⟩
  · rename_i lang rest _ hl
    split at h
    · split at h
      · simp at h
      · rename_i l hb
        simp only [Option.some.injEq] at h
        split at h
        · exact Or.inl ⟨lang, by simp [hl], h⟩
        · rw [h] at hb; exact byBigrams_mem hb
    · simp only [Option.some.injEq] at h; exact Or.inr h.symm

theorem guess_mem {g : Guesser} {text : Str} {name : Str} (hf : g.forced = []) (h : guess g text = some name) :
    (∃ l ∈ g.languages, l.name = name) ∨ name = g.default_ ∨ (name = unknown ∧ g.default_ = noneLanguage) := by
  rw [guess, if_neg (by simp [hf])] at h
  split at h
  · simp at h
  · rename_i l hl
    have hm : (∃ l' ∈ g.languages, l'.name = l) ∨ l = unknown := by
      split at hl
      · exact byLetters_mem hl
      · exact byBigrams_mem hl
    split at h
    · simp at h
    · rename_i l' hl'
      have hm' : (∃ l ∈ g.languages, l.name = l') ∨ l' = unknown := by
        split at hl'
        · exact forceGuess_mem hl'
        · simp only [Option.some.injEq] at hl'; rw [← hl']; exact hm
      simp only [Option.some.injEq] at h
      split at h
      · exact Or.inr (Or.inl h.symm)
      · rename_i hn
        rw [h] at hm' hn
        rcases hm' with hm' | hm'
        · exact Or.inl hm'
        · exact Or.inr (Or.inr ⟨hm', by by_contra hd; exact hn ⟨hm', hd⟩⟩)

theorem countLoop_valid : ∀ (n : Nat) (text : Str) (a b : Nat) (t t' : Nat → Nat), text.length ≤ n →
    countLoop text a b t = some t' → Spec.WellFormed text := by
  intro n
  induction n with
  | zero =>
    intro text a b t t' hn _
    have : text = [] := List.eq_nil_of_length_eq_zero (by omega)
    exact ⟨[], by simp, by simp [this, Spec.encodeAll]⟩
  | succ n ih =>
    intro text a b t t' hn h
    rw [countLoop] at h
    split at h
    · rename_i he; exact ⟨[], by simp, by simp [he, Spec.encodeAll]⟩
    · split at h
      · simp at h
      · rename_i cp rest he
        have hlt := validateNext_lt he
        exact wellFormed_next he (ih rest _ _ _ _ (by omega) h)

theorem countBigrams_invalid {text : Str} (h : ¬Spec.WellFormed text) (hl : 2 ≤ text.length) : countBigrams text = none := by
  cases hc : countBigrams text with
  | none => rfl
  | some t =>
    exfalso
    rw [countBigrams, if_neg (by omega)] at hc
    split at hc
    · simp at hc
    · rename_i e1
      split at hc
      · simp at hc
      · rename_i e2
        exact h (wellFormed_next e1 (wellFormed_next e2 (countLoop_valid _ _ _ _ _ _ (le_refl _) hc)))

theorem selectLoop_iff (known : List Language) : ∀ (selected : List Str) (ls : List Language),
    selectLoop known selected = some ls ↔
      List.Forall₂ (fun s l => known.find? (fun l => l.name == s) = some l) selected ls := by
  intro selected
  induction selected with
  | nil => intro ls; cases ls <;> simp [selectLoop]
  | cons s ss ih =>
    intro ls
    rw [selectLoop]
    cases hf : known.find? (fun l => l.name == s) with
    | none =>
      cases ls with
      | nil => simp
      | cons l ls => simp [hf]
    | some l =>
      cases ls with
      | nil => simp
      | cons l' ls' =>
        simp only [Option.map_eq_some_iff, List.cons.injEq, List.forall₂_cons, hf, Option.some.injEq, ← ih]
        constructor
        · rintro ⟨a, h1, rfl, rfl⟩; exact ⟨rfl, h1⟩
        · rintro ⟨rfl, h1⟩; exact ⟨ls', h1, rfl, rfl⟩

end Verif.Guess
