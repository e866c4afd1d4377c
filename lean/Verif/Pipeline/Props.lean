import Verif.Pipeline.Term
import Mathlib.Algebra.Order.Ring.Rat

/-!
C54-C56: completion of pipelines.
-/
set_option linter.unusedSimpArgs false
set_option linter.unusedVariables false
namespace Verif.Pipeline
open Spec
variable {P : Type} {env : Env P}

/-! ### C54: what is found is a complete pipeline for what was asked -/

theorem ready_nil : Ready env [] := by
  intro pre p post e
  simp at e

theorem map_true (s : List (List P)) : (s.map (fun a => (a, true))).map Prod.fst = s := by
  induction s <;> simp_all

theorem expand_of {langs : List Str} {n : Nat} {sequence rs : List (List P)} (h : complete env langs n [] [] sequence = .ok rs)
    {r : List P} (hr : r ∈ rs) : ∃ m, m.map Prod.fst = r ∧ Expand env langs [] (sequence.map (fun a => (a, true))) m :=
  complete_expand langs n (d := []) (e := []) (by simpa using ready_nil) (by rw [map_true]; exact h) r hr

/-- **C54**: in every pipeline that is found, what a processor requires is provided by one processor before it, and no
processor is left whose language is open. -/
theorem C54_fulfilled (langs : List Str) (n : Nat) (sequence rs : List (List P))
    (h : complete env langs n [] [] sequence = .ok rs) (r : List P) (hr : r ∈ rs) :
    Fulfilled env r ∧ ∀ p ∈ r, env.handling p ≠ .dependent := by
  obtain ⟨m, rfl, hm⟩ := expand_of h hr
  have := hm.ready ready_nil
  refine ⟨ready_fulfilled this, fun p hp => ?_⟩
  obtain ⟨a, b, e⟩ := List.append_of_mem hp
  exact (this a p b e).1

/-- **C54** (nothing lost, nothing without reason): every pipeline that is found has, in the order asked for, one of the
processors of each alternative, or one for each language; and every processor beside these was inserted for the sake of
a later one. -/
theorem C54_requested (sane : Sane env) (langs : List Str) (n : Nat) (sequence rs : List (List P))
    (h : complete env langs n [] [] sequence = .ok rs) (r : List P) (hr : r ∈ rs) :
    ∃ m : List (P × Bool), m.map Prod.fst = r ∧ Needed env m ∧
      ∃ segs, List.Forall₂ (Chosen env langs) sequence segs ∧ (m.filter (fun x => x.2)).map Prod.fst = segs.flatten := by
  obtain ⟨m, rfl, hm⟩ := expand_of h hr
  refine ⟨m, rfl, ?_, ?_⟩
  · refine hm.needed sane (Justified.true (by simp)) ?_
    intro pre q post e
    simp at e
  · obtain ⟨t, h1, segs, h2, h3⟩ := hm.chosen sane
    simp only [List.nil_append] at h1
    subst h1
    refine ⟨segs, ?_, h3⟩
    rw [List.filter_eq_self.2 (by simp), map_true] at h2
    exact h2

/-- **C54** (nothing to do): a pipeline that is complete and in which every language is set is found as it is. -/
theorem C54_unchanged (langs : List Str) (r : List P) (hf : Fulfilled env r) (hd : ∀ p ∈ r, env.handling p ≠ .dependent) (n : Nat)
    (hn : r.length < n) : complete env langs n [] [] (r.map (fun p => [p])) = .ok [r] := by
  have hr : Ready env r := by
    intro pre p post e
    exact ⟨hd p (by rw [e]; simp), unfulfilled_none.2 (hf pre p post e)⟩
  have := complete_skip (langs := langs) r (n := n) (before := []) (mid := []) (todo := []) (by simpa using hr) (by omega)
  simp only [List.append_nil, List.nil_append] at this
  rw [this]
  obtain ⟨k, hk⟩ := Nat.exists_eq_add_of_lt hn
  rw [show n - r.length = k + 1 by omega]
  simp [complete]

/-! ### C55: the best of them is taken -/

theorem foldl_sum (f : P → Rat) (s : List P) : ∀ v, s.foldl (fun v p => v + f p) v = v + (s.map f).sum := by
  induction s with
  | nil => intro v; simp
  | cons p s ih => intro v; simp only [List.foldl_cons, List.map_cons, List.sum_cons, ih, add_assoc]

theorem qualityOf_eq (s : List P) : qualityOf env s = (s.map env.quality).sum := by simp [qualityOf, foldl_sum]

theorem timeOf_eq (s : List P) : timeOf env s = (s.map env.time).sum := by simp [timeOf, foldl_sum]

/-- `s` is not better than `b`: its processors have less quality together, or the same and at least the time. -/
def NotBetter (env : Env P) (s b : List P) : Prop :=
  (s.map env.quality).sum < (b.map env.quality).sum ∨
    (s.map env.quality).sum = (b.map env.quality).sum ∧ (b.map env.time).sum ≤ (s.map env.time).sum

theorem better_iff {s b : List P} : better env s b = true ↔ ¬ NotBetter env s b := by
  simp only [better, NotBetter, qualityOf_eq, timeOf_eq, Bool.or_eq_true, Bool.and_eq_true, decide_eq_true_eq]
  generalize (s.map env.quality).sum = a
  generalize (b.map env.quality).sum = c
  generalize (s.map env.time).sum = x
  generalize (b.map env.time).sum = y
  constructor
  · rintro (h | ⟨h1, h2⟩) (h3 | ⟨h3, h4⟩)
    · exact absurd h (not_lt.2 (le_of_lt h3))
    · exact absurd h3.symm (ne_of_lt h)
    · exact absurd h1 (ne_of_lt h3)
    · exact absurd h2 (not_lt.2 h4)
  · intro h
    rw [not_or] at h
    rcases lt_trichotomy a c with h1 | h1 | h1
    · exact absurd h1 h.1
    · exact Or.inr ⟨h1, not_le.1 (fun h2 => h.2 ⟨h1, h2⟩)⟩
    · exact Or.inl h1

theorem NotBetter.refl (s : List P) : NotBetter env s s := Or.inr ⟨rfl, le_refl _⟩

theorem NotBetter.trans {s t u : List P} (h1 : NotBetter env s t) (h2 : NotBetter env t u) : NotBetter env s u := by
  rcases h1 with h1 | ⟨h1, h1'⟩ <;> rcases h2 with h2 | ⟨h2, h2'⟩
  · exact Or.inl (lt_trans h1 h2)
  · exact Or.inl (h2 ▸ h1)
  · exact Or.inl (h1 ▸ h2)
  · exact Or.inr ⟨h1.trans h2, le_trans h2' h1'⟩

theorem notBetter_of_better {s b : List P} (h : better env s b = true) : NotBetter env b s := by
  rw [better_iff, NotBetter, not_or] at h
  rcases lt_trichotomy (b.map env.quality).sum (s.map env.quality).sum with h1 | h1 | h1
  · exact Or.inl h1
  · exact Or.inr ⟨h1, le_of_lt (not_le.1 (fun h2 => h.2 ⟨h1.symm, h2⟩))⟩
  · exact absurd h1 h.1

theorem tryAll_some (ss : List (List P)) : ∀ {i : Nat} {b : Nat × List P}, ∃ j s, tryAll env i (some b) ss = some (j, s) ∧
    NotBetter env b.2 s ∧ (∀ t ∈ ss, NotBetter env t s) ∧ ((j, s) = b ∨ i ≤ j ∧ ss[j - i]? = some s) := by
  induction ss with
  | nil => intro i b; exact ⟨b.1, b.2, rfl, NotBetter.refl _, by simp, Or.inl rfl⟩
  | cons s ss ih =>
    intro i b
    simp only [tryAll]
    split
    · rename_i hb
      obtain ⟨j, u, h1, h2, h3, h4⟩ := ih (i := i + 1) (b := (i, s))
      refine ⟨j, u, h1, (notBetter_of_better hb).trans h2, ?_, ?_⟩
      · intro t ht
        rcases List.mem_cons.1 ht with rfl | ht
        · exact h2
        · exact h3 t ht
      · rcases h4 with h4 | ⟨h4, h5⟩
        · cases h4
          exact Or.inr ⟨Nat.le_refl _, by simp⟩
        · refine Or.inr ⟨by omega, ?_⟩
          rw [show j - i = (j - (i + 1)) + 1 by omega]
          simpa using h5
    · rename_i hb
      rw [better_iff, not_not] at hb
      obtain ⟨j, u, h1, h2, h3, h4⟩ := ih (i := i + 1) (b := b)
      refine ⟨j, u, h1, h2, ?_, ?_⟩
      · intro t ht
        rcases List.mem_cons.1 ht with rfl | ht
        · exact hb.trans h2
        · exact h3 t ht
      · rcases h4 with h4 | ⟨h4, h5⟩
        · exact Or.inl h4
        · refine Or.inr ⟨by omega, ?_⟩
          rw [show j - i = (j - (i + 1)) + 1 by omega]
          simpa using h5

theorem tryAll_none {ss : List (List P)} : tryAll env 0 none ss = none ↔ ss = [] := by
  cases ss with
  | nil => simp [tryAll]
  | cons s ss =>
    simp only [tryAll, reduceCtorEq, iff_false]
    obtain ⟨j, u, h1, _⟩ := tryAll_some (env := env) ss (i := 1) (b := (0, s))
    rw [h1]
    simp

theorem tryAll_best {ss : List (List P)} {i : Nat} {s : List P} (h : tryAll env 0 none ss = some (i, s)) :
    ss[i]? = some s ∧ ∀ t ∈ ss, NotBetter env t s := by
  cases ss with
  | nil => simp [tryAll] at h
  | cons b ss =>
    simp only [tryAll] at h
    obtain ⟨j, u, h1, h2, h3, h4⟩ := tryAll_some (env := env) ss (i := 1) (b := (0, b))
    rw [h] at h1
    cases h1
    refine ⟨?_, ?_⟩
    · rcases h4 with h4 | ⟨h4, h5⟩
      · cases h4; rfl
      · rw [show i = (i - 1) + 1 by omega]
        simpa using h5
    · intro t ht
      rcases List.mem_cons.1 ht with rfl | ht
      · exact h2
      · exact h3 t ht

theorem mem_erase_or {α : Type} {ss : List α} {i : Nat} {s t : α} (h : ss[i]? = some s) (ht : t ∈ ss) : t = s ∨ t ∈ ss.eraseIdx i := by
  induction ss generalizing i with
  | nil => simp at ht
  | cons x xs ih =>
    cases i with
    | zero =>
      simp at h
      subst h
      simpa using ht
    | succ i =>
      rcases List.mem_cons.1 ht with rfl | ht
      · exact Or.inr (by simp)
      · rcases ih (by simpa using h) ht with h' | h'
        · exact Or.inl h'
        · exact Or.inr (by simp [h'])

/-- What the loop does, with the exception so far. -/
theorem choose_spec : ∀ (n : Nat) (ss : List (List P)), ss.length ≤ n → ∀ e : Option Str,
    match choose env n e ss with
    | .ok (some r) => r ∈ ss ∧ checkSolution env r = none ∧ ∀ s ∈ ss, checkSolution env s = none → NotBetter env s r
    | .ok none => ss = [] ∧ e = none
    | .error x => (∀ s ∈ ss, checkSolution env s ≠ none) ∧
        (e = some x ∨ e = none ∧ ∃ r ∈ ss, checkSolution env r = some x ∧ ∀ s ∈ ss, NotBetter env s r) := by
  intro n
  induction n with
  | zero =>
    intro ss hn e
    have : ss = [] := by cases ss with
      | nil => rfl
      | cons => simp at hn
    subst this
    cases e <;> simp [choose]
  | succ n ih =>
    intro ss hn e
    simp only [choose]
    cases ht : tryAll env 0 none ss with
    | none =>
      have := tryAll_none.1 ht
      subst this
      cases e <;> simp
    | some is =>
      obtain ⟨i, s⟩ := is
      obtain ⟨h1, h2⟩ := tryAll_best ht
      have hmem : s ∈ ss := List.mem_of_getElem? h1
      simp only
      cases hc : checkSolution env s with
      | none => simp only; exact ⟨hmem, hc, fun t ht _ => h2 t ht⟩
      | some x =>
        simp only
        have hlt : i < ss.length := (List.getElem?_eq_some_iff.1 h1).1
        have := ih (ss.eraseIdx i) (by rw [List.length_eraseIdx_of_lt hlt]; omega) (some (e.getD x))
        have hsub : ∀ t ∈ ss.eraseIdx i, t ∈ ss := fun t h => List.mem_of_mem_eraseIdx h
        split
        · rename_i r hr
          rw [hr] at this
          obtain ⟨k1, k2, k3⟩ := this
          refine ⟨hsub r k1, k2, fun t ht hct => ?_⟩
          rcases mem_erase_or h1 ht with rfl | ht
          · rw [hc] at hct; cases hct
          · exact k3 t ht hct
        · rename_i hr
          rw [hr] at this
          exact absurd this.2 (by simp)
        · rename_i y hr
          rw [hr] at this
          obtain ⟨k1, k2⟩ := this
          refine ⟨fun t ht => ?_, ?_⟩
          · rcases mem_erase_or h1 ht with rfl | ht
            · rw [hc]; simp
            · exact k1 t ht
          · rcases k2 with k2 | ⟨k2, _⟩
            · cases e with
              | none =>
                simp only [Option.getD_none, Option.some.injEq] at k2
                subst k2
                exact Or.inr ⟨rfl, s, hmem, hc, h2⟩
              | some z => exact Or.inl k2
            · cases k2

theorem checkSolution_none {s : List P} : checkSolution env s = none ↔ ∀ p ∈ s, env.error p = none := by
  simp [checkSolution, List.findSome?_eq_none_iff]

theorem checkSolution_some {s : List P} {x : Str} (h : checkSolution env s = some x) : ∃ p ∈ s, env.error p = some x :=
  List.exists_of_findSome?_eq_some h

/-- The processors of the pipeline can be made. -/
def Makes (env : Env P) (s : List P) : Prop := ∀ p ∈ s, env.error p = none

/-- **C55**: of the pipelines that were found the program takes one whose processors can all be made, and among those
none is better: has more quality, or the same and takes less time. -/
theorem C55_best (langs : List Str) (n : Nat) (sequence : List (List P)) (r : List P)
    (h : autoComplete env langs n sequence = .ok (.ok (some r))) :
    ∃ rs, complete env langs n [] [] sequence = .ok rs ∧ r ∈ rs ∧ Makes env r ∧ ∀ s ∈ rs, Makes env s → NotBetter env s r := by
  unfold autoComplete at h
  cases hc : complete env langs n [] [] sequence with
  | error e => rw [hc] at h; cases h
  | ok rs =>
    rw [hc] at h
    simp only [Except.map, Except.ok.injEq] at h
    have := choose_spec (env := env) rs.length rs (Nat.le_refl _) none
    rw [h] at this
    refine ⟨rs, rfl, this.1, checkSolution_none.1 this.2.1, fun s hs hm => this.2.2 s hs (checkSolution_none.2 hm)⟩

/-- **C55** (failure): there is no result only if no pipeline was found; there is an exception only if none of those that
were found can be made, and it comes from a processor of a best one. -/
theorem C55_failure (langs : List Str) (n : Nat) (sequence rs : List (List P)) (hc : complete env langs n [] [] sequence = .ok rs) :
    (autoComplete env langs n sequence = .ok (.ok none) ↔ rs = []) ∧
    ((∃ x, autoComplete env langs n sequence = .ok (.error x)) ↔ rs ≠ [] ∧ ∀ s ∈ rs, ¬ Makes env s) ∧
    ∀ x, autoComplete env langs n sequence = .ok (.error x) →
      ∃ r ∈ rs, (∀ s ∈ rs, NotBetter env s r) ∧ ∃ p ∈ r, env.error p = some x := by
  have e : autoComplete env langs n sequence = .ok (choose env rs.length none rs) := by simp [autoComplete, hc, Except.map]
  have hs := choose_spec (env := env) rs.length rs (Nat.le_refl _) none
  rw [e]
  cases hch : choose env rs.length none rs with
  | error x =>
    rw [hch] at hs
    obtain ⟨h1, h2⟩ := hs
    rcases h2 with h2 | ⟨_, r, h3, h4, h5⟩
    · cases h2
    have hne : rs ≠ [] := by rintro rfl; simp at h3
    refine ⟨by simp [hne], ⟨fun _ => ⟨hne, fun s hs hm => h1 s hs (checkSolution_none.2 hm)⟩, fun _ => ⟨x, rfl⟩⟩, ?_⟩
    intro y hy
    simp only [Except.ok.injEq, Except.error.injEq] at hy
    subst hy
    exact ⟨r, h3, h5, checkSolution_some h4⟩
  | ok o =>
    rw [hch] at hs
    cases o with
    | none =>
      obtain ⟨rfl, _⟩ := hs
      simp
    | some r =>
      simp only at hs
      have hne : rs ≠ [] := by rintro rfl; simp at hs
      refine ⟨by simp [hne], ⟨fun ⟨x, hx⟩ => by simp at hx, fun ⟨_, h⟩ => absurd (checkSolution_none.1 hs.2.1) (h r hs.1)⟩, ?_⟩
      intro x hx
      simp at hx

/-! ### C56: the search comes to an end -/

/-- **C56**: let there be a rank of the processors such that whatever may be inserted for a requirement of `p` is of
lower rank than `p`, and let processors provide what their factories say.  Then, with at least one language, the search
comes to an end.  (Missing: sets of processors with circles, see `C56_circle_false`, and no languages, see
`C56_no_language_false`.) -/
theorem C56_ends_partial (sane : Sane env) (rank : P → Nat) (langs : List Str) (hl : langs ≠ [])
    (low : ∀ p, ∀ T ∈ env.required p, ∀ f ∈ env.factories, (∀ t ∈ T, t ∈ f.provided) → (¬ ∃ R ∈ f.required, ∀ t ∈ T, t ∈ R) →
      rank f.default < rank p ∧ ∀ l, rank (f.withLang l) < rank p)
    (honest : ∀ f ∈ env.factories, ∀ t ∈ f.provided, t ∈ env.provided f.default ∧ ∀ l, t ∈ env.provided (f.withLang l))
    (sequence : List (List P)) : ∃ N, ∀ n ≥ N, complete env langs n [] [] sequence ≠ .error .steps := by
  have hlow : Lower env rank := by
    intro p T hT o q hq
    simp only [findFulfillers, List.mem_filterMap] at hq
    obtain ⟨f, hf, h⟩ := hq
    split at h
    · rename_i hc
      simp only [Bool.and_eq_true, Bool.not_eq_eq_eq_not, Bool.not_true] at hc
      have hsub := isSubset_iff.1 hc.2
      have hv : ¬ ∃ R ∈ f.required, ∀ t ∈ T, t ∈ R := by
        rintro ⟨R, hR, hx⟩
        have : isViciousCircle f T = true := by
          simp only [isViciousCircle, List.any_eq_true]
          exact ⟨R, hR, isSubset_iff.2 hx⟩
        rw [this] at hc
        exact absurd hc.1 (by simp)
      obtain ⟨k1, k2⟩ := low p T hT f hf hsub hv
      have hq : q = f.default ∨ ∃ l, q = f.withLang l := by
        unfold defaultPromise at h
        split at h
        · cases h; exact Or.inl rfl
        · cases h; exact Or.inl rfl
        · split at h
          · cases h; exact Or.inl rfl
          · split at h
            · cases h
            · cases h; exact Or.inl rfl
        · split at h
          · cases h
          · split at h
            · cases h; exact Or.inr ⟨_, rfl⟩
            · cases h
      rcases hq with rfl | ⟨l, rfl⟩
      · exact ⟨k1, fun t ht => (honest f hf t (hsub t ht)).1⟩
      · exact ⟨k2 l, fun t ht => (honest f hf t (hsub t ht)).2 l⟩
    · cases h
  obtain ⟨N, h⟩ := term_all sane hl hlow sequence [] ready_nil
  exact ⟨N, fun n hn => h n hn [] [] rfl⟩

/-! ### Examples -/

/-- `pl`, `en` -/
def pl : Str := [112, 108]
def en : Str := [101, 110]

/-- Tags: `token`, `lemma`, `parse`. -/
def tok : Str := [116]
def lem : Str := [108]
def par : Str := [112]

/-- Processors: 0 a reader, 1 a tokenizer, 2 a lemmatizer, 3 a parser, each of which works in Polish and English, and 4 a
tokenizer for any language.  A processor is a number with the language that was set. -/
def demoRequired : Nat → List (List Str)
  | 2 => [[tok]]
  | 3 => [[lem]]
  | _ => []

def demoProvided : Nat → List Str
  | 1 => [tok]
  | 2 => [lem]
  | 3 => [par]
  | 4 => [tok]
  | _ => []

def demoNeutral (k : Nat) : Bool := k == 0 || k == 4

/-- The environment; `bad` are the processors that cannot be made. -/
def demo (bad : List Nat) : Env (Nat × Option Str) where
  required p := demoRequired p.1
  provided p := demoProvided p.1
  handling p := if demoNeutral p.1 then .independent else if p.2 = none then .dependent else .one
  languages p := if demoNeutral p.1 then [] else match p.2 with
    | none => [en, pl]
    | some l => [l]
  clone p l := (p.1, some l)
  quality p := if p.1 = 1 then 5 else 1
  time _ := 1
  error p := if p.1 ∈ bad then some [33] else none
  factories := [1, 2, 3, 4].map (fun k => ⟨demoRequired k, demoProvided k, (k, none), fun l => (k, some l)⟩)

theorem demo_sane (bad : List Nat) : Sane (demo bad) := by
  refine ⟨?_, ?_, ?_⟩
  · rintro ⟨k, o⟩ h
    simp only [demo] at h ⊢
    split at h
    · cases h
    · rename_i hk
      split at h
      · cases h
      · cases o with
        | none => simp at *
        | some l => exact ⟨l, by simp [hk]⟩
  · rintro ⟨k, o⟩ l h _
    simp only [demo] at h ⊢
    split at h
    · cases h
    · rename_i hk
      simp [hk]
  · intro f hf
    simp only [demo, List.map_cons, List.map_nil, List.mem_cons, List.not_mem_nil, or_false] at hf
    rcases hf with rfl | rfl | rfl | rfl <;> intro h l hl <;> simp [demo, demoNeutral] at h ⊢

/-- A reader and a parser are asked for; two pipelines are found. -/
example : complete (demo []) [pl] 20 [] [] [[(0, none)], [(3, none)]] =
    .ok [[(0, none), (1, some pl), (2, some pl), (3, some pl)], [(0, none), (4, none), (2, some pl), (3, some pl)]] := by
  decide +kernel

/-- The first of them is better; if its tokenizer cannot be made, the other one is taken. -/
example : autoComplete (demo []) [pl] 20 [[(0, none)], [(3, none)]] =
      .ok (.ok (some [(0, none), (1, some pl), (2, some pl), (3, some pl)])) ∧
    autoComplete (demo [1]) [pl] 20 [[(0, none)], [(3, none)]] =
      .ok (.ok (some [(0, none), (4, none), (2, some pl), (3, some pl)])) ∧
    autoComplete (demo [2]) [pl] 20 [[(0, none)], [(3, none)]] = .ok (.error [33]) :=
  ⟨by decide +kernel, by decide +kernel, by decide +kernel⟩

/-- The conditions of `C56_ends_partial`. -/
example : (∀ p, ∀ T ∈ (demo []).required p, ∀ f ∈ (demo []).factories, (∀ t ∈ T, t ∈ f.provided) →
      (¬ ∃ R ∈ f.required, ∀ t ∈ T, t ∈ R) → f.default.1 % 4 < p.1 % 4 ∧ ∀ l, (f.withLang l).1 % 4 < p.1 % 4) ∧
    ∀ f ∈ (demo []).factories, ∀ t ∈ f.provided, t ∈ (demo []).provided f.default ∧ ∀ l, t ∈ (demo []).provided (f.withLang l) := by
  refine ⟨?_, ?_⟩
  · rintro ⟨k, o⟩ T hT f hf
    simp only [demo, List.map_cons, List.map_nil, List.mem_cons, List.not_mem_nil, or_false] at hf
    match k, hT with
    | 2, hT =>
      simp [demo, demoRequired] at hT
      subst hT
      rcases hf with rfl | rfl | rfl | rfl <;> simp [demoProvided, demoRequired, tok, lem, par]
    | 3, hT =>
      simp [demo, demoRequired] at hT
      subst hT
      rcases hf with rfl | rfl | rfl | rfl <;> simp [demoProvided, demoRequired, tok, lem, par]
    | 0, hT => simp [demo, demoRequired] at hT
    | 1, hT => simp [demo, demoRequired] at hT
    | k + 4, hT => simp [demo, demoRequired] at hT
  · intro f hf
    simp only [demo, List.map_cons, List.map_nil, List.mem_cons, List.not_mem_nil, or_false] at hf
    rcases hf with rfl | rfl | rfl | rfl <;> intro t ht <;> exact ⟨ht, fun _ => ht⟩

/-- The language is not looked at when a requirement is checked: with two languages the English parser gets the lemmas
of the Polish lemmatizer, or the other way round, and no lemmatizer of its own. -/
theorem C54_language_false : ∃ r, autoComplete (demo []) [en, pl] 30 [[(0, none)], [(3, none)]] = .ok (.ok (some r)) ∧
    (3, some pl) ∈ r ∧ ∀ q ∈ r, Provides (demo []) q [lem] → q = (2, some en) :=
  ⟨[(0, none), (1, some en), (2, some en), (3, some en), (3, some pl)], by decide +kernel, by decide, by
    intro q hq h
    have := h lem (by simp)
    simp only [List.mem_cons, List.not_mem_nil, or_false] at hq
    rcases hq with rfl | rfl | rfl | rfl | rfl <;> simp_all [demo, demoProvided, tok, lem, par]⟩

/-- Processors without languages: number `k` requires and provides what the functions say. -/
def plain (req : Nat → List (List Str)) (prov : Nat → List Str) (ks : List Nat) : Env Nat where
  required := req
  provided := prov
  handling _ := .independent
  languages _ := []
  clone p _ := p
  quality _ := 1
  time _ := 1
  error _ := none
  factories := ks.map (fun k => ⟨req k, prov k, k, fun _ => k⟩)

/-- `x`, `y` -/
def tx : Str := [120]
def ty : Str := [121]

/-- 0 requires `x`; 1 provides `x` and requires `y`; 2 provides both. -/
def superfluous : Env Nat :=
  plain (fun k => if k = 0 then [[tx]] else if k = 1 then [[ty]] else [])
    (fun k => if k = 1 then [tx] else if k = 2 then [tx, ty] else []) [1, 2]

/-- What is inserted can be superfluous: the pipeline without it was found too, but the one with more processors has the
greater sum of qualities. -/
theorem C54_superfluous_false : autoComplete superfluous [pl] 20 [[0]] = .ok (.ok (some [2, 1, 0])) ∧ Fulfilled superfluous [2, 0] ∧
    Fulfilled superfluous [2, 1, 0] := by
  refine ⟨by decide +kernel, ?_, ?_⟩
  · exact (C54_fulfilled [pl] 20 [[0]] [[2, 1, 0], [2, 0]] (by decide +kernel) [2, 0] (by simp)).1
  · exact (C54_fulfilled [pl] 20 [[0]] [[2, 1, 0], [2, 0]] (by decide +kernel) [2, 1, 0] (by simp)).1

/-- 0 requires `x`; 1 provides `x` and requires `y`; 2 provides `y` and requires `x`; 3 provides `x`. -/
def circle : Env Nat :=
  plain (fun k => if k = 0 then [[tx]] else if k = 1 then [[ty]] else if k = 2 then [[tx]] else [])
    (fun k => if k = 1 then [tx] else if k = 2 then [ty] else if k = 3 then [tx] else []) [1, 2, 3]

/-- Two processors that require each other's tags: the search never ends, although 3, 0 is a complete pipeline. -/
theorem C56_circle_false : Fulfilled circle [3, 0] ∧ ∀ n, complete circle [pl] n [] [] [[0]] = .error .steps := by
  refine ⟨?_, ?_⟩
  · intro pre p post e
    match pre, e with
    | [], e =>
      simp at e
      obtain ⟨rfl, _⟩ := e
      simp [circle, plain]
    | [a], e =>
      simp at e
      obtain ⟨rfl, rfl, _⟩ := e
      simp [circle, plain, Provides]
    | a :: b :: pre, e => simp at e
  · have multi : ∀ alt : List Nat, isMultilingual circle alt = false := by
      intro alt
      rw [← Bool.not_eq_true, isMultilingual_iff ⟨by simp [circle, plain], by simp [circle, plain], by simp [circle, plain]⟩]
      simp [Multilingual, circle, plain]
    have f1 : ∀ o, findFulfillers circle [tx] o = [1, 3] := by
      intro o
      simp [findFulfillers, circle, plain, isViciousCircle, isSubset, defaultPromise, tx, ty]
    have f2 : ∀ o, findFulfillers circle [ty] o = [2] := by
      intro o
      simp [findFulfillers, circle, plain, isViciousCircle, isSubset, defaultPromise, tx, ty]
    have u0 : unfulfilled circle [] 0 = some [tx] := by decide +kernel
    have u1 : unfulfilled circle [] 1 = some [ty] := by decide +kernel
    have u2 : unfulfilled circle [] 2 = some [tx] := by decide +kernel
    have key : ∀ n todo, complete circle [pl] n [] [] ([1] :: todo) = .error .steps ∧
        complete circle [pl] n [] [] ([2] :: todo) = .error .steps ∧
        complete circle [pl] n [] [] ([1, 3] :: todo) = .error .steps := by
      intro n
      induction n with
      | zero => intro todo; simp [complete]
      | succ n ih =>
        intro todo
        refine ⟨?_, ?_, ?_⟩
        · simp only [complete, multi, Bool.false_eq_true, if_false, List.append_nil, u1, f2]
          exact (ih _).2.1
        · simp only [complete, multi, Bool.false_eq_true, if_false, List.append_nil, u2, f1]
          exact (ih _).2.2
        · simp only [complete, multi, Bool.false_eq_true, if_false, List.append_nil, collect, List.map_nil, List.nil_append]
          rw [(ih _).1]
    intro n
    cases n with
    | zero => simp [complete]
    | succ n =>
      simp only [complete, multi, Bool.false_eq_true, if_false, List.append_nil, u0, f1]
      exact (key n _).2.2

/-- A language-dependent processor without any language: undefined behaviour. -/
theorem C56_no_language_false : complete (demo []) [] 20 [] [] [[(3, none)]] = .error .undefined := by decide +kernel

end Verif.Pipeline
