import Verif.Casing.Hooks
import Verif.Casing.Spec

/-!
Helper lemmas on the output iterator of the lemmatizers.
-/
namespace Verif.Casing.Hooks

/-- The depth of a kind of annotation. -/
def Level.depth : Level → Nat
  | .correction => Spec.depth "correction"
  | .normalization => Spec.depth "normalization"
  | .lemma => Spec.depth "lemma"
  | .lexeme => Spec.depth "lexeme"
  | .form => Spec.depth "form"

theorem depth_vals : Level.depth .correction = 1 ∧ Level.depth .normalization = 2
    ∧ Level.depth .lemma = 3 ∧ Level.depth .lexeme = 4 ∧ Level.depth .form = 5 := by
  decide

/-- The remembered edges are those the specification names. -/
structure Agrees {E : Type} (token : E) (made : List (Nat × E)) (l : Last E) : Prop where
  correction : l.correction = Spec.belongs token made 2
  normalization : l.normalization = Spec.belongs token made 3
  lemma : l.lemma = Spec.belongs token made 4
  lexeme : ∀ e, l.lexeme = some e → e = Spec.belongs token made 5
  unset : l.lexeme = none ↔ ∀ q ∈ made, ¬ q.1 < 5

theorem Agrees.start {E : Type} (token : E) : Agrees token [] (Last.start token) :=
  ⟨rfl, rfl, rfl, by simp [Last.start], by simp [Last.start]⟩

theorem belongs_cons {E : Type} (token : E) (made : List (Nat × E)) (n : Nat) (e : E) (d : Nat) :
    Spec.belongs token ((n, e) :: made) d = if n < d then e else Spec.belongs token made d := by
  unfold Spec.belongs
  rw [List.find?_cons]
  by_cases h : n < d <;> simp [h]

theorem Agrees.under {E : Type} {token : E} {made : List (Nat × E)} {l : Last E}
    (h : Agrees token made l) (hm : ∀ q ∈ made, 1 ≤ q.1) {v : Level} {u : E}
    (hu : l.under token v = some u) : u = Spec.belongs token made v.depth := by
  obtain ⟨d1, d2, d3, d4, d5⟩ := depth_vals
  cases v
  · simp only [Last.under, Option.some.injEq] at hu
    rw [d1, ← hu, Spec.belongs]
    have : made.find? (fun q => decide (q.1 < 1)) = none := by
      rw [List.find?_eq_none]
      intro q hq
      have := hm q hq
      simp only [decide_eq_true_eq]
      omega
    rw [this]; rfl
  · simp only [Last.under, Option.some.injEq] at hu
    rw [d2, ← hu]; exact h.correction
  · simp only [Last.under, Option.some.injEq] at hu
    rw [d3, ← hu]; exact h.normalization
  · simp only [Last.under, Option.some.injEq] at hu
    rw [d4, ← hu]; exact h.lemma
  · rw [d5]; exact h.lexeme u hu

theorem Agrees.after {E : Type} {token : E} {made : List (Nat × E)} {l : Last E}
    (h : Agrees token made l) (v : Level) (e : E) :
    Agrees token ((v.depth, e) :: made) (l.after e v) := by
  obtain ⟨d1, d2, d3, d4, d5⟩ := depth_vals
  obtain ⟨h1, h2, h3, h4, h5⟩ := h
  cases v
  · refine ⟨?_, ?_, ?_, ?_, ?_⟩ <;> simp [d1, belongs_cons, Last.after]
  · refine ⟨?_, ?_, ?_, ?_, ?_⟩ <;> simp [d2, belongs_cons, Last.after, h1]
  · refine ⟨?_, ?_, ?_, ?_, ?_⟩ <;> simp [d3, belongs_cons, Last.after, h1, h2]
  · refine ⟨?_, ?_, ?_, ?_, ?_⟩ <;> simp [d4, belongs_cons, Last.after, h1, h2, h3]
  · refine ⟨?_, ?_, ?_, ?_, ?_⟩
    · simp [d5, belongs_cons, Last.after, h1]
    · simp [d5, belongs_cons, Last.after, h2]
    · simp [d5, belongs_cons, Last.after, h3]
    · simpa [d5, belongs_cons, Last.after] using h4
    · simpa [d5, Last.after] using h5

/-- The annotations made, as the specification sees them: newest first. -/
def seen {E : Type} (ms : List (Made E)) : List (Nat × E) :=
  (ms.map fun m => (m.level.depth, m.edge)).reverse

theorem depth_pos (v : Level) : 1 ≤ v.depth := by cases v <;> decide

theorem run_spec {σ E α : Type} (add : σ → Level → α → E → σ × E) (token : E)
    (s : σ) (l : Last E) (events : List (Level × α)) (made : List (Nat × E))
    (h : Agrees token made l) (hm : ∀ q ∈ made, 1 ≤ q.1) {s' : σ} {ms : List (Made E)}
    (hr : run add token s l events = some (s', ms)) :
    ∀ before m after, ms = before ++ m :: after →
      m.under = Spec.belongs token (seen before ++ made) m.level.depth := by
  induction events generalizing s l made ms with
  | nil =>
    simp only [run, Option.some.injEq, Prod.mk.injEq] at hr
    intro before m after he
    rw [← hr.2] at he
    simp at he
  | cons v events ih =>
    obtain ⟨v, a⟩ := v
    rw [run] at hr
    cases hu : l.under token v with
    | none => rw [hu] at hr; simp at hr
    | some u =>
      rw [hu] at hr
      simp only [Option.map_eq_some_iff] at hr
      obtain ⟨r, hr, he⟩ := hr
      simp only [Prod.mk.injEq] at he
      obtain ⟨rfl, rfl⟩ := he
      intro before m after hms
      cases before with
      | nil =>
        simp only [List.nil_append, List.cons.injEq] at hms
        rw [← hms.1]
        simpa [seen] using h.under hm hu
      | cons b before =>
        simp only [List.cons_append, List.cons.injEq] at hms
        have hb := hms.1
        have := ih _ _ _ (h.after v (add s v a u).2)
          (fun q hq => by
            rcases List.mem_cons.1 hq with rfl | hq
            · exact depth_pos v
            · exact hm q hq) hr before m after hms.2
        rw [this, ← hb]
        simp [seen]

theorem after_lexeme {E : Type} (l : Last E) (e : E) {v : Level} (h : v ≠ .form) :
    (l.after e v).lexeme = some e := by
  cases v <;> first | rfl | exact absurd rfl h

theorem run_defined {σ E α : Type} (add : σ → Level → α → E → σ × E) (token : E)
    (s : σ) (l : Last E) (events : List (Level × α)) :
    run add token s l events = none
      ↔ l.lexeme = none ∧ (events.map Prod.fst).head? = some .form := by
  have key : ∀ (events : List (Level × α)) (s : σ) (l : Last E) (e : E), l.lexeme = some e →
      ∃ r, run add token s l events = some r := by
    intro events
    induction events with
    | nil => intro s l e _; exact ⟨_, rfl⟩
    | cons v events ih =>
      obtain ⟨v, a⟩ := v
      intro s l e hl
      have hu : ∃ u, l.under token v = some u := by
        cases v
        case form => exact ⟨e, hl⟩
        all_goals exact ⟨_, rfl⟩
      obtain ⟨u, hu⟩ := hu
      have hl' : ∃ e', (l.after (add s v a u).2 v).lexeme = some e' := by
        cases v
        case form => exact ⟨e, hl⟩
        all_goals exact ⟨_, rfl⟩
      obtain ⟨e', hl'⟩ := hl'
      obtain ⟨r, hr⟩ := ih (add s v a u).1 _ e' hl'
      refine ⟨(r.1, ⟨v, u, (add s v a u).2⟩ :: r.2), ?_⟩
      rw [run, hu]
      simp [hr]
  constructor
  · intro h
    cases hl : l.lexeme with
    | some e =>
      obtain ⟨r, hr⟩ := key events s l e hl
      rw [hr] at h; simp at h
    | none =>
      refine ⟨rfl, ?_⟩
      cases events with
      | nil => simp [run] at h
      | cons v events =>
        obtain ⟨v, a⟩ := v
        by_cases hv : v = .form
        · subst hv; rfl
        · exfalso
          have hu : ∃ u, l.under token v = some u := by
            cases v <;> first | exact ⟨_, rfl⟩ | exact absurd rfl hv
          obtain ⟨u, hu⟩ := hu
          rw [run, hu] at h
          simp only [Option.map_eq_none_iff] at h
          obtain ⟨r, hr⟩ := key events (add s v a u).1 _ _ (after_lexeme l (add s v a u).2 hv)
          rw [hr] at h; simp at h
  · rintro ⟨hl, hh⟩
    cases events with
    | nil => simp at hh
    | cons v events =>
      obtain ⟨v, a⟩ := v
      simp only [List.map_cons, List.head?_cons, Option.some.injEq] at hh
      subst hh
      rw [run]
      simp [Last.under, hl]

end Verif.Casing.Hooks
