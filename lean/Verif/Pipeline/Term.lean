import Verif.Pipeline.Lemmas

/-!
The search comes to an end if requirements do not go round in circles.
-/
set_option linter.unusedSimpArgs false
set_option linter.unusedVariables false
namespace Verif.Pipeline
open Spec
variable {P : Type} {env : Env P}

/-- The search from here comes to an end. -/
def Term (env : Env P) (langs : List Str) (d : List P) (todo : List (List P)) : Prop :=
  ∃ N, ∀ n ≥ N, ∀ before mid, before ++ mid = d → complete env langs n before mid todo ≠ .error .steps

theorem term_nil {langs : List Str} {d : List P} : Term env langs d [] := by
  refine ⟨1, fun n hn before mid e => ?_⟩
  obtain ⟨n, rfl⟩ := Nat.exists_eq_add_of_le' hn
  simp [complete]

theorem term_multi {langs : List Str} {d alt : List P} {rest : List (List P)} (hl : langs ≠ [])
    (hm : isMultilingual env alt = true) (h : Term env langs d (langs.map (filtre env alt) ++ rest)) :
    Term env langs d (alt :: rest) := by
  obtain ⟨N, h⟩ := h
  refine ⟨N + 1, fun n hn before mid e => ?_⟩
  obtain ⟨n, rfl⟩ := Nat.exists_eq_add_of_le' (Nat.le_trans (Nat.le_add_left 1 N) hn)
  simp only [complete, hm, if_true, if_neg hl]
  split
  · simp
  · exact h n (by omega) _ _ (by simp [e])

theorem term_keep {langs : List Str} {d : List P} {p : P} {rest : List (List P)} (hp : env.handling p ≠ .dependent)
    (hu : unfulfilled env d p = none) (h : Term env langs (d ++ [p]) rest) : Term env langs d ([p] :: rest) := by
  obtain ⟨N, h⟩ := h
  refine ⟨N + 1, fun n hn before mid e => ?_⟩
  obtain ⟨n, rfl⟩ := Nat.exists_eq_add_of_le' (Nat.le_trans (Nat.le_add_left 1 N) hn)
  have hm : isMultilingual env [p] = false := by rw [← Bool.not_eq_true, multi_single]; exact hp
  simp only [complete, hm, Bool.false_eq_true, if_false, e, hu]
  exact h n (by omega) _ _ (by rw [← e]; simp)

theorem term_insert {langs : List Str} {d : List P} {p : P} {rest : List (List P)} {T : List Str} (hp : env.handling p ≠ .dependent)
    (hu : unfulfilled env d p = some T) (h : Term env langs d (findFulfillers env T (langOf env p) :: [p] :: rest)) :
    Term env langs d ([p] :: rest) := by
  obtain ⟨N, h⟩ := h
  refine ⟨N + 1, fun n hn before mid e => ?_⟩
  obtain ⟨n, rfl⟩ := Nat.exists_eq_add_of_le' (Nat.le_trans (Nat.le_add_left 1 N) hn)
  have hm : isMultilingual env [p] = false := by rw [← Bool.not_eq_true, multi_single]; exact hp
  simp only [complete, hm, Bool.false_eq_true, if_false, e, hu]
  split
  · simp
  · exact h n (by omega) _ _ (by simp)

theorem collect_steps {α β : Type} {g : α → Except Fault (List β)} : ∀ {as : List α}, (∀ a ∈ as, g a ≠ .error .steps) →
    collect g as ≠ .error .steps := by
  intro as
  induction as with
  | nil => intro _; simp [collect]
  | cons a as ih =>
    intro h
    have ha := h a (by simp)
    have hb := ih (fun b hb => h b (by simp [hb]))
    simp only [collect]
    cases hg : g a with
    | error e => simp only; rw [hg] at ha; exact ha
    | ok x =>
      simp only
      cases hc : collect g as with
      | error e => simp only; rw [hc] at hb; exact hb
      | ok y => simp

theorem bound_all {α : Type} {R : α → Nat → Prop} : ∀ {as : List α}, (∀ a ∈ as, ∃ N, ∀ n ≥ N, R a n) →
    ∃ N, ∀ n ≥ N, ∀ a ∈ as, R a n := by
  intro as
  induction as with
  | nil => intro _; exact ⟨0, by simp⟩
  | cons a as ih =>
    intro h
    obtain ⟨N, hN⟩ := h a (by simp)
    obtain ⟨M, hM⟩ := ih (fun b hb => h b (by simp [hb]))
    refine ⟨max N M, fun n hn b hb => ?_⟩
    rcases List.mem_cons.1 hb with rfl | hb
    · exact hN n (by omega)
    · exact hM n (by omega) b hb

/-- One of several alternatives. -/
theorem term_choose {langs : List Str} {d alt : List P} {rest : List (List P)} (hr : Ready env d)
    (hm : isMultilingual env alt = false) (h : ∀ p ∈ alt, Term env langs d ([p] :: rest)) : Term env langs d (alt :: rest) := by
  match alt, hm, h with
  | [], hm, h =>
    refine ⟨1, fun n hn before mid e => ?_⟩
    obtain ⟨n, rfl⟩ := Nat.exists_eq_add_of_le' hn
    simp [complete, hm]
  | [p], hm, h => exact h p (by simp)
  | p :: q :: as, hm, h =>
    obtain ⟨N, hN⟩ := bound_all (R := fun p n => ∀ before mid, before ++ mid = d → complete env langs n before mid ([p] :: rest) ≠ .error .steps) h
    refine ⟨N + d.length + 1, fun n hn before mid e => ?_⟩
    obtain ⟨n, rfl⟩ := Nat.exists_eq_add_of_le' (Nat.le_trans (Nat.le_add_left 1 _) hn)
    simp only [complete, hm, Bool.false_eq_true, if_false, e]
    apply collect_steps
    intro a ha
    rw [complete_skip d (by simpa using hr) (by omega)]
    exact hN _ (by omega) a ha [] d rfl

/-- The number of required lists nothing provides. -/
def unmet (env : Env P) (d : List P) (p : P) : Nat := ((env.required p).filter (fun T => !checkRequired env T d)).length

theorem unmet_lt {d d' : List P} {p : P} {T : List Str} (hd : d <+: d') (hu : unfulfilled env d p = some T)
    (hT : ∃ q ∈ d', Provides env q T) : unmet env d' p < unmet env d p := by
  obtain ⟨h1, h2⟩ := unfulfilled_some hu
  have hmono : ∀ S, checkRequired env S d = true → checkRequired env S d' = true := by
    intro S hS
    rw [checkRequired_iff] at hS ⊢
    obtain ⟨q, hq, hp⟩ := hS
    exact ⟨q, hd.subset hq, hp⟩
  have hT1 : checkRequired env T d = false := by
    rw [← Bool.not_eq_true, checkRequired_iff]
    rintro ⟨q, hq, hp⟩
    exact h2 q hq hp
  have hT2 : checkRequired env T d' = true := checkRequired_iff.2 hT
  unfold unmet
  clear hu h2 hT
  generalize env.required p = ls at h1 ⊢
  induction ls with
  | nil => simp at h1
  | cons S ss ih =>
    have hle : ∀ ls : List (List Str), (ls.filter (fun T => !checkRequired env T d')).length ≤
        (ls.filter (fun T => !checkRequired env T d)).length := by
      intro ls
      induction ls with
      | nil => simp
      | cons x xs ih =>
        cases hx : checkRequired env x d with
        | true => simp [hx, hmono x hx, ih]
        | false =>
          cases hx' : checkRequired env x d' with
          | true => simp [hx, hx']; omega
          | false => simp [hx, hx', ih]
    rcases List.mem_cons.1 h1 with rfl | h1
    · simp only [List.filter_cons, hT1, hT2]
      have := hle ss
      simp
      omega
    · have := ih h1
      cases hx : checkRequired env S d with
      | true => simp [hx, hmono S hx]; exact this
      | false =>
        cases hx' : checkRequired env S d' with
        | true => simp [hx, hx']; omega
        | false => simp [hx, hx']; omega

/-- Requirements do not go round in circles: what may be inserted for a requirement is lower. -/
def Lower (env : Env P) (rank : P → Nat) : Prop :=
  ∀ p, ∀ T ∈ env.required p, ∀ o, ∀ q ∈ findFulfillers env T o, rank q < rank p ∧ Provides env q T

theorem term_alt (sane : Sane env) {langs : List Str} (hl : langs ≠ []) {rank : P → Nat} (low : Lower env rank) (n : Nat) :
    ∀ (alt : List P) (Q : P → Prop) (d : List P) (rest : List (List P)),
    (∀ p ∈ alt, env.handling p ≠ .dependent ∧ rank p < n ∧ Q p) → Ready env d →
    (∀ d', d <+: d' → Ready env d' → (∃ q ∈ d', Q q) → Term env langs d' rest) → Term env langs d (alt :: rest) := by
  induction n using Nat.strongRecOn with
  | _ n ih =>
    have single : ∀ (p : P) (Q : P → Prop) (k : Nat) (d : List P) (rest : List (List P)), unmet env d p = k →
        env.handling p ≠ .dependent → rank p < n → Q p → Ready env d →
        (∀ d', d <+: d' → Ready env d' → (∃ q ∈ d', Q q) → Term env langs d' rest) → Term env langs d ([p] :: rest) := by
      intro p Q k
      induction k using Nat.strongRecOn with
      | _ k ihk =>
        intro d rest hk hp hrank hQ hr hrest
        cases hu : unfulfilled env d p with
        | none =>
          exact term_keep hp hu (hrest _ (List.prefix_append _ _) (hr.snoc hp hu) ⟨p, by simp, hQ⟩)
        | some T =>
          apply term_insert hp hu
          have hT := (unfulfilled_some hu).1
          refine ih (rank p) hrank _ (fun q => Provides env q T) d _ ?_ hr ?_
          · intro q hq
            obtain ⟨k1, k2⟩ := low p T hT _ q hq
            exact ⟨(mem_fulfillers sane hq).2, k1, k2⟩
          · intro d' hd' hr' hex
            exact ihk _ (by rw [← hk]; exact unmet_lt hd' hu hex) d' rest rfl hp hrank hQ hr'
              (fun d'' h1 h2 h3 => hrest d'' (hd'.trans h1) h2 h3)
    have flat : ∀ (alt : List P) (Q : P → Prop) (d : List P) (rest : List (List P)), isMultilingual env alt = false →
        (∀ p ∈ alt, env.handling p ≠ .dependent ∧ rank p < n ∧ Q p) → Ready env d →
        (∀ d', d <+: d' → Ready env d' → (∃ q ∈ d', Q q) → Term env langs d' rest) → Term env langs d (alt :: rest) := by
      intro alt Q d rest hm ha hr hrest
      apply term_choose hr hm
      intro p hp
      obtain ⟨h1, h2, h3⟩ := ha p hp
      exact single p Q _ d rest rfl h1 h2 h3 hr hrest
    intro alt Q d rest ha hr hrest
    cases hm : isMultilingual env alt with
    | false => exact flat alt Q d rest hm ha hr hrest
    | true =>
      apply term_multi hl hm
      have hsub : ∀ l, ∀ p ∈ filtre env alt l, env.handling p ≠ .dependent ∧ rank p < n ∧ Q p := by
        intro l p hp
        obtain ⟨q, hq, hs⟩ := mem_filtre.1 hp
        cases hs with
        | neutral _ => exact ha _ hq
        | one _ _ => exact ha _ hq
        | clone h _ => exact absurd h (ha q hq).1
      have key : ∀ (ls : List Str) (d' : List P), d <+: d' → Ready env d' → (ls = [] → ∃ q ∈ d', Q q) →
          Term env langs d' (ls.map (filtre env alt) ++ rest) := by
        intro ls
        induction ls with
        | nil => intro d' h1 h2 h3; exact hrest d' h1 h2 (h3 rfl)
        | cons l ls ihl =>
          intro d' h1 h2 h3
          refine flat (filtre env alt l) Q d' _ (filtre_not_multi sane) (hsub l) h2 ?_
          intro d'' h4 h5 h6
          exact ihl d'' (h1.trans h4) h5 (fun _ => h6)
      exact key langs d (List.prefix_refl _) hr (fun h => absurd h hl)

theorem bound_rank (rank : P → Nat) (alt : List P) : ∃ n, ∀ p ∈ alt, rank p < n := by
  obtain ⟨N, h⟩ := bound_all (R := fun p n => rank p < n) (as := alt) (fun a _ => ⟨rank a + 1, fun n hn => by omega⟩)
  exact ⟨N, h N (Nat.le_refl _)⟩

theorem term_all (sane : Sane env) {langs : List Str} (hl : langs ≠ []) {rank : P → Nat} (low : Lower env rank) :
    ∀ (todo : List (List P)) (d : List P), Ready env d → Term env langs d todo := by
  intro todo
  induction todo with
  | nil => intro d _; exact term_nil
  | cons alt rest ih =>
    have flat : ∀ (alt : List P) (rest : List (List P)) (d : List P), isMultilingual env alt = false → Ready env d →
        (∀ d', Ready env d' → Term env langs d' rest) → Term env langs d (alt :: rest) := by
      intro alt rest d hm hr hrest
      obtain ⟨n, hn⟩ := bound_rank rank alt
      exact term_alt sane hl low n alt (fun _ => True) d rest (fun p hp => ⟨multi_mem hp hm, hn p hp, trivial⟩) hr
        (fun d' _ h _ => hrest d' h)
    intro d hr
    cases hm : isMultilingual env alt with
    | false => exact flat alt rest d hm hr ih
    | true =>
      apply term_multi hl hm
      have key : ∀ (ls : List Str) (d' : List P), Ready env d' → Term env langs d' (ls.map (filtre env alt) ++ rest) := by
        intro ls
        induction ls with
        | nil => intro d' h; exact ih d' h
        | cons l ls ihl => intro d' h; exact flat _ _ d' (filtre_not_multi sane) h ihl
      exact key langs d hr

end Verif.Pipeline
